import Verif.FlowCover.Ineq

/-!
# The lifted flow cover inequality at a point of the flow set
-/

namespace Cgl.FlowCover

/-- A point of the flow set: arc `i` is open (`X i = 1`) or closed (`X i = 0`), carries a flow between zero and its capacity if
open and zero if closed, and the net inflow is at most `rhs`. -/
structure FlowPoint (ps : List (Item × Bool)) (rhs : ℚ) (X Y : Item → ℚ) : Prop where
  bin : ∀ p ∈ ps, X p.1 = 0 ∨ X p.1 = 1
  nonneg : ∀ p ∈ ps, 0 ≤ Y p.1
  le : ∀ p ∈ ps, Y p.1 ≤ p.1.up * X p.1
  up : ∀ p ∈ ps, 0 ≤ p.1.up
  flow : (ps.map fun p => if p.1.pos then Y p.1 else -Y p.1).sum ≤ rhs

theorem sum_le {α : Type} {l : List α} {f g : α → ℚ} (h : ∀ p ∈ l, f p ≤ g p) : (l.map f).sum ≤ (l.map g).sum := by
  induction l with
  | nil => simp
  | cons a l ih =>
    simp only [List.map_cons, List.sum_cons]
    have := h a (by simp)
    have := ih fun p hp => h p (by simp [hp])
    linarith

theorem sum_add {α : Type} (l : List α) (f g : α → ℚ) : (l.map fun p => f p + g p).sum = (l.map f).sum + (l.map g).sum := by
  induction l with
  | nil => simp
  | cons a l ih => simp only [List.map_cons, List.sum_cons, ih]; ring

theorem sum_sub {α : Type} (l : List α) (f g : α → ℚ) : (l.map fun p => f p - g p).sum = (l.map f).sum - (l.map g).sum := by
  induction l with
  | nil => simp
  | cons a l ih => simp only [List.map_cons, List.sum_cons, ih]; ring

theorem sum_mul {α : Type} (l : List α) (k : ℚ) (f : α → ℚ) : (l.map fun p => k * f p).sum = k * (l.map f).sum := by
  induction l with
  | nil => simp
  | cons a l ih => simp only [List.map_cons, List.sum_cons, ih]; ring

theorem sum_filter {α : Type} (l : List α) (sel : α → Bool) (f : α → ℚ) :
    ((l.filter sel).map f).sum = (l.map fun p => if sel p then f p else 0).sum := by
  induction l with
  | nil => simp
  | cons a l ih =>
    by_cases h : sel a = true
    · rw [List.filter_cons_of_pos h]; simp only [List.map_cons, List.sum_cons, ih, h, if_true]
    · rw [List.filter_cons_of_neg h]; simp only [List.map_cons, List.sum_cons, ih, h]; simp

theorem length_filter {α : Type} (l : List α) (sel : α → Bool) :
    ((l.filter sel).length : ℚ) = (l.map fun p => if sel p then (1 : ℚ) else 0).sum := by
  induction l with
  | nil => simp
  | cons a l ih =>
    by_cases h : sel a = true
    · rw [List.filter_cons_of_pos h]; simp only [List.map_cons, List.sum_cons, ← ih, h, if_true, List.length_cons]; push_cast; ring
    · rw [List.filter_cons_of_neg h]; simp only [List.map_cons, List.sum_cons, ← ih, h]; simp

/-- Value of the simple generalized flow cover term of a column. -/
def baseVal (lam : ℚ) (X Y : Item → ℚ) (p : Item × Bool) : ℚ := (baseCoef lam p).2 * Y p.1 + (baseCoef lam p).1 * X p.1

/-- What a column outside the base contributes to the flow. -/
def uOne (Y : Item → ℚ) (p : Item × Bool) : ℚ := if outP p then Y p.1 else if inCm p then p.1.up - Y p.1 else 0

/-- The large arcs of the cover that are closed and the large arcs of `L-` that are open. -/
def inT (lam : ℚ) (X : Item → ℚ) (p : Item × Bool) : Bool := (inCpp lam p && (X p.1 = 0)) || (inLm lam p && (X p.1 = 1))

/-- The lifted part of a column's term. -/
def liftVal (L : Lift) (X Y : Item → ℚ) (p : Item × Bool) : ℚ :=
  if outP p then (liftPlus L p.1.up p.1.y p.1.x).1 * Y p.1 - (liftPlus L p.1.up p.1.y p.1.x).2 * X p.1
  else if inCm p then (if eps < liftMinus L p.1.up then liftMinus L p.1.up * (1 - X p.1) else 0) else 0

section
variable {rhs lam : ℚ} {ps : List (Item × Bool)} {X Y : Item → ℚ}

theorem item1 (h : FlowPoint ps rhs X Y) {p : Item × Bool} (hp : p ∈ ps) :
    baseVal lam X Y p + uOne Y p - (if inT lam X p then p.1.up else 0) + lam * (if inT lam X p then 1 else 0) ≤
      (if p.1.pos then Y p.1 else -Y p.1) + (if inCm p then p.1.up else 0) + (if inCpp lam p then lam - p.1.up else 0) := by
  have h1 := h.nonneg p hp
  have h2 := h.le p hp
  have h3 := h.up p hp
  have he := eps_pos
  unfold baseVal baseCoef uOne inT inCpp inLm inCp inCm outP outM
  cases hpos : p.1.pos <;> cases hc : p.2 <;> rcases h.bin p hp with hX | hX <;> rw [hX] at h2 <;> simp [hX] <;>
    (try split_ifs) <;> simp <;> linarith

theorem item2 (h : FlowPoint ps rhs X Y) {p : Item × Bool} (hp : p ∈ ps) :
    baseVal lam X Y p + lam * (if inT lam X p then 1 else 0) ≤
      balOne p + (if inCm p then p.1.up else 0) + (if inCpp lam p then lam - p.1.up else 0) := by
  have h1 := h.nonneg p hp
  have h2 := h.le p hp
  have h3 := h.up p hp
  have he := eps_pos
  unfold baseVal baseCoef balOne inT inCpp inLm inCp inCm outM
  cases hpos : p.1.pos <;> cases hc : p.2 <;> rcases h.bin p hp with hX | hX <;> rw [hX] at h2 <;> simp [hX] <;>
    (try split_ifs) <;> simp <;> linarith

theorem item4 (h : FlowPoint ps rhs X Y) {p : Item × Bool} (hp : p ∈ ps)
    (hfull : inCpp lam p = true → X p.1 = 0) :
    uOne Y p + balOne p - (if p.1.pos then Y p.1 else -Y p.1) ≤
      (if inT lam X p then p.1.up else 0) +
        (if (inCp p && !inCpp lam p) || (outM p && !inLm lam p) then p.1.up else 0) := by
  have h1 := h.nonneg p hp
  have h2 := h.le p hp
  have h3 := h.up p hp
  have he := eps_pos
  unfold uOne balOne inT inCpp inLm inCp inCm outM outP at *
  cases hpos : p.1.pos <;> cases hc : p.2 <;> rcases h.bin p hp with hX | hX <;> rw [hX] at h2 <;>
    simp [hX, hpos, hc] at hfull ⊢ <;> (try split_ifs) <;> (try simp) <;> (try linarith)

theorem lift_item (hlam : 0 < lam) (hpp : ∃ p ∈ ps, inCpp lam p = true) (h : FlowPoint ps rhs X Y) {p : Item × Bool}
    (hp : p ∈ ps) :
    0 ≤ uOne Y p ∧ (seqOf rhs lam ps hlam h.up hpp).Below (liftVal (mkLift rhs lam ps) X Y p) (uOne Y p) := by
  have h1 := h.nonneg p hp
  have h2 := h.le p hp
  have h3 := h.up p hp
  unfold uOne liftVal
  split
  · exact ⟨h1, liftPlus_below hlam h.up hpp (h.bin p hp) h1 h2⟩
  · split
    · rcases h.bin p hp with hX | hX
      · have hY : Y p.1 = 0 := by rw [hX] at h2; linarith
        rw [hX, hY, sub_zero, sub_zero, mul_one]
        refine ⟨h3, ?_⟩
        split
        · exact liftMinus_below hlam h.up hpp h3
        · exact Seq.below_zero h3
      · rw [hX] at h2 ⊢
        refine ⟨by linarith, ?_⟩
        rw [sub_self, mul_zero, ite_self]
        exact Seq.below_zero (by linarith)
    · exact ⟨le_refl _, Seq.below_zero (le_refl _)⟩

/-- Slack of the simple generalized flow cover inequality at a point: it is at least what lifting uses. -/
theorem lift_le_slack (hlam : 0 < lam) (hpp : ∃ p ∈ ps, inCpp lam p = true) (h : FlowPoint ps rhs X Y)
    (hbal : lam = (ps.map balOne).sum - rhs) {v : ℚ}
    (hv : (seqOf rhs lam ps hlam h.up hpp).Below v (ps.map (uOne Y)).sum) :
    v ≤ rhs2 rhs lam ps - (ps.map (baseVal lam X Y)).sum := by
  have eT : upSum (inT lam X) ps = (ps.map fun p => if inT lam X p then p.1.up else 0).sum := sum_filter _ _ _
  have ek := length_filter ps (inT lam X)
  have e2 : rhs2 rhs lam ps = rhs + (ps.map fun p => if inCm p then p.1.up else 0).sum +
      (ps.map fun p => if inCpp lam p then lam - p.1.up else 0).sum := by
    unfold rhs2 rhs1 upSum; rw [sum_filter, sum_filter]
  have hsub : ∀ p, inT lam X p = true → big lam p = true := by
    intro p hp
    unfold inT at hp; unfold big
    rw [Bool.or_eq_true] at hp ⊢
    rcases hp with hp | hp
    · exact Or.inl (Bool.and_eq_true _ _ ▸ hp).1
    · exact Or.inr (Bool.and_eq_true _ _ ▸ hp).1
  have s1 := sum_le fun p hp => item1 (lam := lam) h hp
  have s2 := sum_le fun p hp => item2 (lam := lam) h hp
  rw [sum_add, sum_add, sum_add, sum_sub, sum_add, sum_mul] at s1
  rw [sum_add, sum_add, sum_add, sum_mul] at s2
  have hflow := h.flow
  obtain ⟨m1, m2⟩ := sel_sum_le (ps := ps) (inT lam X) hsub
  refine Seq.below_slack (mT := upSum (inT lam X) ps) (k := (ps.filter (inT lam X)).length) (sum := sumOf lam ps) hv
    ?_ ?_ ?_ rfl ?_
  · show _ - _ + _ * lam ≤ _
    rw [eT, ek, e2]; linarith
  · show _ * lam ≤ _
    rw [ek, e2]; linarith
  · rw [seqOf_M hlam h.up hpp m2]; exact m1
  · by_cases hf : ∀ p ∈ ps, inCpp lam p = true → X p.1 = 0
    · left
      have s4 := sum_le fun p hp => item4 (lam := lam) h hp (hf p hp)
      rw [sum_sub, sum_add, sum_add] at s4
      show _ ≤ _ - lam + _
      have es : sumOf lam ps =
          (ps.map fun p => if (inCp p && !inCpp lam p) || (outM p && !inLm lam p) then p.1.up else 0).sum := sum_filter _ _ _
      rw [eT, es]; linarith
    · right
      push Not at hf
      obtain ⟨p0, hp0, hc0, hX0⟩ := hf
      have hX1 : X p0.1 = 1 := (h.bin p0 hp0).resolve_left hX0
      have hn : inT lam X p0 = false := by
        unfold inT
        have hl : inLm lam p0 = false := by
          unfold inCpp inCp at hc0; unfold inLm outM
          rw [Bool.and_eq_true, Bool.and_eq_true] at hc0
          simp [hc0.1.1]
        simp [hX1, hl]
      obtain ⟨c1, c2⟩ := sel_sum_cons_le (ps := ps) (inT lam X) hsub hp0 hn (by unfold big; simp [hc0])
      have hmin := minPlsM_le hp0 hc0
      have hup0 : lam ≤ p0.1.up := by
        unfold inCpp at hc0; rw [Bool.and_eq_true, decide_eq_true_eq] at hc0
        have := eps_pos; linarith [hc0.2]
      rw [seqOf_M hlam h.up hpp c2]
      have : max (minPlsM lam ps) lam ≤ p0.1.up := max_le hmin hup0
      show upSum (inT lam X) ps + max (minPlsM lam ps) lam ≤ _
      unfold upSum; linarith

/-- The inequality that is turned into a cut holds at every point of the flow set. -/
theorem inequality_holds (hlam : 0 < lam) (hpp : ∃ p ∈ ps, inCpp lam p = true) (h : FlowPoint ps rhs X Y)
    (hbal : lam = (ps.map balOne).sum - rhs) :
    ((inequality rhs lam ps).1.map fun c => c.yc * Y c.it + c.xc * X c.it).sum ≤ (inequality rhs lam ps).2 := by
  unfold inequality
  simp only
  split
  · rw [List.map_map]
    have e : ((fun c : Coef => c.yc * Y c.it + c.xc * X c.it) ∘ fun p : Item × Bool =>
        (⟨p.1, (liftedCoef (mkLift rhs lam ps) p).1, (liftedCoef (mkLift rhs lam ps) p).2⟩ : Coef)) =
        fun p => baseVal lam X Y p + liftVal (mkLift rhs lam ps) X Y p - liftedRhs (mkLift rhs lam ps) p := by
      funext p
      have hL : (mkLift rhs lam ps).lam = lam := rfl
      unfold baseVal baseCoef liftVal liftedRhs liftedCoef inCp inCm outP outM
      rw [hL]
      simp only [Function.comp]
      cases hpos : p.1.pos <;> cases hc : p.2 <;> simp
      · unfold baseCoef inCp outM; simp [hpos, hc]
      · split_ifs
        · simp; ring
        · simp
      · ring
      · unfold baseCoef inCp outM; simp [hpos, hc]
    rw [e, sum_sub, sum_add]
    have hb := Seq.below_sum (s := seqOf rhs lam ps hlam h.up hpp) ps (liftVal (mkLift rhs lam ps) X Y) (uOne Y)
      (fun p hp => (lift_item hlam hpp h hp).1) (fun p hp => (lift_item hlam hpp h hp).2)
    have := lift_le_slack hlam hpp h hbal hb
    linarith
  · rw [List.map_map]
    have hb : (seqOf rhs lam ps hlam h.up hpp).Below 0 (ps.map (uOne Y)).sum := by
      refine Seq.below_zero (List.sum_nonneg ?_)
      intro x hx
      obtain ⟨p, hp, rfl⟩ := List.mem_map.1 hx
      exact (lift_item hlam hpp h hp).1
    have := lift_le_slack hlam hpp h hbal hb
    change (ps.map (baseVal lam X Y)).sum ≤ _
    linarith

end

end Cgl.FlowCover
