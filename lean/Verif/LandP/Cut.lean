import Verif.LandP.Row

/-!
# The cut made of a row of the tableau
-/

namespace Cgl.LandP

theorem strong_eq (int : Bool) (a : ℚ) {beta : ℚ} (h1 : beta < 1) :
    strongCoef int a beta = (1 - beta) * gmi beta int a := by
  have hne : (1 - beta) ≠ 0 := by linarith
  have hm : ∀ y : ℚ, (1 - beta) * (y * (beta / (1 - beta))) = y * beta := by
    intro y; field_simp
  unfold strongCoef gmi interCoef
  cases int
  · simp only [Bool.false_eq_true, if_false]
    rcases lt_trichotomy a 0 with h | h | h
    · rw [if_neg (by linarith), if_pos h, hm]
    · subst h; simp
    · rw [if_pos h, if_neg (by linarith)]; ring
  · simp only [if_true]
    rcases lt_trichotomy (a - ⌊a⌋) beta with h | h | h
    · rw [if_pos h, if_neg (by linarith)]; ring
    · rw [if_neg (by linarith), if_neg (by linarith), h]
    · rw [if_neg (by linarith), if_pos h, hm]

theorem inter_eq (a : ℚ) {beta : ℚ} (h1 : beta < 1) : interCoef a beta = (1 - beta) * gmi beta false a :=
  strong_eq false a h1

theorem strong_zero (int : Bool) {beta : ℚ} (h0 : 0 ≤ beta) : strongCoef int 0 beta = 0 := by
  unfold strongCoef interCoef
  cases int
  · simp
  · simp only [if_true]
    rcases eq_or_lt_of_le h0 with h | h
    · subst h; simp
    · simp [h]

/-- By how much the dense cut holds at `x`. -/
def form (P : Prob) (x : Nat → ℚ) (a : Acc) : ℚ :=
  ∑ v ∈ Finset.range (P.nCols + P.rows.length), a.vec v * varVal P x v - a.rhs

theorem form_update (P : Prob) (x : Nat → ℚ) (a : Acc) (v : Nat) (hv : v < P.nCols + P.rows.length)
    (h0 : a.vec v = 0) (c d : ℚ) :
    form P x ⟨Function.update a.vec v c, a.rhs + d⟩ = form P x a + (c * varVal P x v - d) := by
  unfold form
  dsimp only
  have : ∀ k, Function.update a.vec v c k * varVal P x k =
      a.vec k * varVal P x k + (if k = v then c * varVal P x v else 0) := by
    intro k
    by_cases h : k = v
    · subst h; rw [Function.update_self, if_pos rfl, h0]; ring
    · rw [Function.update_of_ne h, if_neg h, add_zero]
  simp only [this, Finset.sum_add_distrib, Finset.sum_ite_eq', Finset.mem_range, hv, if_true]
  ring

/-- A loop over the nonbasic variables that adds one term for each. -/
theorem fold_form {P : Prob} {x : Nat → ℚ} (step : Acc → Nat → Except Fault Acc) (g : Nat → ℚ) :
    ∀ (l : List Nat) (a a' : Acc), l.Nodup → (∀ v ∈ l, a.vec v = 0) →
      (∀ v ∈ l, ∀ a a1 : Acc, a.vec v = 0 → step a v = .ok a1 →
        form P x a1 = form P x a + g v ∧ ∀ w, w ≠ v → a1.vec w = a.vec w) →
      l.foldlM step a = .ok a' → form P x a' = form P x a + (l.map g).sum := by
  intro l
  induction l with
  | nil =>
    intro a a' _ _ _ h
    simp only [List.foldlM_nil, pure, Except.pure, Except.ok.injEq] at h
    subst h; simp
  | cons v l ih =>
    intro a a' hnd h0 hs h
    rw [List.foldlM_cons] at h
    rcases h1 : step a v with f | a1
    · rw [h1] at h; exact absurd h (by simp [bind, Except.bind])
    · rw [h1] at h
      obtain ⟨e1, e2⟩ := hs v List.mem_cons_self a a1 (h0 v List.mem_cons_self) h1
      obtain ⟨hv, hnd'⟩ := List.nodup_cons.1 hnd
      have := ih a1 a' hnd' (fun w hw => by
        rw [e2 w (by rintro rfl; exact hv hw)]; exact h0 w (List.mem_cons_of_mem _ hw))
        (fun w hw => hs w (List.mem_cons_of_mem _ hw)) h
      rw [this, e1, List.map_cons, List.sum_cons]; ring

/-- The sum over the columns after the slacks are eliminated. -/
theorem eliminate_sum {P : Prob} (hwf : P.WF) (vec : Nat → ℚ) (x : Nat → ℚ) :
    ∑ j ∈ Finset.range P.nCols, eliminate P vec j * x j =
      ∑ v ∈ Finset.range (P.nCols + P.rows.length), vec v * varVal P x v := by
  rw [Finset.sum_range_add]
  have e1 : ∑ v ∈ Finset.range P.nCols, vec v * varVal P x v = ∑ v ∈ Finset.range P.nCols, vec v * x v := by
    refine Finset.sum_congr rfl fun v hv => ?_
    unfold varVal; rw [if_pos (Finset.mem_range.mp hv)]
  have e2 : ∀ i ∈ Finset.range P.rows.length, vec (P.nCols + i) * varVal P x (P.nCols + i) =
      - ∑ j ∈ Finset.range P.nCols, vec (P.nCols + i) * (P.row i).coef j * x j := by
    intro i hi
    unfold varVal
    rw [if_neg (by omega), Nat.add_sub_cancel_left]
    unfold Prob.activity
    rw [dot_eq_sum _ P.nCols (hwf.cols _ (Prob.row_mem (Finset.mem_range.mp hi))) x, mul_neg, Finset.mul_sum]
    congr 1
    refine Finset.sum_congr rfl fun j _ => ?_
    change _ * ((P.row i).coef j * _) = _
    ring
  rw [e1, Finset.sum_congr rfl e2, Finset.sum_neg_distrib, Finset.sum_comm, ← Finset.sum_neg_distrib,
    ← Finset.sum_add_distrib]
  refine Finset.sum_congr rfl fun j _ => ?_
  unfold eliminate
  rw [list_range_sum, sub_mul, Finset.sum_mul]
  ring

/-- Packing drops entries of at most `1e-50`. -/
theorem pack_dot {P : Prob} (hwf : P.WF) (a : Acc) (x : Nat → ℚ) :
    form P x a + a.rhs - 1/10^50 * ((List.range P.nCols).map fun j => |x j|).sum ≤ SVec.dot (pack P a).row x := by
  unfold form
  rw [← eliminate_sum hwf, ← list_range_sum]
  unfold pack SVec.dot
  dsimp only
  have : ∀ l : List Nat, (l.map fun j => eliminate P a.vec j * x j).sum - 1/10^50 * (l.map fun j => |x j|).sum ≤
      (((l.filter fun j => decide (1/10^50 < |eliminate P a.vec j|)).map fun j => (j, eliminate P a.vec j)).map
        fun p => p.2 * x p.1).sum := by
    intro l
    induction l with
    | nil => simp
    | cons j l ih =>
      rw [List.filter_cons]
      split
      · simp only [List.map_cons, List.sum_cons]
        have := abs_nonneg (x j)
        have h2 : 0 ≤ 1/10^50 * |x j| := mul_nonneg (by norm_num) this
        linarith
      · rename_i h
        simp only [decide_eq_true_eq, not_lt] at h
        simp only [List.map_cons, List.sum_cons]
        have h1 : eliminate P a.vec j * x j ≤ 1/10^50 * |x j| := by
          calc eliminate P a.vec j * x j ≤ |eliminate P a.vec j * x j| := le_abs_self _
            _ = |eliminate P a.vec j| * |x j| := abs_mul _ _
            _ ≤ _ := mul_le_mul_of_nonneg_right h (abs_nonneg _)
        linarith
  have := this (List.range P.nCols)
  linarith

/-- The cut holds at `x` up to the entries dropped when it was packed. -/
def NearSat (P : Prob) (c : RowCut) (x : Nat → ℚ) : Prop :=
  c.ub = dblMax ∧ c.lb - 1/10^50 * ((List.range P.nCols).map fun j => |x j|).sum ≤ SVec.dot c.row x

theorem unflip_col {P : Prob} {s : Sim} {r : TabRow} {v : Nat} (hv : v ∈ s.nonBasics) (hn : v < P.nCols) :
    (r.unflip P s).coef v = if s.stat v = 2 then - r.coef v else r.coef v := by
  unfold TabRow.unflip
  dsimp only
  by_cases h : s.stat v = 2
  · rw [if_pos ⟨hv, hn, h⟩, if_pos h]
  · rw [if_neg (fun q => h q.2.2), if_neg h]

theorem unflip_slack {P : Prob} {s : Sim} {r : TabRow} {v : Nat} (hn : ¬ v < P.nCols) :
    (r.unflip P s).coef v = r.coef v := by
  unfold TabRow.unflip
  dsimp only
  rw [if_neg (fun q => hn q.2.1)]

/-- With no ranged rows, a row that is held at a bound and has a finite other bound is an equation. -/
theorem fixed_row {P : Prob} (hnr : NoRanges P) {x : Nat → ℚ} (hx : P.Feasible x) {i : Nat} (hi : i < P.rows.length)
    (hl : -P.inf < (P.row i).lb) (hu : (P.row i).ub < P.inf) :
    P.activity x i = (P.row i).lb ∧ P.activity x i = (P.row i).ub := by
  have hm := Prob.row_mem hi
  have hr := hx.rows _ hm
  have h1 := hr.1 hl
  have h2 := hr.2 hu
  have h3 := hnr _ hm hl hu
  unfold Prob.activity
  constructor <;> linarith

/-- What one nonbasic variable contributes to the strengthened cut. -/
theorem migTerm_ok {P : Prob} (hnr : NoRanges P) {s : Sim} (hs : SimOK P s) (hst : statusOk P s = true) (r : TabRow)
    (beta : ℚ) {x : Nat → ℚ} (hx : P.Feasible x) {v : Nat} (hv : v ∈ s.nonBasics) :
    (migTerm P s { r.unflip P s with rhs := beta } beta v).1 * varVal P x v -
      (migTerm P s { r.unflip P s with rhs := beta } beta v).2 =
      strongCoef (intVar P v) (r.coef v) beta * shift P s.stat x v := by
  unfold migTerm varVal shift
  dsimp only
  by_cases hn : v < P.nCols
  · simp only [if_pos hn]
    rw [unflip_col hv hn]
    rcases col_status hst hv hn with h | h
    · simp only [if_pos h, neg_neg]; ring
    · simp only [if_neg (show ¬ s.stat v = 2 by omega)]; ring
  · simp only [if_neg hn]
    rw [unflip_slack hn]
    have hm := (hs.mem v).1 hv
    have e : P.nCols + (v - P.nCols) = v := by omega
    have hi : v - P.nCols < P.rows.length := by omega
    rcases slack_status hs hv hn with h | h
    · simp only [if_pos h]
      have hl := (hs.good.rowLower (v - P.nCols) hi (by rw [e]; exact h)).2
      by_cases hu : (P.row (v - P.nCols)).ub < P.inf
      · have hf := (fixed_row hnr hx hi hl hu).1
        simp only [if_pos hu, hf]; ring
      · simp only [if_neg hu]; ring
    · simp only [if_neg (show ¬ s.stat v = 2 by omega)]
      have hu := (hs.good.rowUpper (v - P.nCols) hi (by rw [e]; exact h)).2
      simp only [if_pos hu]; ring

theorem interTerm_ok {P : Prob} (hnr : NoRanges P) {s : Sim} (hs : SimOK P s) (hst : statusOk P s = true) (r : TabRow)
    (beta rhs : ℚ) {x : Nat → ℚ} (hx : P.Feasible x) {v : Nat} (hv : v ∈ s.nonBasics)
    (ha : interAssert P s v rhs = true) :
    (interTerm P s (r.unflip P s) beta v).1 * varVal P x v - (interTerm P s (r.unflip P s) beta v).2 =
      interCoef (r.coef v) beta * shift P s.stat x v := by
  unfold interTerm varVal shift
  by_cases hn : v < P.nCols
  · simp only [if_pos hn]
    rw [unflip_col hv hn]
    rcases col_status hst hv hn with h | h
    · simp only [if_pos h, neg_neg]; ring
    · simp only [if_neg (show ¬ s.stat v = 2 by omega)]; ring
  · unfold interAssert at ha
    simp only [hn, decide_false, Bool.false_or, Bool.and_eq_true] at ha
    replace ha := ha.1
    simp only [if_neg hn]
    rw [unflip_slack hn]
    have hm := (hs.mem v).1 hv
    have e : P.nCols + (v - P.nCols) = v := by omega
    have hi : v - P.nCols < P.rows.length := by omega
    rcases slack_status hs hv hn with h | h
    · simp only [if_pos h]
      have hl := (hs.good.rowLower (v - P.nCols) hi (by rw [e]; exact h)).2
      simp only [if_pos hl]; ring
    · simp only [if_neg (show ¬ s.stat v = 2 by omega)]
      have hu := (hs.good.rowUpper (v - P.nCols) hi (by rw [e]; exact h)).2
      by_cases hl : -P.inf < (P.row (v - P.nCols)).lb
      · obtain ⟨h1, h2⟩ := fixed_row hnr hx hi hl hu
        simp only [if_pos hl]
        rw [← h1, ← h2]; ring
      · simp only [if_neg hl]; ring

/-- The inequality behind both cuts. -/
theorem row_ineq {P : Prob} (hwf : P.WF) (hd : ExactData P) {s : Sim} (hs : SimOK P s) (hst : statusOk P s = true)
    {r : TabRow} (hr : RowOK P s r) {x : Nat → ℚ} (hx : P.Feasible x) (int : Nat → Bool)
    (hint : ∀ v, int v = true → intVar P v = true) :
    r.rhs * (1 - r.rhs) ≤
      (s.nonBasics.map fun v => strongCoef (int v) (r.coef v) r.rhs * shift P s.stat x v).sum := by
  have hf : (⌊r.rhs⌋ : ℤ) = 0 := Int.floor_eq_zero_iff.2 ⟨hr.nonneg, hr.lt_one⟩
  have h := gmi_ineq r.rhs (r.rhs - (s.nonBasics.map fun v => r.coef v * shift P s.stat x v).sum) (hr.int x hx)
    (s.nonBasics.map fun v => ⟨r.coef v, int v, shift P s.stat x v⟩)
    (by
      intro e he
      obtain ⟨v, hv, rfl⟩ := List.mem_map.1 he
      exact shift_nonneg hs hst hx hv)
    (by
      intro e he hi
      obtain ⟨v, hv, rfl⟩ := List.mem_map.1 he
      exact shift_integer hwf hd hs hst hx hv (hint v hi))
    (by rw [List.map_map]; simp only [Function.comp_def]; ring)
  rw [hf, List.map_map] at h
  simp only [Function.comp_def, Int.cast_zero, sub_zero] at h
  have e : (s.nonBasics.map fun v => strongCoef (int v) (r.coef v) r.rhs * shift P s.stat x v) =
      s.nonBasics.map fun v => (1 - r.rhs) * (gmi r.rhs (int v) (r.coef v) * shift P s.stat x v) := by
    refine List.map_congr_left fun v _ => ?_
    rw [strong_eq _ _ hr.lt_one]; ring
  rw [e, List.sum_map_mul_left]
  have h1 : 0 ≤ 1 - r.rhs := by linarith [hr.lt_one]
  have := mul_le_mul_of_nonneg_left h h1
  linarith

theorem mig_near {P : Prob} (hwf : P.WF) (hd : ExactData P) (hnr : NoRanges P) {s : Sim} (hs : SimOK P s)
    {r r' : TabRow} (hr : RowOK P s r) {c : RowCut} (h : createMIG P s r = .ok (c, r')) {x : Nat → ℚ}
    (hx : P.Feasible x) : NearSat P c x := by
  unfold createMIG at h
  by_cases hst : statusOk P s = true
  · rw [if_pos hst] at h
    have hf : (⌊r.rhs⌋ : ℤ) = 0 := Int.floor_eq_zero_iff.2 ⟨hr.nonneg, hr.lt_one⟩
    simp only [hf, Int.cast_zero, sub_zero] at h
    by_cases hb : |r.rhs * (1 - r.rhs)| < 10^100
    · rw [if_pos hb] at h
      rcases ha : s.nonBasics.foldlM (migStep P s { r.unflip P s with rhs := r.rhs } r.rhs)
        ⟨fun _ => 0, r.rhs * (1 - r.rhs)⟩ with f | a
      · rw [ha] at h; exact absurd h (by simp [bind, Except.bind])
      · rw [ha] at h
        simp only [bind, Except.bind, Except.ok.injEq, Prod.mk.injEq] at h
        obtain ⟨rfl, _⟩ := h
        refine ⟨rfl, ?_⟩
        have hfold := fold_form (P := P) (x := x) (migStep P s { r.unflip P s with rhs := r.rhs } r.rhs)
          (fun v => strongCoef (intVar P v) (r.coef v) r.rhs * shift P s.stat x v) s.nonBasics
          ⟨fun _ => 0, r.rhs * (1 - r.rhs)⟩ a hs.nodup (fun _ _ => rfl)
          (by
            intro v hv a a1 h0 h1
            unfold migStep at h1
            have hm := (hs.mem v).1 hv
            split at h1
            · rename_i hz
              simp only [Except.ok.injEq] at h1
              subst h1
              refine ⟨?_, fun _ _ => rfl⟩
              have hz' : r.coef v = 0 := by
                change (r.unflip P s).coef v = 0 at hz
                by_cases hn : v < P.nCols
                · rw [unflip_col hv hn] at hz
                  split at hz
                  · linarith
                  · exact hz
                · rwa [unflip_slack hn] at hz
              rw [hz', strong_zero _ hr.nonneg]; ring
            · split at h1
              · simp only [Except.ok.injEq] at h1
                subst h1
                refine ⟨?_, fun w hw => Function.update_of_ne hw _ _⟩
                rw [form_update P x a v hm.1 h0, migTerm_ok hnr hs hst r r.rhs hx hv]
              · exact absurd h1 (by simp))
          ha
        have hp := pack_dot hwf a x
        have hi := row_ineq hwf hd hs hst hr hx (intVar P) fun _ h => h
        have h0 : form P x ⟨fun _ => 0, r.rhs * (1 - r.rhs)⟩ = - (r.rhs * (1 - r.rhs)) := by
          unfold form; simp
        rw [h0] at hfold
        change a.rhs - _ ≤ _
        linarith
    · rw [if_neg hb] at h; exact absurd h (by simp)
  · rw [if_neg hst] at h; exact absurd h (by simp)

theorem inter_near {P : Prob} (hwf : P.WF) (hd : ExactData P) (hnr : NoRanges P) {s : Sim} (hs : SimOK P s)
    {r r' : TabRow} (hr : RowOK P s r) (ht : ∀ v ∈ s.nonBasics, |r.coef v| ≤ 1/10^10 → r.coef v = 0)
    {c : RowCut} (h : createInter P s r = .ok (c, r')) {x : Nat → ℚ} (hx : P.Feasible x) : NearSat P c x := by
  unfold createInter at h
  by_cases hst : statusOk P s = true
  · rw [if_pos hst] at h
    rcases ha : s.nonBasics.foldlM (interStep P s (r.unflip P s) r.rhs) ⟨fun _ => 0, r.rhs * (1 - r.rhs)⟩ with f | a
    · simp only [ha, bind, Except.bind] at h; exact absurd h (by simp)
    · simp only [ha, bind, Except.bind, Except.ok.injEq, Prod.mk.injEq] at h
      obtain ⟨rfl, _⟩ := h
      refine ⟨rfl, ?_⟩
      have hfold := fold_form (P := P) (x := x) (interStep P s (r.unflip P s) r.rhs)
        (fun v => interCoef (r.coef v) r.rhs * shift P s.stat x v) s.nonBasics
        ⟨fun _ => 0, r.rhs * (1 - r.rhs)⟩ a hs.nodup (fun _ _ => rfl)
        (by
          intro v hv a a1 h0 h1
          unfold interStep at h1
          have hm := (hs.mem v).1 hv
          split at h1
          · rename_i hz
            simp only [Except.ok.injEq] at h1
            subst h1
            refine ⟨?_, fun _ _ => rfl⟩
            have hz' : r.coef v = 0 := by
              apply ht v hv
              by_cases hn : v < P.nCols
              · rw [unflip_col hv hn] at hz
                split at hz
                · rwa [abs_neg] at hz
                · exact hz
              · rwa [unflip_slack hn] at hz
            rw [hz', show interCoef 0 r.rhs = 0 from strong_zero false hr.nonneg]; ring
          · split at h1
            · rename_i has
              simp only [Except.ok.injEq] at h1
              subst h1
              refine ⟨?_, fun w hw => Function.update_of_ne hw _ _⟩
              rw [form_update P x a v hm.1 h0, interTerm_ok hnr hs hst r r.rhs _ hx hv has]
            · exact absurd h1 (by simp))
        ha
      have hp := pack_dot hwf a x
      have hi := row_ineq hwf hd hs hst hr hx (fun _ => false) fun _ h => absurd h (by simp)
      have h0 : form P x ⟨fun _ => 0, r.rhs * (1 - r.rhs)⟩ = - (r.rhs * (1 - r.rhs)) := by
        unfold form; simp
      rw [h0] at hfold
      change a.rhs - _ ≤ _
      have hi' : r.rhs * (1 - r.rhs) ≤ (s.nonBasics.map fun v => interCoef (r.coef v) r.rhs * shift P s.stat x v).sum :=
        hi
      linarith
  · rw [if_neg hst] at h; exact absurd h (by simp)

end Cgl.LandP
