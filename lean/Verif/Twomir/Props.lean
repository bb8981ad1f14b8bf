import Verif.Twomir.Lemmas

/-!
# Properties of CglTwomir

C27: every cut holds at every feasible point, in calls in which no tolerance changes a constraint (`Clean`).
C54: every new row cut cuts off the LP solution and has the promised shape; every new column cut tightens a bound.
C55: the call returns.
-/

namespace Cgl.Twomir

/-! ### From the list of cuts to `OsiCuts` -/

theorem unfixed_gap (P : Prob) (c : Con) (y : Nat → ℚ)
    (hy : ∀ p ∈ c.es, P.colUpper p.1 = P.colLower p.1 → y p.1 = P.colLower p.1) :
    SVec.dot (unfixed P c) y - freeRhs P c = SVec.dot c.es y - c.rhs := by
  have key : SVec.dot c.es y = SVec.dot (unfixed P c) y +
      ((c.es.filter fun p => decide (P.colUpper p.1 = P.colLower p.1)).map fun p => p.2 * P.colLower p.1).sum := by
    unfold unfixed
    generalize c.es = l at hy ⊢
    induction l with
    | nil => simp
    | cons p l ih =>
      have ih := ih fun q hq => hy q (List.mem_cons_of_mem _ hq)
      by_cases h : P.colUpper p.1 = P.colLower p.1
      · rw [List.filter_cons_of_neg (by simp [h]), List.filter_cons_of_pos (by simp [h])]
        rw [SVec.dot_cons, List.map_cons, List.sum_cons, hy p List.mem_cons_self h, ih]
        ring
      · rw [List.filter_cons_of_pos (by simp [h]), List.filter_cons_of_neg (by simp [h])]
        rw [SVec.dot_cons, SVec.dot_cons, ih]
        ring
  unfold freeRhs
  rw [key]; ring

theorem col_lower {P : Prob} {x : Nat → ℚ} (hf : P.Feasible x) (hr : Representable P x) {j : Nat} (hj : j < P.nCols) :
    P.colLower j ≤ x j := by
  by_cases h : -P.inf < P.colLower j
  · exact hf.lower j hj h
  · have := (abs_le.mp (hr.cols j hj)).1; linarith

theorem col_upper {P : Prob} {x : Nat → ℚ} (hf : P.Feasible x) (hr : Representable P x) {j : Nat} (hj : j < P.nCols) :
    x j ≤ P.colUpper j := by
  by_cases h : P.colUpper j < P.inf
  · exact hf.upper j hj h
  · have := (abs_le.mp (hr.cols j hj)).2; linarith

/-- The old cuts are kept, and the new ones hold at `x`. -/
def NewHold (inf : ℚ) (x : Nat → ℚ) (cs cs' : Cuts) : Prop :=
  (∀ r ∈ cs'.rows, r ∈ cs.rows ∨ r.SatIn inf x) ∧ (∀ c ∈ cs'.cols, c ∈ cs.cols ∨ c.Sat x)

theorem NewHold.refl (inf : ℚ) (x : Nat → ℚ) (cs : Cuts) : NewHold inf x cs cs :=
  ⟨fun _ h => Or.inl h, fun _ h => Or.inl h⟩

theorem NewHold.trans {inf : ℚ} {x : Nat → ℚ} {a b c : Cuts} (h : NewHold inf x a b) (h' : NewHold inf x b c) :
    NewHold inf x a c :=
  ⟨fun r hr => (h'.1 r hr).elim (h.1 r) Or.inr, fun r hr => (h'.2 r hr).elim (h.2 r) Or.inr⟩

theorem single_holds (P : Prob) (e : Nat × ℚ) (rhs : ℚ) (cs : Cuts) (x : Nat → ℚ) (hz : e.2 ≠ 0)
    (hl : P.colLower e.1 ≤ x e.1) (hu : x e.1 ≤ P.colUpper e.1) (hi : P.isInt e.1 = true → IsInteger (x e.1))
    (h : rhs ≤ e.2 * x e.1) : NewHold P.inf x cs (single P e rhs cs) := by
  have hxl : singleLb P e rhs ≤ x e.1 := by
    unfold singleLb
    split
    · rename_i hp
      have h1 : rhs / e.2 ≤ x e.1 := by rw [div_le_iff₀ hp]; linarith
      split
      · rename_i hint
        obtain ⟨z, hz⟩ := hi hint
        rw [hz] at h1 ⊢
        exact_mod_cast Int.ceil_le.mpr (by linarith : rhs / e.2 - 1 / 10 ^ 4 ≤ (z : ℚ))
      · exact h1
    · exact hl
  have hxu : x e.1 ≤ singleUb P e rhs := by
    unfold singleUb
    split
    · exact hu
    · rename_i hp
      have hn : e.2 < 0 := lt_of_le_of_ne (not_lt.mp hp) hz
      have h1 : x e.1 ≤ rhs / e.2 := by rw [le_div_iff_of_neg hn]; linarith
      split
      · rename_i hint
        obtain ⟨z, hz⟩ := hi hint
        rw [hz] at h1 ⊢
        exact_mod_cast Int.le_floor.mpr (by linarith : (z : ℚ) ≤ rhs / e.2 + 1 / 10 ^ 4)
      · exact h1
  unfold single
  split
  · rename_i hbad; linarith
  · split
    · split
      · exact NewHold.refl _ _ _
      · refine ⟨fun r hr => Or.inl hr, fun c hc => ?_⟩
        rcases List.mem_append.mp hc with hc | hc
        · exact Or.inl hc
        · right
          rw [List.mem_singleton] at hc
          subst hc
          constructor
          · intro p hp
            simp only at hp
            split at hp
            · rw [List.mem_singleton] at hp; subst hp; exact hxl
            · cases hp
          · intro p hp
            simp only at hp
            split at hp
            · rw [List.mem_singleton] at hp; subst hp; exact hxu
            · cases hp
    · exact NewHold.refl _ _ _

theorem desirable_G {D : Data} {c : Con} (hG : c.sense = .G) (h : desirable D c = true) :
    SVec.dot c.es (ext D.P D.sol) ≤ c.rhs - 1 / 10 ^ 5 ∧ c.es.length ≤ 500 := by
  unfold desirable at h
  simp only at h
  split at h
  · cases h
  · rename_i hlen
    rw [hG] at h
    simp only [Bool.not_eq_true', decide_eq_false_iff_not, not_lt] at h
    exact ⟨h, by omega⟩

/-- What is known about a cut of the list: its columns exist, it is violated by the LP solution. -/
structure Listed (D : Data) (c : Con) : Prop where
  cols : ∀ p ∈ c.es, p.1 < D.P.nCols
  sorted : (c.es.map Prod.fst).Pairwise (· < ·)
  viol : SVec.dot c.es D.sol ≤ c.rhs - 1 / 10 ^ 5
  len : c.es.length ≤ 500

theorem substitute_cols (P : Prob) (c : Con) : ∀ p ∈ (substitute P c).es, p.1 < P.nCols := by
  intro p hp
  obtain ⟨j, hj, rfl⟩ := List.mem_map.mp hp
  exact List.mem_range.mp (List.mem_filter.mp hj).1

theorem substitute_sorted (P : Prob) (c : Con) : ((substitute P c).es.map Prod.fst).Pairwise (· < ·) := by
  have : (substitute P c).es.map Prod.fst =
      (List.range P.nCols).filter fun j => decide (1 / 10 ^ 12 < |lcut P c j|) := by
    simp [substitute, Function.comp_def]
  rw [this]
  exact List.Pairwise.filter _ (List.pairwise_lt_range)

theorem fromBase_listed (D : Data) (par : Par) (b cut : Con) (h : cut ∈ fromBase D par b) : Listed D cut := by
  unfold fromBase at h
  split at h; · cases h
  split at h; · cases h
  split at h; · cases h
  simp only at h
  split at h; · cases h
  obtain ⟨raw, hraw, rfl, hd⟩ := finishAll_mem D _ _ h
  have hG : (finishCut D raw).sense = .G := (rawCuts_idx hraw).2
  have hcols : ∀ p ∈ (finishCut D raw).es, p.1 < D.P.nCols := substitute_cols _ _
  obtain ⟨h1, h2⟩ := desirable_G hG hd
  rw [dot_ext _ hcols] at h1
  exact ⟨hcols, substitute_sorted _ _, h1, h2⟩

theorem mem_unfixed {P : Prob} {c : Con} {p : Nat × ℚ} (h : p ∈ unfixed P c) : p ∈ c.es := (List.mem_filter.mp h).1

theorem emit_holds (D : Data) (m : ℤ) (c : Con) (cs cs' : Cuts) (hfix : FixedAtBound D) (hl : Listed D c)
    (h : emit D.P m c cs = some cs') {x : Nat → ℚ} (hf : D.P.Feasible x) (hr : Representable D.P x)
    (hv : c.rhs ≤ SVec.dot c.es x) : NewHold D.P.inf x cs cs' := by
  have hgap := unfixed_gap D.P c x fun p hp he =>
    le_antisymm (he ▸ col_upper hf hr (hl.cols p hp)) (col_lower hf hr (hl.cols p hp))
  unfold emit at h
  split at h; · cases h; exact NewHold.refl _ _ _
  split at h; · cases h; exact NewHold.refl _ _ _
  rename_i hz
  split at h; · cases h; exact NewHold.refl _ _ _
  simp only at h
  have hz' : ∀ p ∈ c.es, p.2 ≠ 0 := by
    intro p hp h0
    exact hz (List.any_eq_true.mpr ⟨p, hp, decide_eq_true h0⟩)
  split at h
  · rcases hk : unfixed D.P c with _ | ⟨e, _ | ⟨e', l⟩⟩
    · rw [hk] at h hgap
      have hlp := unfixed_gap D.P c D.sol fun p hp he => hfix p.1 (hl.cols p hp) he
      rw [hk] at hlp
      have := hl.viol
      exfalso
      simp only [SVec.dot_nil] at hgap hlp
      linarith
    · rw [hk] at h hgap
      cases h
      have he : e ∈ c.es := mem_unfixed (by rw [hk]; simp)
      have hj := hl.cols e he
      apply single_holds D.P e _ cs x (hz' e he) (col_lower hf hr hj) (col_upper hf hr hj) (hf.int e.1 hj)
      simp only [SVec.dot_cons, SVec.dot_nil] at hgap
      linarith
    · rw [hk] at h hgap
      cases h
      refine ⟨fun r hr => ?_, fun r hr => Or.inl hr⟩
      rcases mem_insertIfNotDuplicate.mp hr with h | rfl
      · exact Or.inl h
      · right
        refine ⟨fun _ => ?_, fun h => absurd h (lt_irrefl _)⟩
        show freeRhs D.P c ≤ SVec.dot (e :: e' :: l) x
        linarith
  · cases h; exact NewHold.refl _ _ _

theorem emitAll_holds (D : Data) (m : ℤ) (l : List Con) (hfix : FixedAtBound D) (hl : ∀ c ∈ l, Listed D c)
    {x : Nat → ℚ} (hf : D.P.Feasible x) (hr : Representable D.P x) (hv : ∀ c ∈ l, c.rhs ≤ SVec.dot c.es x) :
    ∀ cs cs', emitAll D.P m l cs = some cs' → NewHold D.P.inf x cs cs' := by
  induction l with
  | nil => intro cs cs' h; unfold emitAll at h; cases h; exact NewHold.refl _ _ _
  | cons c l ih =>
    intro cs cs' h
    unfold emitAll at h
    rcases he : emit D.P m c cs with _ | cs1
    · rw [he] at h; cases h
    · rw [he] at h
      exact (emit_holds D m c cs cs1 hfix (hl c List.mem_cons_self) he hf hr (hv c List.mem_cons_self)).trans
        (ih (fun q hq => hl q (List.mem_cons_of_mem _ hq)) (fun q hq => hv q (List.mem_cons_of_mem _ hq)) cs1 cs' h)

/-- **C27.**  Every row cut and every column cut `generateCuts` adds to `cs` holds at every feasible point, provided the
LP solution is at the bound of each fixed column, no tolerance changes a constraint in the call (`Clean`), and the point
is representable.  For all problems, parameters, LP solutions, factorizations (multipliers) and random numbers.
Partial: without `Clean` the claim is false, see `Witness.lean`. -/
theorem generateCuts_valid_partial (D : Data) (prm : Prm) (info : Info) (fact : Option (Nat → SVec))
    (draw : Nat → Nat → ℚ) (cs cs' : Cuts) (hwf : D.P.WF) (hcl : Clean D prm info fact draw) (hfix : FixedAtBound D)
    (h : generateCuts D prm info fact draw cs = some cs') (x : Nat → ℚ) (hf : D.P.Feasible x)
    (hr : Representable D.P x) :
    (∀ r ∈ cs'.rows, r ∈ cs.rows ∨ r.SatIn D.P.inf x) ∧ (∀ c ∈ cs'.cols, c ∈ cs.cols ∨ c.Sat x) := by
  unfold generateCuts at h
  split at h; · cases h; exact NewHold.refl _ _ _
  split at h; · cases h
  rename_i bs hbs
  refine emitAll_holds D _ _ hfix ?_ hf hr ?_ cs cs' h
  · intro c hc
    obtain ⟨b, _, hc⟩ := List.mem_flatMap.mp hc
    exact fromBase_listed D _ b c hc
  · intro c hc
    obtain ⟨b, hb, hc⟩ := List.mem_flatMap.mp hc
    have hclean := hcl.base b (by rw [hbs]; exact hb)
    obtain ⟨hidx, ht⟩ := bases_tight D prm info fact draw hwf hcl.clear hcl.tab hbs hb
    exact fromBase_holds D _ b c hwf hcl.clear hclean hidx hc hf hr (ht x hf)

/-! ### Shape of the cuts -/

/-- What a user sees of a new row cut: it says `row ≥ lb` and the LP solution misses it by at least `1e-5`; its columns
are increasing, none of them fixed; there are at least two of them, at most 500 and fewer than the limit; every
coefficient exceeds `1e-5` and no two differ by a factor of `1e8` or more. -/
structure GoodRow (D : Data) (limit : ℤ) (r : RowCut) : Prop where
  ub : r.ub = D.P.inf
  viol : SVec.dot r.row D.sol ≤ r.lb - 1 / 10 ^ 5
  sorted : (r.row.map Prod.fst).Pairwise (· < ·)
  cols : ∀ p ∈ r.row, p.1 < D.P.nCols ∧ D.P.colUpper p.1 ≠ D.P.colLower p.1
  two : 2 ≤ r.row.length
  len : r.row.length ≤ 500 ∧ (r.row.length : ℤ) < limit
  size : ∀ p ∈ r.row, 1 / 10 ^ 5 < |p.2|
  ratio : ∀ p ∈ r.row, ∀ q ∈ r.row, |p.2| < 10 ^ 8 * |q.2|

/-- What a user sees of a new column cut: one new bound for one integer column, an integer, stricter than the old one and
not beyond the other bound by more than `1e-4`. -/
structure GoodCol (P : Prob) (c : ColCut) : Prop where
  shape : ∃ j < P.nCols, P.isInt j = true ∧ ∃ v : ℤ,
    (c = ⟨[(j, (v : ℚ))], []⟩ ∧ P.colLower j < v ∧ v ≤ P.colUpper j + 1 / 10 ^ 4) ∨
    (c = ⟨[], [(j, (v : ℚ))]⟩ ∧ v < P.colUpper j ∧ P.colLower j ≤ v + 1 / 10 ^ 4)

theorem le_foldl_max (l : SVec) : ∀ m : ℚ, m ≤ l.foldl (fun m p => max m |p.2|) m ∧
    ∀ p ∈ l, |p.2| ≤ l.foldl (fun m p => max m |p.2|) m := by
  induction l with
  | nil => intro m; exact ⟨le_refl _, fun p hp => by cases hp⟩
  | cons a l ih =>
    intro m
    obtain ⟨h1, h2⟩ := ih (max m |a.2|)
    refine ⟨le_trans (le_max_left _ _) h1, fun p hp => ?_⟩
    rcases List.mem_cons.mp hp with rfl | hp
    · exact le_trans (le_max_right _ _) h1
    · exact h2 p hp

theorem foldl_min_le (l : SVec) : ∀ m : ℚ, l.foldl (fun m p => min m |p.2|) m ≤ m ∧
    ∀ p ∈ l, l.foldl (fun m p => min m |p.2|) m ≤ |p.2| := by
  induction l with
  | nil => intro m; exact ⟨le_refl _, fun p hp => by cases hp⟩
  | cons a l ih =>
    intro m
    obtain ⟨h1, h2⟩ := ih (min m |a.2|)
    refine ⟨le_trans h1 (min_le_left _ _), fun p hp => ?_⟩
    rcases List.mem_cons.mp hp with rfl | hp
    · exact le_trans h1 (min_le_right _ _)
    · exact h2 p hp

/-- The old cuts are kept; the new ones have the promised shape. -/
def NewGood (D : Data) (limit : ℤ) (cs cs' : Cuts) : Prop :=
  (∀ r ∈ cs.rows, r ∈ cs'.rows) ∧ (∀ c ∈ cs.cols, c ∈ cs'.cols) ∧
  (∀ r ∈ cs'.rows, r ∈ cs.rows ∨ GoodRow D limit r ∨ r = ⟨1, 0, []⟩) ∧
  (∀ c ∈ cs'.cols, c ∈ cs.cols ∨ GoodCol D.P c)

theorem NewGood.refl (D : Data) (limit : ℤ) (cs : Cuts) : NewGood D limit cs cs :=
  ⟨fun _ h => h, fun _ h => h, fun _ h => Or.inl h, fun _ h => Or.inl h⟩

theorem NewGood.trans {D : Data} {limit : ℤ} {a b c : Cuts} (h : NewGood D limit a b) (h' : NewGood D limit b c) :
    NewGood D limit a c :=
  ⟨fun r hr => h'.1 r (h.1 r hr), fun r hr => h'.2.1 r (h.2.1 r hr),
   fun r hr => (h'.2.2.1 r hr).elim (h.2.2.1 r) Or.inr, fun r hr => (h'.2.2.2 r hr).elim (h.2.2.2 r) Or.inr⟩

theorem single_good (D : Data) (limit : ℤ) (e : Nat × ℚ) (rhs : ℚ) (cs : Cuts) (hj : e.1 < D.P.nCols) :
    NewGood D limit cs (single D.P e rhs cs) := by
  unfold single
  split
  · refine ⟨fun r hr => mem_insertIfNotDuplicate.mpr (Or.inl hr), fun _ h => h, fun r hr => ?_, fun _ h => Or.inl h⟩
    rcases mem_insertIfNotDuplicate.mp hr with h | h
    · exact Or.inl h
    · exact Or.inr (Or.inr h)
  · rename_i hinf
    split
    · rename_i htight
      split
      · exact NewGood.refl _ _ _
      · rename_i hint
        have hint : D.P.isInt e.1 = true := by simpa using hint
        refine ⟨fun r hr => hr, fun c hc => List.mem_append_left _ hc, fun r hr => Or.inl hr, fun c hc => ?_⟩
        rcases List.mem_append.mp hc with hc | hc
        · exact Or.inl hc
        · right
          rw [List.mem_singleton] at hc
          refine ⟨e.1, hj, hint, ?_⟩
          by_cases hp : 0 < e.2
          · have el : singleLb D.P e rhs = ⌈rhs / e.2 - 1 / 10 ^ 4⌉ := by
              unfold singleLb; rw [if_pos hp, if_pos hint]
            have eu : singleUb D.P e rhs = D.P.colUpper e.1 := by unfold singleUb; rw [if_pos hp]
            rw [el, eu] at hc hinf htight
            simp only [lt_self_iff_false, if_false, or_false] at hc htight
            rw [if_pos htight] at hc
            exact ⟨_, Or.inl ⟨hc, htight, not_lt.mp hinf⟩⟩
          · have el : singleLb D.P e rhs = D.P.colLower e.1 := by unfold singleLb; rw [if_neg hp]
            have eu : singleUb D.P e rhs = ⌊rhs / e.2 + 1 / 10 ^ 4⌋ := by
              unfold singleUb; rw [if_neg hp, if_pos hint]
            rw [el, eu] at hc hinf htight
            simp only [lt_self_iff_false, if_false, false_or] at hc htight
            rw [if_pos htight] at hc
            exact ⟨_, Or.inr ⟨hc, htight, not_lt.mp hinf⟩⟩
    · exact NewGood.refl _ _ _

theorem emit_good (D : Data) (m : ℤ) (c : Con) (cs cs' : Cuts) (hfix : FixedAtBound D) (hl : Listed D c)
    (h : emit D.P m c cs = some cs') : NewGood D m cs cs' := by
  unfold emit at h
  split at h; · cases h; exact NewGood.refl _ _ _
  rename_i hlen
  split at h; · cases h; exact NewGood.refl _ _ _
  split at h; · cases h; exact NewGood.refl _ _ _
  simp only at h
  split at h
  · rename_i hrat
    rcases hk : unfixed D.P c with _ | ⟨e, _ | ⟨e', l⟩⟩
    · rw [hk] at h
      rcases hes : c.es with _ | ⟨e, es⟩
      · rw [hes] at h; cases h
      · rw [hes] at h
        cases h
        exact single_good D m e _ cs (hl.cols e (by rw [hes]; simp))
    · rw [hk] at h
      cases h
      exact single_good D m e _ cs (hl.cols e (mem_unfixed (by rw [hk]; simp)))
    · rw [hk] at h
      cases h
      rw [← hk]
      refine ⟨fun r hr => mem_insertIfNotDuplicate.mpr (Or.inl hr), fun _ h => h, fun r hr => ?_, fun _ h => Or.inl h⟩
      rcases mem_insertIfNotDuplicate.mp hr with h | rfl
      · exact Or.inl h
      · refine Or.inr (Or.inl ?_)
        have hle : (unfixed D.P c).length ≤ c.es.length := List.length_filter_le _ _
        have hlen' : (c.es.length : ℤ) < m := by simpa using hlen
        have hgap := unfixed_gap D.P c D.sol fun p hp he => hfix p.1 (hl.cols p hp) he
        have hviol := hl.viol
        obtain ⟨_, hmax⟩ := le_foldl_max (unfixed D.P c) 0
        obtain ⟨_, hmin⟩ := foldl_min_le (unfixed D.P c) (10 ^ 30)
        refine ⟨rfl, ?_, ?_, ?_, ?_, ⟨?_, ?_⟩, ?_, ?_⟩
        · show SVec.dot (unfixed D.P c) D.sol ≤ freeRhs D.P c - 1 / 10 ^ 5
          linarith
        · exact List.Pairwise.sublist (List.Sublist.map _ List.filter_sublist) hl.sorted
        · intro p hp
          exact ⟨hl.cols p (mem_unfixed hp), of_decide_eq_true (List.mem_filter.mp hp).2⟩
        · show 2 ≤ (unfixed D.P c).length
          rw [hk]; simp
        · exact le_trans hle hl.len
        · show ((unfixed D.P c).length : ℤ) < m
          omega
        · intro p hp
          exact lt_of_lt_of_le hrat.2 (hmin p hp)
        · intro p hp q hq
          have := hmax p hp
          have := hmin q hq
          have := hrat.1
          linarith
  · cases h; exact NewGood.refl _ _ _

theorem emitAll_good (D : Data) (m : ℤ) (l : List Con) (hfix : FixedAtBound D) (hl : ∀ c ∈ l, Listed D c) :
    ∀ cs cs', emitAll D.P m l cs = some cs' → NewGood D m cs cs' := by
  induction l with
  | nil => intro cs cs' h; unfold emitAll at h; cases h; exact NewGood.refl _ _ _
  | cons c l ih =>
    intro cs cs' h
    unfold emitAll at h
    rcases he : emit D.P m c cs with _ | cs1
    · rw [he] at h; cases h
    · rw [he] at h
      exact (emit_good D m c cs cs1 hfix (hl c List.mem_cons_self) he).trans
        (ih (fun q hq => hl q (List.mem_cons_of_mem _ hq)) cs1 cs' h)

/-- The limit on the number of elements a user has set: `setMaxElements` in the tree, `setMaxElementsRoot` at the root,
but the number of columns at the root in the first pass or with option 32. -/
def elementLimit (P : Prob) (prm : Prm) (info : Info) : ℤ :=
  if info.inTree then prm.maxElements
  else if info.pass = 0 ∨ info.opt32 = true then (P.nCols : ℤ) else prm.maxElementsRoot

/-- **C54.**  `generateCuts` keeps the cuts that were there; every new row cut is either the infeasible cut `0 ≥ 1` or
cuts off the LP solution by at least `1e-5` and has the promised shape; every new column cut is one strictly tighter
integer bound of an integer column.  For all inputs in which the LP solution is at the bound of each fixed column. -/
theorem generateCuts_shape (D : Data) (prm : Prm) (info : Info) (fact : Option (Nat → SVec)) (draw : Nat → Nat → ℚ)
    (cs cs' : Cuts) (hfix : FixedAtBound D) (h : generateCuts D prm info fact draw cs = some cs') :
    (∀ r ∈ cs.rows, r ∈ cs'.rows) ∧ (∀ c ∈ cs.cols, c ∈ cs'.cols) ∧
    (∀ r ∈ cs'.rows, r ∈ cs.rows ∨ GoodRow D (elementLimit D.P prm info) r ∨ r = ⟨1, 0, []⟩) ∧
    (∀ c ∈ cs'.cols, c ∈ cs.cols ∨ GoodCol D.P c) := by
  unfold generateCuts at h
  split at h; · cases h; exact NewGood.refl _ _ _
  split at h; · cases h
  refine emitAll_good D _ _ hfix ?_ cs cs' h
  intro c hc
  obtain ⟨b, _, hc⟩ := List.mem_flatMap.mp hc
  exact fromBase_listed D _ b c hc

/-! ### The call returns -/

theorem castInt_small {q : ℚ} (h : |q| < 2147483647) : castInt q ≠ none := by
  unfold castInt
  have h1 := abs_lt.mp h
  have hfl := Int.floor_le q
  have hce := Int.le_ceil q
  have : intMin ≤ truncQ q ∧ truncQ q ≤ intMax := by
    unfold truncQ intMin intMax
    split
    · rename_i h0
      have a : 0 ≤ ⌊q⌋ := Int.floor_nonneg.mpr h0
      have b : (⌊q⌋ : ℚ) < 2147483647 := by linarith
      have b' : ⌊q⌋ < 2147483647 := by exact_mod_cast b
      constructor <;> omega
    · rename_i h0
      have a : ⌈q⌉ ≤ 0 := Int.ceil_le.mpr (by push_cast; linarith)
      have b : (-2147483647 : ℚ) < ⌈q⌉ := by linarith
      have b' : -2147483647 < ⌈q⌉ := by exact_mod_cast b
      constructor <;> omega
  rw [if_pos this]
  simp

/-- Coefficients of the rows are below 21 474 836 in absolute value. -/
def SmallCoefs (P : Prob) : Prop := ∀ r ∈ P.rows, ∀ p ∈ r.coefs, |p.2| < 21474836

instance (P : Prob) : Decidable (SmallCoefs P) := by unfold SmallCoefs; infer_instance

theorem formLoop_some {D : Data} {slk : ℚ} {base : Con} {prob : ℚ} {draw : Nat → ℚ} {es : SVec}
    (h : ∀ p ∈ es, |p.2| < 21474836) : ∀ p seen, formLoop D slk base prob draw p seen es ≠ none := by
  induction es with
  | nil => intro p seen; unfold formLoop; simp
  | cons e es ih =>
    have ih := ih fun q hq => h q (List.mem_cons_of_mem _ hq)
    intro p seen
    unfold formLoop
    split
    · simp only
      have hc : castInt (100 * (if base.sense = .L then - |e.2| else |e.2|)) ≠ none := by
        apply castInt_small
        have h1 := h e List.mem_cons_self
        have h0 := abs_nonneg e.2
        rw [abs_lt]
        split <;> constructor <;> linarith
      rcases hk : castInt (100 * (if base.sense = .L then - |e.2| else |e.2|)) with _ | k
      · exact absurd hk hc
      · simp only
        split
        · exact ih _ _
        · rcases hl : formLoop D slk base prob draw (p + 1) (seen ++ [k]) es with _ | l
          · exact absurd hl (ih _ _)
          · simp
    · exact ih _ _

theorem formBases_some (D : Data) (draw : Nat → ℚ) {i : Nat} (hi : i < D.P.rows.length) (hs : SmallCoefs D.P) :
    formBases D draw i ≠ none := by
  unfold formBases
  simp only
  split
  · simp
  · apply formLoop_some
    intro p hp
    obtain ⟨q, hq, rfl⟩ := List.mem_map.mp hp
    have : |(turn D q).2| = |q.2| := by unfold turn; simp only; split <;> simp
    rw [this]
    rcases List.mem_append.mp hq with h | h
    · exact hs _ (Prob.row_mem hi) q h
    · split at h
      · cases h
      · rw [List.mem_singleton] at h
        subst h
        simp only
        split <;> norm_num

theorem allFormBases_some (D : Data) (draw : Nat → Nat → ℚ) (hs : SmallCoefs D.P) (is : List Nat)
    (hi : ∀ i ∈ is, i < D.P.rows.length) : allFormBases D draw is ≠ none := by
  induction is with
  | nil => unfold allFormBases; simp
  | cons i is ih =>
    have ih := ih fun q hq => hi q (List.mem_cons_of_mem _ hq)
    have h1 := formBases_some D (draw i) (hi i List.mem_cons_self) hs
    unfold allFormBases
    rcases ha : formBases D (draw i) i with _ | a
    · exact absurd ha h1
    · rcases hb : allFormBases D draw is with _ | b
      · exact absurd hb ih
      · simp

/-- **C55.**  On a problem that has a (representable) feasible point and whose row coefficients are below 21 474 836, a call
in which no tolerance changes a constraint returns: it does not convert a number to `int` that is too large, nor read the
first entry of a cut without entries.  Partial: without these conditions it may do either, see `Witness.lean`. -/
theorem generateCuts_returns_partial (D : Data) (prm : Prm) (info : Info) (fact : Option (Nat → SVec))
    (draw : Nat → Nat → ℚ) (cs : Cuts) (hwf : D.P.WF) (hcl : Clean D prm info fact draw) (hs : SmallCoefs D.P)
    (hx : ∃ x, D.P.Feasible x ∧ Representable D.P x) : ∃ cs', generateCuts D prm info fact draw cs = some cs' := by
  obtain ⟨x, hf, hr⟩ := hx
  unfold generateCuts
  split
  · exact ⟨_, rfl⟩
  · rcases hbs : bases D prm info fact draw with _ | bs
    · exfalso
      unfold bases at hbs
      simp only at hbs
      split at hbs
      · rename_i hform
        split at hform
        · refine allFormBases_some D draw hs _ ?_ hform
          intro i hi
          have := List.mem_range.mp hi
          omega
        · cases hform
      · cases hbs
    · simp only
      have hl : ∀ c ∈ bs.flatMap (fromBase D (mkPar D.P prm info)), Listed D c ∧ c.rhs ≤ SVec.dot c.es x := by
        intro c hc
        obtain ⟨b, hb, hc⟩ := List.mem_flatMap.mp hc
        have hclean := hcl.base b (by rw [hbs]; exact hb)
        obtain ⟨hidx, ht⟩ := bases_tight D prm info fact draw hwf hcl.clear hcl.tab hbs hb
        exact ⟨fromBase_listed D _ b c hc,
          fromBase_holds D _ b c hwf hcl.clear hclean hidx hc hf hr (ht x hf)⟩
      generalize bs.flatMap (fromBase D (mkPar D.P prm info)) = l at hl
      induction l generalizing cs with
      | nil => exact ⟨cs, rfl⟩
      | cons c l ih =>
        unfold emitAll
        rcases he : emit D.P (mkPar D.P prm info).maxElements c cs with _ | cs1
        · exfalso
          obtain ⟨hlist, hv⟩ := hl c List.mem_cons_self
          have hes : c.es = [] := by
            unfold emit at he
            split at he; · cases he
            split at he; · cases he
            split at he; · cases he
            simp only at he
            split at he
            · rcases hk : unfixed D.P c with _ | ⟨e, _ | ⟨e', l'⟩⟩
              · rw [hk] at he
                rcases hes : c.es with _ | ⟨e, es⟩
                · rfl
                · rw [hes] at he; cases he
              · rw [hk] at he; cases he
              · rw [hk] at he; cases he
            · cases he
          have := hlist.viol
          rw [hes] at this hv
          simp only [SVec.dot_nil] at this hv
          linarith
        · exact ih cs1 fun q hq => hl q (List.mem_cons_of_mem _ hq)

end Cgl.Twomir
