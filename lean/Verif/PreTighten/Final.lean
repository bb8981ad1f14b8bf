import Verif.PreTighten.Strengthen

/-!
# The function as a whole
-/

namespace Cgl.PreTighten

theorem sorted_fit {c : Call} (hc : Setting c) {x : Nat → ℚ} (hx : Point c.P x) :
    ∀ r ∈ sorted c, Fit c.P.nCols c.P.inf x r := by
  intro t ht
  refine ⟨sorted_ok hc t ht, ?_, ?_⟩
  · obtain ⟨r, hr, rfl⟩ := List.mem_map.mp ht
    exact hc.bounds r hr
  · obtain ⟨r, hr, rfl⟩ := List.mem_map.mp ht
    dsimp only
    rw [((hc.perm r.coefs).map _).sum_eq]
    exact hx.moderate r hr

theorem passes_rel (c : Call) : List.Forall₂ Rel (sorted c) (passes c).rows :=
  rel_trans (rows1_rel c) (mainPasses_rows ..)

theorem passes_keeps {c : Call} (hc : Setting c) {x : Nat → ℚ} (hp : Point c.P x) (hx : c.P.Feasible x) :
    Box c.P.nCols (lo1 c) (up1 c) x ∧ Good c.P.nCols x (passes c).lo (passes c).up (passes c).infeas ∧
      ∀ r ∈ (passes c).rows, r.Sat c.P.inf x := by
  obtain ⟨h1, h2⟩ := phase1_keeps hc hp.finite hx
  have hf := rel_fit hc.inf.2 (rows1_rel c) (sorted_fit hc hp)
  exact ⟨h1, mainPasses_keeps hc.inf.1 hc.inf.2 hc.tol hf h1 h2, rel_sat hc.inf.2 (mainPasses_rows ..) h2⟩

/-- The entries of a row after the passes are those of the row of the problem. -/
def SameEntries (r t : Row) : Prop := t.coefs.Perm r.coefs

theorem passes_entries {c : Call} (hc : Setting c) : List.Forall₂ SameEntries c.P.rows (passes c).rows := by
  have h := passes_rel c
  unfold sorted at h
  rw [List.forall₂_map_left_iff] at h
  refine h.imp fun r t hrt => ?_
  rcases hrt with rfl | rfl
  · exact hc.perm r.coefs
  · exact hc.perm r.coefs

theorem withBounds_sat {rs ts : List Row} (h : List.Forall₂ SameEntries rs ts) {inf : ℚ} {x : Nat → ℚ} :
    (∀ t ∈ withBounds rs ts, t.Sat inf x) ↔ ∀ t ∈ ts, t.Sat inf x := by
  induction h with
  | nil => simp [withBounds]
  | @cons r t rs ts hrt _ ih =>
    unfold withBounds at ih ⊢
    rw [List.zipWith_cons_cons, List.forall_mem_cons, List.forall_mem_cons, ih]
    exact and_congr_left fun _ => sat_perm hrt.symm

/-- The rows of the result hold where the changed rows do. -/
theorem finished_rows {c : Call} (hc : Setting c) {x : Nat → ℚ} :
    (∀ t ∈ (finished c).prob.rows, t.Sat c.P.inf x) ↔ ∀ t ∈ strengthened c, t.Sat c.P.inf x := by
  unfold finished
  dsimp only
  split
  · rfl
  · rename_i h
    refine withBounds_sat ?_
    have h0 : ∀ r ∈ (passes c).rows, (strengthenRow c r).1 = r := by
      intro r hr
      refine strengthenRow_same ?_
      have h1 := not_not.mp h
      unfold numberChanges at h1
      rw [List.sum_eq_zero_iff_forall_eq_nat] at h1
      exact h1 _ (List.mem_map.mpr ⟨r, hr, rfl⟩)
    unfold strengthened
    rw [List.map_congr_left h0, List.map_id']
    exact passes_entries hc

theorem finished_ret (c : Call) : 0 ≤ (finished c).ret := by
  unfold finished retValue
  dsimp only
  split <;> positivity

theorem restored_ret {c : Call} {n : Nat} (h : n ≠ 0) : (restored c n).ret < 0 := by
  unfold restored
  dsimp only
  omega

/-- A result that is not negative is that of a run that finds no infeasibility. -/
theorem ret_nonneg {c : Call} (h : 0 ≤ (tightenPrimalBounds c).ret) :
    tightenPrimalBounds c = finished c ∧ (passes c).infeas = 0 ∧ badCols c = 0 := by
  unfold tightenPrimalBounds at h ⊢
  split at h
  · rename_i h1
    exact absurd h (not_le.mpr (restored_ret h1))
  · rename_i h1
    split at h
    · rename_i h2
      exact absurd h (not_le.mpr (restored_ret h2))
    · rename_i h2
      rw [if_neg h1, if_neg h2]
      exact ⟨rfl, not_not.mp h1, not_not.mp h2⟩

/-- The run finds no infeasibility if there is a feasible point. -/
theorem feasible_finished {c : Call} (hc : Setting c) {x : Nat → ℚ} (hp : Point c.P x) (hx : c.P.Feasible x) :
    tightenPrimalBounds c = finished c := by
  obtain ⟨h1, h2, _⟩ := passes_keeps hc hp hx
  have hb := badCols_zero hx.int h1 h2.1
  unfold tightenPrimalBounds
  rw [if_neg (not_not.mpr h2.2), if_neg (not_not.mpr hb)]

theorem box_feasible {P : Prob} {lo up x : Nat → ℚ} (h : Box P.nCols lo up x) :
    (∀ j < P.nCols, lbOk P.inf (lo j) (x j)) ∧ ∀ j < P.nCols, ubOk P.inf (up j) (x j) :=
  ⟨fun j hj _ => (h j hj).1, fun j hj _ => (h j hj).2⟩

theorem keeps_of_box {c : Call} (hc : Setting c) {x : Nat → ℚ} (hp : Point c.P x) (hx : c.P.Feasible x)
    (hm : Box c.P.nCols (modelLo c) (modelUp c) x) : (finished c).prob.Feasible x := by
  obtain ⟨_, h2, h3⟩ := passes_keeps hc hp hx
  have hn := new_box h2.1 hm
  have hf := rel_fit hc.inf.2 (passes_rel c) (sorted_fit hc hp)
  obtain ⟨b1, b2⟩ := box_feasible hm
  refine ⟨(finished_rows hc).mpr ?_, b1, b2, hx.int⟩
  intro t ht
  obtain ⟨r, hr, rfl⟩ := List.mem_map.mp ht
  exact strengthenRow_keeps hc.inf.1 hx.int hm hn (hf r hr) (h3 r hr)

theorem isInteger_mul {a b : ℚ} (ha : IsInteger a) (hb : IsInteger b) : IsInteger (a * b) := by
  obtain ⟨z, rfl⟩ := ha
  obtain ⟨w, rfl⟩ := hb
  exact ⟨z * w, by push_cast; rfl⟩

theorem isInteger_add {a b : ℚ} (ha : IsInteger a) (hb : IsInteger b) : IsInteger (a + b) := by
  obtain ⟨z, rfl⟩ := ha
  obtain ⟨w, rfl⟩ := hb
  exact ⟨z + w, by push_cast; rfl⟩

theorem dot_int {es : SVec} {x : Nat → ℚ} (h : ∀ p ∈ es, IsInteger p.2 ∧ IsInteger (x p.1)) :
    IsInteger (SVec.dot es x) := by
  induction es with
  | nil => exact ⟨0, by simp⟩
  | cons p es ih =>
    rw [SVec.dot_cons]
    exact isInteger_add (isInteger_mul (h p List.mem_cons_self).1 (h p List.mem_cons_self).2)
      (ih fun q hq => h q (List.mem_cons_of_mem _ hq))

theorem sorted_int {c : Call} (hc : Setting c) (hP : PureInteger c.P) {x : Nat → ℚ}
    (hint : ∀ j < c.P.nCols, IsInteger (x j)) : ∀ r ∈ sorted c, IntRow c.P.inf x r := by
  intro t ht
  have hok := sorted_ok hc t ht
  obtain ⟨r, hr, rfl⟩ := List.mem_map.mp ht
  exact ⟨dot_int fun p hp => ⟨hP.coefs r hr p ((hc.perm r.coefs).mem_iff.mp hp), hint p.1 (hok.cols p hp)⟩,
    hP.lb r hr, hP.ub r hr, hc.bounds r hr⟩

theorem sorted_small {c : Call} (hc : Setting c) (ht : SmallTolerance c) :
    ∀ r ∈ sorted c, c.tol + slop c * absSum r.coefs < 1 := by
  intro t htm
  obtain ⟨r, hr, rfl⟩ := List.mem_map.mp htm
  have := ht.rows r hr
  unfold absSum slop
  dsimp only
  rw [((hc.perm r.coefs).map _).sum_eq]
  exact this

theorem finished_back {c : Call} (hc : Setting c) (hP : PureInteger c.P) (ht : SmallTolerance c)
    (hz : (passes c).infeas = 0) {x : Nat → ℚ} (hp : Point c.P x) (hx : (finished c).prob.Feasible x) :
    c.P.Feasible x := by
  have hint : ∀ j < c.P.nCols, c.P.isInt j = true → IsInteger (x j) := hx.int
  have hint' : ∀ j < c.P.nCols, IsInteger (x j) := fun j hj => hint j hj (hP.int j hj)
  have hm : Box c.P.nCols (modelLo c) (modelUp c) x := (box_iff hp.finite).mpr ⟨hx.lower, hx.upper⟩
  have hrows := (finished_rows hc).mp hx.rows
  have hrel := passes_rel c
  have hf := rel_fit hc.inf.2 hrel (sorted_fit hc hp)
  have hi := rel_intRow hc.inf.2 hrel (sorted_int hc hP hint')
  have hsm := rel_small hrel (sorted_small hc ht)
  have h1 : ∀ r ∈ (passes c).rows, r.Sat c.P.inf x := by
    intro r hr
    have := hrows _ (List.mem_map.mpr ⟨r, hr, rfl⟩)
    exact strengthenRow_back hP hc.inf.1 hc.tol hz hint hm (hf r hr) (hi r hr)
      (by linarith [hsm r hr, hc.tol]) this
  have hrel1 := rows1_rel c
  have h2 := mainPasses_back hc.inf.1 hc.inf.2 ht.tol (rel_rowOk hrel1 (sorted_ok hc))
    (rel_intRow hc.inf.2 hrel1 (sorted_int hc hP hint')) (rel_small hrel1 (sorted_small hc ht))
    (near_of_model hP hc.tol hz hm) h1
  obtain ⟨h3, h4⟩ := phase1_back hc hP ht.tol (sorted_int hc hP hint') (box1_of_model hP hm) h2
  obtain ⟨b1, b2⟩ := box_feasible h3
  exact ⟨(sorted_sat hc).mp h4, b1, b2, hx.int⟩

theorem lo1_ge (c : Call) (j : Nat) : c.P.colLower j ≤ lo1 c j := by
  unfold lo1; split
  · rename_i h; exact le_of_lt h
  · exact le_refl _

theorem up1_le (c : Call) (j : Nat) : up1 c j ≤ c.P.colUpper j := by
  unfold up1; split
  · rename_i h; exact le_of_lt h
  · exact le_refl _

theorem model_bounds (c : Call) (j : Nat) :
    c.P.colLower j - 1/100000 ≤ modelLo c j ∧ modelUp c j ≤ c.P.colUpper j + 1/100000 := by
  have h1 := lo1_ge c j
  have h2 := up1_le c j
  have ht := mainPasses_tighter c.tol 10 none (rows1 c) (lo1 c) (up1 c) 0 j
  change lo1 c j ≤ (passes c).lo j ∧ (passes c).up j ≤ up1 c j at ht
  by_cases hm : moves c j = true
  · simp only [modelLo, modelUp, newLo, newUp, if_pos hm]
    by_cases hi : c.P.isInt j = true
    · rw [if_pos hi, if_pos hi]
      exact ⟨by linarith [intLo_ge ((passes c).lo j), ht.1], by linarith [intUp_le ((passes c).up j), ht.2]⟩
    · rw [if_neg hi, if_neg hi]
      unfold contLo contUp
      split
      · rename_i hti
        simp only [tiny, Bool.and_eq_true, decide_eq_true_eq] at hti
        exact ⟨by linarith [(abs_lt.mp hti.2).2, ht.1], by linarith [(abs_lt.mp hti.1).1, ht.2]⟩
      · exact ⟨le_trans (by linarith) (le_max_left (lo1 c j) _), le_trans (min_le_left (up1 c j) _) (by linarith)⟩
  · simp only [modelLo, modelUp, if_neg hm]
    exact ⟨by linarith, by linarith⟩

end Cgl.PreTighten
