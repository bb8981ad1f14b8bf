import Verif.PreTighten.Main

/-!
# The new column bounds
-/

namespace Cgl.PreTighten

theorem nearest_le (q : ℚ) : nearest q ≤ q + 1/2 := Int.floor_le _

theorem intLo_le {l : ℚ} {x : ℚ} (hx : IsInteger x) (h : l ≤ x) : intLo l ≤ x := by
  obtain ⟨z, rfl⟩ := hx
  unfold intLo
  split
  · rename_i h1
    have h2 := (abs_lt.mp h1).1
    unfold nearest at *
    have h3 : ((⌊l + 1/2⌋ : ℤ) : ℚ) < z + 1 := by linarith
    have h4 : ⌊l + 1/2⌋ < z + 1 := by exact_mod_cast h3
    exact_mod_cast Int.lt_add_one_iff.mp h4
  · exact_mod_cast Int.ceil_le.mpr h

theorem le_intUp {u : ℚ} {x : ℚ} (hx : IsInteger x) (h : x ≤ u) : x ≤ intUp u := by
  obtain ⟨z, rfl⟩ := hx
  unfold intUp
  split
  · rename_i h1
    have h2 := (abs_lt.mp h1).2
    unfold nearest at *
    have h3 : (z : ℚ) < ((⌊u + 1/2⌋ : ℤ) : ℚ) + 1 := by linarith
    have h4 : z < ⌊u + 1/2⌋ + 1 := by exact_mod_cast h3
    exact_mod_cast Int.lt_add_one_iff.mp h4
  · exact_mod_cast Int.le_floor.mpr h

theorem intLo_int (l : ℚ) : IsInteger (intLo l) := by
  unfold intLo nearest; split
  · exact ⟨_, rfl⟩
  · exact ⟨_, rfl⟩

theorem intUp_int (u : ℚ) : IsInteger (intUp u) := by
  unfold intUp nearest; split
  · exact ⟨_, rfl⟩
  · exact ⟨_, rfl⟩

theorem intLo_ge (l : ℚ) : l - 1/100000 ≤ intLo l := by
  unfold intLo; split
  · rename_i h; linarith [(abs_lt.mp h).2]
  · linarith [Int.le_ceil l]

theorem intUp_le (u : ℚ) : intUp u ≤ u + 1/100000 := by
  unfold intUp; split
  · rename_i h; linarith [(abs_lt.mp h).1]
  · linarith [Int.floor_le u]

theorem int_le_intLo {z : ℤ} {l : ℚ} (h : (z : ℚ) ≤ l) : (z : ℚ) ≤ intLo l := by
  unfold intLo nearest; split
  · exact_mod_cast Int.le_floor.mpr (by linarith)
  · linarith [Int.le_ceil l]

theorem intUp_le_int {z : ℤ} {u : ℚ} (h : u ≤ (z : ℚ)) : intUp u ≤ (z : ℚ) := by
  unfold intUp nearest; split
  · have : ⌊u + 1/2⌋ < z + 1 := Int.floor_lt.mpr (by push_cast; linarith)
    exact_mod_cast Int.lt_add_one_iff.mp this
  · linarith [Int.floor_le u]

theorem contLo_le {cl l u x : ℚ} (h : cl ≤ x) (hl : l ≤ x) : contLo cl l u - 1/100000000 ≤ x := by
  unfold contLo
  split
  · rename_i ht
    simp only [tiny, Bool.and_eq_true, decide_eq_true_eq] at ht
    linarith [(abs_lt.mp ht.2).1]
  · have : (if 1/1000000000 < |l - nearest l| then l - 1/100000 else nearest l) ≤ x + 1/100000000 := by
      split
      · linarith
      · rename_i h1
        linarith [(abs_le.mp (not_lt.mp h1)).1]
    have := max_le (show cl ≤ x + 1/100000000 by linarith) this
    linarith

theorem le_contUp {cu l u x : ℚ} (h : x ≤ cu) (hu : x ≤ u) : x ≤ contUp cu l u + 1/100000000 := by
  unfold contUp
  split
  · rename_i ht
    simp only [tiny, Bool.and_eq_true, decide_eq_true_eq] at ht
    linarith [(abs_lt.mp ht.1).2]
  · have : x - 1/100000000 ≤ (if 1/1000000000 < |u - nearest u| then u + 1/100000 else nearest u) := by
      split
      · linarith
      · rename_i h1
        linarith [(abs_le.mp (not_lt.mp h1)).2]
    have := le_min (show x - 1/100000000 ≤ cu by linarith) this
    linarith

theorem not_moves {c : Call} {j : Nat} (hj : j < c.P.nCols) (h : ¬ moves c j = true) : up1 c j ≤ lo1 c j := by
  simp only [moves, hj, decide_true, Bool.true_and, decide_eq_true_eq] at h
  exact not_lt.mp h

theorem moves_col {c : Call} {j : Nat} (h : moves c j = true) : j < c.P.nCols := by
  simp only [moves, Bool.and_eq_true, decide_eq_true_eq] at h
  exact h.1

/-- Points within the bounds of the passes satisfy the new bounds of the integer columns, and those of the continuous
columns up to 1e-8. -/
theorem model_box {c : Call} {x : Nat → ℚ} (hint : ∀ j < c.P.nCols, c.P.isInt j = true → IsInteger (x j))
    (h1 : Box c.P.nCols (lo1 c) (up1 c) x) (h2 : Box c.P.nCols (passes c).lo (passes c).up x) {j : Nat}
    (hj : j < c.P.nCols) :
    (c.P.isInt j = true → modelLo c j ≤ x j ∧ x j ≤ modelUp c j) ∧
      modelLo c j - 1/100000000 ≤ x j ∧ x j ≤ modelUp c j + 1/100000000 := by
  have b1 := h1 j hj
  have b2 := h2 j hj
  by_cases hm : moves c j = true
  · by_cases hi : c.P.isInt j = true
    · have e := intLo_le (hint j hj hi) b2.1
      have f := le_intUp (hint j hj hi) b2.2
      simp only [modelLo, modelUp, newLo, newUp, if_pos hm, if_pos hi]
      exact ⟨fun _ => ⟨e, f⟩, by linarith, by linarith⟩
    · simp only [modelLo, modelUp, newLo, newUp, if_pos hm, if_neg hi]
      exact ⟨fun h => absurd h hi, contLo_le b1.1 b2.1, le_contUp b1.2 b2.2⟩
  · simp only [modelLo, modelUp, if_neg hm]
    exact ⟨fun _ => b1, by linarith, by linarith⟩

theorem new_box {c : Call} {x : Nat → ℚ} (h2 : Box c.P.nCols (passes c).lo (passes c).up x)
    (hm : Box c.P.nCols (modelLo c) (modelUp c) x) : Box c.P.nCols (newLo c) (newUp c) x := by
  intro j hj
  by_cases h : moves c j = true
  · have := hm j hj
    simp only [modelLo, modelUp, if_pos h] at this
    exact this
  · simp only [newLo, newUp, if_neg h]
    exact h2 j hj

theorem badCols_zero {c : Call} {x : Nat → ℚ} (hint : ∀ j < c.P.nCols, c.P.isInt j = true → IsInteger (x j))
    (h1 : Box c.P.nCols (lo1 c) (up1 c) x) (h2 : Box c.P.nCols (passes c).lo (passes c).up x) : badCols c = 0 := by
  unfold badCols
  rw [List.countP_eq_zero]
  intro j hj
  have hj := List.mem_range.mp hj
  unfold badCol
  split
  · rename_i hm
    rw [Bool.and_eq_true, decide_eq_true_eq, not_and, not_lt]
    intro hi
    have := (model_box hint h1 h2 hj).1 hi
    simp only [modelLo, modelUp, if_pos hm] at this
    linarith
  · rw [decide_eq_true_eq]
    have := h1 j hj
    linarith

/-- A column whose new bounds differ has the same bounds in the model. -/
theorem moves_of_lt {c : Call} {j : Nat} (hj : j < c.P.nCols) (h : newLo c j < newUp c j) : moves c j = true := by
  by_contra hm
  have h1 := not_moves hj hm
  have h2 := mainPasses_tighter c.tol 10 none (rows1 c) (lo1 c) (up1 c) 0 j
  simp only [newLo, newUp, if_neg hm, passes] at h
  linarith

theorem newLo_int {c : Call} {j : Nat} (h : moves c j = true) (hi : c.P.isInt j = true) : IsInteger (newLo c j) := by
  simp only [newLo, if_pos h, if_pos hi]; exact intLo_int _
theorem newUp_int {c : Call} {j : Nat} (h : moves c j = true) (hi : c.P.isInt j = true) : IsInteger (newUp c j) := by
  simp only [newUp, if_pos h, if_pos hi]; exact intUp_int _

/-! ### Integer problems: the way back -/

theorem tightenPasses_int {P : Prob} (hP : ∀ j < P.nCols, P.isInt j = true) (tol : ℚ) (k : Nat) (dol : Bool)
    (rs : List Row) {s : TState} (hb : IntBounds P.nCols s.lo s.up) :
    IntBounds P.nCols (tightenPasses P tol k dol rs s).2.lo (tightenPasses P tol k dol rs s).2.up := by
  induction k generalizing dol rs s with
  | zero => exact hb
  | succ k ih =>
    unfold tightenPasses
    split
    · exact roundCols_int hP _
    · exact ih _ _ (roundCols_int hP _)

theorem int1 {c : Call} (hP : PureInteger c.P) : IntBounds c.P.nCols (lo1 c) (up1 c) := by
  have h := tightenPasses_int hP.int c.tol 20 true (sorted c) (s := ⟨c.P.colLower, c.P.colUpper, 0, 0⟩)
    fun j hj => ⟨hP.lower j hj, hP.upper j hj⟩
  intro j hj
  constructor
  · unfold lo1; split
    · exact (h j hj).1
    · exact hP.lower j hj
  · unfold up1; split
    · exact (h j hj).2
    · exact hP.upper j hj

/-- Points within the bounds of the new model are within the bounds before the passes. -/
theorem box1_of_model {c : Call} (hP : PureInteger c.P) {x : Nat → ℚ}
    (hm : Box c.P.nCols (modelLo c) (modelUp c) x) : Box c.P.nCols (lo1 c) (up1 c) x := by
  intro j hj
  have hb := hm j hj
  by_cases h : moves c j = true
  · simp only [modelLo, modelUp, newLo, newUp, if_pos h, if_pos (hP.int j hj)] at hb
    obtain ⟨⟨z, hz⟩, ⟨w, hw⟩⟩ := int1 hP j hj
    have ht := mainPasses_tighter c.tol 10 none (rows1 c) (lo1 c) (up1 c) 0 j
    rw [hz, hw] at ht ⊢
    exact ⟨le_trans (int_le_intLo ht.1) hb.1, le_trans hb.2 (intUp_le_int ht.2)⟩
  · simp only [modelLo, modelUp, if_neg h] at hb
    exact hb

/-- The error of the bounds at a point of the new model. -/
def slop (c : Call) : ℚ := max (1/100000) (100 * c.tol)

theorem passes_uncrossed (c : Call) :
    Uncrossed c.tol (lo1 c) (up1 c) (passes c).lo (passes c).up (passes c).infeas :=
  mainPasses_uncrossed 10 none (rows1 c) 0 fun _ _ => .inl ⟨rfl, rfl⟩

/-- Columns that keep their bounds are within 100 tolerances of the bounds of the passes. -/
theorem fixed_near {c : Call} (ht : 0 ≤ c.tol) (hf : (passes c).infeas = 0) {x : Nat → ℚ}
    (h1 : Box c.P.nCols (lo1 c) (up1 c) x) {j : Nat} (hj : j < c.P.nCols) (hm : ¬ moves c j = true) :
    (passes c).lo j - 100 * c.tol ≤ x j ∧ x j ≤ (passes c).lo j ∧ (passes c).up j ≤ x j ∧
      x j ≤ (passes c).up j + 100 * c.tol := by
  have hb := h1 j hj
  have hn := not_moves hj hm
  have hc := passes_uncrossed c hf j
  have hti := mainPasses_tighter c.tol 10 none (rows1 c) (lo1 c) (up1 c) 0 j
  change lo1 c j ≤ (passes c).lo j ∧ (passes c).up j ≤ up1 c j at hti
  obtain ⟨t1, t2⟩ := hti
  rcases hc with ⟨e1, e2⟩ | hc
  · rw [e1, e2]
    refine ⟨by linarith, by linarith, by linarith, by linarith⟩
  · refine ⟨by linarith, by linarith, by linarith, by linarith⟩

theorem near_of_model {c : Call} (hP : PureInteger c.P) (ht : 0 ≤ c.tol) (hf : (passes c).infeas = 0) {x : Nat → ℚ}
    (hm : Box c.P.nCols (modelLo c) (modelUp c) x) : Near c.P.nCols (slop c) (passes c).lo (passes c).up x := by
  intro j hj
  have s1 : 1/100000 ≤ slop c := le_max_left ..
  have s2 : 100 * c.tol ≤ slop c := le_max_right ..
  by_cases h : moves c j = true
  · have hb := hm j hj
    simp only [modelLo, modelUp, newLo, newUp, if_pos h, if_pos (hP.int j hj)] at hb
    have e1 := intLo_ge ((passes c).lo j)
    have e2 := intUp_le ((passes c).up j)
    exact ⟨fun _ => by linarith [hb.1], fun _ => by linarith [hb.2]⟩
  · obtain ⟨e1, e2, e3, e4⟩ := fixed_near ht hf (box1_of_model hP hm) hj h
    exact ⟨fun _ => by linarith, fun _ => by linarith⟩

end Cgl.PreTighten
