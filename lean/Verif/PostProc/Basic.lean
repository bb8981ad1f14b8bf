import Verif.PostProc.Spec

/-!
# Facts about the loops of `postProcess`
-/

namespace Cgl.PostProc

/-- Only bounds differ. -/
def Rebound (S S' : Solver) : Prop :=
  S' = { S with prob := { S.prob with colLower := S'.prob.colLower, colUpper := S'.prob.colUpper } }

theorem Rebound.refl (S : Solver) : Rebound S S := rfl

theorem Rebound.trans {A B C : Solver} (h : Rebound A B) (g : Rebound B C) : Rebound A C := by
  unfold Rebound at *
  rw [g, h]

theorem rebound_setLower (S : Solver) (j v) : Rebound S (setLower S j v) := rfl
theorem rebound_setUpper (S : Solver) (j v) : Rebound S (setUpper S j v) := rfl

theorem Rebound.isInt {A B : Solver} (h : Rebound A B) : B.prob.isInt = A.prob.isInt := by rw [h]
theorem Rebound.nCols {A B : Solver} (h : Rebound A B) : B.prob.nCols = A.prob.nCols := by rw [h]
theorem Rebound.rows {A B : Solver} (h : Rebound A B) : B.prob.rows = A.prob.rows := by rw [h]
theorem Rebound.inf {A B : Solver} (h : Rebound A B) : B.prob.inf = A.prob.inf := by rw [h]
theorem Rebound.sol {A B : Solver} (h : Rebound A B) : B.sol = A.sol := by rw [h]
theorem Rebound.obj {A B : Solver} (h : Rebound A B) : B.obj = A.obj := by rw [h]
theorem Rebound.sense {A B : Solver} (h : Rebound A B) : B.sense = A.sense := by rw [h]
theorem Rebound.tol {A B : Solver} (h : Rebound A B) : B.tol = A.tol := by rw [h]
theorem Rebound.hintPresolve {A B : Solver} (h : Rebound A B) : B.hintPresolve = A.hintPresolve := by rw [h]
theorem Rebound.hintDual {A B : Solver} (h : Rebound A B) : B.hintDual = A.hintDual := by rw [h]

theorem rebound_fold (st : Solver → Nat → Solver) (h : ∀ S i, Rebound S (st S i)) (l : List Nat) (S : Solver) :
    Rebound S (l.foldl st S) := by
  induction l generalizing S with
  | nil => exact Rebound.refl S
  | cons i l ih => exact (h S i).trans (ih _)

@[simp] theorem setLower_lower (S : Solver) (j v) : (setLower S j v).prob.colLower j = v := by
  unfold setLower; exact Function.update_self ..
@[simp] theorem setUpper_upper (S : Solver) (j v) : (setUpper S j v).prob.colUpper j = v := by
  unfold setUpper; exact Function.update_self ..
@[simp] theorem setLower_upper (S : Solver) (j v) : (setLower S j v).prob.colUpper = S.prob.colUpper := rfl
@[simp] theorem setUpper_lower (S : Solver) (j v) : (setUpper S j v).prob.colLower = S.prob.colLower := rfl
@[simp] theorem setLower_sol (S : Solver) (j v) : (setLower S j v).sol = S.sol := rfl
@[simp] theorem setUpper_sol (S : Solver) (j v) : (setUpper S j v).sol = S.sol := rfl
@[simp] theorem setLower_isInt (S : Solver) (j v) : (setLower S j v).prob.isInt = S.prob.isInt := rfl
@[simp] theorem setUpper_isInt (S : Solver) (j v) : (setUpper S j v).prob.isInt = S.prob.isInt := rfl
theorem setLower_ne (S : Solver) (j v) {i} (h : i ≠ j) : (setLower S j v).prob.colLower i = S.prob.colLower i := by
  unfold setLower; exact Function.update_of_ne h ..
theorem setUpper_ne (S : Solver) (j v) {i} (h : i ≠ j) : (setUpper S j v).prob.colUpper i = S.prob.colUpper i := by
  unfold setUpper; exact Function.update_of_ne h ..

/-- A step of a loop over the columns: it changes only the bounds of its own column, and only looks at them. -/
structure Local (st : Solver → Nat → Solver) : Prop where
  rebound : ∀ S i, Rebound S (st S i)
  other : ∀ S i j, j ≠ i → (st S i).prob.colLower j = S.prob.colLower j ∧ (st S i).prob.colUpper j = S.prob.colUpper j
  looks : ∀ S S' i, S.prob.colLower i = S'.prob.colLower i → S.prob.colUpper i = S'.prob.colUpper i →
    S.prob.isInt = S'.prob.isInt → (st S i).prob.colLower i = (st S' i).prob.colLower i ∧
      (st S i).prob.colUpper i = (st S' i).prob.colUpper i

theorem Local.fold_notMem {st} (h : Local st) (l : List Nat) (S : Solver) (j : Nat) (hj : j ∉ l) :
    (l.foldl st S).prob.colLower j = S.prob.colLower j ∧ (l.foldl st S).prob.colUpper j = S.prob.colUpper j := by
  induction l generalizing S with
  | nil => exact ⟨rfl, rfl⟩
  | cons i l ih =>
    simp only [List.mem_cons, not_or] at hj
    have := ih (st S i) hj.2
    have h2 := h.other S i j hj.1
    exact ⟨this.1.trans h2.1, this.2.trans h2.2⟩

theorem Local.fold_mem {st} (h : Local st) (l : List Nat) (hl : l.Nodup) (S : Solver) (j : Nat) (hj : j ∈ l) :
    (l.foldl st S).prob.colLower j = (st S j).prob.colLower j ∧
      (l.foldl st S).prob.colUpper j = (st S j).prob.colUpper j := by
  induction l generalizing S with
  | nil => cases hj
  | cons i l ih =>
    rw [List.nodup_cons] at hl
    by_cases hij : j = i
    · subst hij
      exact h.fold_notMem l (st S j) j hl.1
    · have hm : j ∈ l := by
        rcases List.mem_cons.mp hj with h | h
        · exact absurd h hij
        · exact h
      have := ih hl.2 (st S i) hm
      have h2 := h.other S i j hij
      have h3 := h.looks (st S i) S j h2.1 h2.2 (h.rebound S i).isInt
      exact ⟨this.1.trans h3.1, this.2.trans h3.2⟩

theorem Local.range {st} (h : Local st) (n : Nat) (S : Solver) (j : Nat) (hj : j < n) :
    ((List.range n).foldl st S).prob.colLower j = (st S j).prob.colLower j ∧
      ((List.range n).foldl st S).prob.colUpper j = (st S j).prob.colUpper j :=
  h.fold_mem _ List.nodup_range S j (List.mem_range.mpr hj)

theorem rebound_copyFixed (M S : Solver) (i) : Rebound S (copyFixed M S i) := by
  unfold copyFixed
  split
  · exact (rebound_setUpper ..).trans (rebound_setLower ..)
  · exact Rebound.refl S

theorem rebound_scSet (low v) (S : Solver) (j) : Rebound S (scSet low v S j) := by
  unfold scSet
  split
  · exact rebound_setUpper ..
  · exact rebound_setLower ..

theorem rebound_passColumn (sc orig) (M S : Solver) (i) : Rebound S (passColumn sc orig M S i) := by
  unfold passColumn
  split
  · split
    · exact (rebound_setLower ..).trans (rebound_setUpper ..)
    · exact Rebound.refl S
  · split
    · exact rebound_copyFixed ..
    · split
      · exact rebound_copyFixed ..
      · exact rebound_scSet ..

theorem rebound_backColumn (sc orig cols) (M S : Solver) (i) : Rebound S (backColumn sc orig cols M S i) := by
  unfold backColumn
  dsimp only
  split
  · split
    · split
      · exact (rebound_setLower ..).trans (rebound_setUpper ..)
      · exact Rebound.refl S
    · split
      · exact Rebound.refl S
      · split
        · exact Rebound.refl S
        · exact rebound_scSet ..
  · split
    · exact rebound_setLower ..
    · split
      · exact rebound_setUpper ..
      · exact Rebound.refl S

theorem rebound_fixColumn (M S : Solver) (j) : Rebound S (fixColumn M S j) := by
  unfold fixColumn
  split
  · split
    · exact (rebound_setLower ..).trans (rebound_setUpper ..)
    · exact Rebound.refl S
  · exact rebound_copyFixed ..

theorem rebound_lowerColumn (S : Solver) (j) : Rebound S (lowerColumn S j) := by
  unfold lowerColumn
  split
  · exact rebound_setUpper ..
  · exact Rebound.refl S

theorem rebound_lastColumn (sc) (S : Solver) (j) : Rebound S (lastColumn sc S j) := by
  unfold lastColumn
  split
  · exact Rebound.refl S
  · split
    · exact Rebound.refl S
    · exact rebound_setLower ..

theorem rebound_scColumn (sc oc sol) (S : Solver) (j) : Rebound S (scColumn sc oc sol S j) := by
  unfold scColumn
  split
  · exact Rebound.refl S
  · exact rebound_scSet ..

theorem rebound_lastColumns (sc) (S : Solver) : Rebound S (lastColumns sc S) := by
  unfold lastColumns
  split
  · exact Rebound.refl S
  · exact rebound_fold _ (rebound_lastColumn _) _ _

theorem copyFixed_other (M S : Solver) (i j) (h : j ≠ i) :
    (copyFixed M S i).prob.colLower j = S.prob.colLower j ∧ (copyFixed M S i).prob.colUpper j = S.prob.colUpper j := by
  unfold copyFixed
  split
  · exact ⟨by rw [setLower_ne _ _ _ h, setUpper_lower], by rw [setLower_upper, setUpper_ne _ _ _ h]⟩
  · exact ⟨rfl, rfl⟩

/-- What `copyFixed` does to the bounds of its column. -/
theorem copyFixed_at (M S : Solver) (i) :
    ((copyFixed M S i).prob.colLower i = S.prob.colLower i ∧ (copyFixed M S i).prob.colUpper i = S.prob.colUpper i) ∨
    ((copyFixed M S i).prob.colLower i = M.prob.colLower i ∧ (copyFixed M S i).prob.colUpper i = M.prob.colLower i ∧
      M.prob.colUpper i = M.prob.colLower i) := by
  unfold copyFixed
  split
  · rename_i h
    exact Or.inr ⟨by simp, by simp, h.1⟩
  · exact Or.inl ⟨rfl, rfl⟩

theorem local_fixColumn (M : Solver) : Local (fixColumn M) where
  rebound := rebound_fixColumn M
  other := by
    intro S i j h
    unfold fixColumn
    split
    · split
      · exact ⟨by rw [setUpper_lower, setLower_ne _ _ _ h], by rw [setUpper_ne _ _ _ h, setLower_upper]⟩
      · exact ⟨rfl, rfl⟩
    · exact copyFixed_other M S i j h
  looks := by
    intro S S' i h1 h2 h3
    unfold fixColumn
    split
    · split
      · simp
      · exact ⟨h1, h2⟩
    · unfold copyFixed
      rw [h1, h2, h3]
      split
      · simp
      · exact ⟨h1, h2⟩

theorem local_lowerColumn : Local lowerColumn where
  rebound := rebound_lowerColumn
  other := by
    intro S i j h
    unfold lowerColumn
    split
    · exact ⟨rfl, setUpper_ne _ _ _ h⟩
    · exact ⟨rfl, rfl⟩
  looks := by
    intro S S' i h1 h2 h3
    unfold lowerColumn
    rw [h3]
    split
    · simp [h1]
    · exact ⟨h1, h2⟩

theorem local_lastColumn (sc) : Local (lastColumn sc) where
  rebound := rebound_lastColumn sc
  other := by
    intro S i j h
    unfold lastColumn
    split
    · exact ⟨rfl, rfl⟩
    · split
      · exact ⟨rfl, rfl⟩
      · exact ⟨setLower_ne _ _ _ h, rfl⟩
  looks := by
    intro S S' i h1 h2 h3
    unfold lastColumn
    rw [h1, h2]
    split
    · exact ⟨h1, h2⟩
    · split
      · exact ⟨h1, h2⟩
      · simp [h2]

/-! ### Rounding -/

theorem roundHalf_of {v : ℚ} {z : ℤ} (h1 : (z : ℚ) - 1 / 2 ≤ v) (h2 : v < z + 1 / 2) : roundHalf v = z := by
  have h : ⌊v + 1 / 2⌋ = z := Int.floor_eq_iff.mpr ⟨by linarith, by linarith⟩
  unfold roundHalf
  rw [h]

theorem roundHalf_near {v : ℚ} {z : ℤ} (h : |v - z| < 1 / 1000) : roundHalf v = z := by
  rw [abs_lt] at h
  exact roundHalf_of (by linarith [h.1]) (by linarith [h.2])

theorem near_of {v : ℚ} {z : ℤ} (h : |v - z| < 1 / 1000) : near v := by
  unfold near
  rw [roundHalf_near h]; exact h

theorem roundHalf_int (v : ℚ) : ∃ z : ℤ, roundHalf v = z ∧ (z : ℚ) - 1 / 2 ≤ v ∧ v < z + 1 / 2 := by
  refine ⟨⌊v + 1 / 2⌋, rfl, ?_, ?_⟩
  · have := Int.floor_le (v + 1 / 2); linarith
  · have := Int.lt_floor_add_one (v + 1 / 2); linarith

/-! ### Bounds inside bounds -/

/-- Same columns, and the bounds of `A` are inside those of `B`. -/
def Sub (A B : Solver) : Prop :=
  A.prob.nCols = B.prob.nCols ∧ A.prob.isInt = B.prob.isInt ∧
    ∀ j < A.prob.nCols, B.prob.colLower j ≤ A.prob.colLower j ∧ A.prob.colUpper j ≤ B.prob.colUpper j

theorem Sub.refl (A : Solver) : Sub A A := ⟨rfl, rfl, fun _ _ => ⟨le_refl _, le_refl _⟩⟩

theorem Inside.sub {cols} {A A' B : Solver} (h : Inside cols A B) (g : Sub A' A) : Inside cols A' B := by
  intro i hi hb
  obtain ⟨g1, -, g3⟩ := g
  have h1 := h i (g1 ▸ hi) hb
  have h2 := g3 i hi
  exact ⟨h1.1.trans h2.1, h2.2.trans h1.2⟩

theorem lbOk_mono {inf a b v : ℚ} (h : a ≤ b) (hb : lbOk inf b v) : lbOk inf a v :=
  fun ha => h.trans (hb (lt_of_lt_of_le ha h))

theorem ubOk_mono {inf a b v : ℚ} (h : b ≤ a) (hb : ubOk inf b v) : ubOk inf a v :=
  fun ha => (hb (lt_of_le_of_lt h ha)).trans h

end Cgl.PostProc
