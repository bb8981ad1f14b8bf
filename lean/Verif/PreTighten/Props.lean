import Verif.PreTighten.Final

/-!
# Properties of the bound tightening of the preprocessor
-/

namespace Cgl.PreTighten

/-- Bound tightening keeps the feasible points: if the problem has a feasible point then the return value is not
negative, the point is within the new bounds of the integer columns and within 1e-8 of those of the continuous columns;
and it is feasible for the new model if it is within the new bounds of the continuous columns. -/
theorem tighten_keeps_feasible {c : Call} (hc : Setting c) {x : Nat → ℚ} (hp : Point c.P x) (hx : c.P.Feasible x) :
    0 ≤ (tightenPrimalBounds c).ret ∧
    (∀ j < c.P.nCols, c.P.isInt j = true →
      (tightenPrimalBounds c).prob.colLower j ≤ x j ∧ x j ≤ (tightenPrimalBounds c).prob.colUpper j) ∧
    (∀ j < c.P.nCols, (tightenPrimalBounds c).prob.colLower j - 1/100000000 ≤ x j ∧
      x j ≤ (tightenPrimalBounds c).prob.colUpper j + 1/100000000) ∧
    ((∀ j < c.P.nCols, c.P.isInt j = false →
        (tightenPrimalBounds c).prob.colLower j ≤ x j ∧ x j ≤ (tightenPrimalBounds c).prob.colUpper j) →
      (tightenPrimalBounds c).prob.Feasible x) := by
  obtain ⟨h1, h2, _⟩ := passes_keeps hc hp hx
  rw [feasible_finished hc hp hx]
  refine ⟨finished_ret c, fun j hj hi => (model_box hx.int h1 h2.1 hj).1 hi,
    fun j hj => (model_box hx.int h1 h2.1 hj).2, fun h => ?_⟩
  refine keeps_of_box hc hp hx fun j hj => ?_
  by_cases hi : c.P.isInt j = true
  · exact (model_box hx.int h1 h2.1 hj).1 hi
  · exact h j hj (by simpa using hi)

/-- A negative return value means that the problem has no feasible point. -/
theorem tighten_negative_infeasible {c : Call} (hc : Setting c) (hr : (tightenPrimalBounds c).ret < 0) :
    ¬ ∃ x, Point c.P x ∧ c.P.Feasible x := by
  rintro ⟨x, hp, hx⟩
  exact absurd (tighten_keeps_feasible hc hp hx).1 (not_le.mpr hr)

/-- For a problem in integer columns with integral data, and a tolerance that is small in proportion to the
coefficients, the new model has exactly the feasible points of the problem. -/
theorem tighten_same_points_partial {c : Call} (hc : Setting c) (hP : PureInteger c.P) (ht : SmallTolerance c)
    (hr : 0 ≤ (tightenPrimalBounds c).ret) {x : Nat → ℚ} (hp : Point c.P x) :
    (tightenPrimalBounds c).prob.Feasible x ↔ c.P.Feasible x := by
  constructor
  · intro h
    obtain ⟨e, h1, _⟩ := ret_nonneg hr
    rw [e] at h
    exact finished_back hc hP ht h1 hp h
  · intro h
    refine (tighten_keeps_feasible hc hp h).2.2.2 fun j hj hi => ?_
    rw [hP.int j hj] at hi
    exact absurd hi (by simp)

/-- The new model has the columns and the rows of the problem; its column bounds are never looser than those of the
problem by more than 1e-5. -/
theorem tighten_shape {c : Call} (hc : Setting c) :
    (tightenPrimalBounds c).prob.nCols = c.P.nCols ∧ (tightenPrimalBounds c).prob.isInt = c.P.isInt ∧
    (tightenPrimalBounds c).prob.rows.length = c.P.rows.length ∧
    (∀ j, c.P.colLower j - 1/100000 ≤ (tightenPrimalBounds c).prob.colLower j ∧
      (tightenPrimalBounds c).prob.colUpper j ≤ c.P.colUpper j + 1/100000) := by
  have hl := (passes_entries hc).length_eq
  have hrest : ∀ n, (restored c n).prob.nCols = c.P.nCols ∧ (restored c n).prob.isInt = c.P.isInt ∧
      (restored c n).prob.rows.length = c.P.rows.length ∧ (∀ j, c.P.colLower j - 1/100000 ≤ (restored c n).prob.colLower j ∧
        (restored c n).prob.colUpper j ≤ c.P.colUpper j + 1/100000) := by
    intro n
    refine ⟨rfl, rfl, ?_, fun j => ⟨?_, ?_⟩⟩
    · simp [restored, withBounds, hl]
    · simp only [restored]; linarith [lo1_ge c j]
    · simp only [restored]; linarith [up1_le c j]
  unfold tightenPrimalBounds
  split
  · exact hrest _
  · split
    · exact hrest _
    · refine ⟨rfl, rfl, ?_, fun j => model_bounds c j⟩
      simp only [finished]
      split
      · simp [strengthened, hl]
      · simp [withBounds, strengthened, hl]

end Cgl.PreTighten
