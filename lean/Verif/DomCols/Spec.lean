import Verif.DomCols.Model
import Mathlib.Algebra.BigOperators.Group.Finset.Basic

/-! # The value of the objective, and what is assumed about the data -/

namespace Cgl.DomCols

/-- The objective at a point. -/
def value (n : Nat) (cost x : Nat → ℚ) : ℚ := ∑ j ∈ Finset.range n, cost j * x j

/-- The problem is stored as usual: columns of rows exist and are not repeated, no stored element is 0, infinity is
`COIN_DBL_MAX`, upper bounds of rows are at most that, an upper bound of a column is below 1e20 or infinite, and that of an integer
column is an integer or infinite. -/
structure Tidy (P : Prob) : Prop where
  wf : P.WF
  nonzero : ∀ r ∈ P.rows, ∀ p ∈ r.coefs, p.2 ≠ 0
  inf : P.inf = dblMax
  rowUpper : ∀ r ∈ P.rows, r.ub ≤ dblMax
  colUpper : ∀ j < P.nCols, P.colUpper j < 10 ^ 20 ∨ dblMax ≤ P.colUpper j
  intUpper : ∀ j < P.nCols, P.isInt j = true → IsInteger (P.colUpper j) ∨ dblMax ≤ P.colUpper j

/-- No column may be negative. -/
def NonNegative (P : Prob) : Prop := ∀ j < P.nCols, 0 ≤ P.colLower j

/-- A column with a negative cost is in a row with a continuous column. -/
def NoGain (P : Prob) (cost : Nat → ℚ) : Prop :=
  ∀ j < P.nCols, 0 ≤ cost j ∨ ∃ r ∈ P.rows, (∃ p ∈ r.coefs, p.1 = j) ∧ ∃ q ∈ r.coefs, P.isInt q.1 = false

/-- `COIN_DBL_MAX` is positive, so the lower bounds of `NonNegative` are bounds. -/
theorem neg_lt (P : Prob) (h : Tidy P) : -P.inf < 0 := by rw [h.inf]; linarith [dblMax_pos]

end Cgl.DomCols
