import Verif.Vub.Model
import Mathlib.Algebra.BigOperators.Group.Finset.Basic

/-! # The value of the objective, and what is assumed about the data -/

namespace Cgl.Vub

/-- The objective at a point. -/
def value (n : Nat) (cost x : Nat → ℚ) : ℚ := ∑ j ∈ Finset.range n, cost j * x j

/-- The problem is stored as usual: columns of rows exist and are not repeated, infinity is `COIN_DBL_MAX`, and a bound beyond 1e20
is infinite. -/
structure Tidy (P : Prob) : Prop where
  wf : P.WF
  inf : P.inf = dblMax
  rowLower : ∀ r ∈ P.rows, r.lb < -10 ^ 20 → r.lb ≤ -dblMax
  rowUpper : ∀ r ∈ P.rows, 10 ^ 20 < r.ub → dblMax ≤ r.ub
  colUpper : ∀ j < P.nCols, 10 ^ 20 < P.colUpper j → dblMax ≤ P.colUpper j

/-- A row with two columns: integer columns have finite integer bounds, and a continuous column without infinite upper bound has the
coefficient 1 or -1 and an integer upper bound. -/
def RowOk (P : Prob) (r : Row) : Prop :=
  r.coefs.length = 2 → ∀ p ∈ r.coefs,
    (P.isInt p.1 = true → IsInteger (P.colLower p.1) ∧ IsInteger (P.colUpper p.1) ∧ -dblMax < P.colLower p.1 ∧
      P.colUpper p.1 < dblMax) ∧
    (P.isInt p.1 = false → 10 ^ 20 < P.colUpper p.1 ∨ ((p.2 = 1 ∨ p.2 = -1) ∧ IsInteger (P.colUpper p.1)))

instance (P : Prob) (r : Row) : Decidable (RowOk P r) := by unfold RowOk; infer_instance

end Cgl.Vub
