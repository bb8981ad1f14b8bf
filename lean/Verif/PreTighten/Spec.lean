import Verif.PreTighten.Model

/-!
# Specification of the bound tightening of the preprocessor

What the theorems assume about the problem and about the points, in terms of the problem only.
-/

namespace Cgl.PreTighten

/-- A row bound is infinite or of moderate size. -/
def RowBounds (inf : ℚ) (r : Row) : Prop :=
  (r.lb ≤ -inf ∨ |r.lb| ≤ 10 ^ 19) ∧ (inf ≤ r.ub ∨ |r.ub| ≤ 10 ^ 19)

instance (inf : ℚ) (r : Row) : Decidable (RowBounds inf r) := by unfold RowBounds; infer_instance

/-- An ordinary problem in a solver whose infinity is at least 1e100: no explicit zeros, row bounds infinite or of
moderate size; the sort sorts by increasing coefficient. -/
structure Setting (c : Call) : Prop where
  wf : c.P.WF
  nonzero : ∀ r ∈ c.P.rows, ∀ p ∈ r.coefs, p.2 ≠ 0
  bounds : ∀ r ∈ c.P.rows, RowBounds c.P.inf r
  tol : 0 ≤ c.tol
  inf : 10 ^ 100 ≤ c.P.inf ∧ c.P.inf ≤ dblMax
  perm : ∀ es, (c.srt es).Perm es
  sort : ∀ es, (c.srt es).Pairwise fun p q => p.2 ≤ q.2

/-- A point with finite values that does not produce sums of more than 1e19. -/
structure Point (P : Prob) (x : Nat → ℚ) : Prop where
  finite : ∀ j < P.nCols, |x j| < P.inf
  moderate : ∀ r ∈ P.rows, (r.coefs.map fun p => |p.2| * (|x p.1| + 1)).sum ≤ 10 ^ 19

/-- A problem in integer columns with integral data. -/
structure PureInteger (P : Prob) : Prop where
  int : ∀ j < P.nCols, P.isInt j = true
  lower : ∀ j < P.nCols, IsInteger (P.colLower j)
  upper : ∀ j < P.nCols, IsInteger (P.colUpper j)
  coefs : ∀ r ∈ P.rows, ∀ p ∈ r.coefs, IsInteger p.2
  lb : ∀ r ∈ P.rows, -P.inf < r.lb → IsInteger r.lb
  ub : ∀ r ∈ P.rows, r.ub < P.inf → IsInteger r.ub

/-- The tolerance, and the coefficients of a row in proportion to it and to the 1e-5 by which the function rounds. -/
structure SmallTolerance (c : Call) : Prop where
  tol : c.tol < 1
  rows : ∀ r ∈ c.P.rows,
    c.tol + max (1/100000) (100 * c.tol) * (r.coefs.map fun p => |p.2|).sum < 1

end Cgl.PreTighten
