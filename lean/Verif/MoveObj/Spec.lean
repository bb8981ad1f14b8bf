import Verif.MoveObj.Model
import Mathlib.Algebra.BigOperators.Group.Finset.Basic

/-! # The value of an objective, and what is assumed about the data -/

namespace Cgl.MoveObj

/-- The value of an objective at a point: costs times values, minus the offset. -/
def value (n : Nat) (o : Obj) (x : Nat → ℚ) : ℚ := (∑ j ∈ Finset.range n, o.cost j * x j) - o.offset

/-- Columns of rows exist and are not repeated, no coefficient that is stored is zero, and equations have finite right hand
sides. -/
structure Tidy (P : Prob) : Prop where
  wf : P.WF
  nonzero : ∀ r ∈ P.rows, ∀ p ∈ r.coefs, p.2 ≠ 0
  finite : ∀ r ∈ P.rows, r.lb = r.ub → |r.lb| < P.inf

/-- A row for which the sign of the offset is right: the right hand side is 0, or the costs of the columns that are not fixed have
the signs of their coefficients (or are 0). -/
def RightSign (P : Prob) (cost : Nat → ℚ) (r : Row) : Prop :=
  r.lb = 0 ∨ ∀ p ∈ r.coefs, P.colLower p.1 < P.colUpper p.1 → 0 ≤ cost p.1 * p.2 ∧ -dblMax < cost p.1

instance (P : Prob) (cost : Nat → ℚ) (r : Row) : Decidable (RightSign P cost r) := by unfold RightSign; infer_instance

/-- The sign is right for every row when its turn comes. -/
def RightSigns (P : Prob) : List Row → Obj → Prop
  | [], _ => True
  | r :: l, o => RightSign P o.cost r ∧ RightSigns P l (moveRow P o r)

instance decRightSigns (P : Prob) : ∀ (l : List Row) (o : Obj), Decidable (RightSigns P l o)
  | [], _ => isTrue trivial
  | r :: l, o => by
    have := decRightSigns P l (moveRow P o r)
    unfold RightSigns; infer_instance

end Cgl.MoveObj
