import Verif.ZeroHalf.Model

/-!
# Zero-half cuts: what the theorems talk about
-/

namespace Cgl.ZeroHalf

/-- The problem a call works on: the rows of the last `refreshSolver`, the column bounds of the call. -/
def atCall (P0 P : Prob) : Prob where
  nCols := P0.nCols
  inf := P0.inf
  colLower := P.colLower
  colUpper := P.colUpper
  isInt := P0.isInt
  rows := P0.rows

/-- No coefficient of a row is within 1e-15 of an integer without being that integer. -/
def ExactCoefs (P : Prob) : Prop :=
  ∀ r ∈ P.rows, ∀ p ∈ r.coefs, ∀ z : ℤ, |p.2 - z| ≤ 1 / 10 ^ 15 → p.2 = z

/-- Where a bound of an integer column does not fit an `int`, the LP value is more than one away from the largest
number that does. -/
def BoundsFit (P : Prob) (x : Nat → ℚ) : Prop :=
  ∀ j < P.nCols, P.isInt j = true →
    (-(intMax : ℚ) ≤ P.colLower j ∨ -(intMax : ℚ) + 1 < x j) ∧ (P.colUpper j ≤ intMax ∨ x j < intMax - 1)

/-- A history after the last `refreshSolver`: no further one, and no call with a lower bound of an integer column
above INT_MAX - 1. -/
def Tame (P0 : Prob) (ops : List Op) : Prop :=
  ∀ op ∈ ops, match op with
    | .refresh _ => False
    | .generate _ P _ _ => ∀ j < P0.nCols, P0.isInt j = true → P.colLower j ≤ intMax - 1
    | _ => True

/-- A history in which every call was made with the flag for global cuts. -/
def GlobalOnly : Obj → List Op → Prop
  | _, [] => True
  | o, .generate e P x cs :: t => o.glob = true ∧ ∀ o', step o (.generate e P x cs) = .ok o' → GlobalOnly o' t
  | o, op :: t => ∀ o', step o op = .ok o' → GlobalOnly o' t

/-- A cut as users see it: an upper bound only, integers throughout, columns in increasing order, no zero
coefficient, integer columns only. -/
structure Neat (P : Prob) (c : RowCut) : Prop where
  lb : c.lb = -dblMax
  ub : IsInteger c.ub
  coef : ∀ p ∈ c.row, IsInteger p.2 ∧ p.2 ≠ 0
  sorted : (c.row.map Prod.fst).Pairwise (· < ·)
  cols : ∀ p ∈ c.row, p.1 < P.nCols ∧ P.isInt p.1 = true

/-- A finite bound counts with its size, one that does not fit an `int` not at all. -/
def size (b : ℚ) : ℚ := if |b| ≤ intMax then |b| else 0

/-- The numbers of the problem are small enough for `int` arithmetic: the coefficients of every column, the row
bounds and the column bounds add up to less than INT_MAX. -/
structure Small (P0 P : Prob) : Prop where
  coefs : (P0.rows.map fun r => (r.coefs.map fun p => 2 * (|p.2| + 1)).sum).sum + 1 ≤ (intMax : ℚ)
  rhs : (P0.rows.map fun r => size r.lb + size r.ub + 2).sum +
    ((List.range P0.nCols).map fun j => size (P.colLower j) + size (P.colUpper j) + 2).sum ≤ intMax

end Cgl.ZeroHalf
