import Verif.PreInteger.Model

/-! # What it means that continuous columns may be declared integer -/

namespace Cgl.PreInteger

/-- The objective value of a point. -/
def value (P : Prob) (O : Objective) (x : Nat → ℚ) : ℚ := ((List.range P.nCols).map fun j => O.coef j * x j).sum

/-- The problem with other types of the columns. -/
def retype (P : Prob) (isInt : Nat → Bool) : Prob := { P with isInt := isInt }

/-- The columns may have the types `isInt` instead of their own: all points that are feasible with the new types are
feasible, and for every feasible point there is one that is feasible with the new types, is at least as good, and has the
same values in the columns that are integer anyway. -/
structure Harmless (P : Prob) (O : Objective) (isInt : Nat → Bool) : Prop where
  feasible : ∀ x, (retype P isInt).Feasible x → P.Feasible x
  dominated : ∀ x, P.Feasible x → ∃ y, (retype P isInt).Feasible y ∧
    O.direction * value P O y ≤ O.direction * value P O x ∧ ∀ j < P.nCols, P.isInt j = true → y j = x j

/-- A number that is an integer if it is within 1e-12 of one. -/
def Crisp (v : ℚ) : Prop := (∃ z : ℤ, |v - z| ≤ 1 / 10 ^ 12) → IsInteger v

/-- The part of a row that fixed columns contribute. -/
def fixedPart (P : Prob) (r : Row) : ℚ :=
  (r.coefs.map fun p => if P.colLower p.1 + 1 / 10 ^ 8 < P.colUpper p.1 then 0 else P.colLower p.1 * p.2).sum

/-- What is assumed about the numbers: infinity is 1e20, fixed columns are fixed exactly, numbers that are within 1e-12 of
an integer are integers, and row bounds are not beyond infinity on the wrong side. -/
structure Clean (P : Prob) : Prop where
  inf : P.inf = 10 ^ 20
  wf : P.WF
  fixed : ∀ j < P.nCols, P.colUpper j ≤ P.colLower j + 1 / 10 ^ 8 →
    P.colUpper j ≤ P.colLower j ∧ -10 ^ 20 < P.colLower j ∧ P.colUpper j < 10 ^ 20
  coefs : ∀ r ∈ P.rows, ∀ p ∈ r.coefs, Crisp p.2 ∧ Crisp (1 / p.2)
  rowBounds : ∀ r ∈ P.rows, Crisp (r.lb - fixedPart P r) ∧ Crisp (r.ub - fixedPart P r)
  colBounds : ∀ j < P.nCols, Crisp (P.colLower j) ∧ Crisp (P.colUpper j)
  noLower : ∀ r ∈ P.rows, r.lb ≤ -10 ^ 20 → r.lb < r.ub ∧ r.lb < r.ub - fixedPart P r
  noUpper : ∀ r ∈ P.rows, 10 ^ 20 ≤ r.ub → r.lb < r.ub ∧ r.lb - fixedPart P r < r.ub

/-- No column in an equation with coefficients 1 and -1 of two nonnegative continuous columns is in another row. -/
def PairsAlone (P : Prob) : Prop :=
  ∀ r ∈ P.rows, r.lb = r.ub → ∀ p ∈ r.coefs, ∀ q ∈ r.coefs, P.isInt p.1 = false → P.isInt q.1 = false →
    |p.2| = 1 → p.2 * q.2 = -1 → P.colLower p.1 = 0 → P.colLower q.1 = 0 →
    ((P.rows.flatMap fun r => r.coefs.map Prod.fst).count p.1 = 1 ∧
      (P.rows.flatMap fun r => r.coefs.map Prod.fst).count q.1 = 1)

/-- With the columns `T` integer, a row forces its column `j` to be integral if it is an equation, and stops it only at
integers otherwise: all other columns that are not fixed are integer with integer coefficients, the coefficient of `j` is
the reciprocal of an integer, and the bounds of the row are integers after the fixed columns have been subtracted. -/
structure Settles (P : Prob) (T : Nat → Bool) (r : Row) (j : Nat) (c : ℚ) : Prop where
  mem : (j, c) ∈ r.coefs
  others : ∀ p ∈ r.coefs, p.1 ≠ j → P.colLower p.1 + 1 / 10 ^ 8 < P.colUpper p.1 → T p.1 = true ∧ IsInteger p.2
  coef : 1 / 10 ^ 3 < |c| ∧ IsInteger (1 / c)
  lower : -10 ^ 20 < r.lb → IsInteger (r.lb - fixedPart P r)
  upper : r.ub < 10 ^ 20 → IsInteger (r.ub - fixedPart P r)

/-- The number of columns that are integer now and were not. -/
def added (P : Prob) (T : Nat → Bool) : Nat := (List.range P.nCols).countP fun j => T j && !P.isInt j

end Cgl.PreInteger
