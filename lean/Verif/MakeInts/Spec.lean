import Verif.MakeInts.Model
import Verif.PreInteger.Spec

/-! # What is assumed when `makeIntegers2` declares columns integer -/

namespace Cgl.MakeInts

open PreInteger (Objective)

/-- A number that is an integer if it is within 1e-10 of one. -/
def Crisp (v : ℚ) : Prop := (∃ z : ℤ, |v - z| ≤ 1 / 10 ^ 10) → IsInteger v

/-- The part of a row that fixed columns contribute. -/
def fixedPart (P : Prob) (r : Row) : ℚ :=
  (r.coefs.map fun p => if P.colUpper p.1 = P.colLower p.1 then P.colLower p.1 * p.2 else 0).sum

/-- What is assumed about the numbers: bounds do not cross, fixed columns and equations are finite, finite row bounds and the
part of fixed columns stay within 1e20, numbers that are within 1e-10 of an integer are integers, and so are bounds of columns
beyond 1e10. -/
structure Clean (P : Prob) : Prop where
  wf : P.WF
  inf : 10 ^ 20 ≤ P.inf
  order : ∀ j < P.nCols, P.colLower j ≤ P.colUpper j
  fixed : ∀ j < P.nCols, P.colUpper j = P.colLower j → -P.inf < P.colLower j ∧ P.colUpper j < P.inf
  coefs : ∀ r ∈ P.rows, ∀ p ∈ r.coefs, Crisp p.2
  colBounds : ∀ j < P.nCols, Crisp (P.colLower j) ∧ Crisp (P.colUpper j)
  large : ∀ j < P.nCols, (10 ^ 10 ≤ |P.colLower j| → IsInteger (P.colLower j)) ∧
    (10 ^ 10 ≤ |P.colUpper j| → IsInteger (P.colUpper j))
  rowBounds : ∀ r ∈ P.rows, Crisp (fixedPart P r) ∧ Crisp (r.lb - fixedPart P r) ∧ Crisp (r.ub - fixedPart P r)
  parts : ∀ r ∈ P.rows, |fixedPart P r| < 10 ^ 20
  lowers : ∀ r ∈ P.rows, -P.inf < r.lb → -10 ^ 20 < r.lb ∧ -10 ^ 20 < r.lb - fixedPart P r
  uppers : ∀ r ∈ P.rows, r.ub < P.inf → r.ub < 10 ^ 20 ∧ r.ub - fixedPart P r < 10 ^ 20
  equations : ∀ r ∈ P.rows, r.lb = r.ub → -P.inf < r.lb ∧ r.ub < P.inf

/-- A continuous column that is not fixed. -/
def Continuous (P : Prob) (j : Nat) : Prop := P.colLower j < P.colUpper j ∧ P.isInt j = false

/-- No continuous column that the code passes over shares a row with another continuous column.  Passed over are columns
without cost; with `all` those only if they are in exactly one row. -/
def NoIdle (all : Bool) (P : Prob) (O : Objective) : Prop :=
  ∀ r ∈ P.rows, ∀ p ∈ r.coefs, ∀ q ∈ r.coefs, p.1 ≠ q.1 → Continuous P p.1 → Continuous P q.1 →
    O.coef p.1 ≠ 0 ∨ (all = true ∧ (P.rows.flatMap fun r => r.coefs.map Prod.fst).count p.1 ≠ 1)

end Cgl.MakeInts
