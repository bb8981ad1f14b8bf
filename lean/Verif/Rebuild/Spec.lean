import Verif.Rebuild.Model
import Verif.TreeInfo.Spec

/-! # What is assumed about the answers of the generators -/

namespace Cgl.Rebuild

open TreeInfo (Info implied sequence oneFixes bit)

/-- Column bounds and integrality. -/
structure Box (P : Prob) (x : Nat → ℚ) : Prop where
  lower : ∀ j < P.nCols, lbOk P.inf (P.colLower j) (x j)
  upper : ∀ j < P.nCols, ubOk P.inf (P.colUpper j) (x j)
  int : ∀ j < P.nCols, P.isInt j = true → IsInteger (x j)

/-- A coefficient that passes for a multiple of 1/120 is one. -/
def Crisp (v : ℚ) : Prop := |v * 120 - (⌊v * 120 + 1 / 2⌋ : ℤ)| ≤ 1 / 10 ^ 12 → v * 120 = (⌊v * 120 + 1 / 2⌋ : ℤ)

/-- What is assumed about the numbers: infinity is between 1e20 and the largest `double`; bounds of rows are less than 1e20 in
size or infinite, also when fixed columns have been taken off; fixed columns have finite bounds; stored coefficients are not
zero and crisp. -/
structure Neat (P : Prob) : Prop where
  wf : P.WF
  inf : 10 ^ 20 ≤ P.inf
  infMax : P.inf ≤ dblMax
  rowBounds : ∀ r ∈ P.rows, (r.lb ≤ -10 ^ 20 → r.lb ≤ -P.inf) ∧ (10 ^ 20 ≤ r.ub → P.inf ≤ r.ub)
  moved : ∀ r ∈ P.rows, (-10 ^ 20 < r.lb → -10 ^ 20 ≤ r.lb - adjust P r.coefs) ∧ (r.ub < 10 ^ 20 → r.ub - adjust P r.coefs ≤ 10 ^ 20)
  fixedCols : ∀ j < P.nCols, P.colUpper j ≤ P.colLower j → -P.inf < P.colLower j ∧ P.colUpper j < P.inf
  coefs : ∀ r ∈ P.rows, ∀ p ∈ r.coefs, p.2 ≠ 0 ∧ Crisp p.2 ∧ Crisp (-p.2)

/-- The tables of implications are complete. -/
structure Complete (t : Info) : Prop where
  number : t.numberIntegers = t.integerVariable.length
  table : ∀ i < t.numberIntegers, ∀ up, ∃ es, implied t i up = some es

/-- The implications between columns of the table are true of a point with values 0 and 1. -/
structure TrueOf (t : Info) (x : Nat → ℚ) : Prop where
  binary : ∀ j ∈ t.integerVariable, x j = 0 ∨ x j = 1
  entry : ∀ (i j k : Nat) (up : Bool) (es : List TreeInfo.CliqueEntry) (e : TreeInfo.CliqueEntry),
    t.integerVariable[i]? = some j → implied t i up = some es → e ∈ es → t.integerVariable[sequence e]? = some k →
    x j = bit up → x k = bit (oneFixes e)

/-- The answer is right about the problem: a strengthened row holds for all solutions and implies the old row within the
bounds, rows to be dropped follow from the others, cuts are valid, implications are true, and the relaxation is declared
infeasible only if there is no solution. -/
structure Sound (P : Prob) (a : Answer) : Prop where
  cut : ∀ (k : Nat) (r : Row) (c : RowCut), P.rows[k]? = some r → a.cut k = some c →
    c.ValidIn P ∧ ∀ x, Box P x → c.SatIn P.inf x → r.Sat P.inf x
  dup : ∀ x, (free P a.dup).Feasible x → P.Feasible x
  rowCuts : ∀ c ∈ a.rowCuts, c.ValidIn P
  colCuts : ∀ c ∈ a.colCuts, c.Valid P ∧ (∀ p ∈ c.lbs, p.1 < P.nCols ∧ p.2 ≤ P.inf) ∧ ∀ p ∈ c.ubs, p.1 < P.nCols ∧ -P.inf ≤ p.2
  solved : a.solved = false → ∀ x, ¬ P.Feasible x
  table : ∀ t, a.table = some t → Complete t ∧ (∀ j ∈ t.integerVariable, j < P.nCols) ∧ ∀ x, P.Feasible x → TrueOf t x

/-- Every answer is right about the problem the generator was asked about. -/
def Sounds (constraints : Bool) : List Answer → St → Prop
  | [], _ => True
  | a :: l, s => Neat (free s.P a.dup) ∧ Sound s.P a ∧ ∀ s', step constraints a s = .ok (s', true) → Sounds constraints l s'

end Cgl.Rebuild
