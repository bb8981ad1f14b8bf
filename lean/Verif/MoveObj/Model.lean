import Verif.Spec

/-!
# Moving costs to integer columns in `CglPreProcess::preProcessNonDefault`

`/repo/src/CglPreProcess/CglPreProcess.cpp`, lines 2610-2920, without `CBC_PREPROCESS_EXPERIMENT` and without
`SKIP_MOVE_COSTS_TO_INTEGERS`.  An equation with one integer column without cost on one side and columns with equal coefficients
on the other side lets costs of the latter go to the former.  `double` is `ℚ`.  The value of an objective is the sum of costs
minus `OsiObjOffset`.
-/

namespace Cgl.MoveObj

/-- Costs (`obj`) and `OsiObjOffset`. -/
structure Obj where
  cost : Nat → ℚ
  offset : ℚ

/-- The column is not fixed, :2811. -/
def free (P : Prob) (j : Nat) : Bool := decide (P.colLower j < P.colUpper j)

/-- What is known about one side of the row: number of columns (negative if the coefficients differ), last column that was the
first, its coefficient (`nPlus`, `iPlus`, `valuePlus`). -/
structure Side where
  n : ℤ
  col : Nat
  value : ℚ
deriving DecidableEq, Repr

/-- A column for a side, :2832-2839 and :2842-2849. -/
def Side.add (nCols : Nat) (s : Side) (p : Nat × ℚ) : Side :=
  if 0 < s.n ∧ p.2 ≠ s.value then { s with n := -(nCols : ℤ) }
  else if s.n = 0 then ⟨1, p.1, p.2⟩
  else { s with n := s.n + 1 }

/-- Both sides and `numberContinuous`. -/
structure Scan where
  plus : Side
  minus : Side
  cont : Nat

/-- One entry of the row, :2800-2852. -/
def scanEntry (P : Prob) (s : Scan) (p : Nat × ℚ) : Scan :=
  if free P p.1 = true then
    if 0 < p.2 then
      { s with plus := s.plus.add P.nCols p, cont := if P.isInt p.1 = true then s.cont else s.cont + 1 }
    else
      { s with minus := s.minus.add P.nCols p, cont := if P.isInt p.1 = true then s.cont else s.cont + 1 }
  else s

/-- The row, :2788-2852. -/
def scan (P : Prob) (v : SVec) : Scan := v.foldl (scanEntry P) ⟨⟨0, 0, 0⟩, ⟨0, 0, 0⟩, 0⟩

/-- One side is a single integer column without cost, the other is not empty and has equal coefficients, :2853-2855. -/
def single (P : Prob) (cost : Nat → ℚ) (a b : Side) : Bool :=
  decide (a.n = 1) && P.isInt a.col && decide (0 < b.n) && decide (cost a.col = 0)

/-- The test for a move, :2853-2856. -/
def suits (P : Prob) (cost : Nat → ℚ) (s : Scan) : Bool :=
  (single P cost s.plus s.minus || single P cost s.minus s.plus) && decide (s.cont ≠ 0)

/-- The side with the single column, :2860-2869. -/
def one (s : Scan) : Side := if s.plus.n = 1 then s.plus else s.minus

/-- The other side, :2860-2869. -/
def other (s : Scan) : Side := if s.plus.n = 1 then s.minus else s.plus

/-- `multiplier`, :2862 and :2867. -/
def multiplier (s : Scan) : ℚ := |(one s).value / (other s).value|

/-- `rhs`, :2863 and :2868. -/
def newRhs (s : Scan) (rhs : ℚ) : ℚ := if s.plus.n = 1 then rhs / -s.minus.value else rhs / s.plus.value

/-- `smallestPos` and `smallestNeg`, :2871-2884. -/
def extremes (P : Prob) (cost : Nat → ℚ) (j : Nat) : SVec → ℚ × ℚ → ℚ × ℚ
  | [], s => s
  | p :: v, s =>
    if p.1 ≠ j ∧ free P p.1 = true then
      if 0 ≤ cost p.1 then extremes P cost j v (min s.1 (cost p.1), s.2)
      else extremes P cost j v (s.1, max s.2 (cost p.1))
    else extremes P cost j v s

/-- `move` and `multiply`, :2885-2891.  0 stands for no move. -/
def amount (e : ℚ × ℚ) : ℚ × ℚ :=
  if 0 < e.1 then
    (if e.2 = -dblMax then e.1 else if e.1 = dblMax then e.2 else 0, if e.2 = -dblMax then -1 else 1)
  else (0, 1)

/-- What is added to the cost of a column of the row, :2901-2912. -/
def change (P : Prob) (s : Scan) (move : ℚ) (p : Nat × ℚ) : ℚ :=
  if p.1 ≠ (one s).col then
    if free P p.1 = true then -move else -(move * p.2 * (1 / (other s).value))
  else move * multiplier s

/-- `obj[iColumn] += d`. -/
def addCost (cost : Nat → ℚ) (i : Nat) (d : ℚ) : Nat → ℚ := fun j => if j = i then cost j + d else cost j

/-- The costs after a move, :2900-2913. -/
def changeAll (P : Prob) (s : Scan) (move : ℚ) (v : SVec) (cost : Nat → ℚ) : Nat → ℚ :=
  v.foldl (fun c p => addCost c p.1 (change P s move p)) cost

/-- A move, :2892-2914. -/
def apply (P : Prob) (s : Scan) (r : Row) (m : ℚ × ℚ) (o : Obj) : Obj :=
  if m.1 ≠ 0 then ⟨changeAll P s m.1 r.coefs o.cost, o.offset + m.1 * m.2 * newRhs s r.lb⟩ else o

/-- The row suits, :2857-2917. -/
def suited (P : Prob) (s : Scan) (r : Row) (o : Obj) : Obj :=
  apply P s r (amount (extremes P o.cost (one s).col r.coefs (dblMax, -dblMax))) o

/-- One row, :2788-2918. -/
def moveRow (P : Prob) (o : Obj) (r : Row) : Obj :=
  if r.lb ≠ r.ub then o
  else if suits P o.cost (scan P r.coefs) = true then suited P (scan P r.coefs) r o
  else o

/-- All rows, :2788-2918. -/
def moveCosts (P : Prob) (o : Obj) : Obj := P.rows.foldl (moveRow P) o

end Cgl.MoveObj
