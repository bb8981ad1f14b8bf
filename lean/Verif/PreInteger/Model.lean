import Verif.Osi
import Mathlib.Data.Rat.Floor
import Mathlib.Algebra.Order.Round

/-!
# Model of `analyze` and `CglPreProcess::makeInteger`

Both functions of src/CglPreProcess/CglPreProcess.cpp (lines 1255-1514 and 9232-9495) look for continuous columns that can
be declared integer; they are the same apart from the treatment of equations with two continuous columns and from what is
done in the end.  A column that the code declares integer gets its infinite bounds replaced by 1e20 in a copy of the
solver (`makeInteger`) or of the bounds (`analyze`); all later tests give the same result with either value, so the model
keeps the bounds.
-/

namespace Cgl.PreInteger

inductive Fault
  /-- an array is written outside its bounds -/
  | outside
  /-- a loop that does not end -/
  | endless
deriving DecidableEq, Repr

/-- The objective: `getObjCoefficients`, and `getObjSense` (1 or -1). -/
structure Objective where
  coef : Nat → ℚ
  direction : ℚ

/-- `fabs(value - floor(value + 0.5)) > 1.0e-12` is false. -/
def near (v : ℚ) : Bool := decide (|v - (⌊v + 1 / 2⌋ : ℤ)| ≤ 1 / 10 ^ 12)

/-- `upper[j] > lower[j] + 1.0e-8`. -/
def free (P : Prob) (j : Nat) : Bool := decide (P.colLower j + 1 / 10 ^ 8 < P.colUpper j)

/-- `1 / value1` is an integer (CglPreProcess.cpp:1344-1346, 9335-9337). -/
def recip (v : ℚ) : Bool :=
  decide (1 / 10 ^ 3 < |v|) && decide (|1 / v - (⌊1 / v + 1 / 2⌋ : ℤ)| < 1 / 10 ^ 12)

/-- The columns that are integer so far, the rows that do not stop a column, and the number of changes. -/
structure State where
  isInt : Nat → Bool
  ignore : Nat → Bool
  count : Nat

/-- A column is declared integer. -/
def mark (s : State) (j : Nat) : State where
  isInt := fun k => decide (k = j) || s.isInt k
  ignore := s.ignore
  count := s.count + 1

/-- The continuous columns of a row that are not fixed, with their coefficients (CglPreProcess.cpp:1305-1317,
9296-9308). -/
def continuous (P : Prob) (isInt : Nat → Bool) (r : Row) : SVec := r.coefs.filter fun p => free P p.1 && !isInt p.1

/-- The coefficients of the integer columns are integers (CglPreProcess.cpp:1318-1321, 9309-9312). -/
def intCoefs (P : Prob) (isInt : Nat → Bool) (r : Row) : Bool :=
  (r.coefs.filter fun p => free P p.1 && isInt p.1).all fun p => near p.2

/-- `sumFixed` (CglPreProcess.cpp:1322-1324, 9313-9315). -/
def sumFixed (P : Prob) (r : Row) : ℚ :=
  ((r.coefs.filter fun p => !free P p.1).map fun p => P.colLower p.1 * p.2).sum

/-- `low`, `up` (CglPreProcess.cpp:1326-1337, 9317-9328). -/
def low (P : Prob) (r : Row) : ℚ := if -10 ^ 20 < r.lb then r.lb - sumFixed P r else r.lb
def up (P : Prob) (r : Row) : ℚ := if r.ub < 10 ^ 20 then r.ub - sumFixed P r else r.ub

/-- `allIntegerCoeff` (CglPreProcess.cpp:1302-1339, 9293-9330). -/
def allInteger (P : Prob) (isInt : Nat → Bool) (r : Row) : Bool :=
  intCoefs P isInt r && (!decide (-10 ^ 20 < r.lb) || near (low P r)) && (!decide (r.ub < 10 ^ 20) || near (up P r))

/-- The entries of a column: rows and coefficients. -/
def colEntries (P : Prob) (j : Nat) : List (Nat × ℚ) :=
  P.rows.zipIdx.flatMap fun q => (q.1.coefs.filter fun p => p.1 == j).map fun p => (q.2, p.2)

/-- One other row of the first column in the test for pairs (CglPreProcess.cpp:9392-9424).  `value` is twice the
coefficient: the second loop of the code goes through the first column again (line 9377). -/
def rowGood (P : Prob) (bound : ℚ) (e : Nat × ℚ) : Bool :=
  if 2 * e.2 = 0 then true
  else
    match P.rows[e.1]? with
    | none => true
    | some r =>
      if r.coefs.length = 1 then
        if 0 < 2 * e.2 * bound then !decide (0 < r.lb) || near (r.lb / (2 * e.2 * bound))
        else !decide (r.ub < 0) || near (r.ub / (2 * e.2 * bound))
      else if r.coefs.length = 2 then
        if 0 < 2 * e.2 * bound then !decide (-10 ^ 20 < r.lb) else !decide (r.ub < 10 ^ 20)
      else false

/-- `bound` (CglPreProcess.cpp:9367-9368). -/
def pairBound (P : Prob) (j k : Nat) : ℚ := min (min (P.colUpper j) (P.colUpper k)) (10 ^ 20)

/-- The test for pairs of `makeInteger` (CglPreProcess.cpp:9362-9446).  The array `which` has as many elements as there
are rows; explicit zeros are entered twice. -/
def pairMake (P : Prob) (O : Objective) (i j k : Nat) : Except Fault Bool :=
  let es := (colEntries P j).filter fun e => e.1 != i
  if es.length + (es.filter fun e => decide (e.2 = 0)).length ≤ P.rows.length then
    .ok (decide (0 ≤ O.direction * (O.coef j + O.coef k)) && es.all (rowGood P (pairBound P j k)))
  else .error .outside

/-- The test for pairs of `analyze` (CglPreProcess.cpp:1368-1444): both columns are in no other row, so the loops over
their other rows do nothing. -/
def pairAnalyze (P : Prob) (O : Objective) (j k : Nat) : Bool :=
  decide ((colEntries P j).length = 1) && decide ((colEntries P k).length = 1) &&
    decide (0 ≤ O.direction * (O.coef j + O.coef k))

/-- An equation with two continuous columns (CglPreProcess.cpp:1368-1369, 9362-9363). -/
def pairShape (P : Prob) (p q : Nat × ℚ) : Bool :=
  decide (|p.2| = 1) && decide (p.2 * q.2 = -1) && decide (P.colLower p.1 = 0) && decide (P.colLower q.1 = 0)

/-- The test for pairs of either function. -/
def pairTest (make : Bool) (P : Prob) (O : Objective) (i : Nat) (p q : Nat × ℚ) : Except Fault Bool :=
  if pairShape P p q then (if make then pairMake P O i p.1 q.1 else .ok (pairAnalyze P O p.1 q.1)) else .ok false

/-- The row does not stop its column (`ignore[iRow] = 1`). -/
def setIgnore (s : State) (i : Nat) : State :=
  { s with ignore := fun k => decide (k = i) || s.ignore k }

/-- One row (CglPreProcess.cpp:1299-1447, 9290-9449). -/
def rowStep (make : Bool) (P : Prob) (O : Objective) (i : Nat) (r : Row) (s : State) : Except Fault State :=
  if allInteger P s.isInt r then
    match continuous P s.isInt r with
    | [p] =>
      .ok (if recip p.2 then (if low P r = up P r then mark s p.1 else setIgnore s i) else s)
    | [p, q] =>
      if low P r = up P r then
        (pairTest make P O i p q).bind fun b => .ok (if b then mark (mark s p.1) q.1 else s)
      else .ok s
    | _ => .ok s
  else .ok s

/-- The loop over the rows, from row `i` on. -/
def rowLoop (make : Bool) (P : Prob) (O : Objective) : Nat → List Row → State → Except Fault State
  | _, [], s => .ok s
  | i, r :: rs, s => (rowStep make P O i r s).bind fun s' => rowLoop make P O (i + 1) rs s'

/-- A column can be declared integer (CglPreProcess.cpp:1449-1464, 9451-9466). -/
def columnGood (P : Prob) (s : State) (j : Nat) : Bool :=
  free P j && !s.isInt j && (!decide (P.colUpper j < 10 ^ 20) || near (P.colUpper j)) &&
    (!decide (-10 ^ 20 < P.colLower j) || near (P.colLower j)) && (colEntries P j).all fun e => s.ignore e.1

/-- One column (CglPreProcess.cpp:1448-1471, 9450-9477). -/
def columnStep (P : Prob) (s : State) (j : Nat) : State := if columnGood P s j then mark s j else s

/-- One round of the outer loop (CglPreProcess.cpp:1297-1473, 9288-9479). -/
def round (make : Bool) (P : Prob) (O : Objective) (s : State) : Except Fault State :=
  (rowLoop make P O 0 P.rows s).bind fun s' => .ok ((List.range P.nCols).foldl (columnStep P) s')

/-- `while (!finished)`. -/
def rounds (make : Bool) (P : Prob) (O : Objective) : Nat → State → Except Fault State
  | 0, _ => .error .endless
  | k + 1, s => (round make P O s).bind fun s' => if s'.count = s.count then .ok s' else rounds make P O k s'

/-- The loop from the start. -/
def search (make : Bool) (P : Prob) (O : Objective) : Except Fault State :=
  rounds make P O (P.nCols + 1) ⟨P.isInt, fun _ => false, 0⟩

/-- `makeInteger` (CglPreProcess.cpp:9232-9495): the types of the columns of `startModel_` afterwards.  Only columns in
the objective are declared integer there. -/
def makeInteger (P : Prob) (O : Objective) : Except Fault (Nat → Bool) :=
  if (List.range P.nCols).any (fun j => free P j && !P.isInt j) then
    (search true P O).bind fun s =>
      .ok (if s.count = 0 then P.isInt else fun j => P.isInt j || (decide (j < P.nCols) && s.isInt j && decide (O.coef j ≠ 0)))
  else .ok P.isInt

/-- The rounded bounds of a column that `analyze` has declared integer (CglPreProcess.cpp:1477-1485). -/
def roundUpper (P : Prob) (j : Nat) : ℚ :=
  if 10 ^ 20 < P.colUpper j then 10 ^ 20 else (⌊P.colUpper j + 1 / 10 ^ 5⌋ : ℤ)
def roundLower (P : Prob) (j : Nat) : ℚ :=
  if P.colLower j < -10 ^ 20 then -10 ^ 20 else (⌈P.colLower j - 1 / 10 ^ 5⌉ : ℤ)

/-- A column that was declared integer by `analyze`. -/
def isNew (P : Prob) (s : State) (j : Nat) : Bool := s.isInt j && !P.isInt j

/-- `feasible = false` (CglPreProcess.cpp:1485-1488). -/
def crossed (P : Prob) (s : State) (j : Nat) : Bool :=
  isNew P s j && !decide (P.colLower j < -10 ^ 20) && decide (roundUpper P j < roundLower P j)

/-- `intVar` in the end: a new integer column whose rounded bounds are equal stays continuous
(CglPreProcess.cpp:1489-1494). -/
def finalInt (P : Prob) (s : State) (j : Nat) : Bool :=
  P.isInt j || (decide (j < P.nCols) && s.isInt j && !decide (roundLower P j = roundUpper P j))

/-- `analyze` (CglPreProcess.cpp:1255-1514): the return value and the types of the columns. -/
def analyze (P : Prob) (O : Objective) : Except Fault (ℤ × (Nat → Bool)) :=
  (search false P O).bind fun s =>
    .ok (if (List.range P.nCols).any (crossed P s) then -1 else s.count, if s.count = 0 then P.isInt else finalInt P s)

end Cgl.PreInteger
