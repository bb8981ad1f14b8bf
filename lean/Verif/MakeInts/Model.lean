import Verif.PreInteger.Model

/-!
# Model of `makeIntegers2`

src/CglPreProcess/CglPreProcess.cpp:234-1102, called by `preProcessNonDefault` with the user's `makeIntegers`.  Blocks under
`if (false)` and `&& false` (lines 305-326, 485-495, 526-536, 605-983) and printing are left out.  Simplification: the
arrays `lower`, `upper` of the solver follow `setColLower` and `setColUpper`.
-/

namespace Cgl.MakeInts

open PreInteger (Objective colEntries)

inductive Fault
  /-- a loop that does not end -/
  | endless
deriving DecidableEq, Repr

/-- `fabs(v - floor(v + 0.5)) > 1.0e-10` is false. -/
def near (v : ℚ) : Bool := decide (|v - (⌊v + 1 / 2⌋ : ℤ)| ≤ 1 / 10 ^ 10)

/-- `upper[j] == lower[j]`. -/
def fixed (P : Prob) (j : Nat) : Bool := decide (P.colUpper j = P.colLower j)

/-- `upper[j] > lower[j]` and the column is not integer. -/
def openC (P : Prob) (j : Nat) : Bool := decide (P.colLower j < P.colUpper j) && !P.isInt j

/-- An entry that spoils its row (CglPreProcess.cpp:274-290): a fractional coefficient of an integer column, or a
coefficient of a continuous column that is not 1 or -1. -/
def spoils (P : Prob) (p : Nat × ℚ) : Bool :=
  !fixed P p.1 && if P.isInt p.1 then !near p.2 else decide (|p.2| ≠ 1)

/-- `rhs` of a row (CglPreProcess.cpp:262-291): what the fixed columns contribute, `none` for `COIN_DBL_MAX`.  The code goes
through the columns and changes the rows; here each row is looked at by itself.  Simplification: what is added to
`COIN_DBL_MAX` does not change it. -/
def rhsOf (P : Prob) (r : Row) : Option ℚ :=
  if r.coefs.any (spoils P) then none
  else some ((r.coefs.filter fun p => fixed P p.1).map fun p => P.colLower p.1 * p.2).sum

/-- `count` of a row: its continuous columns that are not fixed (CglPreProcess.cpp:283-290). -/
def countOf (P : Prob) (r : Row) : Nat := r.coefs.countP fun p => !fixed P p.1 && !P.isInt p.1

/-- `count` as an array. -/
def counts (P : Prob) (i : Nat) : Nat :=
  match P.rows[i]? with
  | none => 0
  | some r => countOf P r

/-- `currentNumber` (CglPreProcess.cpp:275). -/
def currentNumber (P : Prob) : Nat := (List.range P.nCols).countP fun j => !fixed P j && P.isInt j

/-- `lowerValue`, `upperValue` (CglPreProcess.cpp:388-396, 458-466). -/
def lowerValue (r : Row) (v : ℚ) : ℚ := if v < 10 ^ 20 ∧ -10 ^ 20 < r.lb then r.lb - v else r.lb
def upperValue (r : Row) (v : ℚ) : ℚ := if v < 10 ^ 20 ∧ r.ub < 10 ^ 20 then r.ub - v else r.ub

/-- The tests on one row of a column that wants to be low, or `high` (CglPreProcess.cpp:397-415, 467-485). -/
def rowGood (P : Prob) (high : Bool) (r : Row) (a : ℚ) : Bool :=
  match rhsOf P r with
  | none => false
  | some v =>
    decide (|v| ≤ 10 ^ 20) && near v && decide (|a| = 1) &&
      if (if high then decide (a < 0) else decide (0 < a)) then
        !decide (-10 ^ 20 < lowerValue r v) || near (lowerValue r v)
      else !decide (upperValue r v < 10 ^ 20) || near (upperValue r v)

/-- `singletonRow`, `equality`, `thisGood`. -/
structure Look where
  single : Bool
  equality : Bool
  good : Bool
deriving DecidableEq, Repr

/-- The first tests on a row (CglPreProcess.cpp:361-387, 452-457). -/
def lookCount (high : Bool) (cnt : Nat) (r : Row) (k : Look) : Look :=
  if 1 < cnt then { k with single := false, good := k.good && !high }
  else if r.lb = r.ub then { k with equality := true }
  else k

/-- The loop over the rows of a column, left at the first bad row (CglPreProcess.cpp:361-416, 450-486). -/
def lookRows (P : Prob) (high : Bool) (cnt : Nat → Nat) : List (Nat × ℚ) → Look → Look
  | [], k => k
  | e :: es, k =>
    match P.rows[e.1]? with
    | none => k
    | some r =>
      if rowGood P high r e.2 then lookRows P high cnt es (lookCount high (cnt e.1) r k)
      else { lookCount high (cnt e.1) r k with good := false }

/-- The tests on the bounds of a column (CglPreProcess.cpp:345-350, 443-448). -/
def boundsGood (P : Prob) (high : Bool) (j : Nat) : Bool :=
  if high then
    !(decide (10 ^ 10 < P.colUpper j) || !near (P.colUpper j)) && !(decide (-10 ^ 10 < P.colLower j) && !near (P.colLower j))
  else
    !(decide (P.colLower j < -10 ^ 10) || !near (P.colLower j)) && !(decide (P.colUpper j < 10 ^ 10) && !near (P.colUpper j))

/-- `count[iRow] = 999999` for the rows of a column. -/
def markRows (es : List (Nat × ℚ)) (cnt : Nat → Nat) : Nat → Nat := es.foldl (fun c e => Function.update c e.1 999999) cnt

/-- The state of the loop over the columns. -/
structure State where
  cnt : Nat → Nat
  allGood : Bool
  numberObj : Nat
  zap : List Nat
  newInts : List Nat

/-- The end of a turn (CglPreProcess.cpp:540-548). -/
def conclude (makeAll : Bool) (P : Prob) (c : ℚ) (good : Bool) (s : State) (j : Nat) : State :=
  if good = false then { s with allGood := s.allGood && decide (c = 0), zap := s.zap ++ [j] }
  else if makeAll = true ∧ P.isInt j = false ∧ P.colUpper j - P.colLower j < 10 then { s with newInts := s.newInts ++ [j] }
  else s

/-- The verdict on a column, and whether its rows are marked: for a column that wants to be low the test on `equality` comes
after the marking (CglPreProcess.cpp:423-432, 487-496). -/
def verdict (P : Prob) (high : Bool) (cnt : Nat → Nat) (j : Nat) : Bool × Bool :=
  let k := lookRows P high cnt (colEntries P j) ⟨true, false, boundsGood P high j⟩
  let wide := !k.single && decide (1 < (colEntries P j).length) && !k.equality
  (k.good && !wide, if high then !(k.good && !wide) else !k.good)

/-- A column is looked at. -/
def looked (makeAll : Bool) (P : Prob) (O : Objective) (j : Nat) : Bool :=
  (decide (O.coef j * O.direction ≠ 0) || makeAll) && !P.isInt j

/-- One turn of the loop over the columns (CglPreProcess.cpp:334-550). -/
def column (makeAll : Bool) (P : Prob) (O : Objective) (s : State) (j : Nat) : State :=
  if P.colLower j < P.colUpper j then
    if looked makeAll P O j = true then
      if O.coef j * O.direction = 0 ∧ (colEntries P j).length = 1 then s
      else
        let v := verdict P (decide (O.coef j * O.direction < 0)) s.cnt j
        conclude makeAll P (O.coef j * O.direction) v.1
          { s with
            cnt := if v.2 then markRows (colEntries P j) s.cnt else s.cnt
            numberObj := if O.coef j * O.direction = 0 then s.numberObj else s.numberObj + 1 } j
    else conclude makeAll P (O.coef j * O.direction) true s j
  else s

/-- The loop over the columns. -/
def columns (makeAll : Bool) (P : Prob) (O : Objective) : State :=
  (List.range P.nCols).foldl (column makeAll P O) ⟨counts P, true, 0, [], []⟩

/-! ### Spreading -/

/-- One row of a column to be zapped: `count` and `rowLook` (CglPreProcess.cpp:561-567). -/
def zapRow (s : (Nat → Nat) × List Nat) (e : Nat × ℚ) : (Nat → Nat) × List Nat :=
  if s.1 e.1 = 999999 then s else (Function.update s.1 e.1 999999, s.2 ++ [e.1])

/-- The columns to be zapped mark their rows (CglPreProcess.cpp:555-568). -/
def zapRows (P : Prob) (zap : List Nat) (cnt : Nat → Nat) : (Nat → Nat) × List Nat :=
  zap.foldl (fun s j => (colEntries P j).foldl zapRow s) (cnt, [])

/-- A column of a row that was marked (CglPreProcess.cpp:575-582). -/
def spreadColumn (P : Prob) (s : (Nat → Bool) × List Nat) (p : Nat × ℚ) : (Nat → Bool) × List Nat :=
  if openC P p.1 = true ∧ s.1 p.1 = false then (Function.update s.1 p.1 true, s.2 ++ [p.1]) else s

/-- The new columns to be zapped (CglPreProcess.cpp:569-585). -/
def spread (P : Prob) (rowLook : List Nat) (noGood : Nat → Bool) : (Nat → Bool) × List Nat :=
  rowLook.foldl (fun s i => ((P.rows[i]?.map Row.coefs).getD []).foldl (spreadColumn P) s) (noGood, [])

/-- The loop of lines 553-586.  The first argument bounds the number of turns; a turn that marks no row is the last. -/
def zapLoop (P : Prob) : Nat → List Nat → (Nat → Nat) → (Nat → Bool) → Except Fault (Nat → Nat)
  | 0, _, _, _ => .error .endless
  | fuel + 1, zap, cnt, noGood =>
    if zap = [] then .ok cnt
    else
      let z := zapRows P zap cnt
      let n := zap.foldl (fun f j => Function.update f j true) noGood
      let q := spread P z.2 n
      zapLoop P fuel q.2 z.1 q.1

/-! ### Types are changed -/

/-- No row of the column is marked. -/
def unmarked (P : Prob) (cnt : Nat → Nat) (j : Nat) : Bool := (colEntries P j).all fun e => decide (cnt e.1 ≠ 999999)

/-- The final look (CglPreProcess.cpp:590-600). -/
def finalLook (P : Prob) (O : Objective) (cnt : Nat → Nat) : Bool :=
  (List.range P.nCols).all fun j => !(openC P j && decide (O.coef j ≠ 0)) || unmarked P cnt j

/-- The problem and the numbers `numberNonZero` and `numberZero`, and `allGood`. -/
structure Change where
  P : Prob
  nonZero : Nat
  zero : Nat
  allGood : Bool

/-- `model->setInteger(j)`. -/
def setInteger (P : Prob) (j : Nat) : Prob := { P with isInt := Function.update P.isInt j true }

/-- `ceil(lower - tolerance)`, `floor(upper + tolerance)` as bounds of column `j`. -/
def cleanBounds (P : Prob) (tol : ℚ) (j : Nat) : Prob :=
  { P with
    colLower := Function.update P.colLower j (⌈P.colLower j - tol⌉ : ℤ)
    colUpper := Function.update P.colUpper j (⌊P.colUpper j + tol⌋ : ℤ) }

/-- One of the new integer columns (CglPreProcess.cpp:605-632). -/
def newInteger (cnt : Nat → Nat) (O : Objective) (tol : ℚ) (s : Change) (j : Nat) : Change :=
  if unmarked s.P cnt j = true ∧ s.P.colUpper j < s.P.colLower j + 10 then
    { s with
      P := cleanBounds (setInteger s.P j) tol j
      nonZero := if O.coef j = 0 then s.nonZero else s.nonZero + 1
      zero := if O.coef j = 0 then s.zero + 1 else s.zero }
  else { s with allGood := s.allGood && decide (O.coef j = 0) }

/-- The new integer columns, if there are some but not too many (CglPreProcess.cpp:601-633). -/
def newIntegers (P : Prob) (O : Objective) (tol : ℚ) (cnt : Nat → Nat) (newInts : List Nat) (allGood : Bool) : Change :=
  if newInts ≠ [] ∧ newInts.length < currentNumber P then newInts.foldl (newInteger cnt O tol) ⟨P, 0, 0, allGood⟩
  else ⟨P, 0, 0, allGood⟩

/-- One column of the last loop: the problem and `numberIntegers` (CglPreProcess.cpp:1071-1083). -/
def lastColumn (O : Objective) (s : Prob × Nat) (j : Nat) : Prob × Nat :=
  if s.1.colLower j < s.1.colUpper j ∧ O.coef j ≠ 0 ∧ s.1.isInt j = false ∧ s.1.colUpper j ≤ s.1.colLower j + 10 then
    (setInteger s.1 j, s.2 + 1)
  else s

/-- The last loop (CglPreProcess.cpp:1066-1088). -/
def lastColumns (O : Objective) (c : Change) (numberObj : Nat) : Prob × Nat :=
  if c.allGood = true ∧ numberObj ≠ 0 then (List.range c.P.nCols).foldl (lastColumn O) (c.P, c.nonZero)
  else (c.P, c.nonZero)

/-- One turn of the outer loop (CglPreProcess.cpp:258-1098): the problem and `numberIntegers`. -/
def pass (makeAll : Bool) (P : Prob) (O : Objective) (tol : ℚ) : Except Fault (Prob × Nat) :=
  let s := columns makeAll P O
  match zapLoop P (P.rows.length + 2) s.zap s.cnt fun _ => false with
  | .error e => .error e
  | .ok cnt =>
    let c := newIntegers P O tol cnt s.newInts (s.allGood && finalLook P O cnt)
    let l := lastColumns O c s.numberObj
    .ok (l.1, l.2 + c.zero)

/-- The outer loop; the first argument bounds the number of turns. -/
def passes (makeAll : Bool) (O : Objective) (tol : ℚ) : Nat → Prob → Nat → Except Fault (Prob × Nat)
  | 0, _, _ => .error .endless
  | fuel + 1, P, total =>
    match pass makeAll P O tol with
    | .error e => .error e
    | .ok (P', n) =>
      if n = 0 ∨ makeAll = false then .ok (P', total + n) else passes makeAll O tol fuel P' (total + n)

/-- `makeIntegers2(model, mode)`: the problem afterwards and the number returned. -/
def makeIntegers2 (P : Prob) (O : Objective) (tol : ℚ) (mode : ℤ) : Except Fault (Prob × Nat) :=
  passes (decide (1 < mode)) O tol (P.nCols + 1) P 0

end Cgl.MakeInts
