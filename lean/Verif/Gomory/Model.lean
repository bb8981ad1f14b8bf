import Verif.GMI.Model

/-!
# Model of CglGomory

`src/CglGomory/CglGomory.cpp`, compiled with its default macros: `USE_CGL_RATIONAL` 0, `GOMORY_LONG`,
`MORE_GOMORY_CUTS` 1, `TRY7` 1, `GOMORY_RELAX_NUMBER` 5, `CGL_GOMORY_TINY_ELEMENT` 1e-12, and without
`CGL_HAS_CLP_GOMORY`, `CGL_DEBUG`, `CLP_INVESTIGATE2` and `CBC_CHECK_CUT_LENGTH`.  `double` is read as exact rational
arithmetic; the tolerances are kept.

Not modelled: the second solver of `gomoryType_` (only with Clp), the marking of cuts as globally valid (lines
337-347), and the assertion of line 1382 on the range of multipliers.
-/

namespace Cgl.Gomory

/-- The members of `CglGomory` read by `generateCuts`. -/
structure Prm where
  away : ℚ
  awayAtRoot : ℚ
  limit : ℤ
  limitAtRoot : ℤ
  conditionNumberMultiplier : ℚ
  largestFactorMultiplier : ℚ

/-- The fields of `CglTreeInfo` read by `generateCuts`: `sorted` is `options & 256`, `global` is `options & 16`,
`opt32` is `options & 32`. -/
structure Info where
  inTree : Bool
  pass : ℤ
  level : ℤ
  sorted : Bool
  global : Bool
  opt32 : Bool

/-- What is read from the LP solver: the solution, which columns and rows are basic, and the outcome of the
factorization (`CglGomory.cpp` 650-683): `none` if it fails, otherwise its condition number and for a basic column the
nonzeros of its row of the inverse of the basis matrix (986-1000).  `CoinFactorization` is outside `/repo`. -/
structure Lp where
  sol : Nat → ℚ
  colBasic : Nat → Bool
  rowBasic : Nat → Bool
  fact : Option (ℚ × (Nat → SVec))

/-- `above_integer` (`CglGomory.cpp` 360-366). -/
def aboveInteger (v : ℚ) : ℚ :=
  if |(⌊v + 1 / 2⌋ : ℚ) - v| < 1 / 10 ^ 9 * (|(⌊v + 1 / 2⌋ : ℚ)| + 1) then 0 else v - ⌊v⌋

/-- `swap` (`CglGomory.cpp` 714-723): nonbasic and at its upper bound. -/
def swap (P : Prob) (lp : Lp) (j : Nat) : Bool :=
  ! lp.colBasic j && decide (P.colUpper j - lp.sol j ≤ 1 / 10 ^ 7)

/-- What the generator knows about a row (`rowType`, `CglGomory.cpp` 743-791): `none` is 0 (basic or equality), `upper`
tells whether the activity is at its upper bound (1) or its lower bound (2), `int` is the 4 bit. -/
structure RowType where
  upper : Bool
  int : Bool
deriving DecidableEq

/-- The test that a slack is integer (`CglGomory.cpp` 768-785). -/
def intSlack (P : Prob) (r : Row) (rhs : ℚ) : Bool :=
  decide (aboveInteger rhs < 1 / 10 ^ 10) &&
    r.coefs.all fun p => P.isInt p.1 && ! decide (1 / 10 ^ 10 < aboveInteger p.2)

/-- `rowType` (`CglGomory.cpp` 743-791). -/
def rowType (P : Prob) (lp : Lp) (i : Nat) : Option RowType :=
  if lp.rowBasic i = false ∧ (P.row i).lb + 1 / 10 ^ 7 < (P.row i).ub then
    if (P.row i).ub - 1 / 10 ^ 7 ≤ P.activity lp.sol i then some ⟨true, intSlack P (P.row i) (P.row i).ub⟩
    else if P.activity lp.sol i ≤ (P.row i).lb + 1 / 10 ^ 7 then some ⟨false, intSlack P (P.row i) (P.row i).lb⟩
    else if P.activity lp.sol i - (P.row i).lb < (P.row i).ub - P.activity lp.sol i then some ⟨false, false⟩
    else some ⟨true, false⟩
  else none

/-- Coefficient of the cut (`CglGomory.cpp` 1075-1091, 1137-1152). -/
def coefficient (f0 : ℚ) (int : Bool) (v : ℚ) : ℚ :=
  if int then
    if f0 < aboveInteger v then f0 / (1 - f0) * (1 - aboveInteger v) else aboveInteger v
  else if 0 < v then v else - (f0 / (1 - f0)) * v

/-- The cut under construction: `cutVector` as a sparse vector in the order of its indices, the right-hand side, and
the number of terms `numberCoefficients`. -/
structure Acc where
  elems : SVec
  rhs : ℚ
  terms : Nat

/-- `CoinIndexedVector::quickAdd`, which is outside `/repo`: adds to an entry or appends a new one.  It ignores
magnitudes below 1e-50 and marks an entry that cancels with 1e-100; here the entry is then an exact zero. -/
def quickAdd : SVec → Nat → ℚ → SVec
  | [], j, e => if e = 0 then [] else [(j, e)]
  | (k, v) :: l, j, e => if k = j then (k, v + e) :: l else (k, v) :: quickAdd l j e

/-- `testFixed` (`CglGomory.cpp` 619). -/
def testFixed (info : Info) : ℚ := if info.global then -1 else 1 / 10 ^ 8

/-- Negate if `b`. -/
def negIf (b : Bool) (v : ℚ) : ℚ := if b then - v else v

/-- Body of the loop over the columns (`CglGomory.cpp` 1034-1112); the break for too many entries only saves work. -/
def colStep (P : Prob) (lp : Lp) (info : Info) (ρ : SVec) (f0 : ℚ) (a : Acc) (j : Nat) : Acc :=
  if lp.colBasic j = false ∧ P.colLower j + testFixed info < P.colUpper j then
    if |tabEntry P ρ j| < 1 / 10 ^ 16 then a
    else
      let c := negIf (swap P lp j) (coefficient f0 (P.isInt j) (negIf (swap P lp j) (tabEntry P ρ j)))
      let rhs := a.rhs + (if swap P lp j then P.colUpper j else P.colLower j) * c
      if 1 / 10 ^ 50 ≤ |c| then ⟨a.elems ++ [(j, c)], rhs, a.terms + 1⟩ else ⟨a.elems, rhs, a.terms⟩
  else a

/-- Body of the loop over the slacks (`CglGomory.cpp` 1128-1173) for an entry of the row of the basis inverse. -/
def slackStep (P : Prob) (lp : Lp) (f0 : ℚ) (a : Acc) (p : Nat × ℚ) : Acc :=
  match rowType P lp p.1 with
  | none => a
  | some t =>
    if 1 / 10 ^ 16 ≤ |p.2| then
      let c := negIf (! t.upper) (coefficient f0 t.int (negIf (! t.upper) p.2))
      ⟨(P.row p.1).coefs.foldl (fun v q => quickAdd v q.1 (- c * q.2)) a.elems,
        a.rhs - c * (if t.upper then (P.row p.1).ub else (P.row p.1).lb), a.terms + (P.row p.1).coefs.length⟩
    else a

/-- The columns part (`CglGomory.cpp` 1033-1121); afterwards `rhs += reducedValue`. -/
def colPart (P : Prob) (lp : Lp) (info : Info) (ρ : SVec) (f0 : ℚ) : Acc :=
  (List.range P.nCols).foldl (colStep P lp info ρ f0) ⟨[], 0, 0⟩

/-- Columns and slacks (`CglGomory.cpp` 1016-1173): the inequality `elems · x ≥ rhs`. -/
def fullRow (P : Prob) (lp : Lp) (info : Info) (ρ : SVec) (f0 : ℚ) : Acc :=
  let a := colPart P lp info ρ f0
  ρ.foldl (slackStep P lp f0) ⟨a.elems, a.rhs + f0, a.terms⟩

/-- Result of packing down: the cut `elems · x ≤ rhs` and the weakened violation `violation2`. -/
structure Packed where
  elems : SVec
  rhs : ℚ
  viol2 : ℚ

/-- `LARGE_BOUND` (`CglGomory.cpp` 1206). -/
def large : ℚ := 10 ^ 20

/-- The loop that packs the cut down and changes its signs (`CglGomory.cpp` 1178-1229). -/
def packDown (P : Prob) (sol : Nat → ℚ) : SVec → ℚ → ℚ → Packed
  | [], rhs, w => ⟨[], rhs, w⟩
  | (j, e) :: l, rhs, w =>
    if 1 / 10 ^ 8 < |e| then
      let r := packDown P sol l rhs w
      ⟨(j, - e) :: r.elems, r.rhs, r.viol2⟩
    else if 0 < - e ∧ - large < P.colLower j then
      packDown P sol l (rhs - - e * P.colLower j) (w - |- e * (sol j - P.colLower j)|)
    else if - e < 0 ∧ P.colUpper j < large then
      packDown P sol l (rhs - - e * P.colUpper j) (w - |- e * (sol j - P.colUpper j)|)
    else if 1 / 10 ^ 13 < |e| then
      let r := packDown P sol l rhs w
      ⟨(j, - e) :: r.elems, r.rhs, r.viol2⟩
    else packDown P sol l rhs w

/-- `sumCoefficients` (`CglGomory.cpp` 1191-1197). -/
def sumCoefficients (sol : Nat → ℚ) : SVec → ℚ
  | [] => 0
  | (j, e) :: l => |e| + (if 10 < |sol j| then 2 * |e| else 0) + sumCoefficients sol l

/-- Number of entries on continuous columns. -/
def nonInteger (P : Prob) (v : SVec) : Nat := (v.filter fun p => ! P.isInt p.1).length

/-- Loop of `nearestRational` (`CglGomory.cpp` 541-566): `none` after more than 50 turns, otherwise `tryA` and `tryB`
at its end. -/
def nearestLoop (maxDen : ℤ) : Nat → ℚ → ℤ × ℤ → ℤ × ℤ → Option ((ℤ × ℤ) × (ℤ × ℤ))
  | n, value, a, b =>
    if 1 / 10 ^ 14 < value ∧ b.2 ≤ maxDen then
      match n with
      | 0 => none
      | n + 1 =>
        let z := ⌊1 / value + 1 / 10 ^ 14⌋
        nearestLoop maxDen n (1 / value - z) b (b.1 * z + a.1, b.2 * z + a.2)
    else some (a, b)

/-- `nearestRational` (`CglGomory.cpp` 518-597): numerator and denominator, `(-1, -1)` if there is none. -/
def nearestRational (value : ℚ) (maxDen : ℤ) : ℤ × ℤ :=
  if |value| < 1 / 10 ^ 14 then (0, 1)
  else
    match nearestLoop maxDen 50 (value - ⌊value⌋) (1, 0) (⌊value⌋, 1) with
    | none => (-1, -1)
    | some (a, b) =>
      if b.2 ≤ maxDen then (if b.2 < 2 ^ 31 - 1 then b else (-1, -1))
      else if a.2 < 2 ^ 31 - 1 then a else (-1, -1)

/-- Outcome of the loop over the rationals (`CglGomory.cpp` 1289-1318). -/
inductive Lcm
  /-- every number is within 1e-10 of an integer: `numberNonSmall` is 0 -/
  | allInt
  /-- `lcm` positive, and some number is not close to an integer -/
  | found (l : ℤ)
  /-- `lcm` is -1 -/
  | bad
  /-- `gcd` calls `abort` -/
  | undef
deriving DecidableEq, Repr

/-- The loop (`CglGomory.cpp` 1289-1318) over the magnitudes of the numbers; `any` tells whether `numberNonSmall > 0`.
`gcd` (372-412) has the same text as `CglGMI::computeGcd`. -/
def lcmLoop : List ℚ → Bool → ℤ → Lcm
  | [], any, l => if any then .found l else .allInt
  | q :: qs, any, l =>
    if abs (aboveInteger |q|) < 1 / 10 ^ 10 then lcmLoop qs any l
    else if (nearestRational (aboveInteger |q|) 100000).2 < 0 then .bad
    else
      match GMI.computeGcd l (nearestRational (aboveInteger |q|) 100000).2 with
      | none => .undef
      | some g =>
        if ((l / g : ℤ) : ℚ) * (nearestRational (aboveInteger |q|) 100000).2 < 10 ^ 18 then
          lcmLoop qs true (l / g * (nearestRational (aboveInteger |q|) 100000).2)
        else .bad

/-- `xInt` (`CglGomory.cpp` 1322-1339): the magnitudes times `m`, rounded; `none` for overflow. -/
def xInt (m : ℤ) : List ℚ → Option (List ℤ)
  | [] => some []
  | q :: qs =>
    if 10 ^ 9 < |q| * m then none
    else if 1 / 10 ^ 8 < abs (|q| * m - ⌊|q| * m + 1 / 2⌋) then none
    else
      match xInt m qs with
      | none => none
      | some l => some (⌊|q| * m + 1 / 2⌋ :: l)

/-- Rest of the greatest common divisor (`CglGomory.cpp` 1353-1357). -/
def gcdRest : ℤ → List ℤ → Option ℤ
  | g, [] => some g
  | g, z :: zs =>
    if z = 0 then gcdRest g zs
    else
      match GMI.computeGcd g z with
      | none => none
      | some g' => gcdRest g' zs

/-- The greatest common divisor of `xInt` (`CglGomory.cpp` 1349-1357): `none` if all are zero, when the loop runs past
the array, or only the last is not, when the code reads the entry after the last. -/
def xGcd : List ℤ → Option ℤ
  | [] => none
  | [_] => none
  | z :: z' :: zs =>
    if z = 0 then xGcd (z' :: zs)
    else
      match GMI.computeGcd z z' with
      | none => none
      | some g => gcdRest g (z' :: zs)

/-- The new number (`CglGomory.cpp` 1383-1389). -/
def reScale (g : ℤ) (old : ℚ) (z : ℤ) : ℚ := if 0 < old then ((z / g : ℤ) : ℚ) else - ((z / g : ℤ) : ℚ)

/-- The cut while it is cleaned. -/
structure Work where
  elems : SVec
  rhs : ℚ
  nonInt : ℤ
  cleaned : Bool
  dontRelax : Bool

/-- Rational cleaning (`CglGomory.cpp` 1271-1411); `none` is undefined behaviour. -/
def rational (P : Prob) (elems : SVec) (rhs : ℚ) : Option Work :=
  let n := nonInteger P elems
  if (n = 0 ∨ elems.length < 6) ∧ elems ≠ [] then
    match lcmLoop (elems.map Prod.snd ++ [rhs]) false 1 with
    | .undef => none
    | .bad => some ⟨elems, rhs, 0, decide (0 < n), false⟩
    | .allInt => some ⟨elems, rhs, 0, decide (0 < n), true⟩
    | .found l =>
      match xInt l (elems.map Prod.snd ++ [rhs]) with
      | none => some ⟨elems, rhs, -1, true, false⟩
      | some zs =>
        match xGcd zs with
        | none => none
        | some g =>
          some ⟨(elems.zip zs).map fun p => (p.1.1, reScale g p.1.2 p.2), reScale g rhs (zs.getLastD 0), 0, true, true⟩
  else some ⟨elems, rhs, n, decide (0 < n), false⟩

/-- Relaxing the right-hand side (`CglGomory.cpp` 1443-1472). -/
def relax (sumCoef : ℚ) (terms : Nat) (w : Work) : Work :=
  if w.dontRelax then w
  else { w with rhs := w.rhs + 1 / 10 ^ 7 + (1 / 10 ^ 7 * sumCoef + 1 / 10 ^ 8 * terms) }

/-- Result of taking off tiny elements. -/
structure Taken where
  elems : SVec
  rhs : ℚ
  nonInt : ℤ
deriving DecidableEq

/-- Taking off tiny elements and fixed columns (`CglGomory.cpp` 1478-1516): `none` if the cut is thrown away. -/
def takeTiny (P : Prob) (global : Bool) : SVec → ℚ → ℤ → Option Taken
  | [], rhs, ni => some ⟨[], rhs, ni⟩
  | (j, v) :: l, rhs, ni =>
    if |v| < 1 / 10 ^ 12 then
      if P.colUpper j - P.colLower j < large then
        takeTiny P global l (if 0 < v then rhs - |v| * P.colLower j else rhs + |v| * P.colUpper j)
          (if P.isInt j then ni - 1 else ni)
      else none
    else if P.colUpper j ≠ P.colLower j ∨ global = true then
      match takeTiny P global l rhs ni with
      | none => none
      | some t => some ⟨(j, v) :: t.elems, t.rhs, t.nonInt⟩
    else takeTiny P global l (rhs - v * P.colLower j) (if P.isInt j then ni - 1 else ni)

/-- `smallest` and `largest` (`CglGomory.cpp` 1481-1482, 1505-1506). -/
def smallLarge (v : SVec) : ℚ × ℚ := v.foldl (fun m p => (min m.1 |p.2|, max m.2 |p.2|)) (10 ^ 30, 0)

/-- The rejection test (`CglGomory.cpp` 1517-1518). -/
def badRange (t : Taken) : Bool :=
  decide (10 ^ 8 * (smallLarge t.elems).1 < (smallLarge t.elems).2) ||
    decide (20 < t.elems.length ∧ (smallLarge t.elems).1 < t.elems.length * (1 / 10 ^ 6)) ||
    decide (t.nonInt < -10) || decide (t.elems = [])

/-- `dontScale` (`CglGomory.cpp` 1546-1553). -/
def dontScale (t : Taken) : Bool :=
  ! decide (1 / 10 ^ 14 < |t.rhs - ⌊t.rhs + 1 / 2⌋|) &&
    t.elems.all fun p => ! (decide (1 / 10 ^ 14 < |p.2 - ⌊p.2 + 1 / 2⌋|) || decide (10 ^ 4 < |p.2|))

/-- Scaling (`CglGomory.cpp` 1544-1559); `sqrt` is `std::sqrt`, any function here. -/
def scale (sqrt : ℚ → ℚ) (t : Taken) : Taken :=
  if dontScale t then t
  else
    let m := 1 / sqrt ((smallLarge t.elems).2 * (smallLarge t.elems).1)
    ⟨t.elems.map fun p => (p.1, p.2 * m), t.rhs * m, t.nonInt⟩

/-- `bounds[1]` (`CglGomory.cpp` 1611-1635).  `test` is the smaller of the two relaxation factors. -/
def upper (tol6 tol9 test : ℚ) (t : Taken) : ℚ :=
  let b :=
    if 50 < t.elems.length ∧ t.nonInt ≠ 0 then t.rhs + tol6 + 1 / 10 ^ 8 * |t.rhs|
    else if 5 < t.elems.length ∧ 1 < t.nonInt then t.rhs + tol6 + 1 / 10 ^ 8 * |t.rhs|
    else t.rhs
  let b := if b < ⌊b + 1 / 2⌋ ∧ (⌊b + 1 / 2⌋ : ℚ) - 1 / 10 ^ 4 < b then (⌊b + 1 / 2⌋ : ℚ) else b
  if 5 < t.elems.length ∧ t.nonInt ≠ 0 ∧ 1 / 10 ^ 20 < test then b + min (test * |t.rhs|) tol9 else b

/-- `range` in tidying (`CglGomory.cpp` 1643-1648). -/
def range (P : Prob) (v : SVec) : ℚ := (v.map fun p => min (P.colUpper p.1 - P.colLower p.1) 1000).sum

/-- Tidying to integers (`CglGomory.cpp` 1641-1681) of the cut `v · x ≤ b`. -/
def tidy (P : Prob) (v : SVec) (b : ℚ) : SVec × ℚ :=
  if |b - ⌊b + 1 / 2⌋| * range P v < 1 / 10 ^ 6 ∧ ∀ p ∈ v, |p.2 - ⌊p.2 + 1 / 2⌋| * range P v ≤ 1 / 10 ^ 6 then
    (v.map fun p => (p.1, (⌊p.2 + 1 / 2⌋ : ℚ)), (⌊b + 1 / 2⌋ : ℚ))
  else (v, b)

/-- What one tableau row gives. -/
inductive Out
  | nothing
  /-- undefined behaviour, or a division by zero -/
  | undef
  /-- a row cut inserted in the collection -/
  | row (c : RowCut)
  /-- a row cut kept as less accurate -/
  | second (c : RowCut)
  /-- a column cut -/
  | col (c : ColCut)
deriving DecidableEq

/-- The singleton row cut `value * x_j ≤ ub` turned into new bounds (`CglGomory.cpp` 1728-1790). -/
def singleton (P : Prob) (j : Nat) (value ub : ℚ) : Out :=
  if value = 0 then .undef
  else
    let lb' := if value < 0 then (if P.isInt j then (⌈ub / value - 1 / 10 ^ 4⌉ : ℚ) else ub / value) else P.colLower j
    let ub' := if value < 0 then P.colUpper j else (if P.isInt j then (⌊ub / value + 1 / 10 ^ 4⌋ : ℚ) else ub / value)
    if ub' + 1 / 10 ^ 4 < lb' then .row ⟨1, 0, []⟩
    else if P.colLower j < lb' ∨ ub' < P.colUpper j then
      if P.isInt j then
        .col ⟨if P.colLower j < lb' then [(j, lb')] else [], if ub' < P.colUpper j then [(j, ub')] else []⟩
      else .nothing
    else .nothing

/-- The tolerances that depend on the pass (`CglGomory.cpp` 820-848). -/
structure Tols where
  t1 : ℚ
  t2 : ℚ
  t6 : ℚ
  t9 : ℚ

/-- `tolerance1`, `tolerance2`, `tolerance6`, `tolerance9`. -/
def tols (info : Info) : Tols :=
  if info.inTree = false ∧ info.pass = 0 then ⟨1, 1 / 10 ^ 2, 1 / 10 ^ 7, 1 / 10 ^ 5⟩
  else ⟨1 / 10 ^ 6, 9 / 10, 1 / 10 ^ 6, 1 / 10 ^ 4⟩

/-- `away` (`CglGomory.cpp` 621). -/
def away (prm : Prm) (info : Info) : ℚ := if info.inTree then prm.away else min prm.away prm.awayAtRoot

/-- The limit on the length of a cut (`CglGomory.cpp` 836-875), before the change for sorted candidates; `els` is the
number of elements of the matrix. -/
def limit0 (prm : Prm) (info : Info) (nCols nRows els : ℤ) : ℤ :=
  let l :=
    if info.inTree = false then
      if info.pass = 0 then (if prm.limitAtRoot = 0 then nCols else prm.limitAtRoot)
      else if info.opt32 = false then
        (if prm.limitAtRoot = 0 then (if 8 * nCols < els then nCols else max 1000 (nRows / 4)) else prm.limitAtRoot)
      else prm.limitAtRoot
    else if prm.limit = 0 then
      (if info.pass = 0 then max 50 (nCols / 40) else 50)
    else prm.limit
  if nCols ≤ l then l + nRows else l

/-- The limit used in the loop (`CglGomory.cpp` 913-918). -/
def limit (prm : Prm) (info : Info) (nCols nRows els : ℤ) : ℤ :=
  if info.sorted = true ∧ info.level = 0 ∧ info.pass = 0 then nRows + nCols
  else limit0 prm info nCols nRows els

/-- `largestFactor` (`CglGomory.cpp` 1016-1021, 1042). -/
def largestFactor (P : Prob) (lp : Lp) (info : Info) (ρ : SVec) : ℚ :=
  (List.range P.nCols).foldl (fun m j =>
    if lp.colBasic j = false ∧ P.colLower j + testFixed info < P.colUpper j then
      (List.range P.rows.length).foldl (fun m i => max m |(P.row i).coef j * denseAt ρ i|) m
    else m) (ρ.foldl (fun m p => max m |p.2|) 0)

/-- From the packed cut to what is done with it (`CglGomory.cpp` 1271-1810). -/
def finish (P : Prob) (lp : Lp) (info : Info) (sqrt : ℚ → ℚ) (lim : ℤ) (test sumCoef : ℚ) (terms : Nat)
    (accurate : Bool) (elems : SVec) (rhs : ℚ) : Out :=
  match rational P elems rhs with
  | none => .undef
  | some w =>
    let w := relax sumCoef terms w
    match takeTiny P info.global w.elems w.rhs w.nonInt with
    | none => .nothing
    | some t =>
      if badRange t then .nothing
      else if lim < t.elems.length then .nothing
      else
        let t := scale sqrt t
        if (t.elems.length : ℤ) < lim ∨ t.nonInt = 0 then
          let b := upper (tols info).t6 (tols info).t9 test t
          if accurate then
            let c := if w.cleaned then (t.elems, b) else tidy P t.elems b
            match c.1 with
            | [] => .nothing
            | [(j, v)] => singleton P j v c.2
            | _ =>
              if SVec.dot c.1 lp.sol < c.2 + 1 / 10 ^ 7 ∧ - dblMax - 1 / 10 ^ 7 < SVec.dot c.1 lp.sol then .nothing
              else .row ⟨- dblMax, c.2, c.1⟩
          else .second ⟨- dblMax, b, t.elems⟩
        else .nothing

/-- One candidate (`CglGomory.cpp` 939-1827) with its row `ρ` of the basis inverse and `relaxation`. -/
def oneRow (prm : Prm) (P : Prob) (lp : Lp) (info : Info) (sqrt : ℚ → ℚ) (lim : ℤ) (relaxation : ℚ) (ρ : SVec)
    (b : Nat) : Out :=
  let f0 := aboveInteger (lp.sol b)
  if lim < (colPart P lp info ρ f0).elems.length then .nothing
  else
    let a := fullRow P lp info ρ f0
    if lim < a.elems.length then .nothing
    else
      let k := packDown P lp.sol a.elems (- a.rhs) f0
      let sum := SVec.dot k.elems lp.sol
      let useTol := if 99 / 100 < (tols info).t1 then 1 / 10 ^ 7 else max |k.rhs| 10 * (1 / 10) * (tols info).t1
      let accurate := decide (|sum - k.rhs - f0| < useTol)
      let accurate2 := decide (|sum - k.rhs - k.viol2| < useTol) && info.sorted
      if k.rhs + (tols info).t2 * away prm info < sum ∧ (accurate = true ∨ accurate2 = true) then
        finish P lp info sqrt lim
          (min (largestFactor P lp info ρ * prm.largestFactorMultiplier) relaxation)
          (sumCoefficients lp.sol a.elems) a.terms accurate k.elems k.rhs
      else .nothing

/-- The collection while the candidates are tried. -/
structure State where
  rows : List RowCut
  cols : List ColCut
  second : List RowCut
  els : ℤ

/-- What is done with the outcome of a candidate (`CglGomory.cpp` 1717-1719, 1767-1782, 1795-1800).
`insertIfNotDuplicateAndClean` is outside `/repo` and read as `insertIfNotDuplicate`. -/
def record (s : State) : Out → Option State
  | .nothing => some s
  | .undef => none
  | .row c => some { s with rows := insertIfNotDuplicate s.rows c, els := s.els - c.row.length }
  | .second c => some { s with second := insertIfNotDuplicate s.second c }
  | .col c => some { s with cols := s.cols ++ [c] }

/-- The loop over the candidates (`CglGomory.cpp` 939-1860). -/
def rowLoop (prm : Prm) (P : Prob) (lp : Lp) (info : Info) (sqrt : ℚ → ℚ) (lim : ℤ) (relaxation : ℚ)
    (binv : Nat → SVec) : List Nat → State → Option State
  | [], s => some s
  | b :: l, s =>
    if s.els ≤ 0 then some s
    else
      match record s (oneRow prm P lp info sqrt lim relaxation (binv b) b) with
      | none => none
      | some s => rowLoop prm P lp info sqrt lim relaxation binv l s

/-- The candidates (`CglGomory.cpp` 885-898). -/
def candidates (prm : Prm) (P : Prob) (lp : Lp) (info : Info) : List Nat :=
  (List.range P.nCols).filter fun j =>
    lp.colBasic j && P.isInt j &&
      decide (aboveInteger (lp.sol j) < 1 - away prm info ∧ away prm info < aboveInteger (lp.sol j))

/-- `CoinSort_2` on the distance from one half (`CglGomory.cpp` 894, 901); outside `/repo`, read as a stable sort. -/
def sortCandidates (lp : Lp) (l : List Nat) : List Nat :=
  l.insertionSort fun a b => |1 / 2 - aboveInteger (lp.sol a)| ≤ |1 / 2 - aboveInteger (lp.sol b)|

/-- `nTotalEls` for sorted candidates (`CglGomory.cpp` 899-926). -/
def totalEls (info : Info) (nCols nRows els : ℤ) : ℤ :=
  if info.level < 2 then
    let nAdd := if 0 < info.pass then min 10000 (els + 2 * nRows) else 10000
    let n := max (5 * nCols) (els / 8 + nAdd)
    if info.level = 0 ∧ info.pass = 0 then n + els / 2 else n
  else max (2 * nCols) (els / 8 + 200)

/-- Inserting the less accurate cuts (`CglGomory.cpp` 1905-1920). -/
def addSecond : List RowCut → ℤ → List RowCut → List RowCut
  | [], _, rows => rows
  | c :: l, els, rows =>
    if els - c.row.length ≤ 0 then insertIfNotDuplicate rows c
    else addSecond l (els - c.row.length) (insertIfNotDuplicate rows c)

/-- Number of elements of the matrix. -/
def numEls (P : Prob) : ℤ := ((P.rows.map fun r => r.coefs.length).sum : ℕ)

/-- `relaxation` (`CglGomory.cpp` 686-700) from the condition number. -/
def relaxationOf (prm : Prm) (sqrt : ℚ → ℚ) (cond : ℚ) : ℚ :=
  (if cond < 1 / 10 ^ 10 then 1 / sqrt cond else cond) * prm.conditionNumberMultiplier

/-- `generateCuts` (`CglGomory.cpp` 600-1930, called from 57-357) when a basis is available: the row cuts and column
cuts afterwards; `none` is undefined behaviour. -/
def generateCuts (prm : Prm) (P : Prob) (lp : Lp) (info : Info) (sqrt : ℚ → ℚ) (rows : List RowCut)
    (cols : List ColCut) : Option (List RowCut × List ColCut) :=
  match lp.fact with
  | none => some (rows, cols)
  | some (cond, binv) =>
    let lim := limit prm info P.nCols P.rows.length (numEls P)
    let cands := candidates prm P lp info
    let cands := if info.sorted then sortCandidates lp cands else cands
    let tot := if info.sorted then totalEls info P.nCols P.rows.length (numEls P) else 2 ^ 31 - 1
    match rowLoop prm P lp info sqrt lim (relaxationOf prm sqrt cond) binv cands ⟨rows, cols, [], tot⟩ with
    | none => none
    | some s =>
      if info.sorted = true ∧ lim < P.nCols then
        if 0 < s.els - tot / 2 then some (addSecond s.second (s.els - tot / 2) s.rows, s.cols)
        else some (s.rows, s.cols)
      else some (s.rows, s.cols)

end Cgl.Gomory
