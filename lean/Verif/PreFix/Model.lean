import Verif.Osi
import Mathlib.Data.Rat.Floor
import Mathlib.Data.List.Sort

/-!
# Model of the small functions of `CglPreProcess` that fix columns and keep track of indices

`reducedCostFix`, `someFixed`, `passInProhibited`, `passInRowTypes`, `update` and `createOriginalIndices` of
src/CglPreProcess/CglPreProcess.cpp.
-/

namespace Cgl.PreFix

inductive Fault
  /-- an array is accessed outside its bounds, or a null pointer is used -/
  | outside
  /-- a `double` does not fit into an `int` -/
  | cast
  /-- an assertion fails -/
  | assertion
deriving DecidableEq, Repr

/-- The objective: `getObjCoefficients`, and `getObjSense` (1 or -1). -/
structure Objective where
  coef : Nat → ℚ
  direction : ℚ

/-- What the solver answers: `getColSolution`, `getReducedCost`, `getObjValue` and the parameters `OsiDualObjectiveLimit`,
`OsiDualTolerance` and `OsiPrimalTolerance`. -/
structure Answers where
  solution : Nat → ℚ
  dj : Nat → ℚ
  objValue : ℚ
  limit : ℚ
  dualTol : ℚ
  primalTol : ℚ

/-- `setColUpper`. -/
def setUpper (P : Prob) (j : Nat) (v : ℚ) : Prob := { P with colUpper := Function.update P.colUpper j v }

/-- `setColLower`. -/
def setLower (P : Prob) (j : Nat) (v : ℚ) : Prob := { P with colLower := Function.update P.colLower j v }

/-! ### `reducedCostFix` -/

/-- `gap` (CglPreProcess.cpp:9170-9178). -/
def gap (O : Objective) (L : Answers) : ℚ := L.limit * O.direction - L.objValue * O.direction

/-- One column (CglPreProcess.cpp:9191-9201). -/
def fixColumn (O : Objective) (L : Answers) (g : ℚ) (s : Prob × Nat) (j : Nat) : Prob × Nat :=
  if s.1.isInt j = true ∧ s.1.colLower j < s.1.colUpper j then
    if L.solution j < s.1.colLower j + L.primalTol ∧ g < O.direction * L.dj j then
      (setUpper s.1 j (s.1.colLower j), s.2 + 1)
    else if s.1.colUpper j - L.primalTol < L.solution j ∧ g < -(O.direction * L.dj j) then
      (setLower s.1 j (s.1.colUpper j), s.2 + 1)
    else s
  else s

/-- `reducedCostFix` (CglPreProcess.cpp:9168-9205): the model afterwards and the return value. -/
def reducedCostFix (P : Prob) (O : Objective) (L : Answers) : Prob × Nat :=
  if gap O L ≤ 0 ∨ 10 ^ 20 < |L.limit * O.direction| then (P, 0)
  else (List.range P.nCols).foldl (fixColumn O L (gap O L + 100 * L.dualTol)) (P, 0)

/-! ### `someFixed` -/

/-- The state of the first loop: the array `dj` (overwritten from the front), the array `sort`, `numberThrow`. -/
structure Cands where
  dj : Nat → ℚ
  sort : List Nat
  thrown : Nat

/-- `dj[number] = key; sort[number++] = i`. -/
def push (s : Cands) (key : ℚ) (i : Nat) : Cands where
  dj := Function.update s.dj s.sort.length key
  sort := s.sort ++ [i]
  thrown := s.thrown

/-- `keep[i]`; without the array 0. -/
def keepOf (keep : Option (Nat → ℤ)) (i : Nat) : ℤ :=
  match keep with
  | none => 0
  | some k => k i

/-- One column of the first loop (CglPreProcess.cpp:9118-9141).  The index of `upper` is `number`. -/
def candStep (P : Prob) (L : Answers) (keep : Option (Nat → ℤ)) (fixCont : Bool) (s : Cands) (i : Nat) : Cands :=
  if P.isInt i || fixCont then
    if keepOf keep i = 1 then s
    else if keepOf keep i = -1 then
      { push s (-10 ^ 30) i with thrown := s.thrown + 1 }
    else if L.solution i < P.colLower i + 1 / 10 ^ 8 then push s (-(s.dj i)) i
    else if P.colUpper s.sort.length - 1 / 10 ^ 8 < L.solution i then push s (-(s.dj i)) i
    else s
  else s

/-- The first loop. -/
def cands (P : Prob) (L : Answers) (keep : Option (Nat → ℤ)) (fixCont : Bool) : Cands :=
  (List.range P.nCols).foldl (candStep P L keep fixCont) ⟨L.dj, [], 0⟩

/-- The arrays that are sorted (CglPreProcess.cpp:9142). -/
def pairs (s : Cands) : List (ℚ × Nat) := ((List.range s.sort.length).map s.dj).zip s.sort

/-- `numberContinuous` (CglPreProcess.cpp:9119-9120). -/
def contCount (P : Prob) : Nat :=
  (List.range P.nCols).countP fun i => !P.isInt i && decide (P.colLower i < P.colUpper i)

/-- `numberToFix` (CglPreProcess.cpp:9143-9147). -/
def toFix (P : Prob) (fraction : ℚ) (fixCont : Bool) (s : Cands) : Except Fault ℤ :=
  match castInt ((P.nCols : ℚ) * (1 - fraction)) with
  | none => .error .cast
  | some a =>
    if fixCont then .ok (min (s.sort.length : ℤ) (max a s.thrown))
    else
      match castInt (((P.nCols : ℚ) - contCount P) * (1 - fraction)) with
      | none => .error .cast
      | some b => .ok (min (s.sort.length : ℤ) (max b s.thrown))

/-- One column of the second loop (CglPreProcess.cpp:9151-9162). -/
def fixOne (P : Prob) (L : Answers) (number : Nat) (N : Prob) (i : Nat) : Except Fault Prob :=
  if L.solution i < P.colLower i + 1 / 10 ^ 8 then .ok (setUpper N i (P.colLower i))
  else if number < P.nCols then
    if P.colUpper number - 1 / 10 ^ 8 < L.solution i then .ok (setLower N i (P.colLower i))
    else .ok (setUpper N i (P.colLower i))
  else .error .outside

/-- The second loop. -/
def fixAll (P : Prob) (L : Answers) (number : Nat) : List Nat → Prob → Except Fault Prob
  | [], N => .ok N
  | i :: l, N => (fixOne P L number N i).bind fun N' => fixAll P L number l N'

/-- `someFixed` (CglPreProcess.cpp:9099-9165) after the call of `resolve`.  `order` is `CoinSort_2`. -/
def someFixed (order : List (ℚ × Nat) → List (ℚ × Nat)) (P : Prob) (L : Answers) (fraction : ℚ) (fixCont : Bool)
    (keep : Option (Nat → ℤ)) : Except Fault Prob :=
  (toFix P fraction fixCont (cands P L keep fixCont)).bind fun k =>
    fixAll P L (cands P L keep fixCont).sort.length
      (((order (pairs (cands P L keep fixCont))).take k.toNat).map Prod.snd) P

/-! ### Prohibited columns and row types -/

/-- The arrays `prohibited_` and `rowType_` (null or a list). -/
structure Marks where
  prohibited : Option (List Nat)
  rowType : Option (List ℤ)
deriving DecidableEq, Repr

/-- `passInProhibited` (CglPreProcess.cpp:9207-9218).  The flags are nonnegative `char`s. -/
def passInProhibited (m : Marks) (flags : List Nat) : Marks :=
  { m with prohibited := some (match m.prohibited with
      | some old => if old.length = flags.length then List.zipWith (fun a b => a ||| b) flags old else flags
      | none => flags) }

/-- `passInRowTypes` (CglPreProcess.cpp:9225-9231), apart from the stored cuts, which are emptied. -/
def passInRowTypes (m : Marks) (types : List ℤ) : Marks := { m with rowType := some types }

/-- The element of an array at an `int` index. -/
def at? {α : Type} (l : List α) (i : ℤ) : Except Fault α :=
  if i < 0 then .error .outside
  else
    match l[i.toNat]? with
    | some a => .ok a
    | none => .error .outside

/-- The loop `a[i] = a[original[i]]` in place, from element `i` on (CglPreProcess.cpp:9047-9060, 9080-9083). -/
def gather {α : Type} : Nat → List ℤ → List α → Except Fault (List α)
  | _, [], a => .ok a
  | i, o :: os, a => (at? a o).bind fun v => if i < a.length then gather (i + 1) os (a.set i v) else .error .outside

/-- `assert(i == 0 || iColumn > original[i - 1])` (CglPreProcess.cpp:9049). -/
def increasing : List ℤ → Bool
  | a :: b :: l => decide (a < b) && increasing (b :: l)
  | _ => true

/-- The columns in `update` (CglPreProcess.cpp:9034-9064).  The assertions are tested after the loop here. -/
def updateColumns (original : List ℤ) (old : List Nat) : Except Fault (List Nat) :=
  (gather 0 original old).bind fun a =>
    if increasing original && decide ((a.take original.length).countP (· != 0) = old.countP (· != 0)) then
      .ok (a.take original.length)
    else .error .assertion

/-- The rows in `update` (CglPreProcess.cpp:9065-9085). -/
def updateRows (original : List ℤ) (old : List ℤ) : Except Fault (List ℤ) :=
  (gather 0 original old).bind fun a => .ok (a.take original.length)

/-- `update` (CglPreProcess.cpp:9030-9086) without `scBound`; a null array is left alone. -/
def updateProhibited (columns : List ℤ) : Option (List Nat) → Except Fault (Option (List Nat))
  | none => .ok none
  | some p => (updateColumns columns p).bind fun q => .ok (some q)

def updateRowType (rows : List ℤ) : Option (List ℤ) → Except Fault (Option (List ℤ))
  | none => .ok none
  | some t => (updateRows rows t).bind fun q => .ok (some q)

def update (columns rows : List ℤ) (m : Marks) : Except Fault Marks :=
  (updateProhibited columns m.prohibited).bind fun p => (updateRowType rows m.rowType).bind fun t => .ok ⟨p, t⟩

/-! ### Original indices -/

/-- One pass: `model_[iPass]` and `presolve_[iPass]` (null, or the original columns and rows). -/
structure Pass where
  nRows : Nat
  nCols : Nat
  presolve : Option (List ℤ × List ℤ)
deriving DecidableEq, Repr

/-- Reading the first `n` elements with `memcpy`. -/
def firstN (l : List ℤ) (n : Nat) : Except Fault (List ℤ) := if n ≤ l.length then .ok (l.take n) else .error .outside

/-- All elements of a list of indices are looked up (CglPreProcess.cpp:8984-8985). -/
def lookAll (table : List ℤ) : List ℤ → Except Fault (List ℤ)
  | [] => .ok []
  | i :: l => (at? table i).bind fun v => (lookAll table l).bind fun r => .ok (v :: r)

/-- A row is looked up if it is a row of the model, and is new otherwise (CglPreProcess.cpp:8989-8993). -/
def lookRow (table : List ℤ) (n : Nat) (i : ℤ) : Except Fault ℤ :=
  if 0 ≤ i ∧ i < (n : ℤ) then at? table i else .ok (-1)

def lookRows (table : List ℤ) (n : Nat) : List ℤ → Except Fault (List ℤ)
  | [] => .ok []
  | i :: l => (lookRow table n i).bind fun v => (lookRows table n l).bind fun r => .ok (v :: r)

/-- The loop over the earlier passes, the latest first (CglPreProcess.cpp:8981-8995). -/
def earlier : List Pass → List ℤ × List ℤ → Except Fault (List ℤ × List ℤ)
  | [], m => .ok m
  | p :: ps, m =>
    match p.presolve with
    | none => .error .outside
    | some (cs, rs) => (lookAll cs m.1).bind fun c => (lookRows rs p.nRows m.2).bind fun r => earlier ps (c, r)

/-- `createOriginalIndices` (CglPreProcess.cpp:8954-9027) without papilo: the arrays `originalColumn_` and
`originalRow_`. -/
def originalIndices (nRows nCols : Nat) (passes : List Pass) : Except Fault (List ℤ × List ℤ) :=
  match passes.reverse.dropWhile fun p => p.presolve.isNone with
  | [] => .ok ((List.range nCols).map fun (i : Nat) => (i : ℤ), (List.range nRows).map fun (i : Nat) => (i : ℤ))
  | p :: ps =>
    match p.presolve with
    | none => .error .outside
    | some (cs, rs) =>
      (firstN cs p.nCols).bind fun c => (firstN rs p.nRows).bind fun r => (earlier ps (c, r)).bind fun m =>
        .ok (m.1.insertionSort (· ≤ ·), m.2)

end Cgl.PreFix
