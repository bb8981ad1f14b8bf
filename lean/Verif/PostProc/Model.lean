import Verif.Osi
import Mathlib.Data.Rat.Floor

/-!
# Model of `CglPreProcess::postProcess`

src/CglPreProcess/CglPreProcess.cpp:5601-6371.  The solvers (`resolve`, `initialSolve`) and `OsiPresolve::postsolve`
are external: they are parameters (`Env`).  Warm starts (bases), the Papilo and Clp sections, the iteration counter and
printing are not modelled.
-/

namespace Cgl.PostProc

inductive Fault
  /-- an array is accessed outside its bounds -/
  | outside
  /-- a null pointer is used -/
  | null
  /-- an assertion fails -/
  | assertion
deriving DecidableEq, Repr

/-- `getHintParam`: the hint and its strength (`OsiHintTry` is 1). -/
structure Hint where
  on : Bool
  strength : Nat
deriving DecidableEq, Repr

/-- An `OsiSolverInterface`: the problem, the objective, and what `getColSolution`, `getObjValue`, `isProvenOptimal` and
the parameters `OsiDualObjectiveLimit`, `OsiPrimalTolerance`, `OsiDoPresolveInInitial`, `OsiDoDualInInitial` answer.
Simplification: setting a bound leaves the solution and the status as they are until the next solve. -/
structure Solver where
  prob : Prob
  obj : Nat → ℚ
  sense : ℚ
  sol : Nat → ℚ
  objValue : ℚ
  optimal : Bool
  cutoff : ℚ
  tol : ℚ
  hintPresolve : Hint
  hintDual : Hint

/-- The places where `postProcess` calls a solver. -/
inductive Call
  /-- `modelM->resolve()` (CglPreProcess.cpp:5621) -/
  | resolve
  /-- the first `initialSolve` of pass `k` (CglPreProcess.cpp:5953) -/
  | pass (k : Nat)
  /-- the `initialSolve` of pass `k` "without basis" (CglPreProcess.cpp:5960) -/
  | passAgain (k : Nat)
  /-- `originalModel_->initialSolve()` (CglPreProcess.cpp:6335) -/
  | final
deriving DecidableEq, Repr

/-- The external parts: what a solver becomes when it solves, and what the solver below becomes when
`presolve_[k]->postsolve(true)` runs. -/
structure Env where
  solve : Call → Solver → Solver
  postsolve : Nat → Solver → Solver → Solver

/-- One pass of the presolve: `model_[k]`, `modifiedModel_[k]` and `presolve_[k]->originalColumns()`. -/
structure Pass where
  model : Solver
  modified : Solver
  cols : List Nat

/-- The part of a `CglPreProcess` that `postProcess` uses.  `start = none` says that `startModel_` and `originalModel_`
are the same object (CglPreProcess.cpp:1698); `passes` are the arrays `model_`, `modifiedModel_`, `presolve_` as they were
allocated, `none` for null pointers; `lots` are the semi-continuous columns in `appData_` (column, low) when bit 128 of
`options_` is set. -/
structure Pre where
  original : Solver
  start : Option Solver
  numberSolvers : Nat
  passes : List (Option Pass)
  cuts : List RowCut
  lots : Option (List (Nat × ℚ))
  originalColumn : List Nat

/-- Messages sent to the handler. -/
inductive Message
  /-- `CGL_POST_INFEASIBLE` -/
  | infeasible
  /-- `CGL_POST_CHANGED` -/
  | changed
deriving DecidableEq, Repr

/-! ### Setting bounds -/

/-- `setColLower`. -/
def setLower (S : Solver) (j : Nat) (v : ℚ) : Solver :=
  { S with prob := { S.prob with colLower := Function.update S.prob.colLower j v } }

/-- `setColUpper`. -/
def setUpper (S : Solver) (j : Nat) (v : ℚ) : Solver :=
  { S with prob := { S.prob with colUpper := Function.update S.prob.colUpper j v } }

/-- `floor(value + 0.5)`. -/
def roundHalf (v : ℚ) : ℚ := (⌊v + 1 / 2⌋ : ℤ)

/-- `fabs(value - value2) < 1.0e-3` (CglPreProcess.cpp:5805, 6156, 6190). -/
def near (v : ℚ) : Prop := |v - roundHalf v| < 1 / 1000

instance (v : ℚ) : Decidable (near v) := by unfold near; infer_instance

/-- Copy the bounds of a continuous column that is fixed (CglPreProcess.cpp:5815-5819, 5824-5829, 6168-6173). -/
def copyFixed (M S : Solver) (i : Nat) : Solver :=
  if M.prob.colUpper i = M.prob.colLower i ∧ S.prob.colLower i < S.prob.colUpper i ∧ S.prob.isInt i = false then
    setLower (setUpper S i (M.prob.colLower i)) i (M.prob.colLower i)
  else S

/-! ### Semi-continuous columns -/

/-- `scBound`: `none` is `-COIN_DBL_MAX`. -/
abbrev ScBound := Nat → Option ℚ

/-- `lotsize[i].low` stored in `scBound`. -/
def lowOf (q : ℚ) : Option ℚ := if q = -dblMax then none else some q

/-- `scBound` (CglPreProcess.cpp:5667-5674). -/
def scFrom (lots : List (Nat × ℚ)) (n : Nat) : Except Fault ScBound :=
  if ∃ l ∈ lots, n ≤ l.1 then .error .outside
  else .ok (lots.foldl (fun f l => Function.update f l.1 (lowOf l.2)) fun _ => none)

/-- What becomes of column `j` when the semi-continuous variable has value `v` (CglPreProcess.cpp:5682-5687, 5833-5836,
6077-6082). -/
def scSet (low v : ℚ) (S : Solver) (j : Nat) : Solver :=
  if v < 1 / 100000 then setUpper S j 0 else setLower S j low

/-- One column of the reduced model (CglPreProcess.cpp:5677-5689). -/
def scColumn (sc : ScBound) (oc : List Nat) (sol : Nat → ℚ) (S : Solver) (i : Nat) : Solver :=
  match sc (oc.getD i 0) with
  | none => S
  | some low => scSet low (sol i) S i

/-- The assertion `value>lower-1.0e-3` (CglPreProcess.cpp:5685) for column `i`. -/
def scAssertIn (sc : ScBound) (oc : List Nat) (sol : Nat → ℚ) (i : Nat) : Bool :=
  match sc (oc.getD i 0) with
  | none => true
  | some low => decide (sol i < 1 / 100000) || decide (low - 1 / 1000 < sol i)

/-- The semi-continuous columns of the reduced model (CglPreProcess.cpp:5675-5689); `n` is the size of `scBound`.
Simplification: all columns are tested before the first is changed. -/
def scIncoming (sc : ScBound) (oc : List Nat) (n : Nat) (M : Solver) : Except Fault Solver :=
  if oc.length < M.prob.nCols ∨ ∃ i < M.prob.nCols, n ≤ oc.getD i 0 then .error .outside
  else if (List.range M.prob.nCols).all (scAssertIn sc oc M.sol) = false then .error .assertion
  else .ok ((List.range M.prob.nCols).foldl (scColumn sc oc M.sol) M)

/-- `original[i] = original[forward[i]]` for the columns of one pass, in place (CglPreProcess.cpp:5792-5795). -/
def composeOne (cols : List Nat) (n : Nat) (f : Nat → Nat) : Nat → Nat :=
  (List.range n).foldl (fun f i => Function.update f i (f (cols.getD i 0))) f

/-- The array `original` of pass `k` (CglPreProcess.cpp:5781-5797): numbers of the columns of `model_[k]` in the user's
model.  Simplification: the index tests are made when the entries of `scBound` are read (`origOk`). -/
def originalOf : List (Option Pass) → (Nat → Nat) → Nat → Nat
  | [], f => f
  | none :: ps, f => originalOf ps f
  | some P :: ps, f => originalOf ps (composeOne P.cols P.model.prob.nCols f)

/-- The indices used with `scBound` are inside it. -/
def origOk (orig : Nat → Nat) (n m : Nat) : Bool := (List.range m).all fun i => decide (orig i < n)

/-- The assertion `value<1.0e-5||value>lower-1.0e-5` (CglPreProcess.cpp:5832, 6076). -/
def scAssert (sc : ScBound) (orig : Nat → Nat) (sol : Nat → ℚ) (i : Nat) : Bool :=
  match sc (orig i) with
  | none => true
  | some low => decide (sol i < 1 / 100000) || decide (low - 1 / 100000 < sol i)

/-! ### One pass -/

/-- One column of `model_[k]`, `modelM` being the model above (CglPreProcess.cpp:5799-5839). -/
def passColumn (sc : Option ScBound) (orig : Nat → Nat) (M S : Solver) (i : Nat) : Solver :=
  if M.prob.isInt i = true then
    if near (M.sol i) then setUpper (setLower S i (roundHalf (M.sol i))) i (roundHalf (M.sol i)) else S
  else match sc with
    | none => copyFixed M S i
    | some f => match f (orig i) with
      | none => copyFixed M S i
      | some low => scSet low (M.sol i) S i

/-- How many columns are fixed (CglPreProcess.cpp:5939-5947, 6300-6307). -/
def numberFixed (S : Solver) : Nat :=
  ((List.range S.prob.nCols).filter fun j => decide (S.prob.colLower j = S.prob.colUpper j)).length

/-- The hints of `model_[k]` before it is solved (CglPreProcess.cpp:5846, 5948-5952). -/
def passHints (S : Solver) : Solver :=
  { S with
    hintPresolve := if 2000 < S.prob.nCols ∧ numberFixed S < S.prob.nCols ∧ S.prob.nCols < numberFixed S * 5 then
      ⟨true, 1⟩ else S.hintPresolve
    hintDual := ⟨true, 1⟩ }

/-- `model_[k]` with bounds from `modelM`, solved (CglPreProcess.cpp:5768-5961). -/
def solvePass (E : Env) (k : Nat) (sc : Option ScBound) (orig : Nat → Nat) (M S : Solver) : Solver :=
  let S1 := if S.prob.nCols = 0 then S else (List.range M.prob.nCols).foldl (passColumn sc orig M) S
  let S2 := E.solve (.pass k) (passHints S1)
  if S2.optimal then S2 else E.solve (.passAgain k) S2

/-- One column of the model below after `postsolve` (CglPreProcess.cpp:6043-6099); `j` is its number there. -/
def backColumn (sc : Option ScBound) (orig : Nat → Nat) (cols : List Nat) (M S : Solver) (i : Nat) : Solver :=
  let j := cols.getD i 0
  if S.prob.isInt j = false then
    if M.prob.colUpper i = M.prob.colLower i then
      if S.prob.colLower j < S.prob.colUpper j then
        let v := min (max (M.sol i) (M.prob.colLower i)) (M.prob.colUpper i)
        setUpper (setLower S j v) j v
      else S
    else match sc with
      | none => S
      | some f => match f (orig i) with
        | none => S
        | some low => scSet low (M.sol i) S j
  else
    let v := roundHalf (S.sol j)
    if v < S.prob.colLower j then setLower S j v
    else if S.prob.colUpper j < v then setUpper S j v
    else S

/-- The faults of one pass.  Simplifications: an array that is too short is a fault even if no branch reads its last
entries, and all assertions are tested before the first column is changed. -/
def passFault (n : Nat) (sc : Option ScBound) (orig : Nat → Nat) (P : Pass) (M below : Solver) : Option Fault :=
  if (P.model.prob.nCols ≠ 0 ∧ P.model.prob.nCols < M.prob.nCols) ∨ P.cols.length < M.prob.nCols ∨
      ∃ i < M.prob.nCols, below.prob.nCols ≤ P.cols.getD i 0 then some .outside
  else match sc with
    | none => none
    | some f =>
      if P.model.prob.nCols = 0 ∧ M.prob.nCols ≠ 0 then some .null
      else if origOk orig n M.prob.nCols = false then some .outside
      else if ((List.range M.prob.nCols).all fun i =>
          (M.prob.isInt i && (below.prob.isInt (P.cols.getD i 0) || decide (M.prob.colUpper i = M.prob.colLower i))) ||
            scAssert f orig M.sol i) = false then some .assertion
      else none

/-- One pass (CglPreProcess.cpp:5761-6098): `model_[k]` solved and the model below. -/
def unwindPass (E : Env) (n k : Nat) (sc : Option ScBound) (orig : Nat → Nat) (P : Pass) (M below : Solver) :
    Except Fault (Solver × Solver) :=
  match passFault n sc orig P M below with
  | some e => .error e
  | none =>
    let m := solvePass E k sc orig M P.model
    .ok (m, (List.range M.prob.nCols).foldl (backColumn sc orig P.cols M) (E.postsolve k m below))

/-- `modelM2`: `modifiedModel_[k-1]`, or `startModel_` for the first pass (CglPreProcess.cpp:5991-5996). -/
def belowOf (p : Pre) : Nat → Option Solver
  | 0 => some (p.start.getD p.original)
  | k + 1 => match p.passes[k]? with
    | some (some P) => some P.modified
    | _ => none

/-- The model below has changed. -/
def setBelow (p : Pre) (k : Nat) (S : Solver) : Pre :=
  match k with
  | 0 => match p.start with
    | none => { p with original := S }
    | some _ => { p with start := some S }
  | k + 1 => { p with passes := p.passes.modify k (Option.map fun P => { P with modified := S }) }

/-- `model_[k]` has been solved, or pass `k` is deleted (CglPreProcess.cpp:6100-6109). -/
def setPass (p : Pre) (k : Nat) (del : Bool) (m : Solver) : Pre :=
  { p with passes := p.passes.modify k (Option.bind · fun P => if del then none else some { P with model := m }) }

/-- One turn of the loop over the passes. -/
def turn (E : Env) (n : Nat) (sc : Option ScBound) (del : Bool) (k : Nat) (p : Pre) (M : Solver) :
    Except Fault (Pre × Solver) :=
  match p.passes[k]? with
  | none => .error .outside
  | some none => .error .null
  | some (some P) =>
    match belowOf p k with
    | none => .error .null
    | some below =>
      match unwindPass E n k sc (originalOf (p.passes.take (k + 1)) id) P M below with
      | .error e => .error e
      | .ok (m, b) => .ok (setPass (setBelow p k b) k del m, b)

/-- The loop over the passes, last first (CglPreProcess.cpp:5760-6111): the state, and `modelM`. -/
def unwind (E : Env) (n : Nat) (sc : Option ScBound) (del : Bool) : Nat → Pre → Solver → Except Fault (Pre × Solver)
  | 0, p, M => .ok (p, M)
  | k + 1, p, M => match turn E n sc del k p M with
    | .error e => .error e
    | .ok (p', M') => unwind E n sc del k p' M'

/-! ### Back at the user's model -/

/-- One column of the user's model (CglPreProcess.cpp:6150-6174). -/
def fixColumn (M S : Solver) (j : Nat) : Solver :=
  if M.prob.isInt j = true then
    if near (M.sol j) then
      let v := max (min (roundHalf (M.sol j)) (M.prob.colUpper j)) (M.prob.colLower j)
      setUpper (setLower S j v) j v
    else S
  else copyFixed M S j

/-- `numberBadValues` (CglPreProcess.cpp:6157-6166). -/
def numberBad (M : Solver) (n : Nat) : Nat :=
  ((List.range n).filter fun j => M.prob.isInt j && !decide (near (M.sol j))).length

/-- `value`, rounded if it is an integer column near an integer (CglPreProcess.cpp:6185-6193). -/
def roundedValue (M : Solver) (j : Nat) : ℚ :=
  if M.prob.isInt j = true ∧ near (M.sol j) then roundHalf (M.sol j) else M.sol j

/-- The entries of column `j` (row, coefficient): `getMatrixByCol`. -/
def column (P : Prob) (j : Nat) : List (Nat × ℚ) :=
  (List.range P.rows.length).flatMap fun i =>
    match P.rows[i]? with
    | none => []
    | some r => (r.coefs.filter fun q => q.1 == j).map fun q => (i, q.2)

/-- `rowActivity[iRow] += value * element[j]` for one column (CglPreProcess.cpp:6194-6198, 6265-6269). -/
def addColumn (act : Nat → ℚ) (es : List (Nat × ℚ)) (v : ℚ) : Nat → ℚ :=
  es.foldl (fun a e => Function.update a e.1 (a e.1 + v * e.2)) act

/-- `rowActivity` (CglPreProcess.cpp:6181-6199). -/
def activities (P : Prob) (x : Nat → ℚ) : Nat → ℚ :=
  (List.range P.nCols).foldl (fun a j => addColumn a (column P j) (x j)) fun _ => 0

/-- Can the column move by `d` (CglPreProcess.cpp:6223-6239, 6241-6251)?  Every row it is in stays within its bounds up to
the tolerance. -/
def canMove (P : Prob) (tol : ℚ) (act : Nat → ℚ) (j : Nat) (d : ℚ) : Bool :=
  (column P j).all fun e => match P.rows[e.1]? with
    | none => true
    | some r => decide (act e.1 + d * e.2 ≤ r.ub + tol) && decide (r.lb - tol ≤ act e.1 + d * e.2)

/-- The state of the loop over the integer columns without an integer value: the user's model, `solution`, `rowActivity`,
`numberCheck`. -/
structure Settle where
  S : Solver
  x : Nat → ℚ
  act : Nat → ℚ
  checked : Nat

/-- The new value, if there is one (CglPreProcess.cpp:6221-6261). -/
def newValue (S : Solver) (tol : ℚ) (act : Nat → ℚ) (j : Nat) (v : ℚ) : Option ℚ :=
  let up := canMove S.prob tol act j ((⌊v⌋ : ℤ) + 1 - v)
  let down := canMove S.prob tol act j ((⌊v⌋ : ℤ) - v)
  if up = true ∧ down = true then
    if 0 < S.sense * S.obj j then some (⌊v⌋ : ℤ) else some ((⌊v⌋ : ℤ) + 1)
  else if up = true then some ((⌊v⌋ : ℤ) + 1)
  else if down = true then some (⌊v⌋ : ℤ)
  else none

/-- One column of that loop (CglPreProcess.cpp:6212-6277). -/
def settleColumn (tol : ℚ) (s : Settle) (j : Nat) : Settle :=
  if s.S.prob.isInt j = true ∧ s.x j ≠ (⌊s.x j⌋ : ℤ) then
    match newValue s.S tol s.act j (s.x j) with
    | none => { s with checked := s.checked + 1 }
    | some v =>
      { S := setUpper (setLower s.S j v) j v
        x := Function.update s.x j v
        act := addColumn s.act (column s.S.prob j) (v - s.x j)
        checked := s.checked + 1 }
  else s

/-- The loop over the integer columns (CglPreProcess.cpp:6176-6277), the tolerance being ten times the primal
tolerance. -/
def settle (M S : Solver) : Settle :=
  (List.range S.prob.nCols).foldl (settleColumn (10 * S.tol))
    ⟨S, roundedValue M, activities S.prob (roundedValue M), 0⟩

/-- Back at the user's model (CglPreProcess.cpp:6134-6282). -/
def backToOriginal (M S : Solver) : Except Fault Solver :=
  if M.prob.nCols < S.prob.nCols then .error .outside
  else
    let S1 := (List.range S.prob.nCols).foldl (fixColumn M) S
    if numberBad M S.prob.nCols = 0 then .ok S1
    else
      let t := settle M S1
      if t.checked ≠ numberBad M S.prob.nCols then .error .assertion
      else .ok { t.S with sol := t.x }

/-- The branch for a reduced model without a solution (CglPreProcess.cpp:6283-6295). -/
def lowerColumn (S : Solver) (j : Nat) : Solver :=
  if S.prob.isInt j = true then setUpper S j (S.prob.colLower j) else S

/-- One column of the last loop (CglPreProcess.cpp:6305-6313). -/
def lastColumn (sc : ScBound) (S : Solver) (j : Nat) : Solver :=
  if S.prob.colLower j = S.prob.colUpper j then S
  else match sc j with
    | none => S
    | some low => setLower S j low

/-- The last loop (CglPreProcess.cpp:6299-6314). -/
def lastColumns (sc : Option ScBound) (S : Solver) : Solver :=
  match sc with
  | none => S
  | some f => (List.range S.prob.nCols).foldl (lastColumn f) S

/-- What `postProcess` leaves: the object, the reduced model and the messages.  `unwound` is the model the loop over the
passes ended with (kept for the statements; the code has it in `modelM`). -/
structure Result where
  pre : Pre
  modelIn : Solver
  message : Option Message
  unwound : Option Solver

/-- `testObj` (CglPreProcess.cpp:6339). -/
def testObj (a b : ℚ) : ℚ := 1 / 10 ^ 8 * max |a| |b| + 1 / 10 ^ 4

/-- The end (CglPreProcess.cpp:6297-6371), the user's model being solved once more. -/
def finish (E : Env) (sc : Option ScBound) (del : Bool) (saveObj : ℚ) (hp hd : Hint) (p : Pre) (modelIn : Solver)
    (unwound : Option Solver) : Except Fault Result :=
  let S1 := lastColumns sc { p.original with hintPresolve := ⟨true, 1⟩, hintDual := ⟨false, 1⟩ }
  let S2 := E.solve .final S1
  let S3 := { S2 with hintPresolve := hp, hintDual := hd }
  if S2.optimal = false then
    if del = true then
      if p.passes.length < p.numberSolvers then .error .outside
      else .ok ⟨{ p with original := S3, passes := p.passes.mapIdx fun k P => if k < p.numberSolvers then none else P }, modelIn, some .infeasible, unwound⟩
    else .ok ⟨{ p with original := S3 }, modelIn, some .infeasible, unwound⟩
  else if testObj saveObj S2.objValue < |saveObj - S2.objValue| ∧ del = true then
    .ok ⟨{ p with original := S3 }, modelIn, some .changed, unwound⟩
  else .ok ⟨{ p with original := S3 }, modelIn, none, unwound⟩

/-- The reduced model with the semi-continuous columns set (CglPreProcess.cpp:5655-5690). -/
def incoming (p : Pre) (M : Solver) : Except Fault (Option ScBound × Solver) :=
  match p.lots with
  | none => .ok (none, M)
  | some lots => match scFrom lots p.original.prob.nCols with
    | .error e => .error e
    | .ok f => match scIncoming f p.originalColumn p.original.prob.nCols M with
      | .error e => .error e
      | .ok M' => .ok (some f, M')

/-- The rows added back (CglPreProcess.cpp:5736-5755), in a clone. -/
def addCuts (cuts : List RowCut) (M : Solver) : Solver :=
  { M with prob := { M.prob with rows := M.prob.rows ++ cuts.map fun c => ⟨c.lb, c.ub, c.row⟩ } }

/-- `postProcess(modelIn, deleteStuff)` (CglPreProcess.cpp:5601-6371). -/
def postProcess (E : Env) (p : Pre) (modelIn : Solver) (del : Bool) : Except Fault Result :=
  let M0 := { modelIn with cutoff := 10 ^ 50 }
  let M1 := if M0.optimal then M0 else E.solve .resolve M0
  if M1.optimal = true then
    match incoming p M1 with
    | .error e => .error e
    | .ok (sc, M2) =>
      let p1 := { p with numberSolvers := if p.numberSolvers = 99 then 1 else p.numberSolvers }
      match unwind E p.original.prob.nCols sc del p1.numberSolvers p1 (addCuts p.cuts M2) with
      | .error e => .error e
      | .ok (p2, M) =>
        match backToOriginal M p2.original with
        | .error e => .error e
        | .ok S => finish E sc del modelIn.objValue p.original.hintPresolve p.original.hintDual { p2 with original := S }
            M2 (some M)
  else
    finish E none del modelIn.objValue p.original.hintPresolve p.original.hintDual
      { p with original := (List.range p.original.prob.nCols).foldl lowerColumn p.original } M1 none

end Cgl.PostProc
