import Verif.Tableau

/-!
# Model of CglLandP (src/CglLandP)

Lift-and-project cuts found by pivoting in the tableau of the LP relaxation.  What is modelled: the parameters, the
cached data, the conversion of ranged rows, the choice of the source rows, pulling a row of the tableau, modularizing
it, the bookkeeping of a pivot, the intersection cut and its strengthened form, the extra cuts, the validator, and the
handling of the cuts in `generateCuts`.

What is not modelled but taken as an arbitrary input: the answers of the LP solver (`View`), which pivots the search
tries and when it stops (`Step`, `Run`), the times, and the test for equal cuts.

Variables are numbered as in the code: columns `0..n-1`, slack of row `i` is `n+i`.  Statuses are those of
`CoinWarmStartBasis`: 0 free, 1 basic, 2 at upper bound, 3 at lower bound; a slack at its upper bound is a row at its
lower bound.  `double` is exact rational arithmetic.  An exception, a failed assertion or undefined behaviour is a
`Fault`.
-/

namespace Cgl.LandP

/-- How a call can fail. -/
inductive Fault
  /-- `NoBasisError` or `assert(si.basisIsAvailable())` -/
  | noBasis
  /-- a nonbasic column that is at no bound (an exception, or `throw;` outside a handler) -/
  | invalidBasis
  /-- another `assert` fails -/
  | assertion
  /-- an array is read or written outside its bounds -/
  | outside
  /-- a member that was never set is read -/
  | uninitialised
  /-- a null pointer is read -/
  | nullPointer
  /-- a conversion to `int` does not fit -/
  | cast
  /-- `throw -1` for an option that is not implemented -/
  | unimplemented
deriving DecidableEq, Repr

/-- `CglLandP::ExtraCutsMode`, CglLandP.hpp:64-70. -/
inductive ExtraMode | none | atOptimalBasis | whenEnteringBasis | allViolatedMigs
deriving DecidableEq, Repr

/-- `CglLandP::SelectionRules`, CglLandP.hpp:57-62. -/
inductive Rule | mostNegativeRc | bestPivot | initialReducedCosts
deriving DecidableEq, Repr

/-- `CglLandP::Normalization`, CglLandP.hpp:80-86. -/
inductive Normalization | unweighted | weightRHS | weightLHS | weightBoth
deriving DecidableEq, Repr

/-- `CglLandP::RhsWeightType`, CglLandP.hpp:98-102. -/
inductive RhsWeight | fixed | dynamic
deriving DecidableEq, Repr

/-- `CglLandP::SeparationSpaces`, CglLandP.hpp:73-78. -/
inductive Space | fractional | fractionalRc | full
deriving DecidableEq, Repr

/-- `CglLandP::LHSnorm`, CglLandP.hpp:88-96. -/
inductive LhsNorm | l1 | l2 | supportSize | infinity | average | uniform
deriving DecidableEq, Repr

/-- `CglLandP::Parameters`, CglLandP.hpp:105-178, with the members of the base class `CglParam`
(src/CglCommon/CglParam.hpp). -/
structure Params where
  infinit : ℚ
  eps : ℚ
  epsCoeff : ℚ
  maxSupport : ℤ
  pivotLimit : ℤ
  pivotLimitInTree : ℤ
  maxCutPerRound : ℤ
  failedPivotLimit : ℤ
  degeneratePivotLimit : ℤ
  extraCutsLimit : ℤ
  maximumCandidates : ℤ
  maximumCutLength : ℤ
  pivotTol : ℚ
  away : ℚ
  timeLimit : ℚ
  singleCutTimeLimit : ℚ
  rhsWeight : ℚ
  useTableauRow : Bool
  modularize : Bool
  strengthen : Bool
  countMistakenRc : Bool
  sepSpace : Space
  perturb : Bool
  normalization : Normalization
  rhsWeightType : RhsWeight
  lhsNorm : LhsNorm
  generateExtraCuts : ExtraMode
  pivotSelection : Rule

/-- Default constructor, CglLandP.cpp:45-73 (and CglParam.cpp:50-57). -/
def Params.default : Params where
  infinit := dblMax
  eps := 1/10^8
  epsCoeff := 1/10^5
  maxSupport := intMax
  pivotLimit := 20
  pivotLimitInTree := 10
  maxCutPerRound := 5000
  failedPivotLimit := 1
  degeneratePivotLimit := 0
  extraCutsLimit := 5
  maximumCandidates := 1000000
  maximumCutLength := 10000
  pivotTol := 1/10^4
  away := 5/10^4
  timeLimit := dblMax
  singleCutTimeLimit := dblMax
  rhsWeight := 1
  useTableauRow := true
  modularize := false
  strengthen := true
  countMistakenRc := false
  sepSpace := .fractional
  perturb := true
  normalization := .unweighted
  rhsWeightType := .fixed
  lhsNorm := .l1
  generateExtraCuts := .none
  pivotSelection := .mostNegativeRc

/-- Copy constructor, CglLandP.cpp:75-101. -/
def Params.copy (o : Params) : Params where
  infinit := o.infinit
  eps := o.eps
  epsCoeff := o.epsCoeff
  maxSupport := o.maxSupport
  pivotLimit := o.pivotLimit
  pivotLimitInTree := o.pivotLimitInTree
  maxCutPerRound := o.maxCutPerRound
  failedPivotLimit := o.failedPivotLimit
  degeneratePivotLimit := o.degeneratePivotLimit
  extraCutsLimit := o.extraCutsLimit
  maximumCandidates := o.maximumCandidates
  maximumCutLength := o.maximumCutLength
  pivotTol := o.pivotTol
  away := o.away
  timeLimit := o.timeLimit
  singleCutTimeLimit := o.singleCutTimeLimit
  rhsWeight := o.rhsWeight
  useTableauRow := o.useTableauRow
  modularize := o.modularize
  strengthen := o.strengthen
  countMistakenRc := o.countMistakenRc
  sepSpace := o.sepSpace
  perturb := o.perturb
  normalization := o.normalization
  rhsWeightType := o.rhsWeightType
  lhsNorm := o.lhsNorm
  generateExtraCuts := o.generateExtraCuts
  pivotSelection := o.pivotSelection

/-- `operator=`, CglLandP.cpp:103-134, for distinct objects.  (`degeneratePivotLimit` gets the other object's
`failedPivotLimit`.) -/
def Params.assign (_this o : Params) : Params where
  infinit := o.infinit
  eps := o.eps
  epsCoeff := o.epsCoeff
  maxSupport := o.maxSupport
  pivotLimit := o.pivotLimit
  pivotLimitInTree := o.pivotLimitInTree
  maxCutPerRound := o.maxCutPerRound
  failedPivotLimit := o.failedPivotLimit
  degeneratePivotLimit := o.failedPivotLimit
  extraCutsLimit := o.extraCutsLimit
  maximumCandidates := o.maximumCandidates
  maximumCutLength := o.maximumCutLength
  pivotTol := o.pivotTol
  away := o.away
  timeLimit := o.timeLimit
  singleCutTimeLimit := o.singleCutTimeLimit
  rhsWeight := o.rhsWeight
  useTableauRow := o.useTableauRow
  modularize := o.modularize
  strengthen := o.strengthen
  countMistakenRc := o.countMistakenRc
  sepSpace := o.sepSpace
  perturb := o.perturb
  normalization := o.normalization
  rhsWeightType := o.rhsWeightType
  lhsNorm := o.lhsNorm
  generateExtraCuts := o.generateExtraCuts
  pivotSelection := o.pivotSelection

/-- `LAP::Validator`, CglLandPValidator.hpp:113-128 (without the counters of rejected cuts). -/
structure Validator where
  maxFillIn : ℚ
  maxRatio : ℚ
  minViolation : ℚ
  rhsScale : ℚ

/-- Its default constructor, CglLandPValidator.hpp:41-45. -/
def Validator.default : Validator := ⟨1, 10^8, 0, 1⟩

/-! ### Answers of the LP solver -/

/-- What the solver reports for its current basis: `getBasics`, row `i` of the inverse of the basis matrix
(`getBInvARow`: its product with the matrix for the columns, itself for the slacks), the solution and the row
activities, and which entries the sparse form of the tableau row lists (`getBInvARow(int, CoinIndexedVector*, ...)` of
OsiClp; a solver without that form lists none). -/
structure View where
  basics : List Nat
  binv : Nat → SVec
  xlp : Nat → ℚ
  act : Nat → ℚ
  listed : Nat → Nat → Bool

/-- One pivot tried by the search, CglLandPSimplex.cpp:703-896: position of the incoming variable among the nonbasic
ones, row of the leaving one, its direction (1: to the upper bound), does `si_->pivot` succeed, the solver afterwards,
does the search give up because the objective got worse (lines 845-852), and the value of
`int_val(getColsolToCut(iCol), away)` for the variable now basic in that row. -/
structure Step where
  incoming : Nat
  leaving : Nat
  up : Bool
  ok : Bool
  view : View
  worse : Bool
  want : Bool

/-- One call of `optimize`: the pivots tried, is the last thing tried a rescan that finds no row, and
`int_val(getColsolToCut(basics_[i]), away)` at the end. -/
structure Run where
  steps : List Step
  exhausted : Bool
  want : Nat → Bool

/-! ### Cached data -/

/-- `INT_INFEAS`, CglLandP.cpp:14. -/
def intInfeas (v : ℚ) : ℚ := |v - ⌊v + 1/2⌋|

/-- `integerSlacks[i]` after CglLandP.cpp:301-331. -/
def intSlack (P : Prob) (i : Nat) : Bool :=
  (decide ((P.row i).lb ≤ -10^50) || decide (intInfeas (P.row i).lb ≤ 1/10^15)) &&
  (decide (10^50 ≤ (P.row i).ub) || decide (intInfeas (P.row i).ub ≤ 1/10^15)) &&
  (P.row i).coefs.all fun p => P.isInt p.1 && decide (intInfeas p.2 ≤ 1/10^15)

/-- `integers_[v]`, CglLandP.cpp:293-331. -/
def intVar (P : Prob) (v : Nat) : Bool := if v < P.nCols then P.isInt v else intSlack P (v - P.nCols)

/-- `nonBasics_` after `getData`, CglLandP.cpp:365-392: the columns that are not basic, then the slacks. -/
def startNonBasics (P : Prob) (stat : Nat → Nat) : List Nat :=
  (List.range (P.nCols + P.rows.length)).filter fun v => !(stat v == 1)

/-! ### Rows of the tableau -/

/-- `TabRow`, CglLandPTabRow.hpp:20-45: number, dense entries, right-hand side, entries in the index list. -/
structure TabRow where
  num : Nat
  coef : Nat → ℚ
  rhs : ℚ
  listed : Nat → Bool

/-- The simplex state of `CglLandPSimplex` that the cuts depend on: `nonBasics_`, `basis_`, and the solver.  `basics_`
is always what the solver last reported. -/
structure Sim where
  nonBasics : List Nat
  stat : Nat → Nat
  view : View

/-- Entry of the tableau row with multipliers `ρ` for variable `v`. -/
def raw (P : Prob) (ρ : SVec) (v : Nat) : ℚ := if v < P.nCols then tabEntry P ρ v else denseAt ρ (v - P.nCols)

/-- All nonbasic columns are at a bound (the tests at CglLandPSimplex.cpp:3170-3184, 2567-2585, 2701-2718). -/
def statusOk (P : Prob) (s : Sim) : Bool :=
  s.nonBasics.all fun v => !decide (v < P.nCols) || s.stat v == 2 || s.stat v == 3

/-- `pullTableauRow`, CglLandPSimplex.cpp:3112-3196.  Simplification: every variable occurs once in `nonBasics_`, so
the loop that changes signs is written entry by entry. -/
def pull (P : Prob) (s : Sim) (num : Nat) : Except Fault TabRow :=
  if statusOk P s then
    .ok { num := num
          coef := fun v =>
            if v = s.view.basics.getD num 0 then 0
            else if v ∈ s.nonBasics ∧ s.stat v = 2 then - raw P (s.view.binv num) v
            else raw P (s.view.binv num) v
          rhs :=
            if s.view.basics.getD num 0 < P.nCols then s.view.xlp (s.view.basics.getD num 0)
            else - s.view.act (s.view.basics.getD num 0 - P.nCols) +
              (if -P.inf < (P.row (s.view.basics.getD num 0 - P.nCols)).lb
                then (P.row (s.view.basics.getD num 0 - P.nCols)).lb
                else (P.row (s.view.basics.getD num 0 - P.nCols)).ub)
          listed := s.view.listed num }
  else .error .invalidBasis

/-- `row_k_.rhs = row_k_.rhs - floor(row_k_.rhs)`, e.g. CglLandPSimplex.cpp:611. -/
def TabRow.frac (r : TabRow) : TabRow := { r with rhs := r.rhs - ⌊r.rhs⌋ }

/-- `modularizedCoef`, CglLandPUtils.hpp:41-48. -/
def modularizedCoef (alpha beta : ℚ) : ℚ :=
  if alpha - ⌊alpha⌋ ≤ beta then alpha - ⌊alpha⌋ else alpha - ⌊alpha⌋ - 1

/-- `TabRow::modularize`, CglLandPTabRow.cpp:57-71. -/
def TabRow.modularize (P : Prob) (r : TabRow) : TabRow :=
  { r with coef := fun v => if r.listed v && intVar P v then modularizedCoef (r.coef v) r.rhs else r.coef v }

/-- `row_k_.getNumElements()`. -/
def TabRow.count (P : Prob) (r : TabRow) : Nat := ((List.range (P.nCols + P.rows.length)).filter r.listed).length

/-- `intersectionCutCoef`, CglLandPUtils.hpp:34-38. -/
def interCoef (alpha beta : ℚ) : ℚ := if 0 < alpha then alpha * (1 - beta) else - alpha * beta

/-- `strengthenedIntersectionCutCoef`, CglLandPSimplex.hpp:429-442. -/
def strongCoef (int : Bool) (alpha beta : ℚ) : ℚ :=
  if int then
    if alpha - ⌊alpha⌋ < beta then (alpha - ⌊alpha⌋) * (1 - beta) else (1 - (alpha - ⌊alpha⌋)) * beta
  else interCoef alpha beta

/-! ### Cuts from rows -/

/-- The dense vector over columns and slacks and the right-hand side of the cut under construction. -/
structure Acc where
  vec : Nat → ℚ
  rhs : ℚ

/-- "put the row back into original form", CglLandPSimplex.cpp:2566-2586 and 2700-2720. -/
def TabRow.unflip (P : Prob) (s : Sim) (r : TabRow) : TabRow :=
  { r with coef := fun v => if v ∈ s.nonBasics ∧ v < P.nCols ∧ s.stat v = 2 then - r.coef v else r.coef v }

/-- Coefficient and right-hand side term of one nonbasic variable in `createMIG`, CglLandPSimplex.cpp:2738-2785
(`r` is the row after `unflip`, `beta` its right-hand side). -/
def migTerm (P : Prob) (s : Sim) (r : TabRow) (beta : ℚ) (v : Nat) : ℚ × ℚ :=
  if v < P.nCols then
    if s.stat v = 2 then
      (- strongCoef (intVar P v) (- r.coef v) beta, - strongCoef (intVar P v) (- r.coef v) beta * P.colUpper v)
    else (strongCoef (intVar P v) (r.coef v) beta, strongCoef (intVar P v) (r.coef v) beta * P.colLower v)
  else if (P.row (v - P.nCols)).ub < P.inf then
    (strongCoef (intVar P v) (r.coef v) beta,
      - (strongCoef (intVar P v) (r.coef v) beta *
        (if s.stat v = 2 then (P.row (v - P.nCols)).lb else (P.row (v - P.nCols)).ub)))
  else
    (- strongCoef (intVar P v) (r.coef v) beta, strongCoef (intVar P v) (r.coef v) beta * (P.row (v - P.nCols)).lb)

/-- One nonbasic variable in the loop of `createMIG`, CglLandPSimplex.cpp:2732-2789. -/
def migStep (P : Prob) (s : Sim) (r : TabRow) (beta : ℚ) (a : Acc) (v : Nat) : Except Fault Acc :=
  if r.coef v = 0 then .ok a
  else if |a.rhs + (migTerm P s r beta v).2| < 10^100 then
    .ok ⟨Function.update a.vec v (migTerm P s r beta v).1, a.rhs + (migTerm P s r beta v).2⟩
  else .error .assertion

/-- `eliminate_slacks`, CglLandPSimplex.cpp:2817-2835 (and 2637-2650): the entry of column `j`. -/
def eliminate (P : Prob) (vec : Nat → ℚ) (j : Nat) : ℚ :=
  vec j - ((List.range P.rows.length).map fun i => vec (P.nCols + i) * (P.row i).coef j).sum

/-- "Pack vec into the cut", CglLandPSimplex.cpp:2795-2808 and 2652-2665; `COIN_INDEXED_TINY_ELEMENT` is `1e-50`. -/
def pack (P : Prob) (a : Acc) : RowCut where
  lb := a.rhs
  ub := dblMax
  row := ((List.range P.nCols).filter fun j => decide (1/10^50 < |eliminate P a.vec j|)).map fun j =>
    (j, eliminate P a.vec j)

/-- `createMIG`, CglLandPSimplex.cpp:2690-2814.  It also leaves the row changed. -/
def createMIG (P : Prob) (s : Sim) (r : TabRow) : Except Fault (RowCut × TabRow) :=
  if statusOk P s then do
    let f0 := r.rhs - ⌊r.rhs⌋
    let r' : TabRow := { r.unflip P s with rhs := f0 }
    if |f0 * (1 - f0)| < 10^100 then
      let a ← s.nonBasics.foldlM (migStep P s r' f0) ⟨fun _ => 0, f0 * (1 - f0)⟩
      .ok (pack P a, r')
    else .error .assertion
  else .error .invalidBasis

/-- Coefficient and right-hand side term of one nonbasic variable in `createIntersectionCut`,
CglLandPSimplex.cpp:2599-2631. -/
def interTerm (P : Prob) (s : Sim) (r : TabRow) (beta : ℚ) (v : Nat) : ℚ × ℚ :=
  if v < P.nCols then
    if s.stat v = 2 then (- interCoef (- r.coef v) beta, - interCoef (- r.coef v) beta * P.colUpper v)
    else (interCoef (r.coef v) beta, interCoef (r.coef v) beta * P.colLower v)
  else if -P.inf < (P.row (v - P.nCols)).lb then
    (- interCoef (r.coef v) beta, interCoef (r.coef v) beta * (P.row (v - P.nCols)).lb)
  else (interCoef (r.coef v) beta, - (interCoef (r.coef v) beta * (P.row (v - P.nCols)).ub))

/-- The assertions of `createIntersectionCut` for a slack, CglLandPSimplex.cpp:2621-2630 (`rhs` is the right-hand side
after the term of the slack is added). -/
def interAssert (P : Prob) (s : Sim) (v : Nat) (rhs : ℚ) : Bool :=
  decide (v < P.nCols) ||
  ((if -P.inf < (P.row (v - P.nCols)).lb
    then s.stat v == 2 || decide (|(P.row (v - P.nCols)).lb - (P.row (v - P.nCols)).ub| < 1/10^8)
    else s.stat v == 3) && decide (|rhs| < 10^100))

/-- One nonbasic variable in the loop of `createIntersectionCut`, CglLandPSimplex.cpp:2596-2634. -/
def interStep (P : Prob) (s : Sim) (r : TabRow) (beta : ℚ) (a : Acc) (v : Nat) : Except Fault Acc :=
  if |r.coef v| ≤ 1/10^10 then .ok a
  else if interAssert P s v (a.rhs + (interTerm P s r beta v).2) then
    .ok ⟨Function.update a.vec v (interTerm P s r beta v).1, a.rhs + (interTerm P s r beta v).2⟩
  else .error .assertion

/-- `createIntersectionCut`, CglLandPSimplex.cpp:2559-2671. -/
def createInter (P : Prob) (s : Sim) (r : TabRow) : Except Fault (RowCut × TabRow) :=
  if statusOk P s then do
    let r' := r.unflip P s
    let a ← s.nonBasics.foldlM (interStep P s r' r.rhs) ⟨fun _ => 0, r.rhs * (1 - r.rhs)⟩
    .ok (pack P a, r')
  else .error .invalidBasis

/-- The choice at CglLandPSimplex.cpp:612-615 and 926-929. -/
def create (prm : Params) (P : Prob) (s : Sim) (r : TabRow) : Except Fault (RowCut × TabRow) :=
  if prm.strengthen || prm.modularize then createMIG P s r else createInter P s r

/-- `generateMig`, CglLandPSimplex.cpp:606-618. -/
def generateMig (prm : Params) (P : Prob) (s : Sim) (row : Nat) : Except Fault (RowCut × TabRow) := do
  let r ← pull P s row
  create prm P s r.frac

/-! ### Validator -/

/-- `OsiRowCut::violated` (external, documented). -/
def violated (c : RowCut) (x : Nat → ℚ) : ℚ :=
  if c.ub < SVec.dot c.row x then SVec.dot c.row x - c.ub
  else if SVec.dot c.row x < c.lb then c.lb - SVec.dot c.row x else 0

/-- State of the loop of `cleanCut`: entries kept, right-hand side, smallest and biggest. -/
structure Clean where
  kept : SVec
  rhs : ℚ
  smallest : ℚ
  biggest : ℚ

/-- One entry in the loop of `cleanCut`, CglLandPValidator.cpp:66-120: `inr` is the rejection code.  `nB` is the
length of the arrays of bounds. -/
def cleanStep (V : Validator) (eps : ℚ) (nB : Nat) (lo up : Nat → ℚ) (c : Clean) (p : Nat × ℚ) :
    Except Fault (Clean ⊕ Nat) :=
  if |p.2| ≤ eps then
    if |p.2| < 1/10^20 then .ok (.inl c)
    else if nB ≤ p.1 then .error .outside
    else if 0 < p.2 ∧ up p.1 < 10000 then .ok (.inl { c with rhs := c.rhs - p.2 * up p.1 })
    else if p.2 < 0 ∧ -10000 < lo p.1 then .ok (.inl { c with rhs := c.rhs - p.2 * lo p.1 })
    else .ok (.inr 2)
  else if V.maxRatio * min (|p.2|) c.smallest < max (|p.2|) c.biggest then .ok (.inr 3)
  else .ok (.inl ⟨c.kept ++ [p], c.rhs, min (|p.2|) c.smallest, max (|p.2|) c.biggest⟩)

/-- The loop of `cleanCut`, CglLandPValidator.cpp:64-121. -/
def cleanLoop (V : Validator) (eps : ℚ) (nB : Nat) (lo up : Nat → ℚ) : Clean → SVec → Except Fault (Clean ⊕ Nat)
  | c, [] => .ok (.inl c)
  | c, p :: l =>
    match cleanStep V eps nB lo up c p with
    | .error f => .error f
    | .ok (.inr code) => .ok (.inr code)
    | .ok (.inl c') => cleanLoop V eps nB lo up c' l

/-- `Validator::operator()`, which calls `cleanCut`, CglLandPValidator.cpp:35-151.  The result is the cleaned cut, or
the rejection code (a rejected cut may be left half cleaned; no caller looks at it again).  `numcols` is the number of
columns of the solver passed. -/
def validate (V : Validator) (eps : ℚ) (numcols nB : Nat) (lo up : Nat → ℚ) (xlp : Nat → ℚ) (c : RowCut) :
    Except Fault (RowCut ⊕ Nat) :=
  match castInt (V.maxFillIn * numcols) with
  | none => .error .cast
  | some maxNnz =>
    if c.ub ≤ 10^50 then .error .assertion
    else if violated c xlp < V.minViolation then .ok (.inr 1)
    else
      match cleanLoop V eps nB lo up ⟨[], c.lb - 1/10^7, 10^100, 0⟩ c.row with
      | .error f => .error f
      | .ok (.inr code) => .ok (.inr code)
      | .ok (.inl d) =>
        if maxNnz < d.kept.length then .ok (.inr 4)
        else if d.kept.length = 0 then .ok (.inr 5)
        else if violated ⟨d.rhs, c.ub, d.kept⟩ xlp < V.minViolation then .ok (.inr 1)
        else .ok (.inl ⟨d.rhs, c.ub, d.kept⟩)

/-! ### Extra cuts -/

/-- `LAP::Cuts`, CglLandPUtils.hpp:57-98: the cut stored for each column and the number of cuts. -/
structure Extra where
  cut : Nat → Option RowCut
  count : ℤ

/-- `int_val`, CglLandPUtils.hpp:51-54. -/
def intVal (v tol : ℚ) : Bool := decide (|(⌊v + 1/2⌋ : ℚ) - v| < tol)

/-- What does not change during a call of `generateCuts`: parameters, validator, the problem in which the pivots are
done, and the solution to cut. -/
structure Ctx where
  prm : Params
  V : Validator
  T : Prob
  sol : Nat → ℚ

/-- Does `generateExtraCut` go on with the variable basic in row `i`?  CglLandPSimplex.cpp:540-547. -/
def extraWanted (c : Ctx) (s : Sim) (want : Bool) (e : Extra) (iCol : Nat) : Bool :=
  intVar c.T iCol && !intVal (s.view.xlp iCol) c.prm.away && want &&
  decide (c.T.colLower iCol ≤ s.view.xlp iCol) && decide (s.view.xlp iCol ≤ c.T.colUpper iCol) &&
  (e.cut iCol).isNone

/-- `generateExtraCut`, CglLandPSimplex.cpp:537-573.  It also overwrites `row_k_`; `none` means that `row_k_` is as it
was. -/
def generateExtraCut (c : Ctx) (s : Sim) (want : Bool) (e : Extra) (i : Nat) :
    Except Fault (Extra × Option TabRow) :=
  if extraWanted c s want e (s.view.basics.getD i 0) then
    match generateMig c.prm c.T s i with
    | .error f => .error f
    | .ok (cut, r) =>
      if |r.rhs - s.view.xlp (s.view.basics.getD i 0)| < 1/10^10 then
        match validate c.V c.prm.eps c.T.nCols c.T.nCols c.T.colLower c.T.colUpper c.sol cut with
        | .error f => .error f
        | .ok (.inr _) => .ok (e, some r)
        | .ok (.inl cut') =>
          .ok (⟨Function.update e.cut (s.view.basics.getD i 0) (some cut'), e.count + 1⟩, some r)
      else .error .assertion
  else .ok (e, none)

/-- One round of the loop in `generateExtraCuts`, CglLandPSimplex.cpp:528-532. -/
def extraStep (c : Ctx) (s : Sim) (want : Nat → Bool) (e : Extra) (i : Nat) : Except Fault Extra :=
  if e.count < c.prm.extraCutsLimit ∧ s.view.basics.getD i 0 < c.T.nCols then
    match generateExtraCut c s (want i) e i with
    | .error f => .error f
    | .ok (e', _) => .ok e'
  else .ok e

/-- `generateExtraCuts`, CglLandPSimplex.cpp:524-534.  (When the limit is reached the loop ends; the remaining rounds
of the model do nothing.) -/
def generateExtraCuts (c : Ctx) (s : Sim) (want : Nat → Bool) (e : Extra) : Except Fault Extra :=
  (List.range c.T.rows.length).foldlM (extraStep c s want) e

/-! ### The search -/

/-- The statuses after a pivot, CglLandPSimplex.cpp:1004-1038. -/
def pivotStat (s : Sim) (st : Step) : Nat → Nat :=
  Function.update
    (Function.update s.stat (s.view.basics.getD st.leaving 0) (if st.up then 2 else 3))
    (s.nonBasics.getD st.incoming 0) 1

/-- The state after a pivot, CglLandPSimplex.cpp:1004-1072. -/
def pivotSim (s : Sim) (st : Step) : Sim where
  nonBasics := s.nonBasics.set st.incoming (s.view.basics.getD st.leaving 0)
  stat := pivotStat s st
  view := st.view

/-- The row in which the source variable is basic after `getBasics`, CglLandPSimplex.cpp:1070-1084. -/
def newNum (s : Sim) (st : Step) (num : Nat) : Nat :=
  let k := (s.view.basics.set st.leaving (s.nonBasics.getD st.incoming 0)).getD num 0
  if st.view.basics.getD num 0 = k then num
  else if k ∈ st.view.basics then st.view.basics.idxOf k else num

/-- `changeBasis`, CglLandPSimplex.cpp:945-1129 (as compiled: `OLD_COMPUTATION` defined, `modularize` false): the new
state and row, and whether the pivot succeeded.  After a failure the row is read again from the solver. -/
def changeBasis (P : Prob) (s : Sim) (r : TabRow) (st : Step) : Except Fault (Sim × TabRow × Bool) :=
  if st.ok then
    match pull P (pivotSim s st) (newNum s st r.num) with
    | .error f => .error f
    | .ok r' => .ok (pivotSim s st, r'.frac, true)
  else
    match pull P { s with view := st.view } r.num with
    | .error f => .error f
    | .ok r' => .ok ({ s with view := st.view }, r'.frac, false)

/-- `if (params.modularize) row_k_.modularize(integers_)`, CglLandPSimplex.cpp:683-684 and 839-842. -/
def modIf (c : Ctx) (r : TabRow) : TabRow := if c.prm.modularize then r.modularize c.T else r

/-- Extra cut when a column enters the basis, CglLandPSimplex.cpp:828-830. -/
def enterCut (c : Ctx) (s : Sim) (st : Step) (e : Extra) (r : TabRow) : Except Fault (Extra × TabRow) :=
  if c.prm.generateExtraCuts = .whenEnteringBasis ∧ s.view.basics.getD st.leaving 0 < c.T.nCols ∧
      e.count < c.prm.extraCutsLimit then
    match generateExtraCut c s st.want e st.leaving with
    | .error f => .error f
    | .ok (e', some r') => .ok (e', r')
    | .ok (e', none) => .ok (e', r)
  else .ok (e, r)

/-- How the loop of `optimize` ends: `some` state and row to make the cut of, or `none` when `optimize` returns 0. -/
structure Found where
  at? : Option (Sim × TabRow)
  extra : Extra

/-- The loop of `optimize`, CglLandPSimplex.cpp:703-898: `k` is `numPivots`.  When the search with rule
`initialReducedCosts` finds no row after the first pivot, line 778 writes `rowFlags_[-1]`. -/
def search (c : Ctx) (exhausted : Bool) : Nat → Sim → TabRow → Extra → List Step → Except Fault Found
  | k, s, r, e, [] =>
    if c.prm.pivotSelection = .initialReducedCosts ∧ exhausted ∧ 0 < k ∧ (k : ℤ) < c.prm.pivotLimit then
      .error .outside
    else .ok ⟨some (s, r), e⟩
  | k, s, r, e, st :: l =>
    if (k : ℤ) < c.prm.pivotLimit then
      match changeBasis c.T s r st with
      | .error f => .error f
      | .ok (s', r', ok) =>
        match enterCut c s' st e r' with
        | .error f => .error f
        | .ok (e', r'') =>
          if ok then
            if st.worse then .ok ⟨none, e'⟩
            else search c exhausted (k+1) s' (modIf c r'') e' l
          else .ok ⟨none, e'⟩
    else .ok ⟨some (s, r), e⟩

/-- `row_k_.getNumElements()>maximumCutLength`, CglLandPSimplex.cpp:679 and 917. -/
def tooLong (c : Ctx) (r : TabRow) : Bool := decide (c.prm.maximumCutLength < (r.count c.T : ℤ))

/-- The end of `optimize`, CglLandPSimplex.cpp:916-935. -/
def finish (c : Ctx) (want : Nat → Bool) (s : Sim) (r : TabRow) (e : Extra) : Except Fault (Option RowCut × Extra) :=
  if tooLong c r then .ok (none, e)
  else
    match create c.prm c.T s r with
    | .error f => .error f
    | .ok (cut, _) =>
      if c.prm.generateExtraCuts = .atOptimalBasis then
        match generateExtraCuts c s want e with
        | .error f => .error f
        | .ok e' => .ok (some cut, e')
      else .ok (some cut, e)

/-- `optimize`, CglLandPSimplex.cpp:620-941, from the cached basis `s0`: the cut if one is generated, and the extra
cuts. -/
def optimize (c : Ctx) (s0 : Sim) (row : Nat) (run : Run) (e : Extra) : Except Fault (Option RowCut × Extra) :=
  match pull c.T s0 row with
  | .error f => .error f
  | .ok r =>
    if tooLong c r then .ok (none, e)
    else
      match search c run.exhausted 0 s0 (modIf c r.frac) e run.steps with
      | .error f => .error f
      | .ok ⟨none, e'⟩ => .ok (none, e')
      | .ok ⟨some (s, r'), e'⟩ => finish c run.want s r' e'

/-! ### generateCuts -/

/-- `OsiRowCut()` (external). -/
def emptyCut : RowCut := ⟨-dblMax, dblMax, []⟩

/-- Is row `i` a ranged row?  CglLandP.cpp:541-547. -/
def ranged (r : Row) : Bool := decide (r.lb < r.ub) && decide (-10^50 < r.lb) && decide (r.ub < 10^50)

/-- The ranged rows, in order. -/
def rangedRows (P : Prob) : List Nat := (List.range P.rows.length).filter fun i => ranged (P.row i)

/-- Is the lower bound of the row kept?  CglLandP.cpp:617. -/
def keepLower (r : Row) (act : ℚ) : Bool := decide (act - r.lb < r.ub - act)

/-- A ranged row with its new column `c`, CglLandP.cpp:612-631 and 640-650. -/
def slackRow (r : Row) (act : ℚ) (c : Nat) : Row :=
  if keepLower r act then ⟨r.lb, r.lb, r.coefs ++ [(c, -1)]⟩ else ⟨r.ub, r.ub, r.coefs ++ [(c, 1)]⟩

/-- The problem with one more column for each ranged row, CglLandP.cpp:592-672 (`act` is `si.getRowActivity()`). -/
def withSlacks (P : Prob) (act : Nat → ℚ) : Prob where
  nCols := P.nCols + (rangedRows P).length
  inf := P.inf
  colLower := fun j => if j < P.nCols then P.colLower j else 0
  colUpper := fun j => if j < P.nCols then P.colUpper j
    else (P.row ((rangedRows P).getD (j - P.nCols) 0)).ub - (P.row ((rangedRows P).getD (j - P.nCols) 0)).lb
  isInt := fun j => decide (j < P.nCols) && P.isInt j
  rows := (List.range P.rows.length).map fun i =>
    if ranged (P.row i) then slackRow (P.row i) (act i) (P.nCols + (rangedRows P).idxOf i) else P.row i

/-- What the generator object keeps between calls. -/
structure State where
  prm : Params
  V : Validator
  /-- `numrows_`, `none` for -1 -/
  numrows : Option Nat

/-- What a call gets from outside: the position in the tree, is there a basis, the activities in `si`, the statuses
and the answers of the solver that is pivoted in (`si`, or its copy with the new columns after `resolve`), the search
for each row of the tableau, the run of its second attempt, the test for equal cuts and the time used. -/
structure Env where
  inTree : Bool
  basis : Bool
  act : Nat → ℚ
  stat : Nat → Nat
  view : View
  run : Nat → Run
  again : Nat → Run
  same : RowCut → RowCut → Bool
  elapsed : ℚ

/-- Are there ranged rows that this call converts?  CglLandP.cpp:534-547: only the first call looks. -/
def converts (st : State) (P : Prob) : Bool := st.numrows.isNone && !(rangedRows P).isEmpty

/-- The problem of `t_si`, CglLandP.cpp:587-673. -/
def work (st : State) (P : Prob) (env : Env) : Prob := if converts st P then withSlacks P env.act else P

/-- The working copy of the parameters, CglLandP.cpp:558-573. -/
def callPrm (st : State) (P : Prob) (env : Env) : Params :=
  { st.prm.copy with
    rhsWeight := (st.numrows.getD P.rows.length : ℚ) + 2
    countMistakenRc := st.prm.countMistakenRc || env.inTree
    pivotLimit := if st.prm.timeLimit < 0 then 0
      else if env.inTree then min st.prm.pivotLimit st.prm.pivotLimitInTree else st.prm.pivotLimit }

/-- Is row `i` of the tableau a candidate?  CglLandP.cpp:912-918. -/
def candidate (T : Prob) (view : View) (away : ℚ) (i : Nat) : Bool :=
  decide (view.basics.getD i 0 < T.nCols) && intVar T (view.basics.getD i 0) &&
  decide (away < intInfeas (view.xlp (view.basics.getD i 0)))

/-- The order of the candidates, CglLandP.cpp:885-903. -/
def before (view : View) (i j : Nat) : Bool :=
  decide (- intInfeas (view.xlp (view.basics.getD i 0)) < - intInfeas (view.xlp (view.basics.getD j 0))) ||
  (decide (intInfeas (view.xlp (view.basics.getD i 0)) = intInfeas (view.xlp (view.basics.getD j 0))) &&
    decide (view.basics.getD i 0 ≤ view.basics.getD j 0))

/-- `getSortedFractionalIndices`, CglLandP.cpp:905-932, and the cut at `maximumCandidates`, lines 687-688 (compared as
unsigned numbers, so a negative limit is none). -/
def candidates (prm : Params) (T : Prob) (view : View) : List Nat :=
  let l := ((List.range T.rows.length).filter (candidate T view prm.away)).mergeSort (before view)
  if 0 ≤ prm.maximumCandidates then l.take prm.maximumCandidates.toNat else l

/-- `genThisBasisMigs` as called from line 680, before any row is looked at, CglLandPSimplex.cpp:576-603: with pivots
allowed `ncols_` is not set yet, without pivots `colsol_` is a null pointer.  It only gets through when it finds no
row to look at. -/
def migsFault (prm : Params) (T : Prob) (view : View) : Option Fault :=
  if prm.pivotLimit ≠ 0 then if T.rows.length = 0 then none else some .uninitialised
  else if (List.range T.rows.length).any fun i =>
      decide (view.basics.getD i 0 < T.nCols) && intVar T (view.basics.getD i 0) then some .nullPointer
  else none

/-- `cs.insertIfNotDuplicate(cut, CoinRelFltEq(1e-4))` (external): `same` is the comparison. -/
def insert (same : RowCut → RowCut → Bool) (cs : List RowCut) (c : RowCut) : List RowCut :=
  if cs.any fun d => same d c then cs else cs ++ [c]

/-- State of the loop over the candidate rows: current `params.pivotLimit`, extra cuts, cuts, `nCut`. -/
structure Loop where
  limit : ℤ
  extra : Extra
  cs : List RowCut
  nCut : ℕ

/-- The context with another pivot limit. -/
def Ctx.withLimit (c : Ctx) (l : ℤ) : Ctx := { c with prm := { c.prm with pivotLimit := l } }

/-- The first attempt for one row, CglLandP.cpp:727-740. -/
def attempt (c : Ctx) (s0 : Sim) (row : Nat) (run : Run) (e : Extra) : Except Fault (Option RowCut × Extra) :=
  if c.prm.pivotLimit = 0 then
    match generateMig c.prm c.T s0 row with
    | .error f => .error f
    | .ok (cut, _) => .ok (some cut, e)
  else optimize c s0 row run e

/-- A cut after the validator with the bounds of `si`: `inl` the cut, `inr` rejected. -/
def check (c : Ctx) (P : Prob) (cut : RowCut) : Except Fault (RowCut ⊕ Nat) :=
  validate c.V c.prm.eps P.nCols P.nCols P.colLower P.colUpper c.sol cut

/-- The first cut after the validator, CglLandP.cpp:741-744; with no cut the code is 0 and the cut is empty. -/
def checkFirst (c : Ctx) (P : Prob) : Option RowCut → Except Fault (RowCut ⊕ Nat)
  | some cut => check c P cut
  | none => .ok (.inl emptyCut)

/-- Both attempts for one row, CglLandP.cpp:716-764: `some` cut to be added or `none`.  When neither attempt generates
a cut the code is 0 and the empty cut is added. -/
def oneRow (c : Ctx) (P : Prob) (s0 : Sim) (row : Nat) (run again : Run) (limit0 : ℤ) (e : Extra) :
    Except Fault (Option RowCut × Extra × ℤ) :=
  match attempt c s0 row run e with
  | .error f => .error f
  | .ok (first, e1) =>
    match checkFirst c P first with
    | .error f => .error f
    | .ok res =>
      if (first = none ∨ res.isRight) ∧ c.prm.pivotLimit ≠ 0 then
        match optimize (c.withLimit 0) s0 row again e1 with
        | .error f => .error f
        | .ok (some cut, e2) =>
          match check c P cut with
          | .error f => .error f
          | .ok res2 => .ok (res2.getLeft?, e2, limit0)
        | .ok (none, e2) => .ok (res.getLeft?, e2, limit0)
      else .ok (res.getLeft?, e1, c.prm.pivotLimit)

/-- Does the cut mention a column that `si` does not have?  CglLandP.cpp:774-788. -/
def oddSlack (P : Prob) (cut : RowCut) : Bool := cut.row.any fun p => decide (P.nCols ≤ p.1)

/-- One candidate row, CglLandP.cpp:705-829. -/
def rowStep (c : Ctx) (P : Prob) (conv : Bool) (env : Env) (s0 : Sim) (limit0 : ℤ) (lp : Loop) (row : Nat) :
    Except Fault Loop :=
  if (lp.nCut : ℤ) < c.prm.maxCutPerRound ∧ lp.nCut < c.T.rows.length then
    match oneRow (c.withLimit lp.limit) P s0 row (env.run row) (env.again row) limit0 lp.extra with
    | .error f => .error f
    | .ok (none, e, l) => .ok { lp with limit := l, extra := e }
    | .ok (some cut, e, l) =>
      .ok { limit := l
            extra := e
            cs := insert env.same lp.cs (if conv && oddSlack P cut then emptyCut else cut)
            nCut := lp.nCut + 1 }
  else .ok lp

/-- The loop over the candidate rows, CglLandP.cpp:703-830. -/
def rowLoop (c : Ctx) (P : Prob) (conv : Bool) (env : Env) (s0 : Sim) (limit0 : ℤ) :
    Loop → List Nat → Except Fault Loop
  | lp, [] => .ok lp
  | lp, row :: l =>
    match rowStep c P conv env s0 limit0 lp row with
    | .error f => .error f
    | .ok lp' => rowLoop c P conv env s0 limit0 lp' l

/-- One column in the loop over the extra cuts, CglLandP.cpp:832-853. -/
def addExtra (c : Ctx) (P : Prob) (env : Env) (e : Extra) (cs : List RowCut) (j : Nat) : Except Fault (List RowCut) :=
  match e.cut j with
  | none => .ok cs
  | some cut =>
    match check c P cut with
    | .error f => .error f
    | .ok (.inr _) => .ok cs
    | .ok (.inl cut') => .ok (insert env.same cs cut')

/-- The part of `generateCuts` after `getData`, CglLandP.cpp:676-853. -/
def body (st : State) (P : Prob) (env : Env) (cs : List RowCut) : Except Fault (List RowCut) :=
  let T := work st P env
  let c : Ctx := ⟨callPrm st P env, st.V, T, env.view.xlp⟩
  let s0 : Sim := ⟨startNonBasics T env.stat, env.stat, env.view⟩
  if st.prm.normalization = .weightRHS ∧ st.prm.rhsWeightType = .dynamic then .error .unimplemented
  else
    match (if st.prm.generateExtraCuts = .allViolatedMigs then migsFault c.prm T env.view else none) with
    | some f => .error f
    | none =>
      match rowLoop c P (converts st P) env s0 st.prm.pivotLimit
          ⟨c.prm.pivotLimit, ⟨fun _ => none, 0⟩, cs, 0⟩ (candidates c.prm T env.view) with
      | .error f => .error f
      | .ok lp => (List.range T.nCols).foldlM (addExtra c P env lp.extra) lp.cs

/-- The generator object after the call, CglLandP.cpp:537, 700, 856, 869. -/
def after (st : State) (P : Prob) (env : Env) : State :=
  { st with
    numrows := some (st.numrows.getD P.rows.length)
    prm := { st.prm with
      timeLimit := st.prm.timeLimit - env.elapsed
      maximumCutLength := if converts st P then - st.prm.maximumCutLength else st.prm.maximumCutLength } }

/-- `generateCuts`, CglLandP.cpp:531-872. -/
def generateCuts (st : State) (P : Prob) (env : Env) (cs : List RowCut) : Except Fault (List RowCut × State) :=
  if st.numrows.isSome ∧ st.prm.maximumCutLength < 0 then .ok (cs, st)
  else if !env.basis then .error .noBasis
  else
    match body st P env cs with
    | .error f => .error f
    | .ok cs' => .ok (cs', after st P env)

end Cgl.LandP
