import Verif.Osi

/-!
# Model of `src/CglResidualCapacity`
-/

namespace Cgl.ResCap

/-- `RowType`, CglResidualCapacity.hpp:40-60. -/
inductive RowType | other | L | G | both
deriving DecidableEq, Repr

/-- The state of a `CglResidualCapacity` object, CglResidualCapacity.hpp:180-236. `pre` holds, per row, `rowTypes_`
and `RHS_` (the lists `indRowL_`, `indRowG_` are derived from it in order). -/
structure Obj where
  eps : ℚ
  tol : ℚ
  doPreproc : Int
  done : Bool
  pre : List (RowType × ℚ)
deriving DecidableEq, Repr

/-- Constructors, CglResidualCapacity.cpp:82-98, 141-158. -/
def Obj.init (epsilon : ℚ := 1 / 10 ^ 6) : Obj :=
  { eps := epsilon, tol := 1 / 10 ^ 4, doPreproc := -1, done := false, pre := [] }

/-- `setEpsilon`, CglResidualCapacity.cpp:657-660. -/
def setEpsilon (o : Obj) (v : ℚ) : Obj := { o with eps := v }
/-- `setTolerance`, CglResidualCapacity.cpp:666-669. -/
def setTolerance (o : Obj) (v : ℚ) : Obj := { o with tol := v }
/-- `setDoPreproc`, CglResidualCapacity.cpp:675-682; `none` = it throws. -/
def setDoPreproc (o : Obj) (v : Int) : Option Obj :=
  if v ≠ -1 ∧ v ≠ 0 ∧ v ≠ 1 then none else some { o with doPreproc := v }
/-- `refreshPrep`, CglResidualCapacity.cpp:650-654. -/
def refreshPrep (o : Obj) : Obj := { o with done := false }

/-- `treatAsLessThan`, the loop, CglResidualCapacity.cpp:417-436. State: `intFound` with `intCoef`, `contFound`;
`none` = `goodIneq=false; break`. -/
def treatScan (eps : ℚ) (P : Prob) : SVec → Option ℚ → Bool → Option (Option ℚ × Bool)
  | [], ic, cont => some (ic, cont)
  | p :: ps, ic, cont =>
    if p.2 > eps ∨ P.isInt p.1 = false then
      if P.colLower p.1 < -eps ∨ P.colUpper p.1 > 10 ^ 10 then none
      else treatScan eps P ps ic true
    else match ic with
      | none => if p.2 < -eps then treatScan eps P ps (some p.2) cont else treatScan eps P ps none cont
      | some c => if p.2 < -eps ∧ |p.2 - c| > eps then none else treatScan eps P ps (some c) cont

/-- `treatAsLessThan`, CglResidualCapacity.cpp:403-440. -/
def treatAsLessThan (eps : ℚ) (P : Prob) (coefs : SVec) : Bool :=
  match treatScan eps P coefs none false with
  | some (some _, true) => true
  | _ => false

/-- `negCoef`, CglResidualCapacity.cpp:369-371, 502-504. -/
def negCoefs (v : SVec) : SVec := v.map fun p => (p.1, -p.2)

/-- `determineRowType`, CglResidualCapacity.cpp:343-397. -/
def determineRowType (eps : ℚ) (P : Prob) (coefs : SVec) (sense : Sense) : RowType :=
  if coefs.length = 0 then .other
  else match sense with
    | .L => if treatAsLessThan eps P coefs then .L else .other
    | .G => if treatAsLessThan eps P (negCoefs coefs) then .G else .other
    | .E =>
      match treatAsLessThan eps P coefs, treatAsLessThan eps P (negCoefs coefs) with
      | true, false => .L
      | false, true => .G
      | true, true => .both
      | false, false => .other
    | _ => .other

/-- Sense and right-hand side of one row with ranges resolved by the row activity, CglResidualCapacity.cpp:264-277. -/
def resolve (inf : ℚ) (r : Row) (activity : ℚ) : Sense × ℚ :=
  let sr := r.senseRhs inf
  if sr.1 = .R then
    if activity - r.lb < r.ub - activity then (.G, r.lb) else (.L, r.ub)
  else sr

/-- `resCapPreprocess`, CglResidualCapacity.cpp:228-338, row by row from row number `i`. -/
def preprocess (eps : ℚ) (P : Prob) (activity : Nat → ℚ) : Nat → List Row → List (RowType × ℚ)
  | _, [] => []
  | i, r :: rs =>
    let sr := resolve P.inf r (activity i)
    (determineRowType eps P r.coefs sr.1, sr.2) :: preprocess eps P activity (i + 1) rs

/-- A column of the canonical row: original entry, `newRowCoef`, `xbar`. -/
structure Cont where
  orig : Nat × ℚ
  coef : ℚ
  xbar : ℚ
deriving DecidableEq, Repr

/-- The canonical form of one entry, CglResidualCapacity.cpp:573-580. (`xlp/0` is NaN or infinite in C++ and 0 here: the
entry is outside or inside `setSbar` with coefficient 0; only whether a cut appears can depend on it, see `buildCut_valid`.) -/
def canon (eps : ℚ) (P : Prob) (xlp : Nat → ℚ) (p : Nat × ℚ) : Cont :=
  let c := p.2 * P.colUpper p.1
  let xb := xlp p.1 / P.colUpper p.1
  if c < -eps then ⟨p, -c, 1 - xb⟩ else ⟨p, c, xb⟩

/-- The increase of `newRowRHS` by complementing, CglResidualCapacity.cpp:577-579. -/
def canonRhs (eps : ℚ) (P : Prob) (p : Nat × ℚ) : ℚ :=
  if p.2 * P.colUpper p.1 < -eps then -(p.2 * P.colUpper p.1) else 0

/-- The entries treated as integer variables, CglResidualCapacity.cpp:555. -/
def intEnts (eps : ℚ) (P : Prob) (coefs : SVec) : SVec := coefs.filter fun p => decide (p.2 < -eps ∧ P.isInt p.1 = true)
/-- The entries treated as continuous variables, CglResidualCapacity.cpp:572. -/
def contEnts (eps : ℚ) (P : Prob) (coefs : SVec) : SVec := coefs.filter fun p => decide (p.2 > eps ∨ P.isInt p.1 = false)

/-- The cut made from the entries selected in `setSbar`, CglResidualCapacity.cpp:601-628. `rhs` is the right-hand side of
the row, `newRhs` that of the canonical row. -/
def buildCut (eps : ℚ) (P : Prob) (ints : SVec) (newRhs : ℚ) (sBar : List Cont) : RowCut :=
  let intCoef := match ints.getLast? with | some p => -p.2 | none => -1
  let sumCoef := (sBar.map Cont.coef).sum
  let mu : ℚ := ⌈(sumCoef - newRhs) / intCoef⌉
  let r := sumCoef - newRhs - intCoef * ⌊(sumCoef - newRhs) / intCoef⌋
  let compl := (sBar.map fun c => if c.orig.2 < -eps then c.orig.2 * P.colUpper c.orig.1 else 0).sum
  { lb := -P.inf, ub := (sumCoef - r * mu) + compl,
    row := sBar.map Cont.orig ++ ints.map fun p => (p.1, -r) }

/-- `resCapSeparation`, CglResidualCapacity.cpp:530-645; `none` = no cut. -/
def resCapSeparation (eps tol : ℚ) (P : Prob) (coefs : SVec) (rhs : ℚ) (xlp : Nat → ℚ) : Option RowCut :=
  let ints := intEnts eps P coefs
  let conts := contEnts eps P coefs
  let ybar := (ints.map fun p => xlp p.1).sum
  let newRhs := rhs + (conts.map (canonRhs eps P)).sum
  let lambda := ybar - ⌊ybar⌋
  let sBar := (conts.map (canon eps P xlp)).filter fun c => decide (c.xbar > lambda)
  if sBar.length = 0 then none
  else
    let cut := buildCut eps P ints newRhs sBar
    if cut.row.dot xlp - cut.ub > tol then some cut else none

/-- `generateResCapCuts`, the two row loops, CglResidualCapacity.cpp:468-520; `asG` selects the second one. `none`: a
preprocessed row is not a row of the current problem (`submatrixOf` fails). `insertIfNotDuplicateAndClean` is taken as
`insertIfNotDuplicate`. -/
def rowLoop (eps tol : ℚ) (P : Prob) (xlp : Nat → ℚ) (asG : Bool) : List (RowType × ℚ) → List Row → List RowCut →
    Option (List RowCut)
  | [], _, cs => some cs
  | _ :: _, [], _ => none
  | t :: ts, r :: rs, cs =>
    let hit := if asG then t.1 = .G ∨ t.1 = .both else t.1 = .L ∨ t.1 = .both
    if hit then
      let res := if asG then resCapSeparation eps tol P (negCoefs r.coefs) (-t.2) xlp
        else resCapSeparation eps tol P r.coefs t.2 xlp
      match res with
      | some c => rowLoop eps tol P xlp asG ts rs (insertIfNotDuplicate cs c)
      | none => rowLoop eps tol P xlp asG ts rs cs
    else rowLoop eps tol P xlp asG ts rs cs

/-- The object after the preprocessing decision, CglResidualCapacity.cpp:34-53 (the two presolve hints do not matter: in
both branches preprocessing is done if `doPreproc_` is 1 or it has not been done). -/
def prepared (o : Obj) (P : Prob) (activity : Nat → ℚ) : Obj :=
  if o.doPreproc = 1 ∨ o.done = false then { o with done := true, pre := preprocess o.eps P activity 0 P.rows } else o

/-- `generateCuts`, CglResidualCapacity.cpp:26-76: the new state of the object and the cuts. -/
def generateCuts (o : Obj) (P : Prob) (activity xlp : Nat → ℚ) (cs : List RowCut) : Option (Obj × List RowCut) :=
  let o' := prepared o P activity
  match rowLoop o'.eps o'.tol P xlp false o'.pre P.rows cs with
  | none => none
  | some cs1 => (rowLoop o'.eps o'.tol P xlp true o'.pre P.rows cs1).map fun cs2 => (o', cs2)

end Cgl.ResCap
