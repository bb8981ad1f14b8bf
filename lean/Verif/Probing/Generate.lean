import Verif.Probing.Probe

/-!
# `CglProbing::generateCuts`, `generateCutsAndModify` and `gutsOfGenerateCuts`
-/

namespace Cgl.Probing

/-- `rowCuts_` during the call (1355-1361, 1428-1434). -/
def Params.rowCutsNow (A : Params) : Nat :=
  if A.rowCuts < 0 then (if A.inTree then 4 else (-A.rowCuts).toNat) else A.rowCuts.toNat

/-- `maxProbe` (1909). -/
def Params.probes (A : Params) : ℤ := if A.inTree then A.maxProbe else A.maxProbeRoot
/-- `maxPass` of `probe`. -/
def Params.passes (A : Params) : Nat := if A.inTree then A.maxPass else A.maxPassRoot

/-- What a call produces: column cuts and row cuts inserted, implications recorded, `ninfeas`, the bounds
`generateCutsAndModify` leaves in `colLower_`, `colUpper_`; and whether all steps were exact (see
`Verif/Probing/Probe.lean`). -/
structure Out where
  cols : List ColCut
  cuts : List RowCut
  fixes : List Fix
  infeas : Bool
  lo : Nat → ℚ
  up : Nat → ℚ
  exact : Bool

/-- "put back unreasonable bounds on integer variables" (2158-2168, 3185-3196), lower bounds. -/
def backLo (P : Prob) (lo : Nat → ℚ) (c : Nat) : ℚ :=
  if colType P c = 2 ∧ lo c = -reasonable then P.colLower c else lo c
/-- "put back unreasonable bounds on integer variables", upper bounds. -/
def backUp (P : Prob) (up : Nat → ℚ) (c : Nat) : ℚ :=
  if colType P c = 2 ∧ up c = reasonable then P.colUpper c else up c

/-- The assertions on the bounds of the integer columns after `tighten` (2281-2284). -/
def integralOk (P : Prob) (lo up : Nat → ℚ) : Bool :=
  (List.range P.nCols).all fun c => !P.isInt c || (decide (up c = ⌊up c + 1 / 2⌋) && decide (lo c = ⌊lo c + 1 / 2⌋))

/-- Column cut of the bounds `tighten` changed (2274-2314). -/
def boundsCut (P : Prob) (lo up : Nat → ℚ) : ColCut where
  ubs := ((List.range P.nCols).filter fun c => P.isInt c && decide (up c < P.colUpper c - 1 / 10 ^ 8)).map
    fun c => (c, up c)
  lbs := ((List.range P.nCols).filter fun c => P.isInt c && decide (P.colLower c + 1 / 10 ^ 8 < lo c)).map
    fun c => (c, lo c)

/-- Cleaned solution (3778-3791). -/
def cleanSol (lo up : Nat → ℚ) (L : Lp) (c : Nat) : ℚ :=
  if 1 / 10 ^ 8 < up c - lo c then
    if L.sol c < lo c + tol then lo c else if up c - tol < L.sol c then up c else L.sol c
  else L.sol c

/-- Cleaned reduced costs (3778-3791). -/
def cleanDj (lo up : Nat → ℚ) (L : Lp) (c : Nat) : ℚ :=
  if 1 / 10 ^ 8 < up c - lo c then
    if L.sol c < lo c + tol then max 0 (L.dj c * L.sense)
    else if up c - tol < L.sol c then min 0 (L.dj c * L.sense) else 0
  else L.dj c

/-- `largestNegativeInRow` (3761-3768). -/
def bigNegOf (lo up : Nat → ℚ) (r : PRow) : ℚ :=
  r.neg.foldl (fun a p => min a (min (10 ^ 100) (up p.1 - lo p.1) * p.2)) 0
/-- `largestPositiveInRow` (3769-3775). -/
def bigPosOf (lo up : Nat → ℚ) (r : PRow) : ℚ :=
  r.pos.foldl (fun a p => max a (min (10 ^ 100) (up p.1 - lo p.1) * p.2)) 0

/-- Length of a column in the solver's matrix. -/
def colLength (P : Prob) (c : Nat) : Nat :=
  (P.rows.map fun r => (r.coefs.filter fun p => decide (p.1 = c)).length).sum

/-- `moveSingletonRows` (3718-3737). -/
def singleRows (P : Prob) (A : Params) (L : Lp) (n : Nat) : Nat :=
  if P.rows.length < n then P.rows.length
  else if n < P.rows.length then 0
  else if useObj P A L then 0 else n

/-- The rows with the bounds `tighten` left. -/
def newRows (rows : List PRow) (t : TSt) : List PRow :=
  rows.zipIdx.map fun p => { p.1 with
    lb := t.lb p.2
    ub := t.ub p.2 }

/-- What `probe` works with. -/
def cfgOf (P : Prob) (A : Params) (L : Lp) (rows : List PRow) (t : TSt) : Cfg where
  rows := newRows rows t
  isInt := P.isInt
  curLo := P.colLower
  curUp := P.colUpper
  sol := cleanSol t.lo t.up L
  dj := cleanDj t.lo t.up L
  bigNeg := fun i => (rows[i]?.map (bigNegOf t.lo t.up)).getD 0
  bigPos := fun i => (rows[i]?.map (bigPosOf t.lo t.up)).getD 0
  cost := fun c => L.sense * L.obj c
  len := colLength P
  singles := singleRows P A L rows.length
  cutoff := cutoff P A L
  current := L.value * L.sense
  rowCuts := A.rowCutsNow

/-- `markC` at the start (3811-3822). -/
def startMark (lo up : ℚ) : Mark := if up - lo < 1 / 10 ^ 8 then Mark.three else Mark.clear lo up

/-- The state at the start of the passes (3777-3822, 2324-2325).  Not exact if the bounds of a column are exactly 1.0e-8
apart: its reduced cost is then not cleaned. -/
def startSt (P : Prob) (rows : List PRow) (lo up : Nat → ℚ) (t : TSt) : St where
  lo := t.lo
  up := t.up
  gap := fun c => t.up c - t.lo c - tol
  mark := fun c => startMark (t.lo c) (t.up c)
  minR := initMin rows lo up
  maxR := initMax rows lo up
  markR := fun _ => false
  sC := []
  sR := []
  obj := 0
  bad := false
  exact := (List.range P.nCols).all fun c => !decide (t.up c - t.lo c = 1 / 10 ^ 8)

/-- May column `c` be probed?  (2347-2371) -/
def candidate (P : Prob) (t : TSt) (c : Nat) : Bool :=
  decide (c < P.nCols) && P.isInt c && decide (1 / 10 ^ 8 < t.up c - t.lo c)

/-- `nRowsFake` (3689-3694). -/
def cutLimit (A : Params) (nSafe : Nat) : Nat :=
  if A.inTree then nSafe / 3 else if A.pass = 0 then nSafe * 10 * 10 else nSafe * 10

/-- `probe` (3560-7057).  `look p` is the order in which pass `p` looks at the columns: any list of candidates (the
order comes from `std::sort`, which does not say what happens to equal entries; `maxProbe` 123 changes it; the time
limit may end it early). -/
def probe (P : Prob) (A : Params) (L : Lp) (dup : List RowCut → RowCut → Bool) (look : Nat → List Nat)
    (rows : List PRow) (lo up : Nat → ℚ) (t : TSt) : St × Acc :=
  passes (cfgOf P A L rows t) dup (fun p => (look p).filter (candidate P t)) A.passes 0
    (startSt P rows lo up t, ⟨[], [], [], 0, false, false, false⟩)

/-- After `probe` (6778-7001, 3185-3200). -/
def finish (P : Prob) (A : Params) (L : Lp) (dup : List RowCut → RowCut → Bool) (rows : List PRow) (t : TSt)
    (cc : List ColCut) (r : St × Acc) : Out :=
  let nSafe := min rows.length P.rows.length
  let l := bigMs (cfgOf P A L rows t) dup nSafe r
  if r.2.infeas then ⟨cc ++ r.2.cols, [], r.2.fixes, true, P.colLower, P.colUpper, r.1.exact⟩
  else ⟨cc ++ r.2.cols, addCuts (cutLimit A nSafe) A.pass l, r.2.fixes, false, backLo P r.1.lo, backUp P r.1.up, r.1.exact⟩

/-- After `tighten` (2271-2398, 3160-3200). -/
def afterTighten (P : Prob) (A : Params) (L : Lp) (dup : List RowCut → RowCut → Bool) (look : Nat → List Nat)
    (rows : List PRow) (lo up : Nat → ℚ) (t : TSt) : Except Fault Out :=
  if t.infeas then .ok ⟨[], [], [], true, P.colLower, P.colUpper, true⟩
  else if integralOk P t.lo t.up then
    if 0 < A.probes then
      if activitiesSet rows then
        .ok (finish P A L dup rows t (addCol [] (boundsCut P t.lo t.up)) (probe P A L dup look rows lo up t))
      else .error .uninit
    else .ok ⟨addCol [] (boundsCut P t.lo t.up), [], [], false, backLo P t.lo, backUp P t.up, true⟩
  else .error .assertion

/-- `gutsOfGenerateCuts` (1732-3207). -/
def guts (P : Prob) (A : Params) (L : Lp) (dup : List RowCut → RowCut → Bool) (look : Nat → List Nat) :
    Except Fault Out :=
  if cutoffOk (cutoff P A L) then
    if keptRows P A L = [] then
      .ok ⟨[], [], [], false, backLo P (startLo P L.sol), backUp P (startUp P L.sol), true⟩
    else
      let rows := (keptRows P A L).map (prepRow (startLo P L.sol) (startUp P L.sol))
      afterTighten P A L dup look rows (startLo P L.sol) (startUp P L.sol)
        (tighten rows P.isInt (startLo P L.sol) (startUp P L.sol))
  else .error .assertion

/-- `OsiCuts`: row cuts and column cuts. -/
structure Cuts where
  rows : List RowCut
  cols : List ColCut
deriving DecidableEq, Repr

/-- The row cut that says that there is no feasible point (1377-1388, 1455-1466). -/
def infeasibleCut : RowCut := ⟨dblMax, 0, []⟩

/-- The cuts of a call are appended. -/
def Out.insert (o : Out) (cs : Cuts) : Cuts where
  rows := cs.rows ++ o.cuts ++ if o.infeas then [infeasibleCut] else []
  cols := cs.cols ++ o.cols

/-- `generateCuts` (1330-1399). -/
def generateCuts (P : Prob) (A : Params) (L : Lp) (dup : List RowCut → RowCut → Bool) (look : Nat → List Nat)
    (cs : Cuts) : Except Fault Cuts :=
  match guts P A L dup look with
  | .error f => .error f
  | .ok o => .ok (o.insert cs)

/-- `generateCutsAndModify` (1400-1487): the cuts, `ninfeas` (as a flag), `tightLower()` and `tightUpper()`. -/
def generateCutsAndModify (P : Prob) (A : Params) (L : Lp) (dup : List RowCut → RowCut → Bool) (look : Nat → List Nat)
    (cs : Cuts) : Except Fault (Cuts × Bool × (Nat → ℚ) × (Nat → ℚ)) :=
  match guts P A L dup look with
  | .error f => .error f
  | .ok o => .ok (o.insert cs, o.infeas, o.lo, o.up)

end Cgl.Probing
