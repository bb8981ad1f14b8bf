import Verif.Osi
import Mathlib.Data.List.Sort

/-!
# Model of `CglProbing::generateCuts`, `gutsOfGenerateCuts` and `tighten` (`src/CglProbing/CglProbing.cpp`)

Modelled: a generator without snapshot (`rowCopy_` NULL) and without cliques (`numberCliques_` 0, `cliqueRowStart_`
NULL), `mode_` without the 8 bit, `info->strengthenRow` NULL and `info->options` without 2048 and 16384: the path

  `generateCuts` (1330-1399) / `generateCutsAndModify` (1400-1487) → `gutsOfGenerateCuts` (1732-3207) →
  `tighten` (327-712), `probe` (3560-7057).

This file has the preparation of the rows and `tighten`; `probe` is in `Verif/Probing/Probe.lean`, the two outer
functions are in `Verif/Probing/Generate.lean`.

Not modelled: `snapshot`, `probeFast`, `probeCliques`, `probeSlacks`, the clique and implication tables, `analyze`.
`double` is exact `ℚ`, with the tolerances of the code.  Failed assertions of `probe` are not modelled: the model is
the code compiled with `NDEBUG`, or compiled without it as long as no assertion fails.
-/

namespace Cgl.Probing

/-- What can go wrong in a call. -/
inductive Fault
  /-- a failed `assert` -/
  | assertion
  /-- an array entry that was never written is read -/
  | uninit
deriving DecidableEq, Repr

/-- `primalTolerance_`: 1.1e-7 in every constructor (10267-10282), there is no setter. -/
def tol : ℚ := 11 / 100000000

/-- `CGL_REASONABLE_INTEGER_BOUND` (324). -/
def reasonable : ℚ := 12345678900

/-- What a call reads from the generator (`rowCuts_`, `usingObjective_` and the limits for the tree and the root) and
from `CglTreeInfo`. -/
structure Params where
  rowCuts : ℤ
  usingObjective : ℤ
  maxElements : Nat
  maxElementsRoot : Nat
  maxProbe : ℤ
  maxProbeRoot : ℤ
  maxPass : Nat
  maxPassRoot : Nat
  inTree : Bool
  pass : Nat
deriving DecidableEq, Repr

/-- What a call reads from the solver besides the problem: solution, reduced costs, objective, its offset and sense
(1 or -1), objective value, and `OsiDualObjectiveLimit` if `getDblParam` returns it. -/
structure Lp where
  sol : Nat → ℚ
  dj : Nat → ℚ
  obj : Nat → ℚ
  offset : ℚ
  sense : ℚ
  value : ℚ
  limit : Option ℚ

/-- `cutoff` (1745-1751, 3797-3802). -/
def cutoff (P : Prob) (A : Params) (L : Lp) : ℚ :=
  (match L.limit with
    | some l => if A.usingObjective < 0 then P.inf else l
    | none => P.inf) * L.sense

/-- `assert(cutoff > 1.0e30)` if `fabs(cutoff) > 1.0e30` (1752-1753). -/
def cutoffOk (q : ℚ) : Bool := decide (|q| ≤ 10 ^ 30 ∨ 10 ^ 30 < q)

/-- Upper bound of a column at the start (1768-1783). -/
def startUp (P : Prob) (sol : Nat → ℚ) (c : Nat) : ℚ :=
  if colType P c = 2 ∧ sol c < 10 ^ 10 ∧ 10 ^ 12 < min (P.colUpper c) (10 ^ 29) then reasonable
  else min (P.colUpper c) (10 ^ 29)

/-- Lower bound of a column at the start (1768-1783). -/
def startLo (P : Prob) (sol : Nat → ℚ) (c : Nat) : ℚ :=
  if colType P c = 2 ∧ -10 ^ 10 < sol c ∧ max (P.colLower c) (-10 ^ 29) < -10 ^ 12 then -reasonable
  else max (P.colLower c) (-10 ^ 29)

/-- Is the objective added as a row?  (1929) -/
def useObj (P : Prob) (A : Params) (L : Lp) : Bool :=
  decide (cutoff P A L < 10 ^ 30 ∧ 0 < A.usingObjective)

/-- The objective row (1936-1954). -/
def objRow (P : Prob) (A : Params) (L : Lp) : Row where
  lb := -dblMax
  ub := cutoff P A L + L.offset
  coefs := ((List.range P.nCols).filter fun c => decide (L.obj c ≠ 0)).map
    fun c => (c, if L.sense = -1 then -L.obj c else L.obj c)

/-- The objective row, if there is one. -/
def objRows (P : Prob) (A : Params) (L : Lp) : List Row := if useObj P A L then [objRow P A L] else []

/-- A row that bounds nothing (1995, 2006). -/
def freeRow (r : Row) : Bool := decide (r.lb < -10 ^ 20 ∧ 10 ^ 20 < r.ub)

/-- `maxElements` (1910, 1990-2001). -/
def maxEl (P : Prob) (A : Params) (L : Lp) : Nat :=
  let m := if A.inTree then A.maxElements else A.maxElementsRoot
  let out := ((P.rows.filter fun r => decide (m < r.coefs.length) || freeRow r).map fun r => r.coefs.length).sum
  let all := ((P.rows ++ objRows P A L).map fun r => r.coefs.length).sum
  if out * 10 < all then P.nCols else m

/-- The rows that are kept (2005-2144). -/
def keptRows (P : Prob) (A : Params) (L : Lp) : List Row :=
  (P.rows.filter fun r => !(decide (maxEl P A L < r.coefs.length) || freeRow r)) ++
    (objRows P A L).filter fun r => !freeRow r

/-- A row without the fixed columns: the negative elements, then the positive ones. -/
structure PRow where
  neg : SVec
  pos : SVec
  lb : ℚ
  ub : ℚ
deriving DecidableEq, Repr

/-- All elements of the row, in the order of the code. -/
def PRow.els (r : PRow) : SVec := r.neg ++ r.pos

/-- Activity of the fixed columns of a row (2208). -/
def fixedSum (lo up : Nat → ℚ) (v : SVec) : ℚ :=
  ((v.filter fun p => decide (up p.1 ≤ lo p.1)).map fun p => up p.1 * p.2).sum

/-- Removal of the fixed columns and splitting by sign (2189-2223). -/
def prepRow (lo up : Nat → ℚ) (r : Row) : PRow where
  neg := r.coefs.filter fun p => decide (lo p.1 < up p.1) && decide (p.2 < 0)
  pos := r.coefs.filter fun p => decide (lo p.1 < up p.1) && decide (0 < p.2)
  lb := if -10 ^ 20 < r.lb then r.lb - fixedSum lo up r.coefs else r.lb
  ub := if r.ub < 10 ^ 20 then r.ub - fixedSum lo up r.coefs else r.ub

/-- The elements of column `c`, with their rows: `columnCopy` (2229). -/
def colEls (rows : List PRow) (c : Nat) : List (Nat × ℚ) :=
  rows.zipIdx.flatMap fun p => (p.1.els.filter fun e => decide (e.1 = c)).map fun e => (p.2, e.2)

/-! ### `tighten` -/

/-- `iflagu` after the loops that compute the activities (473-496). -/
def hiInf (lo up : Nat → ℚ) (r : PRow) : Bool :=
  (r.neg.any fun p => decide (lo p.1 ≤ -10 ^ 12)) || r.pos.any fun p => decide (10 ^ 12 ≤ up p.1)

/-- `iflagl` after the loops that compute the activities (473-496). -/
def loInf (lo up : Nat → ℚ) (r : PRow) : Bool :=
  (r.neg.any fun p => decide (10 ^ 12 ≤ up p.1)) || r.pos.any fun p => decide (lo p.1 ≤ -10 ^ 12)

/-- `dmaxup` (473-500).  (A sum over some columns only is replaced by 1.0e31.) -/
def maxAct (lo up : Nat → ℚ) (r : PRow) : ℚ :=
  if hiInf lo up r then 10 ^ 31 else r.neg.dot lo + r.pos.dot up

/-- `dmaxdown` (473-500). -/
def minAct (lo up : Nat → ℚ) (r : PRow) : ℚ :=
  if loInf lo up r then -10 ^ 31 else r.neg.dot up + r.pos.dot lo

/-- State of `tighten`: column bounds, row bounds, `nchange`, `ninfeas` (as flags), `whichColumn`, `markRow` and
`rowsToLookAtNext`. -/
structure TSt where
  lo : Nat → ℚ
  up : Nat → ℚ
  lb : Nat → ℚ
  ub : Nat → ℚ
  change : Bool
  infeas : Bool
  cols : List Nat
  markR : Nat → Nat
  next : List Nat

/-- "see what rows need redoing" (547-555 and its copies). -/
def queueRows : List (Nat × ℚ) → TSt → TSt
  | [], s => s
  | e :: es, s =>
    queueRows es (if s.markR e.1 = 0 then
      { s with
        markR := Function.update s.markR e.1 1
        next := s.next ++ [e.1] }
      else s)

/-- What follows a change of a bound of column `c` (542-574 and its copies). -/
def afterChange (rows : List PRow) (t : ℚ) (c : Nat) (s : TSt) : TSt :=
  let s := queueRows (colEls rows c)
    { s with
      change := true
      cols := if c ∈ s.cols then s.cols else s.cols ++ [c] }
  { s with infeas := s.infeas || decide (s.up c - s.lo c < -100 * t) }

/-- A new lower bound (538-575, 618-640). -/
def raise (rows : List PRow) (t : ℚ) (c : Nat) (d : ℚ) (s : TSt) : TSt :=
  if s.lo c + 1 / 10 ^ 8 < d then afterChange rows t c { s with lo := Function.update s.lo c d } else s

/-- A new upper bound (580-602, 645-667). -/
def lower (rows : List PRow) (t : ℚ) (c : Nat) (d : ℚ) (s : TSt) : TSt :=
  if d < s.up c - 1 / 10 ^ 8 then afterChange rows t c { s with up := Function.update s.up c d } else s

/-- One element of the loop for "Finite U(i)" (533-604); `h` is `dmaxup`. -/
def upEl (rows : List PRow) (t : ℚ) (lb h : ℚ) (e : Nat × ℚ) (s : TSt) : TSt :=
  if 0 < e.2 then
    if s.up e.1 < 10 ^ 12 then raise rows t e.1 (s.up e.1 + (lb - h) / e.2) s else s
  else
    if -10 ^ 12 < s.lo e.1 then lower rows t e.1 (s.lo e.1 + (lb - h) / e.2) s else s

/-- One element of the loop for "Finite L(i)" (613-669); `h` is `dmaxdown`. -/
def downEl (rows : List PRow) (t : ℚ) (ub h : ℚ) (e : Nat × ℚ) (s : TSt) : TSt :=
  if e.2 < 0 then
    if s.up e.1 < 10 ^ 12 then raise rows t e.1 (s.up e.1 + (ub - h) / e.2) s else s
  else
    if -10 ^ 12 < s.lo e.1 then lower rows t e.1 (s.lo e.1 + (ub - h) / e.2) s else s

/-- The loop for "Finite U(i)" (532-605). -/
def upLoop (rows : List PRow) (t : ℚ) (lb h : ℚ) : List (Nat × ℚ) → TSt → TSt
  | [], s => s
  | e :: es, s => upLoop rows t lb h es (upEl rows t lb h e s)

/-- The loop for "Finite L(i)" (612-670). -/
def downLoop (rows : List PRow) (t : ℚ) (ub h : ℚ) : List (Nat × ℚ) → TSt → TSt
  | [], s => s
  | e :: es, s => downLoop rows t ub h es (downEl rows t ub h e s)

/-- "never do both" (522-530). -/
def onlyOne (lo up : Nat → ℚ) (lb ub : ℚ) (r : PRow) : Bool :=
  !hiInf lo up r && decide (0 < lb) && !loInf lo up r && decide (ub < 10 ^ 15)

/-- The tightening of the bounds with row `r` (520-671). -/
def tightenWith (rows : List PRow) (t : ℚ) (dol : Bool) (lb ub : ℚ) (r : PRow) (s : TSt) : TSt :=
  let h := maxAct s.lo s.up r
  let l := minAct s.lo s.up r
  let fu := hiInf s.lo s.up r || (onlyOne s.lo s.up lb ub r && dol)
  let fl := loInf s.lo s.up r || (onlyOne s.lo s.up lb ub r && !dol)
  let s := if !fu && decide (-10 ^ 15 < lb) then upLoop rows t lb h r.els s else s
  if !fl && decide (ub < 10 ^ 15) then downLoop rows t ub l r.els s else s

/-- One row of `tighten` (459-673); `true` if the loop over the rows ends here. -/
def tightenRow (rows : List PRow) (t : ℚ) (dol : Bool) (i : Nat) (s : TSt) : TSt × Bool :=
  match rows[i]? with
  | none => (s, false)
  | some r =>
    if s.lb i < -10 ^ 20 ∧ 10 ^ 20 < s.ub i then (s, false)
    else if maxAct s.lo s.up r ≤ s.ub i + t ∧ s.lb i - t ≤ minAct s.lo s.up r then
      ({ s with
        change := true
        lb := Function.update s.lb i (-dblMax)
        ub := Function.update s.ub i dblMax
        markR := Function.update s.markR i 2 }, false)
    else if maxAct s.lo s.up r < s.lb i - t ∨ s.ub i + t < minAct s.lo s.up r then
      ({ s with infeas := true }, true)
    else (tightenWith rows t dol (s.lb i) (s.ub i) r s, false)

/-- The loop over the rows of one pass (458-673). -/
def rowLoop (rows : List PRow) (t : ℚ) (dol : Bool) : List Nat → TSt → TSt
  | [], s => s
  | i :: is, s =>
    match tightenRow rows t dol i s with
    | (s, true) => s
    | (s, false) => rowLoop rows t dol is s

/-- Rounding of the bounds of one integer column (682-704). -/
def cleanCol (isInt : Nat → Bool) (c : Nat) (s : TSt) : TSt :=
  if isInt c then
    let u : ℚ := ⌊s.up c + 1 / 10 ^ 4⌋
    let l : ℚ := ⌈s.lo c - 1 / 10 ^ 4⌉
    { s with
      change := s.change || (decide (1 / 10 ^ 8 < s.up c - s.lo c) && decide (u < s.up c ∨ s.lo c < l))
      up := Function.update s.up c u
      lo := Function.update s.lo c l
      infeas := s.infeas || decide (u < l) }
  else s

/-- Rounding of the bounds of the changed integer columns (679-706). -/
def cleanCols (isInt : Nat → Bool) : List Nat → TSt → TSt
  | [], s => s
  | c :: cs, s => cleanCols isInt cs (cleanCol isInt c s)

/-- One pass (446-709). -/
def tPass (rows : List PRow) (isInt : Nat → Bool) (dol : Bool) (s : TSt) : TSt :=
  let s := rowLoop rows (10 * tol) dol s.next
    { s with
      change := false
      cols := []
      next := [] }
  let s := cleanCols isInt s.cols s
  { s with markR := fun i => if i ∈ s.next then 0 else s.markR i }

/-- The passes (445-709): `n` is `maxpass - jpass`, `dol` says that `jpass` will be odd. -/
def tLoop (rows : List PRow) (isInt : Nat → Bool) : Nat → Bool → TSt → TSt
  | 0, _, s => s
  | n + 1, dol, s =>
    let s := tPass rows isInt dol s
    if s.infeas || !s.change then s else tLoop rows isInt n (!dol) s

/-- `tighten` with `maxpass` 2 (327-712, 2265-2270).  All rows that bound something are looked at first. -/
def tighten (rows : List PRow) (isInt : Nat → Bool) (lo up : Nat → ℚ) : TSt :=
  tLoop rows isInt 2 true
    { lo := lo
      up := up
      lb := fun i => (rows[i]?.map PRow.lb).getD 0
      ub := fun i => (rows[i]?.map PRow.ub).getD 0
      change := true
      infeas := false
      cols := []
      markR := fun _ => 0
      next := (List.range rows.length).filter fun i =>
        match rows[i]? with
        | none => false
        | some r => decide (-10 ^ 20 < r.lb ∨ r.ub < 10 ^ 20) }

/-- `minR` after `tighten`: from the bounds before it (396-439). -/
def initMin (rows : List PRow) (lo up : Nat → ℚ) (i : Nat) : ℚ := (rows[i]?.map (minAct lo up)).getD 0

/-- `maxR` after `tighten` (396-439). -/
def initMax (rows : List PRow) (lo up : Nat → ℚ) (i : Nat) : ℚ := (rows[i]?.map (maxAct lo up)).getD 0

/-- Every row gets its entry of `minR` and `maxR` (397). -/
def activitiesSet (rows : List PRow) : Bool := rows.all fun r => decide (-10 ^ 20 < r.lb ∨ r.ub < 10 ^ 20)

end Cgl.Probing
