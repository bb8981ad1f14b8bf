import Verif.Osi
import Mathlib.Data.List.Sort

/-!
# Model of `CglFlowCover` (`/repo/src/CglFlowCover/CglFlowCover.cpp`, cited as FC, and `CglFlowCover.hpp`)

Doubles are exact rationals with the code's tolerances kept.  Arrays indexed by the position in the row are lists of
records.  Debug printing and the `delete`s are left out.
-/

namespace Cgl.FlowCover

/-- `EPSILON_`, FC:352. -/
def eps : ℚ := 1 / 10 ^ 6
/-- `INFTY_`, FC:354. -/
def infty : ℚ := 10 ^ 30
/-- `TOLERANCE_`, FC:355. -/
def tol : ℚ := 1 / 20

/-- `CglFlowRowType`, `CglFlowCover.hpp:64-98`. -/
inductive RowType
  | undefined | varub | varlb | vareq | mixub | mixeq | nobinub | nobineq | sumvarub | sumvareq | uninteresting
deriving DecidableEq, Repr

/-- `columnType[j]==1` (FC:67, FC:493, FC:1315): a binary column. -/
def isBin (P : Prob) (j : Nat) : Bool := colType P j == 1

/-- Negated coefficients, as `flipRow` FC:1275-1294 makes them. -/
def flipCoefs (v : SVec) : SVec := v.map fun p => (p.1, -p.2)

/-- The classification after a `G` row has been flipped, FC:1331-1399.  `numNegCol` counts coefficients below -1e-6, every other
coefficient (also a tiny or zero one) counts as positive; a sense other than `L` is treated as an equality. -/
def rowTypeL (P : Prob) (v : SVec) (isL : Bool) (rhs : ℚ) : RowType :=
  let negCol := v.filter fun p => p.2 < -eps
  let posCol := v.filter fun p => ¬ p.2 < -eps
  let numNegBin := (negCol.filter fun p => isBin P p.1).length
  let numPosBin := (posCol.filter fun p => isBin P p.1).length
  let numBin := numNegBin + numPosBin
  let mix := if isL then RowType.mixub else RowType.mixeq
  if numBin = v.length then .uninteresting
  else if numBin = 0 then (if isL then .nobinub else .nobineq)
  else if rhs < -eps ∨ eps < rhs ∨ numBin ≠ 1 then mix
  else if v.length = 2 then
    if isL then
      if posCol.length = 1 ∧ numPosBin = 1 then .varlb
      else if negCol.length = 1 ∧ numNegBin = 1 then .varub
      else mix
    else .vareq
  else if negCol.length = 1 ∧ numNegBin = 1 then (if isL then .sumvarub else .sumvareq)
  else mix

/-- `determineOneRowType`, FC:1299-1407. -/
def determineOneRowType (P : Prob) (v : SVec) (sense : Sense) (rhs : ℚ) : RowType :=
  if v.length = 0 then .undefined
  else match sense with
    | .R => .uninteresting
    | .G => rowTypeL P (flipCoefs v) true (-rhs)
    | .L => rowTypeL P v true rhs
    | _ => rowTypeL P v false rhs

/-- The type `flowPreprocess` gives a row, FC:83-95. -/
def rowType (P : Prob) (r : Row) : RowType :=
  determineOneRowType P r.coefs (r.senseRhs P.inf).1 (r.senseRhs P.inf).2

/-- `vubs_` and `vlbs_`: per column the binary column and the value (FC:353-356 of the header). -/
structure Pre where
  vub : Nat → Option (Nat × ℚ)
  vlb : Nat → Option (Nat × ℚ)

/-- One entry of an array is overwritten. -/
def upd {α : Type} (f : Nat → α) (j : Nat) (v : α) : Nat → α := fun i => if i = j then v else f i

/-- The two columns of a variable bound row: continuous column, binary column and minus the quotient of the coefficients,
FC:174-205. -/
def boundOf (P : Prob) (v : SVec) : Option (Nat × Nat × ℚ) := match v with
  | [p, q] => if isBin P p.1 then some (q.1, p.1, -p.2 / q.2) else some (p.1, q.1, -q.2 / p.2)
  | _ => none

/-- What one row records in `vubs_` and `vlbs_`, FC:165-212. -/
def recordRow (P : Prob) (pre : Pre) (r : Row) : Pre :=
  match boundOf P r.coefs with
  | none => pre
  | some (y, b, v) =>
    match rowType P r with
    | .varub => { pre with vub := upd pre.vub y (some (b, v)) }
    | .varlb => { pre with vlb := upd pre.vlb y (some (b, v)) }
    | .vareq => { vub := upd pre.vub y (some (b, v)), vlb := upd pre.vlb y (some (b, v)) }
    | _ => pre

/-- The variable bounds that `flowPreprocess` (FC:41-219) finds: `vubs_`/`vlbs_` are reset, then the rows are taken in order, so
a later row replaces an earlier one. -/
def preprocess (P : Prob) : Pre := P.rows.foldl (recordRow P) { vub := fun _ => none, vlb := fun _ => none }

/-- The lower bound used for a column, FC:544-546. -/
def lbOf (P : Prob) (pre : Pre) (j : Nat) : ℚ := match pre.vlb j with
  | some b => b.2
  | none => P.colLower j

/-- The upper bound used for a column, FC:548-550. -/
def ubOf (P : Prob) (pre : Pre) (j : Nat) : ℚ := match pre.vub j with
  | some b => b.2
  | none => P.colUpper j

/-- One column of the row with `coef`, `up`, `x`, `y` and the kind of its `sign` (binary or not; the sign is that of `coef`). -/
structure Item where
  j : Nat
  coef : ℚ
  bin : Bool
  up : ℚ
  x : ℚ
  y : ℚ
deriving Repr

/-- `sign[i] > 0`, FC:562-585: positive coefficient. -/
def Item.pos (i : Item) : Bool := 0 < i.coef

/-- The capacity data of one column, FC:560-590. -/
def mkItem (P : Prob) (pre : Pre) (xlp : Nat → ℚ) (p : Nat × ℚ) : Item :=
  if isBin P p.1 then
    { j := p.1, coef := p.2, bin := true, up := |p.2|, x := xlp p.1, y := |p.2| * xlp p.1 }
  else
    { j := p.1, coef := p.2, bin := false, up := |p.2| * ubOf P pre p.1,
      x := (match pre.vub p.1 with
        | some b => xlp b.1
        | none => 1),
      y := |p.2| * xlp p.1 }

/-- `candidate[i]`. -/
inductive Cnd | out | prime | secondary
deriving DecidableEq, Repr

/-- A column with its `ratio`, `candidate` and `label` (true for `CGLFLOW_COL_INCUT`). -/
structure Cand where
  it : Item
  ratio : ℚ
  cnd : Cnd
  inc : Bool
deriving Repr

/-- Upper bound of a negative column counts as infinite, FC:617. -/
def Item.inf (i : Item) : Bool := (1 - eps) * infty < i.up

/-- Start of the cover search for one column, FC:600-634.  Simplification: a division by a zero `up` gives 0. -/
def mkCand (i : Item) : Cand :=
  if i.pos then
    if eps < i.y then
      { it := i, ratio := (1 - i.x) / i.up, cnd := if i.up * i.x - eps < i.y then .prime else .secondary, inc := false }
    else { it := i, ratio := infty, cnd := .out, inc := false }
  else if i.inf then { it := i, ratio := infty, cnd := .out, inc := true }
  else if i.y < i.up then { it := i, ratio := i.x / i.up, cnd := .prime, inc := false }
  else { it := i, ratio := infty, cnd := .out, inc := false }

/-- `knapRHS` after FC:600-634. -/
def knapRHS (rhs : ℚ) (is : List Item) : ℚ := rhs + ((is.filter fun i => !i.pos && !i.inf).map Item.up).sum

/-- `tempSum` after FC:600-634. -/
def primeSum (cs : List Cand) : ℚ := ((cs.filter fun c => c.cnd = .prime).map fun c => c.it.up).sum

/-- The scan for the secondary candidate with the least `up*x-y`, FC:655-663. -/
def scanSec : List Cand → Nat → ℚ × Nat → ℚ × Nat
  | [], _, b => b
  | c :: cs, k, b =>
    let d := c.it.up * c.it.x - c.it.y
    scanSec cs (k + 1) (if c.cnd = .secondary ∧ d < b.1 - eps then (d, k) else b)

/-- Secondary candidates are promoted until the prime ones can form a cover, FC:653-679; `none` if none exists.  The fuel is the
number of columns plus one; `promote_fuel` shows that it is never used up. -/
def promote (knap : ℚ) : Nat → List Cand → ℚ → Option (List Cand)
  | 0, _, _ => none
  | f + 1, cs, s =>
    if s < knap + eps then
      let b := scanSec cs 0 (infty, 0)
      if (1 - eps) * infty < b.1 then none
      else match cs[b.2]? with
        | some c => promote knap f (cs.set b.2 { c with cnd := .prime }) (s + c.it.up)
        | none => none
    else some cs

/-- Prime candidates with (almost) zero ratio enter the cover first, FC:682-689. -/
def zeroRatio (c : Cand) : Cand := if c.cnd = .prime ∧ c.ratio < eps then { c with inc := true } else c

/-- `tempSum` after FC:682-689. -/
def zeroSum (cs : List Cand) : ℚ := ((cs.filter fun c => c.cnd = .prime ∧ c.ratio < eps).map fun c => c.it.up).sum

/-- The scan for the prime candidate of least ratio outside the cover, FC:692-700. -/
def scanRatio : List Cand → Nat → ℚ × Option Nat → ℚ × Option Nat
  | [], _, b => b
  | c :: cs, k, b =>
    scanRatio cs (k + 1) (if c.cnd = .prime ∧ c.inc = false ∧ c.ratio < b.1 then (c.ratio, some k) else b)

/-- The greedy cover, FC:691-717. -/
def cover (knap : ℚ) : Nat → List Cand → ℚ → Option (List Cand × ℚ)
  | 0, _, _ => none
  | f + 1, cs, s =>
    if s < knap + eps then
      match (scanRatio cs 0 (infty, none)).2 with
      | none => none
      | some k => match cs[k]? with
        | some c => cover knap f (cs.set k { c with inc := true }) (s + c.it.up)
        | none => none
    else some (cs, s)

/-- One pass of the reduction to a minimal cover, FC:720-727 and FC:728-735: columns of the cover chosen by `sel` are left out
when the rest is still a cover. -/
def reduce (knap : ℚ) (sel : Cand → Bool) : List Cand → ℚ → List Cand × ℚ
  | [], s => ([], s)
  | c :: cs, s =>
    if c.inc ∧ sel c ∧ knap + eps < s - c.it.up then
      let u := reduce knap sel cs (s - c.it.up)
      ({ c with inc := false } :: u.1, u.2)
    else
      let u := reduce knap sel cs s
      (c :: u.1, u.2)

/-- The labels of the negative columns are turned round, FC:738-741. -/
def flipNeg (c : Cand) : Item × Bool := (c.it, if c.it.pos then c.inc else !c.inc)

/-- The cover (`C+` and `C-`: the flagged positive and negative columns) and `lambda`, FC:595-763. -/
def findCover (rhs : ℚ) (is : List Item) : Option (List (Item × Bool) × ℚ) :=
  let knap := knapRHS rhs is
  if 10 ^ 10 < knap then none
  else match promote knap (is.length + 1) (is.map mkCand) (primeSum (is.map mkCand)) with
    | none => none
    | some cs => match cover knap (is.length + 1) (cs.map zeroRatio) (zeroSum cs) with
      | none => none
      | some (cs, s) =>
        let r1 := reduce knap (fun c => eps < c.ratio) cs s
        let r2 := reduce knap (fun c => c.ratio < eps) r1.1 r1.2
        let cov := r2.1.map flipNeg
        if cov.any Prod.snd then some (cov, r2.2 - knap) else none

/-- Column of `C+`. -/
def inCp (p : Item × Bool) : Bool := p.1.pos && p.2
/-- Column of `C-`. -/
def inCm (p : Item × Bool) : Bool := !p.1.pos && p.2
/-- Column of `N+` outside `C+`. -/
def outP (p : Item × Bool) : Bool := p.1.pos && !p.2
/-- Column of `N-` outside `C-`. -/
def outM (p : Item × Bool) : Bool := !p.1.pos && !p.2
/-- Column of `C++`, FC:835. -/
def inCpp (lam : ℚ) (p : Item × Bool) : Bool := inCp p && (lam + eps < p.1.up)
/-- Column of `L-`, FC:852. -/
def inLm (lam : ℚ) (p : Item × Bool) : Bool := outM p && (lam < p.1.up)

/-- Sum of the `up`s of the columns selected. -/
def upSum (sel : Item × Bool → Bool) (ps : List (Item × Bool)) : ℚ := ((ps.filter sel).map fun p => p.1.up).sum

/-- (`xCoef`, `yCoef`) of the simple generalized flow cover inequality, FC:832-871. -/
def baseCoef (lam : ℚ) (p : Item × Bool) : ℚ × ℚ :=
  if inCp p then (if lam + eps < p.1.up then (lam - p.1.up, 1) else (0, 1))
  else if outM p then (if lam < p.1.up then (-lam, 0) else (0, -1))
  else (0, 0)

/-- `cutRHS` after FC:818-823: `d'`. -/
def rhs1 (rhs : ℚ) (ps : List (Item × Bool)) : ℚ := rhs + upSum inCm ps

/-- `cutRHS` after FC:832-871. -/
def rhs2 (rhs lam : ℚ) (ps : List (Item × Bool)) : ℚ :=
  rhs1 rhs ps + ((ps.filter (inCpp lam)).map fun p => lam - p.1.up).sum

/-- `temp` after FC:832-871. -/
def tempOf (rhs : ℚ) (ps : List (Item × Bool)) : ℚ := rhs1 rhs ps + upSum outM ps

/-- `sum` after FC:832-871. -/
def sumOf (lam : ℚ) (ps : List (Item × Bool)) : ℚ :=
  upSum (fun p => (inCp p && !inCpp lam p) || (outM p && !inLm lam p)) ps

/-- `minPlsM` after FC:832-871. -/
def minPlsM (lam : ℚ) (ps : List (Item × Bool)) : ℚ :=
  ((ps.filter (inCpp lam)).map fun p => p.1.up).foldl (fun m u => if u < m then u else m) infty

/-- `mt`: the `up`s of `C+` and `L-` in descending order, as far as they are above `lambda`, FC:873-912. -/
def mtOf (lam : ℚ) (ps : List (Item × Bool)) : List ℚ :=
  (((ps.filter fun p => inCp p || inLm lam p).map fun p => p.1.up).insertionSort (fun a b => b ≤ a)).takeWhile
    fun u => lam < u

/-- The quantities the lifting functions get. -/
structure Lift where
  lam : ℚ
  /-- `mt`; `index` is its length -/
  mt : List ℚ
  t : Nat
  ml : ℚ
  minP : ℚ
  dpp : ℚ

/-- `M[i]`, FC:966-973. -/
def Lift.M (L : Lift) (i : Nat) : ℚ := (L.mt.take i).sum
/-- `index`, passed as `r`. -/
def Lift.r (L : Lift) : Nat := L.mt.length
/-- `rho[i]` for `t <= i < index`, FC:1003-1012. -/
def Lift.rho (L : Lift) (i : Nat) : ℚ := max 0 (L.mt.getD i 0 - ((L.minP - L.lam) + L.ml))

/-- FC:953-1012 and the `dPrimePrime` of FC:1034.  (The test for a very large `M[index]`, FC:975-996, returns only when
debugging.) -/
def mkLift (rhs lam : ℚ) (ps : List (Item × Bool)) : Lift :=
  let mt := mtOf lam ps
  let m := minPlsM lam ps
  { lam := lam, mt := mt, t := (mt.takeWhile fun u => ¬ u < m).length, ml := min (sumOf lam ps) lam, minP := m,
    dpp := tempOf rhs ps + rhs2 rhs lam ps }

/-- `liftMinus`, FC:1411-1462: the `movement`. -/
def liftMinus (L : Lift) (z : ℚ) : ℚ :=
  if L.dpp < z then z - L.M L.r + L.r * L.lam
  else match (List.range L.t).find? (fun i => L.M i ≤ z ∧ z ≤ L.M (i + 1) - L.lam) with
    | some i => i * L.lam
    | none => match (List.range' 1 (L.t - 1)).find? (fun i => L.M i - L.lam ≤ z ∧ z ≤ L.M i) with
      | some i => z - L.M i + i * L.lam
      | none =>
        match (List.range' L.t (L.r - L.t)).find?
            (fun i => L.M i - L.lam ≤ z ∧ z ≤ L.M i - L.lam + L.ml + L.rho i) with
        | some i => z - L.M i + i * L.lam
        | none =>
          match (List.range' L.t (L.r - L.t)).find?
              (fun i => L.M i - L.lam + L.ml + L.rho i ≤ z ∧ z ≤ L.M (i + 1) - L.lam) with
          | some i => i * L.lam
          | none => if L.M L.r - L.lam ≤ z ∧ z ≤ L.dpp then z - L.M L.r + L.r * L.lam else 0

/-- The value `liftPlus` gives for piece `i` (`alpha`, `beta`): FC:1492-1498, FC:1516-1522. -/
def plusPiece (L : Lift) (y x : ℚ) (i : Nat) : ℚ × ℚ :=
  if 0 < y - x * (L.M i - i * L.lam) then (1, L.M i - i * L.lam) else (0, 0)

/-- `liftPlus`, FC:1466-1538: (`alpha`, `beta`). -/
def liftPlus (L : Lift) (m y x : ℚ) : ℚ × ℚ :=
  if L.M L.r - L.lam + eps < m then
    if m < L.dpp - eps ∧ L.M L.r - L.lam < m ∧ m ≤ L.M L.r then plusPiece L y x L.r else (0, 0)
  else match (List.range' 1 L.r).find? (fun i => L.M i - L.lam < m ∧ m ≤ L.M i) with
    | some i => plusPiece L y x i
    | none => (0, 0)

/-- (`xCoef`, `yCoef`) after lifting, FC:1036-1085. -/
def liftedCoef (L : Lift) (p : Item × Bool) : ℚ × ℚ :=
  if outP p then
    let ab := liftPlus L p.1.up p.1.y p.1.x
    (-ab.2, ab.1)
  else if inCm p then
    let mv := liftMinus L p.1.up
    if eps < mv then (-mv, 0) else (0, 0)
  else baseCoef L.lam p

/-- What lifting takes off `cutRHS`, FC:1066-1073. -/
def liftedRhs (L : Lift) (p : Item × Bool) : ℚ :=
  if inCm p then (if eps < liftMinus L p.1.up then liftMinus L p.1.up else 0) else 0

/-- A column with its `xCoef` and `yCoef`. -/
structure Coef where
  it : Item
  xc : ℚ
  yc : ℚ
deriving Repr

/-- `violation` of FC:1013-1025 and FC:1090-1103. -/
def violation (rhs : ℚ) (cs : List Coef) : ℚ := -rhs + (cs.map fun c => c.it.y * c.yc + c.it.x * c.xc).sum

/-- The inequality before and after lifting (coefficients and right-hand side), FC:1013-1087. -/
def inequality (rhs lam : ℚ) (ps : List (Item × Bool)) : List Coef × ℚ :=
  let L := mkLift rhs lam ps
  let base := ps.map fun p => (⟨p.1, (baseCoef lam p).1, (baseCoef lam p).2⟩ : Coef)
  if tol < |violation (rhs2 rhs lam ps) base| then
    (ps.map fun p => (⟨p.1, (liftedCoef L p).1, (liftedCoef L p).2⟩ : Coef),
      rhs2 rhs lam ps - (ps.map (liftedRhs L)).sum)
  else (base, rhs2 rhs lam ps)

/-- The entries a column contributes to the cut in the original variables, FC:1118-1153. -/
def backEntries (pre : Pre) (c : Coef) : SVec :=
  let a := |c.it.coef| * c.yc
  if c.it.bin then
    if eps < |c.yc| ∨ eps < |c.xc| then [(c.it.j, a + c.xc)] else []
  else
    (if eps < |c.yc| then [(c.it.j, a)] else []) ++
      (if eps < |c.xc| then
        match pre.vub c.it.j with
        | some b => [(b.1, c.xc)]
        | none => []
      else [])

/-- What a column takes off the right-hand side, FC:1141-1142. -/
def backRhs (pre : Pre) (c : Coef) : ℚ :=
  if !c.it.bin ∧ eps < |c.xc| ∧ pre.vub c.it.j = none then c.xc else 0

/-- Keep an entry of the merged cut, FC:1163. -/
def keep (j : Nat) (a : ℚ) : SVec := if eps ≤ |a| then [(j, a)] else []

/-- Merging of equal indices in the sorted cut, FC:1158-1173. -/
def mergeRuns : Nat → ℚ → SVec → SVec
  | j, a, [] => keep j a
  | j, a, p :: v => if j < p.1 then keep j a ++ mergeRuns p.1 p.2 v else mergeRuns j (a + p.2) v

/-- Sorting and merging, FC:1155-1194. -/
def mergeCut (v : SVec) : SVec :=
  match v.insertionSort (fun p q => p.1 ≤ q.1) with
  | [] => []
  | p :: w => mergeRuns p.1 p.2 w

/-- From the inequality to the cut, FC:1105-1250. -/
def finish (P : Prob) (pre : Pre) (xlp : Nat → ℚ) (cs : List Coef) (rhs : ℚ) : Option RowCut :=
  if tol < violation rhs cs then
    let row := mergeCut (cs.flatMap (backEntries pre))
    let rhs := rhs - (cs.map (backRhs pre)).sum
    if row.isEmpty then none
    else if tol < row.dot xlp - rhs then some { lb := -P.inf, ub := rhs, row := row } else none
  else none

/-- The value is fractional, FC:495. -/
def fractional (v : ℚ) : Bool := eps < v - ⌊v⌋ && eps < ⌈v⌉ - v

/-- The row is worth trying, FC:494-509. -/
def worth (xlp : Nat → ℚ) (v : SVec) : Bool := v.any (fun p => fractional (xlp p.1)) && v.all fun p => eps < |p.2|

/-- A `<=` row (a `>=` row after `flipRow`) without fixed columns, FC:517-1270. -/
def flowCutL (P : Prob) (pre : Pre) (xlp : Nat → ℚ) (v : SVec) (rhs : ℚ) : Option RowCut :=
  if v.any fun p => lbOf P pre p.1 < -eps then none
  else match findCover rhs (v.map (mkItem P pre xlp)) with
    | none => none
    | some (ps, lam) =>
      if (mtOf lam ps).isEmpty ∨ ¬ ps.any (inCpp lam) then none
      else finish P pre xlp (inequality rhs lam ps).1 (inequality rhs lam ps).2

/-- `generateOneFlowCut`, FC:466-1270; `ge` for sense `G`. -/
def generateOneFlowCut (P : Prob) (pre : Pre) (xlp : Nat → ℚ) (v : SVec) (ge : Bool) (rhs : ℚ) : Option RowCut :=
  if worth xlp v then
    if ge then flowCutL P pre xlp (flipCoefs v) (-rhs) else flowCutL P pre xlp v rhs
  else none

/-- The columns that are not fixed, FC:277-281. -/
def freeCoefs (P : Prob) (v : SVec) : SVec := v.filter fun p => P.colLower p.1 < P.colUpper p.1

/-- The right-hand side without the fixed columns, FC:275-285. -/
def freeRhs (P : Prob) (v : SVec) (rhs : ℚ) : ℚ :=
  rhs - ((v.filter fun p => ¬ P.colLower p.1 < P.colUpper p.1).map fun p => P.colLower p.1 * p.2).sum

/-- The directions in which a row is tried, FC:291-322. -/
def directions (s : Sense) : List Bool := match s with
  | .E => [false, true]
  | .L => [false]
  | .G => [true]
  | _ => []

/-- Row types from which cuts are generated, FC:261-268. -/
def useType (t : RowType) : Bool :=
  t == .mixub || t == .mixeq || t == .nobinub || t == .nobineq || t == .sumvarub || t == .sumvareq

/-- Everything that is tried, in order: row data without fixed columns and direction. -/
def tries (P : Prob) : List (SVec × Bool × ℚ) := P.rows.flatMap fun r =>
  if useType (rowType P r) then
    (directions (r.senseRhs P.inf).1).map fun g => (freeCoefs P r.coefs, g, freeRhs P r.coefs (r.senseRhs P.inf).2)
  else []

/-- The loop FC:258-323: `n` is `numFlowCuts_`, counted also when the cut is a duplicate; it ends when `maxNumCuts_` is
reached.  `insertIfNotDuplicateAndClean` is outside `/repo` and read as `insertIfNotDuplicate`. -/
def tryAll (P : Prob) (pre : Pre) (xlp : Nat → ℚ) (maxNum : ℤ) : List (SVec × Bool × ℚ) → ℤ → List RowCut → ℤ × List RowCut
  | [], n, cs => (n, cs)
  | w :: ws, n, cs =>
    match generateOneFlowCut P pre xlp w.1 w.2.1 w.2.2 with
    | none => tryAll P pre xlp maxNum ws n cs
    | some c =>
      if maxNum ≤ n + 1 then (n + 1, insertIfNotDuplicate cs c)
      else tryAll P pre xlp maxNum ws (n + 1) (insertIfNotDuplicate cs c)

/-- The observable state of a generator: `maxNumCuts_` and `numFlowCuts_`. -/
structure Obj where
  maxNum : ℤ
  num : ℤ
deriving DecidableEq, Repr

/-- Default constructor, FC:348-366. -/
def Obj.new : Obj := { maxNum := 2000000, num := 0 }

/-- `generateCuts`, FC:225-345 (the flags set at the end mark cuts as globally valid and are not modelled). -/
def generateCuts (o : Obj) (P : Prob) (xlp : Nat → ℚ) (cs : List RowCut) : Obj × List RowCut :=
  if o.maxNum ≤ 0 ∨ o.maxNum ≤ o.num then (o, cs)
  else
    let u := tryAll P (preprocess P) xlp o.maxNum (tries P) o.num cs
    ({ o with num := u.1 }, u.2)

/-- What can be done with a generator: `setMaxNumCuts` (hpp:178), `setNumFlowCuts` (hpp:185), `generateCuts`, and copying
(FC:371-399, FC:415-441), which keeps both counters. -/
inductive Op
  | setMax (n : ℤ)
  | setNum (n : ℤ)
  | copy
  | generate (P : Prob) (xlp : Nat → ℚ) (cs : List RowCut)

/-- Effect of an operation; `generate` also says what the collection is afterwards. -/
def step (o : Obj) : Op → Obj × Option (List RowCut)
  | .setMax n => ({ o with maxNum := n }, none)
  | .setNum n => ({ o with num := n }, none)
  | .copy => (o, none)
  | .generate P xlp cs => ((generateCuts o P xlp cs).1, some (generateCuts o P xlp cs).2)

end Cgl.FlowCover
