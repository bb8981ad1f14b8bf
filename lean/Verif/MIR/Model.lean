import Verif.Osi
import Mathlib.Data.List.Sort

/-!
# Model of `src/CglMixedIntegerRounding` and `src/CglMixedIntegerRounding2`

Below `MIR` is `src/CglMixedIntegerRounding/CglMixedIntegerRounding.cpp` and `MIR2` is
`src/CglMixedIntegerRounding2/CglMixedIntegerRounding2.cpp`.  The two are the same algorithm on different vector classes;
the flag `v2` selects the second one wherever they differ.

`double` is exact `ℚ`.  `CoinPackedVector`/`CoinIndexedVector` are lists of (index, value) in insertion order without
repeated index (`add` on a `CoinIndexedVector` ignores elements below 1e-50 and stores 1e-100 for a sum that cancels: both
are taken as exact).  `none` in a result is undefined behaviour or an exception.
-/

namespace Cgl.MIR

/-- `EPSILON_`, MIR:189, MIR2:318. -/
def eps : ℚ := 1 / 10 ^ 6
/-- `TOLERANCE_`, MIR:191, MIR2:320. -/
def tol : ℚ := 1 / 10 ^ 4

/-- `RowType`, CglMixedIntegerRounding.hpp:93-119, CglMixedIntegerRounding2.hpp. -/
inductive RowType | undefined | varub | varlb | vareq | mix | cont | int | other
deriving DecidableEq, Repr

/-- What `mixIntRoundPreprocess` stores: `numCols_`; per row `rowTypes_`, `sense_`, `RHS_`; per column `vubs_`, `vlbs_`
(`none` = `UNDEFINED_`). `saved` (MIR2 only): the second half of `rowTypes_`, the copy from which row types are put back, has
been written. -/
structure Pre where
  nCols : Nat
  rows : List (RowType × Sense × ℚ)
  vub : Nat → Option (Nat × ℚ)
  vlb : Nat → Option (Nat × ℚ)
  saved : Bool

/-- Sense and right-hand side of one row with ranges resolved by the row activity, MIR:354-366, MIR2:501-513. -/
def resolve (inf : ℚ) (r : Row) (activity : ℚ) : Sense × ℚ :=
  let sr := r.senseRhs inf
  if sr.1 = .R then
    if activity - r.lb < r.ub - activity then (.G, r.lb) else (.L, r.ub)
  else sr

/-- `determineRowType`, MIR:566-657, MIR2:717-805. -/
def determineRowType (v2 : Bool) (P : Prob) (coefs : SVec) (sense : Sense) (rhs : ℚ) : RowType :=
  if coefs.length = 0 then .undefined
  else if v2 && (decide (10 ^ 20 < |rhs|) || decide (sense = .N)) then .undefined
  else if !v2 && (decide (sense = .N) || decide (rhs = P.inf) || decide (rhs = -P.inf)) then .other
  else
    let numNegInt := coefs.countP fun p => decide (p.2 < -eps) && P.isInt p.1
    let numNegCon := coefs.countP fun p => decide (p.2 < -eps) && !P.isInt p.1
    let numPosInt := coefs.countP fun p => decide (eps < p.2) && P.isInt p.1
    let numPosCon := coefs.countP fun p => decide (eps < p.2) && !P.isInt p.1
    let numInt := numNegInt + numPosInt
    let numCon := numNegCon + numPosCon
    if 0 < numInt ∧ 0 < numCon then
      if numInt = 1 ∧ numCon = 1 ∧ |rhs| ≤ eps then
        match sense with
        | .L => if numPosCon = 1 then .varub else .varlb
        | .G => if numPosCon = 1 then .varlb else .varub
        | .E => .vareq
        | _ => .undefined
      else .mix
    else if numInt = 0 then .cont
    else if numCon = 0 ∧ (sense = .L ∨ sense = .G) then .int
    else .other

/-- The scan for the two columns of a variable bound row, MIR:495-509, MIR2:646-660: the last entries above `EPSILON_` on an
integer column (`y`) and on a continuous column (`x`), starting from index 0 and coefficient 0. -/
def scanVB (P : Prob) : SVec → (Nat × ℚ) × (Nat × ℚ) → (Nat × ℚ) × (Nat × ℚ)
  | [], s => s
  | p :: ps, s =>
    if eps < |p.2| then
      if P.isInt p.1 then scanVB P ps (p, s.2) else scanVB P ps (s.1, p)
    else scanVB P ps s

/-- `f` with the value at `j` replaced (an array store). -/
def upd {α : Type} (f : Nat → α) (j : Nat) (v : α) : Nat → α := fun i => if i = j then v else f i

/-- The variable bounds recorded from one row, MIR:489-533, MIR2:640-684. -/
def recordVB (P : Prob) (t : RowType) (coefs : SVec) (vub vlb : Nat → Option (Nat × ℚ)) :
    (Nat → Option (Nat × ℚ)) × (Nat → Option (Nat × ℚ)) :=
  let yx := scanVB P coefs ((0, 0), (0, 0))
  let b := some (yx.1.1, -yx.1.2 / yx.2.2)
  match t with
  | .varub => (upd vub yx.2.1 b, vlb)
  | .varlb => (vub, upd vlb yx.2.1 b)
  | .vareq => (upd vub yx.2.1 b, upd vlb yx.2.1 b)
  | _ => (vub, vlb)

/-- The loop over the rows that fills `vubs_` and `vlbs_`, MIR:456-534, MIR2:607-685. -/
def recordAll (P : Prob) : List RowType → List Row → (Nat → Option (Nat × ℚ)) → (Nat → Option (Nat × ℚ)) →
    (Nat → Option (Nat × ℚ)) × (Nat → Option (Nat × ℚ))
  | t :: ts, r :: rs, vub, vlb =>
    let u := recordVB P t r.coefs vub vlb
    recordAll P ts rs u.1 u.2
  | _, _, vub, vlb => (vub, vlb)

/-- The row part of `mixIntRoundPreprocess`, MIR:353-372, MIR2:500-519, from row number `i`. -/
def preRows (v2 : Bool) (P : Prob) (activity : Nat → ℚ) : Nat → List Row → List (RowType × Sense × ℚ)
  | _, [] => []
  | i, r :: rs =>
    let sr := resolve P.inf r (activity i)
    (determineRowType v2 P r.coefs sr.1 sr.2, sr.1, sr.2) :: preRows v2 P activity (i + 1) rs

/-- `mixIntRoundPreprocess`, MIR:310-561, MIR2:449-712. -/
def preprocess (v2 : Bool) (P : Prob) (activity : Nat → ℚ) : Pre :=
  let rows := preRows v2 P activity 0 P.rows
  let u := recordAll P (rows.map Prod.fst) P.rows (fun _ => none) (fun _ => none)
  { nCols := P.nCols, rows := rows, vub := u.1, vlb := u.2, saved := true }

/-- The parameters `MAXAGGR_`, `MULTIPLY_`, `CRITERION_` and two pieces of the environment: `sq` is `sqrt` and `sorter` is
`sortIncrElement` on (position, key) pairs (its order on equal keys is unspecified). -/
structure Par where
  maxAggr : Nat
  multiply : Bool
  criterion : Nat
  sq : ℚ → ℚ
  sorter : List (Nat × ℚ) → List (Nat × ℚ)

/-- An aggregated row `row · (x, slacks) = rhs`; index `nCols + k` is the slack of the `k`-th row of `used`
(`listRowsAggregated`); `extra` is `xlpExtra`. -/
structure Agg where
  row : SVec
  rhs : ℚ
  used : List Nat
  extra : List ℚ
deriving DecidableEq, Repr

/-- `rowToAggregate`/`rhsToAggregate` and the entry of `xlpExtra` made by `copyRowSelected` for the `k`-th row,
MIR:870-904, MIR2:1081-1114. (`xlpExtra` is left alone for an equality row; it is never read then.) -/
def copyRow (nCols k : Nat) (coefs : SVec) (sense : Sense) (rhs lhs : ℚ) : SVec × ℚ :=
  match sense with
  | .L => (coefs ++ [(nCols + k, 1)], rhs - lhs)
  | .G => (coefs ++ [(nCols + k, -1)], lhs - rhs)
  | _ => (coefs, 0)

/-- Value at an index of a packed vector (`operator[]`: 0 if absent). -/
def at' (v : SVec) (j : Nat) : ℚ := match v.find? fun p => p.1 = j with
  | some p => p.2
  | none => 0

/-- `v[j] += a`, appending the index if it is not there (`isExistingIndex`/`setElement`/`insert`, or `add`). -/
def addCoef (v : SVec) (j : Nat) (a : ℚ) : SVec :=
  if v.any fun p => p.1 = j then v.map fun p => if p.1 = j then (j, p.2 + a) else p else v ++ [(j, a)]

/-- `v += k * w`, the sums and differences of packed vectors. -/
def addScaled (v : SVec) (k : ℚ) (w : SVec) : SVec := w.foldl (fun u p => addCoef u p.1 (k * p.2)) v

/-- `insert(j, a)`: throws if the index exists. -/
def insertNew (v : SVec) (j : Nat) (a : ℚ) : Option SVec :=
  if v.any fun p => p.1 = j then none else some (v ++ [(j, a)])

/-- Current lower bound of a continuous column: `VLB * xlp[y]` or the column bound, MIR:940-943, MIR2:1150-1152 etc. -/
def lbAt (P : Prob) (pre : Pre) (xlp : Nat → ℚ) (j : Nat) : ℚ := match pre.vlb j with
  | some yv => yv.2 * xlp yv.1
  | none => P.colLower j

/-- Current upper bound of a continuous column, MIR:945-948, MIR2:1155-1157 etc. -/
def ubAt (P : Prob) (pre : Pre) (xlp : Nat → ℚ) (j : Nat) : ℚ := match pre.vub j with
  | some yv => yv.2 * xlp yv.1
  | none => P.colUpper j

/-- The entries of a column of `matrixByCol` made from `rows`, in row order, from row number `i`. -/
def colEntries (c : Nat) : Nat → List Row → List (Nat × ℚ)
  | _, [] => []
  | i, r :: rs => (r.coefs.filter fun p => p.1 = c).map (fun p => (i, p.2)) ++ colEntries c (i + 1) rs

/-- The first row usable for eliminating the column, MIR:962-979, MIR2:1172-1188. -/
def usableRow (types : Nat → RowType) (used : List Nat) (ents : List (Nat × ℚ)) : Option Nat :=
  (ents.find? fun e => decide (e.1 ∉ used) && (decide (types e.1 = .mix) || decide (types e.1 = .cont)) &&
    decide (eps < |e.2|)).map Prod.fst

/-- `selectRowToAggregate`, MIR:909-990, MIR2:1120-1199. `best` is (deltaMax, selected row and column). -/
def selectRow (P : Prob) (pre : Pre) (rows : List Row) (xlp : Nat → ℚ) (types : Nat → RowType) (used : List Nat) :
    SVec → ℚ × Option (Nat × Nat) → Option (Nat × Nat)
  | [], best => best.2
  | p :: ps, best =>
    if p.1 ≥ pre.nCols then selectRow P pre rows xlp types used ps best
    else if P.isInt p.1 = true ∨ |p.2| < eps then selectRow P pre rows xlp types used ps best
    else
      let delta := min (xlp p.1 - lbAt P pre xlp p.1) (ubAt P pre xlp p.1 - xlp p.1)
      if best.1 < delta then
        match usableRow types used (colEntries p.1 0 rows) with
        | some i => selectRow P pre rows xlp types used ps (delta, some (i, p.1))
        | none => selectRow P pre rows xlp types used ps best
      else selectRow P pre rows xlp types used ps best

/-- The first aggregated row, MIR:721-739, MIR2:875-891; `none`: the row does not exist. -/
def startAgg (pre : Pre) (rows : List Row) (activity : Nat → ℚ) (i : Nat) : Option Agg :=
  match rows[i]?, pre.rows[i]? with
  | some r, some (_, s, b) =>
    let c := copyRow pre.nCols 0 r.coefs s b (activity i)
    some { row := c.1, rhs := b, used := [i], extra := [c.2] }
  | _, _ => none

/-- Copying row `i` and `aggregateRow` with pivot column `c`, MIR:752-768, 995-1012, MIR2:903-917, 1205-1221. -/
def stepAgg (pre : Pre) (rows : List Row) (activity : Nat → ℚ) (g : Agg) (i c : Nat) : Option Agg :=
  match rows[i]?, pre.rows[i]? with
  | some r, some (_, s, b) =>
    let cp := copyRow pre.nCols g.used.length r.coefs s b (activity i)
    let m := at' g.row c / at' cp.1 c
    some { row := addScaled g.row (-m) cp.1, rhs := g.rhs - m * b, used := g.used ++ [i], extra := g.extra ++ [cp.2] }
  | _, _ => none

/-- Row types after all rows of the pivot column have been taken out (MIR2:918-926 only). -/
def typesAfter (v2 : Bool) (rows : List Row) (types : Nat → RowType) (c : Nat) : Nat → RowType :=
  if v2 then fun i => if (colEntries c 0 rows).any (fun e => e.1 = i) then .undefined else types i else types

/-- The aggregated rows made one after the other from `g` (the loop over `iAggregate`, MIR:719-771, MIR2:874-930); the first
argument is the number of aggregations still allowed. The cuts made from them (MIR:777-847) do not influence them. -/
def chain (v2 : Bool) (P : Prob) (pre : Pre) (rows : List Row) (activity xlp : Nat → ℚ) :
    Nat → (Nat → RowType) → Agg → List Agg
  | 0, _, g => [g]
  | n + 1, types, g =>
    match selectRow P pre rows xlp types g.used g.row (0, none) with
    | none => [g]
    | some ic => match stepAgg pre rows activity g ic.1 ic.2 with
      | none => [g]
      | some g' => g :: chain v2 P pre rows activity xlp n (typesAfter v2 rows types ic.2) g'

/-- `isLowerSubst`, MIR:1016-1040, MIR2:1226-1249. -/
def isLowerSubst (crit : Nat) (inf aj x lb ub : ℚ) : Bool :=
  if crit = 1 then decide (x - lb < ub - x)
  else if ub = inf ∨ x = lb then true
  else if lb = -inf ∨ x = ub then false
  else if crit = 2 then decide (aj < 0)
  else decide (0 < aj)

/-- State of `boundSubstitution`: `mixedKnapsack`, `rhsMixedKnapsack`, `sStar`, `contVariablesInS`. -/
structure Mk where
  knap : SVec
  rhs : ℚ
  sStar : ℚ
  contS : SVec
deriving DecidableEq, Repr

/-- Outcome of treating one column: go on, give up, or undefined behaviour. -/
inductive Step | go (m : Mk) | stop | fault
deriving DecidableEq, Repr

/-- Substituting the variable bound `vb`, or the constant bound, for a continuous column with coefficient `a`, MIR:1123-1135,
1144-1156, MIR2:1335-1341, 1350-1356. -/
def substVB (m : Mk) (vb : Option (Nat × ℚ)) (a bound : ℚ) : Mk := match vb with
  | some yv => { m with knap := addCoef m.knap yv.1 (a * yv.2) }
  | none => { m with rhs := m.rhs - a * bound }

/-- One column of the loop of `boundSubstitution`, MIR:1070-1176, MIR2:1280-1376. -/
def substOne (v2 : Bool) (P : Prob) (pre : Pre) (crit : Nat) (xlp : Nat → ℚ) (extra : List ℚ) (m : Mk) (p : Nat × ℚ) :
    Step :=
  let j := p.1
  let a := p.2
  if j < pre.nCols ∧ P.colLower j = P.colUpper j then .go { m with rhs := m.rhs - a * P.colLower j }
  else if |a| < eps then
    if v2 then
      if j < pre.nCols then
        .go { m with rhs := m.rhs - a * (if a < 0 then P.colUpper j else P.colLower j) }
      else .fault
    else .go m
  else if j < pre.nCols ∧ P.isInt j = true then .go { m with knap := addCoef m.knap j a }
  else if j < pre.nCols then
    let lb := lbAt P pre xlp j
    let ub := ubAt P pre xlp j
    if lb = -P.inf ∧ ub = P.inf then .stop
    else if isLowerSubst crit P.inf a (xlp j) lb ub then
      let m1 := substVB m (pre.vlb j) a lb
      if a < -eps then .go { m1 with contS := m1.contS ++ [(j, a)], sStar := m1.sStar - a * (xlp j - lb) } else .go m1
    else
      let m1 := substVB m (pre.vub j) a ub
      if eps < a then .go { m1 with contS := m1.contS ++ [(j, -a)], sStar := m1.sStar + a * (ub - xlp j) } else .go m1
  else
    if a < -eps then
      .go { m with contS := m.contS ++ [(j, a)], sStar := m.sStar - a * extra.getD (j - pre.nCols) 0 }
    else .go m

/-- The loop of `boundSubstitution`. -/
def substLoop (v2 : Bool) (P : Prob) (pre : Pre) (crit : Nat) (xlp : Nat → ℚ) (extra : List ℚ) : SVec → Mk → Step
  | [], m => .go m
  | p :: ps, m => match substOne v2 P pre crit xlp extra m p with
    | .go m' => substLoop v2 P pre crit xlp extra ps m'
    | .stop => .stop
    | .fault => .fault

/-- `boundSubstitution`, MIR:1047-1207, MIR2:1256-1408 and, for the first generator, the limit on the size of the knapsack,
MIR:799-808. `none`: undefined behaviour; `some none`: no mixed knapsack. -/
def boundSubst (v2 : Bool) (P : Prob) (pre : Pre) (crit : Nat) (xlp : Nat → ℚ) (extra : List ℚ) (row : SVec) (rhs : ℚ) :
    Option (Option Mk) :=
  match substLoop v2 P pre crit xlp extra row ⟨[], rhs, 0, []⟩ with
  | .fault => none
  | .stop => some none
  | .go m =>
    if v2 = false ∧ 25000 < m.knap.length then some none
    else if m.contS.length = 0 then some none
    else if m.knap.length = 0 then some none
    else if m.knap.any fun p => decide (eps ≤ |p.2|) && decide (eps < |P.colLower p.1|) then some none
    else some (some m)

/-- `functionG`, MIR:1555-1563, MIR2:1795-1803. -/
def functionG (d f : ℚ) : ℚ :=
  let delta := d - ⌊d⌋ - f
  if eps < delta then ⌊d⌋ + delta / (1 - f) else ⌊d⌋

/-- What `cMirInequality` returns. -/
structure Cmir where
  cut : SVec
  rhs : ℚ
  sCoef : ℚ
  viol : ℚ
deriving DecidableEq, Repr

/-- Coefficient of one knapsack entry in the c-MIR inequality; the flag says whether it is in the set C. MIR:1527-1543. -/
def cmirCoef (delta f : ℚ) (e : (Nat × ℚ) × Bool) : Nat × ℚ :=
  if e.2 then (e.1.1, -functionG (-e.1.2 / delta) f) else (e.1.1, functionG (e.1.2 / delta) f)

/-- `cMirInequality`, MIR:1504-1549, MIR2:1744-1789. `inC` is the set C as a flag for each position of the knapsack. -/
def cMirInequality (sq : ℚ → ℚ) (P : Prob) (knap : SVec) (xlp : Nat → ℚ) (sStar delta numBeta : ℚ) (inC : List Bool) :
    Cmir :=
  let beta := numBeta / delta
  let f := beta - ⌊beta⌋
  let es := knap.zip inC
  let cut := es.map (cmirCoef delta f)
  let rhs := (⌊beta⌋ : ℚ) - (es.map fun e => if e.2 then functionG (-e.1.2 / delta) f * P.colUpper e.1.1 else 0).sum
  let sCoef := 1 / (delta * (1 - f))
  let norm := (cut.map fun p => p.2 * p.2).sum + sCoef * sCoef
  ⟨cut, rhs, sCoef, (SVec.dot cut xlp - (rhs + sCoef * sStar)) / sq norm⟩

/-- The best inequality found so far and its `bestDelta`. -/
structure Best where
  c : Cmir
  delta : ℚ
deriving DecidableEq, Repr

/-- Keep the better of the two, MIR:1294-1300, MIR2:1500-1506. -/
def better (b : Best) (c : Cmir) (delta : ℚ) : Best := if b.c.viol + eps < c.viol then ⟨c, delta⟩ else b

/-- Membership of a knapsack entry in the initial set C, MIR:1256-1258, MIR2:1462-1464. -/
def initC (P : Prob) (xlp : Nat → ℚ) (p : Nat × ℚ) : Bool :=
  decide (P.colUpper p.1 ≠ P.inf) && decide (P.colUpper p.1 / 2 ≤ xlp p.1)

/-- Strictly between the bounds by more than `EPSILON_`, negation of the test MIR:1278-1280, MIR2:1484-1486. -/
def inside (P : Prob) (xlp : Nat → ℚ) (j : Nat) : Bool := !(decide (xlp j ≤ eps) || decide (P.colUpper j - eps ≤ xlp j))

/-- `complT` before sorting: positions in the knapsack, from position `i`, MIR:1252-1267, MIR2:1458-1473. -/
def complT (P : Prob) (xlp : Nat → ℚ) : Nat → SVec → List (Nat × ℚ)
  | _, [] => []
  | i, p :: ps =>
    if P.colUpper p.1 ≠ P.inf ∧ initC P xlp p = false ∧ inside P xlp p.1 = true then
      (i, |xlp p.1 - P.colUpper p.1 / 2|) :: complT P xlp (i + 1) ps
    else complT P xlp (i + 1) ps

/-- The first loop over the candidate values of delta, MIR:1276-1301, MIR2:1482-1507, over the entries `ps` of the knapsack. -/
def deltaLoop (sq : ℚ → ℚ) (P : Prob) (knap : SVec) (xlp : Nat → ℚ) (sStar numBeta : ℚ) (inC : List Bool) :
    SVec → Best → Best
  | [], b => b
  | p :: ps, b =>
    if inside P xlp p.1 = false then deltaLoop sq P knap xlp sStar numBeta inC ps b
    else if p.2 ≤ eps then deltaLoop sq P knap xlp sStar numBeta inC ps b
    else deltaLoop sq P knap xlp sStar numBeta inC ps
      (better b (cMirInequality sq P knap xlp sStar p.2 numBeta inC) p.2)

/-- Dividing the best delta by 2, 4 and 8, MIR:1308-1327, MIR2:1517-1536. -/
def divideLoop (sq : ℚ → ℚ) (P : Prob) (knap : SVec) (xlp : Nat → ℚ) (sStar numBeta : ℚ) (inC : List Bool) (b : Best) :
    Best :=
  [2, 4, 8].foldl (fun b' k =>
    better b' (cMirInequality sq P knap xlp sStar (b.delta / k) numBeta inC) (b.delta / k)) b

/-- Moving the positions of `complT` to C one at a time, MIR:1333-1365, MIR2:1542-1574. -/
def complLoop (sq : ℚ → ℚ) (P : Prob) (knap : SVec) (xlp : Nat → ℚ) (sStar : ℚ) :
    List (Nat × ℚ) → ℚ → List Bool → Best → Best
  | [], _, _, b => b
  | t :: ts, numBeta, inC, b =>
    match knap[t.1]? with
    | none => complLoop sq P knap xlp sStar ts numBeta inC b
    | some p =>
      if P.inf ≤ P.colUpper p.1 then complLoop sq P knap xlp sStar ts numBeta inC b
      else
        let inC' := inC.set t.1 true
        let nb := numBeta - p.2 * P.colUpper p.1
        let c := cMirInequality sq P knap xlp sStar b.delta nb inC'
        if b.c.viol + eps < c.viol then complLoop sq P knap xlp sStar ts nb inC' ⟨c, b.delta⟩
        else complLoop sq P knap xlp sStar ts numBeta inC b

/-- The search for the best c-MIR inequality, MIR:1231-1365, MIR2:1433-1574; `none` = nothing violated. -/
def bestCmir (par : Par) (P : Prob) (xlp : Nat → ℚ) (m : Mk) : Option Cmir :=
  let inC := m.knap.map (initC P xlp)
  let numBeta := m.rhs - (m.knap.map fun p => if initC P xlp p then p.2 * P.colUpper p.1 else 0).sum
  let b := deltaLoop par.sq P m.knap xlp m.sStar numBeta inC m.knap ⟨⟨[], 0, 0, 0⟩, 0⟩
  if b.c.viol = 0 then none
  else
    let b2 := divideLoop par.sq P m.knap xlp m.sStar numBeta inC b
    some (complLoop par.sq P m.knap xlp m.sStar (par.sorter (complT P xlp 0 m.knap)) numBeta inC b2).c

/-- Writing one continuous variable of `s` with model variables, MIR:1367-1445, MIR2:1577-1652. `row` is the row used for the
bound substitution. `none`: `insert` throws, or a read outside `listRowsAggregated`. -/
def writeOne (P : Prob) (pre : Pre) (rows : List Row) (crit : Nat) (xlp : Nat → ℚ) (row : SVec) (used : List Nat) (sCoef : ℚ)
    (c : SVec × ℚ) (p : Nat × ℚ) : Option (SVec × ℚ) :=
  let j := p.1
  let k := sCoef * p.2
  if j < pre.nCols then
    if isLowerSubst crit P.inf (at' row j) (xlp j) (lbAt P pre xlp j) (ubAt P pre xlp j) then
      match pre.vlb j with
      | some yv => (insertNew (addCoef c.1 yv.1 (-k * yv.2)) j k).map fun v => (v, c.2)
      | none => (insertNew c.1 j k).map fun v => (v, c.2 + k * P.colLower j)
    else
      match pre.vub j with
      | some yv => (insertNew (addCoef c.1 yv.1 (k * yv.2)) j (-k)).map fun v => (v, c.2)
      | none => (insertNew c.1 j (-k)).map fun v => (v, c.2 - k * P.colUpper j)
  else
    match used[j - pre.nCols]? with
    | none => none
    | some i => match rows[i]?, pre.rows[i]? with
      | some r, some (_, s, b) =>
        let mult := if s = .L then -k else k
        some (addScaled c.1 mult r.coefs, c.2 + b * mult)
      | _, _ => none

/-- Writing all of `s`. -/
def writeAll (P : Prob) (pre : Pre) (rows : List Row) (crit : Nat) (xlp : Nat → ℚ) (row : SVec) (used : List Nat)
    (sCoef : ℚ) : SVec → SVec × ℚ → Option (SVec × ℚ)
  | [], c => some c
  | p :: ps, c => match writeOne P pre rows crit xlp row used sCoef c p with
    | none => none
    | some c' => writeAll P pre rows crit xlp row used sCoef ps c'

/-- The order in which the variables of `s` are written: as they come, or (MIR2:1578-1652) the slacks at the end. -/
def sOrder (v2 : Bool) (nCols : Nat) (contS : SVec) : SVec :=
  if v2 then contS.filter (fun p => decide (p.1 < nCols)) ++ contS.filter (fun p => !decide (p.1 < nCols)) else contS

/-- Coefficients not above this are removed from the cut, MIR:1460, MIR2:1662-1668. -/
def cleanTol (v2 : Bool) (cut : SVec) : ℚ :=
  if v2 then max (1 / 10 ^ 6 * (cut.map fun p => |p.2|).foldl max 0) (1 / 10 ^ 12) else 1 / 10 ^ 12

/-- How much the right-hand side falls when a small coefficient is removed, MIR:1465-1474, MIR2:1677-1695. -/
def weaken (v2 : Bool) (P : Prob) (p : Nat × ℚ) : ℚ :=
  if 0 < p.2 then if v2 = true ∧ 0 < P.colLower p.1 then 0 else p.2 * P.colLower p.1
  else if p.2 < 0 then if v2 = true ∧ P.colUpper p.1 < 0 then 0 else p.2 * P.colUpper p.1
  else 0

/-- The end of `cMirSeparation`: small coefficients removed, violation test, cut, MIR:1447-1497, MIR2:1653-1737. The test
`violation / sqrt(norm) > TOLERANCE_` is multiplied out (for a zero norm the quotient is infinite, or NaN for 0/0: the
same result). The second generator hands out the columns in increasing order. -/
def finish (v2 : Bool) (sq : ℚ → ℚ) (P : Prob) (xlp : Nat → ℚ) (c : SVec × ℚ) : Option RowCut :=
  let t := cleanTol v2 c.1
  let kept := c.1.filter fun p => decide (t < |p.2|)
  let rhs := c.2 - ((c.1.filter fun p => !decide (t < |p.2|)).map (weaken v2 P)).sum
  if tol * sq (kept.map fun p => p.2 * p.2).sum < SVec.dot kept xlp - rhs then
    some ⟨-P.inf, rhs, if v2 then kept.insertionSort (fun p q => p.1 ≤ q.1) else kept⟩
  else none

/-- `cMirSeparation`, MIR:1212-1499, MIR2:1413-1739. -/
def cMirSeparation (v2 : Bool) (par : Par) (P : Prob) (pre : Pre) (rows : List Row) (xlp : Nat → ℚ) (row : SVec)
    (used : List Nat) (m : Mk) : Option (Option RowCut) :=
  match bestCmir par P xlp m with
  | none => some none
  | some b => match writeAll P pre rows par.criterion xlp row used b.sCoef (sOrder v2 pre.nCols m.contS) (b.cut, b.rhs) with
    | none => none
    | some c => some (finish v2 par.sq P xlp c)

/-- The tests of the second generator before a cut is handed over, MIR2:996-1039 (`deep`: not the first pass, or in the
tree). -/
def acceptV2 (nCols : Nat) (deep : Bool) (xlp : Nat → ℚ) (c : RowCut) : Bool :=
  let largest := (c.row.map fun p => |p.2|).foldl max 0
  let smallest := (c.row.map fun p => |p.2|).foldl min dblMax
  !(deep && decide (8 / 10 * (nCols : ℚ) < c.row.length)) &&
  !(decide (10 ^ 8 * smallest < largest) || decide (10 ^ 7 < largest) || decide (smallest < 1 / 10 ^ 5)) &&
  !decide (c.row.dot xlp < c.ub + 1 / 10 ^ 6)

/-- One pass of the loop over the two signs, MIR:777-847, MIR2:934-1043; `s` is 1 or -1. -/
def trySign (v2 deep : Bool) (par : Par) (P : Prob) (pre : Pre) (rows : List Row) (xlp : Nat → ℚ) (g : Agg) (s : ℚ)
    (cs : List RowCut) : Option (List RowCut) :=
  let row := g.row.map fun p => (p.1, s * p.2)
  match boundSubst v2 P pre par.criterion xlp g.extra row (s * g.rhs) with
  | none => none
  | some none => some cs
  | some (some m) => match cMirSeparation v2 par P pre rows xlp row g.used m with
    | none => none
    | some none => some cs
    | some (some c) => if v2 && !acceptV2 pre.nCols deep xlp c then some cs else some (insertIfNotDuplicate cs c)

/-- A loop that can fail. -/
def foldOpt {α β : Type} (f : β → α → Option β) : List α → β → Option β
  | [], b => some b
  | a :: as, b => match f b a with
    | none => none
    | some b' => foldOpt f as b'

/-- The signs tried, MIR:691-696, 777-785. -/
def signs (multiply : Bool) : List ℚ := if multiply then [1, -1] else [1]

/-- Has the continuous row a column with a variable bound, MIR:544-557, MIR2:695-708. -/
def hasVB (pre : Pre) (coefs : SVec) : Bool := coefs.any fun p => (pre.vlb p.1).isSome || (pre.vub p.1).isSome

/-- Positions, from `i`, of the rows of a type. -/
def ofType (t : RowType) : Nat → List (RowType × Sense × ℚ) → List Nat
  | _, [] => []
  | i, r :: rs => if r.1 = t then i :: ofType t (i + 1) rs else ofType t (i + 1) rs

/-- The rows from which aggregation starts: `indRowMix_`, `indRowContVB_`, `indRowInt_`, MIR:707-732, MIR2:848-886. (`indRowContVB_` is
computed when preprocessing, from the same rows.) -/
def startRows (pre : Pre) (rows : List Row) : List Nat :=
  ofType .mix 0 pre.rows ++
  (ofType .cont 0 pre.rows).filter (fun i => match rows[i]? with | some r => hasVB pre r.coefs | none => false) ++
  ofType .int 0 pre.rows

/-- The row types as an array. -/
def typeAt (pre : Pre) (i : Nat) : RowType := match pre.rows[i]? with
  | some r => r.1
  | none => .undefined

/-- All the aggregated rows made from one starting row. -/
def aggsFrom (v2 : Bool) (par : Par) (P : Prob) (pre : Pre) (rows : List Row) (activity xlp : Nat → ℚ) (i : Nat) :
    List Agg :=
  match startAgg pre rows activity i with
  | none => []
  | some g => chain v2 P pre rows activity xlp (par.maxAggr - 1) (typeAt pre) g

/-- The body of the loop over the starting rows, MIR:709-851, MIR2:861-1061. In the second generator the row types are put
back from their saved copy whenever an aggregation has been made: undefined behaviour if that copy has not been written. -/
def fromRow (v2 deep : Bool) (par : Par) (P : Prob) (pre : Pre) (rows : List Row) (activity xlp : Nat → ℚ)
    (cs : List RowCut) (i : Nat) : Option (List RowCut) :=
  let gs := aggsFrom v2 par P pre rows activity xlp i
  if v2 = true ∧ pre.saved = false ∧ 1 < gs.length then none
  else foldOpt (fun cs g => foldOpt (fun cs s => trySign v2 deep par P pre rows xlp g s cs) (signs par.multiply) cs) gs cs

/-- The rows of the current problem that are used: the first `numRows_` (`submatrixOf(..., numRows_, indRows_)`), MIR:62-63,
MIR2:186-189; `none` if there are fewer. -/
def subRows (P : Prob) (pre : Pre) : Option (List Row) :=
  if pre.rows.length ≤ P.rows.length then some (P.rows.take pre.rows.length) else none

/-- `generateMirCuts`, MIR:662-865, MIR2:811-1075, together with the submatrix taken by its caller. -/
def generateMirCuts (v2 deep : Bool) (par : Par) (P : Prob) (pre : Pre) (activity xlp : Nat → ℚ) (cs : List RowCut) :
    Option (List RowCut) :=
  match subRows P pre with
  | none => none
  | some rows => foldOpt (fromRow v2 deep par P pre rows activity xlp) (startRows pre rows) cs

/-- State of a `CglMixedIntegerRounding` object, CglMixedIntegerRounding.hpp:372-430. -/
structure Obj where
  par : Par
  doPreproc : Int
  done : Bool
  pre : Pre

/-- The object after the preprocessing decision, MIR:34-54, MIR2:52-69 (the two presolve hints do not matter: in both
branches preprocessing is done if `doPreproc_` is 1 or it has not been done). -/
def prepared (v2 : Bool) (o : Obj) (P : Prob) (activity : Nat → ℚ) : Obj :=
  if o.doPreproc = 1 ∨ o.done = false then { o with done := true, pre := preprocess v2 P activity } else o

/-- `CglMixedIntegerRounding::generateCuts`, MIR:26-87. -/
def generateCuts (o : Obj) (P : Prob) (activity xlp : Nat → ℚ) (cs : List RowCut) : Option (Obj × List RowCut) :=
  let o' := prepared false o P activity
  (generateMirCuts false false o'.par P o'.pre activity xlp cs).map fun cs' => (o', cs')

/-- The parts of `CglTreeInfo` that the second generator reads. -/
structure Info where
  inTree : Bool
  pass : Int
  level : Int

/-- State of a `CglMixedIntegerRounding2` object: `MAXAGGR_` may be negative, see `effAggr`. -/
structure Obj2 where
  base : Obj
  maxAggr : Int

/-- The value of `MAXAGGR_` used in a call, MIR2:40-51; `none`: return without doing anything. -/
def effAggr (maxAggr : Int) (info : Info) : Option Int :=
  if maxAggr < 0 then
    if info.inTree = false ∧ info.pass < 1000 then some 5
    else if maxAggr = -1 then some 1
    else none
  else some maxAggr

/-- A row after the `MODIFY_LP == 2` step, MIR2:131-165: rows without upper bound are negated. -/
def flipRow (r : Row) : Row :=
  if r.ub < 10 ^ 50 then r else ⟨-dblMax, -r.lb, r.coefs.map fun p => (p.1, -p.2)⟩

/-- The problem after the `MODIFY_LP == 2` step. -/
def flipProb (P : Prob) : Prob := { P with rows := P.rows.map flipRow }

/-- Is any row negated by the `MODIFY_LP == 2` step, MIR2:131-139. -/
def anyFlip (P : Prob) : Bool := P.rows.any fun r => !decide (r.ub < 10 ^ 50)

/-- The body of `CglMixedIntegerRounding2::generateCuts` after the `MODIFY_LP` step, MIR2:180-215, with `MAXAGGR_` given. -/
def mainPart2 (o : Obj) (k : Int) (P : Prob) (info : Info) (activity xlp : Nat → ℚ) (cs : List RowCut) :
    Option (List RowCut) :=
  generateMirCuts true (decide (info.pass ≠ 0) || info.inTree) { o.par with maxAggr := k.toNat } P o.pre activity xlp cs

/-- `CglMixedIntegerRounding2::generateCuts`, MIR2:28-216. `clp`: compiled with `CBC_HAS_CLP`, the solver is Clp and the problem is
a minimisation (then the call is repeated, outside the tree, on a copy of the problem in which the rows without upper bound
are negated, and `MAXAGGR_` is not put back). The marking of cuts as globally valid (MIR2:210-214) is left out. -/
def generateCuts2 (clp : Bool) (o : Obj2) (P : Prob) (info : Info) (activity xlp : Nat → ℚ) (cs : List RowCut) :
    Option (Obj2 × List RowCut) :=
  match effAggr o.maxAggr info with
  | none => some (o, cs)
  | some k =>
    let b := prepared true o.base P activity
    if clp = true ∧ info.inTree = false ∧ 0 ≤ info.level ∧ anyFlip P = true then
      let P' := flipProb P
      let act' := fun i => match P.rows[i]? with
        | some r => if r.ub < 10 ^ 50 then activity i else -activity i
        | none => activity i
      let b' := prepared true b P' act'
      (mainPart2 b' k P' info act' xlp cs).map fun cs' => (⟨b', k⟩, cs')
    else (mainPart2 b k P info activity xlp cs).map fun cs' => (⟨b, o.maxAggr⟩, cs')

/-- Copying a `CglMixedIntegerRounding2` (`gutsOfCopy`, MIR2:364-441): only the first half of `rowTypes_` is copied. -/
def copy2 (o : Obj2) : Obj2 := { o with base := { o.base with pre := { o.base.pre with saved := false } } }

/-- Constructor arguments, MIR:161-188, MIR2:291-317 (`gutsOfConstruct`); `none` = it throws. -/
def construct (maxaggr criterion preproc : Int) : Option (Int × Int × Int) :=
  if 0 < maxaggr ∧ 1 ≤ criterion ∧ criterion ≤ 3 ∧ -1 ≤ preproc ∧ preproc ≤ 2 then some (maxaggr, criterion, preproc)
  else none

/-- An object that has never been used. -/
def Obj.init (par : Par) (doPreproc : Int) : Obj :=
  { par := par, doPreproc := doPreproc, done := false,
    pre := { nCols := 0, rows := [], vub := fun _ => none, vlb := fun _ => none, saved := false } }

end Cgl.MIR
