import Verif.TreeInfo.Model
import Mathlib.Algebra.Order.Group.Unbundled.Abs

/-!
# Model of the use of generators in `CglPreProcess::modified`

src/CglPreProcess/CglPreProcess.cpp:7698-8578: after a generator was called, rows that it strengthened and rows that are
duplicates are replaced (all rows are built again, and a coefficient may be strengthened on the way), implications found by
probing give equations and bounds, column cuts are applied; at the end the equations are added as rows.  Not modelled: the
generators (their answers are inputs), the choice of the generator and of its parameters, the treatment of clique cuts
(`cliqueGen`, lines 7538-7650, see `CutRows`), printing, statistics, warm starts, resolving (its answer is an input).  Simplifications:
the arrays `columnLower` and `columnUpper` follow the changes (they are pointers into the solver); `CglUniqueRowCuts` is a list
that may hold a cut twice; deleting the cuts is left out.
-/

namespace Cgl.Rebuild

open TreeInfo (Info implied sequence oneFixes)

inductive Fault
  /-- a `double` that is not an `int` is converted to `int` (line 7869) -/
  | overflow
  /-- `columnLower[-1]` is read (line 7896) -/
  | index
  /-- an element of `keepRow` that was not set is read (lines 8153, 8165) -/
  | unset
  /-- an `assert` that fails -/
  | assert
  /-- the tables of implications are not there -/
  | table
deriving DecidableEq, Repr

/-! ### A singleton coefficient is strengthened -/

/-- The column is not fixed. -/
def isOpen (P : Prob) (j : Nat) : Bool := decide (P.colLower j < P.colUpper j)

/-- `rhsAdjustment` (CglPreProcess.cpp:7810-7830). -/
def adjust (P : Prob) (v : SVec) : ℚ := ((v.filter fun p => !isOpen P p.1).map fun p => P.colLower p.1 * p.2).sum

/-- `nPosInt`. -/
def nPos (P : Prob) (v : SVec) : Nat := v.countP fun p => isOpen P p.1 && decide (0 < p.2)

/-- `nNegInt`. -/
def nNeg (P : Prob) (v : SVec) : Nat := v.countP fun p => isOpen P p.1 && !decide (0 < p.2)

/-- What the loop over the entries computes: `kInt`, `singletonValue`, `smallestSum`, `kGcd` (0 also stands for -1: both mean
"not yet set"). -/
structure Scan where
  kInt : Option Nat
  single : ℚ
  smallest : ℚ
  kGcd : Nat
deriving DecidableEq, Repr

/-- One entry (CglPreProcess.cpp:7846-7883): `none` is `possible = false`. -/
def scanEntry (P : Prob) (m : ℚ) (s : Scan) (p : Nat × ℚ) : Except Fault (Option Scan) :=
  if isOpen P p.1 then
    if 0 < m * p.2 then
      if P.colUpper p.1 - P.colLower p.1 ≠ 1 then .ok none
      else .ok (some { s with kInt := some p.1, single := m * p.2 })
    else if 1 / 10 ^ 12 < |m * p.2 * -120 - (⌊m * p.2 * -120 + 1 / 2⌋ : ℤ)| then .ok none
    else if 2 ^ 31 ≤ ⌊m * p.2 * -120 + 1 / 2⌋ then .error .overflow
    else .ok (some { s with
      smallest := if -10 ^ 10 < P.colLower p.1 then s.smallest + m * p.2 * P.colLower p.1 else -dblMax
      kGcd := if 0 < s.kGcd then Nat.gcd s.kGcd (⌊m * p.2 * -120 + 1 / 2⌋).toNat else (⌊m * p.2 * -120 + 1 / 2⌋).toNat })
  else .ok (some s)

/-- The loop (CglPreProcess.cpp:7844-7885). -/
def scan (P : Prob) (m : ℚ) : SVec → Scan → Except Fault (Option Scan)
  | [], s => .ok (some s)
  | p :: v, s =>
    match scanEntry P m s p with
    | .error e => .error e
    | .ok none => .ok none
    | .ok (some s') => scan P m v s'

/-- `lo` and `up` (CglPreProcess.cpp:7826-7842): `saveLo`, `saveUp`. -/
def limits (P : Prob) (r : Row) (m : ℚ) : ℚ × ℚ :=
  let lo := if -10 ^ 20 < r.lb then r.lb - adjust P r.coefs else -dblMax
  let up := if r.ub < 10 ^ 20 then r.ub - adjust P r.coefs else dblMax
  if m = -1 then (-up, -lo) else (lo, up)

/-- A value is not near a multiple (lines 7899, 7908, 7920, 7927).  With `multiple` 0 the code divides by zero and finds
nothing interesting; so does this. -/
def odd (v multiple : ℚ) : Bool := decide (1 / 10 ^ 4 < |v / multiple - (⌊v / multiple + 1 / 2⌋ : ℤ)|)

/-- `interesting == 2` at line 7987 (CglPreProcess.cpp:7886-7986): only the second bit is set.  Bits are cleared if the lower
bound of the singleton is not zero, and the second one if the singleton is near a multiple; the test for infeasibility needs
another bit. -/
def interesting (cl sv multiple lo up : ℚ) : Bool :=
  (decide (lo ≠ -dblMax) && odd (lo - cl * sv - sv) multiple) &&
  !(decide (lo ≠ -dblMax) && odd (lo - cl * sv) multiple) &&
  !(decide (up ≠ dblMax) && odd (up - cl * sv) multiple) &&
  !(decide (up ≠ dblMax) && odd (up - cl * sv - sv) multiple) &&
  decide (cl = 0) && !decide (|sv / multiple - (⌊sv / multiple + 1 / 2⌋ : ℤ)| < 1 / 10 ^ 5)

/-- The new coefficient, if any (CglPreProcess.cpp:7886-7996): `kInt` and `newValue`. -/
def strengthen (P : Prob) (r : Row) (m : ℚ) (s : Scan) : Except Fault (Option (Nat × ℚ)) :=
  match s.kInt with
  | none => .error .index
  | some k =>
    if s.smallest = 0 ∧ interesting (P.colLower k) s.single (s.kGcd / 120) (limits P r m).1 (limits P r m).2 = true ∧
        (limits P r m).1 = 0 ∧ 10 ^ 20 < (limits P r m).2 then
      .ok (some (k, s.kGcd / 120 * (⌊s.single / (s.kGcd / 120)⌋ : ℤ) * m))
    else .ok none

/-- Is there a coefficient to strengthen (CglPreProcess.cpp:7806-8003)? -/
def single (P : Prob) (r : Row) : Except Fault (Option (Nat × ℚ)) :=
  if (r.coefs.all fun p => !isOpen P p.1 || P.isInt p.1) = true ∧
      ((nPos P r.coefs = 1 ∧ 1 < nNeg P r.coefs) ∨ (nNeg P r.coefs = 1 ∧ 1 < nPos P r.coefs)) then
    let m : ℚ := if nNeg P r.coefs = 1 then -1 else 1
    match scan P m r.coefs ⟨none, 0, 0, 0⟩ with
    | .error e => .error e
    | .ok none => .ok none
    | .ok (some s) => strengthen P r m s
  else .ok none

/-- The row with the new coefficient (CglPreProcess.cpp:8013-8049). -/
def change (r : Row) (k : Nat) (v : ℚ) : Row :=
  if 1 / 10 ^ 13 < |v| then { r with coefs := r.coefs.map fun p => if p.1 = k then (p.1, v) else p }
  else { r with coefs := r.coefs.filter fun p => decide (p.1 ≠ k) }

/-- A row without a cut (CglPreProcess.cpp:7801-8050).  `first` is `!iPass && !iBigPass`. -/
def oldRow (first : Bool) (P : Prob) (r : Row) : Except Fault Row :=
  if first then
    match single P r with
    | .error e => .error e
    | .ok none => .ok r
    | .ok (some (k, v)) => .ok (change r k v)
  else .ok r

/-! ### Building the rows again -/

/-- What becomes of a row. -/
inductive Out
  | gone
  | put (r : Row)
  | infeasible

/-- No column of a row is fixed (lines 8066-8080). -/
def allOpen (P : Prob) (v : SVec) : Bool := v.all fun p => decide (P.colLower p.1 + 1 / 10 ^ 12 < P.colUpper p.1)

/-- `good` (CglPreProcess.cpp:8062-8085). -/
def good (noStrengthening : Bool) (P : Prob) (r : Row) (c : RowCut) : Bool :=
  allOpen P c.row && allOpen P r.coefs && !(noStrengthening && decide (r.coefs.length < c.row.length))

/-- One row (CglPreProcess.cpp:7754-8120). -/
def place (first probing noStrengthening : Bool) (P : Prob) (r : Row) (c : Option RowCut) : Except Fault Out :=
  if -10 ^ 20 < r.lb ∨ r.ub < 10 ^ 20 then
    match c with
    | none =>
      match oldRow first P r with
      | .error e => .error e
      | .ok r' => .ok (.put r')
    | some c =>
      if probing && !good noStrengthening P r c then .ok (.put r)
      else if 0 < c.row.length then .ok (.put ⟨c.lb, c.ub, c.row⟩)
      else if c.lb ≤ 0 ∧ 0 ≤ c.ub then .ok .gone
      else .ok .infeasible
  else .ok .gone

/-- All rows (CglPreProcess.cpp:7750-8123): `none` is a row that is not kept; and `feasible`.  If a row is found infeasible the
loop ends; the later elements of `keepRow` are not set but are read. -/
def build (first probing noStrengthening : Bool) (P : Prob) : List (Row × Option RowCut) → Except Fault (List (Option Row) × Bool)
  | [] => .ok ([], true)
  | (r, c) :: l =>
    match place first probing noStrengthening P r c with
    | .error e => .error e
    | .ok .infeasible => if l.isEmpty then .ok ([none], false) else .error .unset
    | .ok .gone =>
      match build first probing noStrengthening P l with
      | .error e => .error e
      | .ok (rows, ok) => .ok (none :: rows, ok)
    | .ok (.put r') =>
      match build first probing noStrengthening P l with
      | .error e => .error e
      | .ok (rows, ok) => .ok (some r' :: rows, ok)

/-- `rowType_` and `numberRowType_`. -/
structure Types where
  type : List ℤ
  number : Nat
deriving DecidableEq, Repr

/-- Types of the rows that are kept (CglPreProcess.cpp:8149-8157): the counter hides the member `numberRowType_`, which stays as
it is, and so do the elements of the array behind the new ones. -/
def packTypes (t : Option Types) (rows : List (Option Row)) : Except Fault (Option Types) :=
  match t with
  | none => .ok none
  | some t =>
    if t.number = rows.length then
      let kept := ((rows.zip t.type).filter fun p => p.1.isSome).map Prod.snd
      .ok (some { t with type := kept ++ t.type.drop kept.length })
    else .error .assert

/-- Rows that are duplicates are made free (CglPreProcess.cpp:7718-7726). -/
def free (P : Prob) (dup : Nat → Bool) : Prob :=
  { P with rows := P.rows.mapIdx fun i r => if dup i then ⟨-dblMax, dblMax, r.coefs⟩ else r }

/-! ### Equations and bounds from implications -/

/-- What the loops over the implications collect: `twoCuts`, `markLB`, `markUB`. -/
structure Pairs where
  two : List RowCut
  lb : List Nat
  ub : List Nat
deriving DecidableEq, Repr

/-- One entry `v` with direction `one` for column `k` at value `up` (CglPreProcess.cpp:8225-8248 and the three copies): `back`
are the entries for `v` at the value it is fixed at. -/
def pairEntry (which : List Nat) (k v : Nat) (up one : Bool) (back : List TreeInfo.CliqueEntry) (s : Pairs) : Pairs :=
  match back.find? fun e => sequence e == k with
  | none => s
  | some e =>
    if oneFixes e == up then
      if up == one then { s with two := s.two ++ [⟨0, 0, [(which.getD k 0, 1), (which.getD v 0, -1)]⟩] }
      else { s with two := s.two ++ [⟨1, 1, [(which.getD k 0, 1), (which.getD v 0, 1)]⟩] }
    else if up then { s with ub := k :: s.ub }
    else { s with lb := k :: s.lb }

/-- The entries for column `k` at value `up`. -/
def pairList (t : Info) (k : Nat) (up : Bool) : List TreeInfo.CliqueEntry → Pairs → Except Fault Pairs
  | [], s => .ok s
  | e :: es, s =>
    if t.numberIntegers ≤ sequence e then pairList t k up es s
    else
      match implied t (sequence e) (oneFixes e) with
      | none => .error .table
      | some back => pairList t k up es (pairEntry t.integerVariable k (sequence e) up (oneFixes e) back s)

/-- One column (CglPreProcess.cpp:8213-8325). -/
def pairColumn (t : Info) (s : Pairs) (k : Nat) : Except Fault Pairs :=
  match implied t k false, implied t k true with
  | some zero, some one =>
    match pairList t k false zero s with
    | .error e => .error e
    | .ok s' => pairList t k true one s'
  | _, _ => .error .table

/-- All columns. -/
def pairColumns (t : Info) : List Nat → Pairs → Except Fault Pairs
  | [], s => .ok s
  | k :: l, s =>
    match pairColumn t s k with
    | .error e => .error e
    | .ok s' => pairColumns t l s'

/-- The column cut and `feasible` (CglPreProcess.cpp:8326-8346): the loop ends at a column that is marked twice. -/
def pairCut (which lb ub : List Nat) : List Nat → ColCut × Bool
  | [] => (⟨[], []⟩, true)
  | k :: l =>
    if k ∈ lb ∧ k ∈ ub then (⟨[], []⟩, false)
    else
      let c := pairCut which lb ub l
      if k ∈ lb then ({ c.1 with lbs := (which.getD k 0, 1) :: c.1.lbs }, c.2)
      else if k ∈ ub then ({ c.1 with ubs := (which.getD k 0, 0) :: c.1.ubs }, c.2)
      else c

/-! ### Column cuts -/

/-- One lower bound (CglPreProcess.cpp:8376-8399). -/
def applyLower (s : Prob × Bool) (p : Nat × ℚ) : Prob × Bool :=
  if s.1.colLower p.1 < p.2 ∧ -10 ^ 20 < p.2 then
    ({ s.1 with colLower := fun j => if j = p.1 then p.2 else s.1.colLower j },
      if p.2 = s.1.colUpper p.1 then s.2 else s.2 && !decide (s.1.colUpper p.1 + 1 / 10 ^ 12 < p.2))
  else s

/-- One upper bound (CglPreProcess.cpp:8400-8424). -/
def applyUpper (s : Prob × Bool) (p : Nat × ℚ) : Prob × Bool :=
  if p.2 < s.1.colUpper p.1 ∧ p.2 < 10 ^ 20 then
    ({ s.1 with colUpper := fun j => if j = p.1 then p.2 else s.1.colUpper j },
      if s.1.colLower p.1 = p.2 then s.2 else s.2 && !decide (p.2 + 1 / 10 ^ 12 < s.1.colLower p.1))
  else s

/-- One column cut. -/
def applyCut (s : Prob × Bool) (c : ColCut) : Prob × Bool := c.ubs.foldl applyUpper (c.lbs.foldl applyLower s)

/-! ### A generator, all of them, and the end -/

/-- What changes. -/
structure St where
  P : Prob
  two : List RowCut
  types : Option Types

/-- The answer of a generator: `whichCut`, rows to be dropped (`duplicate`), `cs`, the tables of implications if it is probing,
whether it looks for duplicate rows, and whether the relaxation is feasible if it is solved again. -/
structure Answer where
  first : Bool
  noStrengthening : Bool
  cut : Nat → Option RowCut
  dup : Nat → Bool
  rowCuts : List RowCut
  colCuts : List ColCut
  table : Option Info
  dupRow : Bool
  solved : Bool

/-- `numberStrengthened || numberDrop` (CglPreProcess.cpp:7698-7729). -/
def changes (P : Prob) (a : Answer) : Bool := (List.range P.rows.length).any fun i => (a.cut i).isSome || a.dup i

/-- The rows are built again (CglPreProcess.cpp:7698-8192), and row cuts about duplicates are added.  The second part is
`feasible`. -/
def rebuild (a : Answer) (s : St) : Except Fault (St × Bool) :=
  if changes s.P a then
    let P := free s.P a.dup
    match build a.first a.table.isSome a.noStrengthening P (P.rows.mapIdx fun i r => (r, a.cut i)) with
    | .error e => .error e
    | .ok (rows, ok) =>
      match packTypes s.types rows with
      | .error e => .error e
      | .ok t =>
        .ok ({ s with
          P := { P with rows := rows.filterMap id ++ if a.dupRow then a.rowCuts.map fun c => ⟨c.lb, c.ub, c.row⟩ else [] }
          types := t }, ok)
  else .ok (s, true)

/-- Cuts that are equations between two columns (CglPreProcess.cpp:8196-8206). -/
def equations (constraints : Bool) (a : Answer) : List RowCut :=
  if constraints then a.rowCuts.filter fun c => decide (c.row.length = 2 ∧ c.lb = c.ub) else []

/-- The implications (CglPreProcess.cpp:8207-8349). -/
def implications (table : Option Info) : Except Fault (List RowCut × List ColCut × Bool) :=
  match table with
  | none => .ok ([], [], true)
  | some t =>
    match pairColumns t (List.range t.numberIntegers) ⟨[], [], []⟩ with
    | .error e => .error e
    | .ok s =>
      if s.lb = [] ∧ s.ub = [] then .ok (s.two, [], true)
      else
        let c := pairCut t.integerVariable s.lb s.ub (List.range t.numberIntegers)
        .ok (s.two, [c.1], c.2)

/-- After a generator was called (CglPreProcess.cpp:7525-7537, 7698-8507).  Cuts about duplicates are kept as equations first. -/
def step (constraints : Bool) (a : Answer) (s : St) : Except Fault (St × Bool) :=
  match rebuild a { s with two := s.two ++ if a.dupRow then a.rowCuts else [] } with
  | .error e => .error e
  | .ok (s1, ok1) =>
    if ok1 then
      match implications a.table with
      | .error e => .error e
      | .ok (two, extra, ok2) =>
        let p := (a.colCuts ++ extra).foldl applyCut (s1.P, ok2)
        .ok ({ s1 with P := p.1, two := s1.two ++ equations constraints a ++ two }, p.2 && a.solved)
    else .ok (s1, false)

/-- The loops over passes and generators: they end when the problem is infeasible (CglPreProcess.cpp:7369-8525). -/
def steps (constraints : Bool) : List Answer → St → Except Fault (St × Bool)
  | [], s => .ok (s, true)
  | a :: l, s =>
    match step constraints a s with
    | .error e => .error e
    | .ok (s', ok) => if ok then steps constraints l s' else .ok (s', false)

/-- Equations are added as rows, with types -1 (CglPreProcess.cpp:8527-8578).  `CoinCopyOfArrayPartial` asserts that the part is
not larger than the whole. -/
def finish (s : St) : Except Fault St :=
  if s.two = [] then .ok s
  else
    let rows := s.P.rows ++ s.two.map fun c => ⟨c.lb, c.ub, c.row⟩
    match s.types with
    | none => .ok { s with P := { s.P with rows := rows } }
    | some t =>
      if rows.length < t.number then .error .assert
      else .ok { s with
        P := { s.P with rows := rows }
        types := some ⟨t.type.take t.number ++ List.replicate (rows.length - t.number) (-1), rows.length⟩ }

/-- The loops and the end: the new problem and the types, or nothing if the problem is infeasible. -/
def useAnswers (constraints : Bool) (l : List Answer) (P : Prob) (types : Option Types) : Except Fault (Option St) :=
  match steps constraints l ⟨P, [], types⟩ with
  | .error e => .error e
  | .ok (s, ok) =>
    match finish s with
    | .error e => .error e
    | .ok s' => if ok then .ok (some s') else .ok none

end Cgl.Rebuild
