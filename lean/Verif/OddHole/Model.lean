import Verif.Osi
import Mathlib.Data.List.Sort

/-!
# Model of `src/CglOddHole`
-/

namespace Cgl.OddHole

/-- `epsilon_(1.0e-08)`, CglOddHole.cpp:675 (no setter). -/
def epsilon : ℚ := 1 / 10 ^ 8
/-- `onetol_(1-epsilon_)`, CglOddHole.cpp:676. -/
def onetol : ℚ := 1 - epsilon

/-- The limits and the row list of a `CglOddHole` object, CglOddHole.hpp:120-152 (the clique list is never read by
`generateCuts`). `suitableRows = none` is the null pointer. -/
structure Obj where
  minimumViolation : ℚ
  minimumViolationPer : ℚ
  maximumEntries : Int
  suitableRows : Option (List Int)
deriving DecidableEq, Repr

/-- Default constructor, CglOddHole.cpp:672-688. -/
def Obj.init : Obj :=
  { minimumViolation := 1 / 1000, minimumViolationPer := 3 / 10000, maximumEntries := 100, suitableRows := none }

/-- `setMinimumViolation`, CglOddHole.cpp:805-810. -/
def setMinimumViolation (o : Obj) (v : ℚ) : Obj :=
  if v > 1 / 10 ^ 8 ∧ v ≤ 1 / 2 then { o with minimumViolation := v } else o
/-- `setMinimumViolationPer`, CglOddHole.cpp:817-822. -/
def setMinimumViolationPer (o : Obj) (v : ℚ) : Obj :=
  if v > 1 / 10 ^ 8 ∧ v ≤ 1 / 4 then { o with minimumViolationPer := v } else o
/-- `setMaximumEntries`, CglOddHole.cpp:829-834. -/
def setMaximumEntries (o : Obj) (v : Int) : Obj :=
  if v > 2 then { o with maximumEntries := v } else o

/-- Copy constructor, CglOddHole.cpp:693-722: a row list of length 0 becomes the null pointer. -/
def copy (src : Obj) : Obj :=
  { src with suitableRows := match src.suitableRows with
      | some (x :: l) => some (x :: l)
      | _ => none }
/-- `operator=` for two different objects, CglOddHole.cpp:746-777: `new int[numberRows_]` is never null, also for
`numberRows_ = 0`. -/
def assign (_dst src : Obj) : Obj :=
  { src with suitableRows := match src.suitableRows with
      | some l => some l
      | none => some [] }

/-- The column is fixed for the purposes of this generator. -/
def isFixed (P : Prob) (j : Nat) : Prop := P.colUpper j - P.colLower j ≤ epsilon

instance (P : Prob) (j : Nat) : Decidable (isFixed P j) := by unfold isFixed; infer_instance

/-- The element loop of `createRowList(si, possible)`, CglOddHole.cpp:616-634. State: `rhs1`, `rhs2`; `none` is
`goodRow=false; break`. -/
def rowScan (P : Prob) : SVec → ℚ × ℚ → Option (ℚ × ℚ)
  | [], st => some st
  | p :: ps, (rhs1, rhs2) =>
    if ¬ isFixed P p.1 then
      if colType P p.1 ≠ 1 then none
      else if |p.2 - 1| > epsilon then none
      else rowScan P ps (rhs1, rhs2)
    else rowScan P ps (rhs1 - P.colLower p.1 * p.2, rhs2 - P.colLower p.1 * p.2)

/-- `goodRow` for one row, CglOddHole.cpp:611-637. -/
def goodRow (P : Prob) (r : Row) : Bool :=
  match rowScan P r.coefs (r.ub, r.lb) with
  | none => false
  | some (rhs1, rhs2) => !(decide (|rhs1 - 1| > epsilon) && decide (|rhs2 - 1| > epsilon))

/-- `createRowList(si, possible)`, CglOddHole.cpp:578-646: the new `suitableRows_`. `possible` has an entry per row. -/
def createRowList (P : Prob) (possible : List Int) : List Int :=
  (P.rows.zip possible).map fun rp => if rp.2 ≠ 0 then (if goodRow P rp.1 then 1 else 0) else rp.2

/-- The list handed to `temp.createRowList`, CglOddHole.cpp:48-58. -/
def checkRow (o : Obj) (nRows : Nat) : List Int :=
  match o.suitableRows with
  | none => List.replicate nRows 1
  | some l => (l.take nRows) ++ List.replicate (nRows - l.length) 0

/-- `fixed[i]`, CglOddHole.cpp:75-93. -/
def fixedMark (P : Prob) (sol : Nat → ℚ) (i : Nat) : Int :=
  if colType P i = 1 then
    if P.colUpper i - P.colLower i < epsilon then 2
    else if sol i < epsilon then -1
    else if sol i > onetol then 1
    else 0
  else 3

/-- `solution[i]` after the same loop, CglOddHole.cpp:75-93. -/
def cleanSol (P : Prob) (sol : Nat → ℚ) (i : Nat) : ℚ :=
  if colType P i = 1 then
    if P.colUpper i - P.colLower i < epsilon then 0
    else if sol i < epsilon then 0
    else if sol i > onetol then 1
    else sol i
  else 0

/-- Sum of the cleaned solution over the columns of a row with `fixed` 0. -/
def fracSum (P : Prob) (sol : Nat → ℚ) (v : SVec) : ℚ :=
  (v.map fun p => if fixedMark P sol p.1 = 0 then cleanSol P sol p.1 else 0).sum

/-- `suitable[i]` before the packing pass, CglOddHole.cpp:97-108. -/
def packedSuit (P : Prob) (sol : Nat → ℚ) (r : Row) (s : Int) : Int :=
  if s ≠ 0 then
    let s1 := if r.ub > 1001 / 1000 then -1 else s
    if fracSum P sol r.coefs < 9 / 10 then -1 else s1
  else s

/-- The element loop of the cover test, CglOddHole.cpp:130-134: a column at one sets `sum` to 2. -/
def coverSum (P : Prob) (sol : Nat → ℚ) : SVec → ℚ → ℚ
  | [], sum => sum
  | p :: ps, sum =>
    let sum1 := if fixedMark P sol p.1 = 0 then sum + cleanSol P sol p.1 else sum
    coverSum P sol ps (if fixedMark P sol p.1 = 1 then 2 else sum1)

/-- `suitable[i]` before the cover pass, CglOddHole.cpp:122-140, from its value after the packing pass. -/
def coverSuit (P : Prob) (sol : Nat → ℚ) (r : Row) (s : Int) : Int :=
  let s := |s|
  if s ≠ 0 then
    if coverSum P sol r.coefs (if r.lb < 999 / 1000 then 2 else 0) > 11 / 10 then -1 else s
  else s

/-- The columns of the compressed matrix, in order: those with `fixedColumn` 0, CglOddHole.cpp:189-195; the
compressed number of a column is its position. -/
def freeCols (P : Prob) (sol : Nat → ℚ) : List Nat := (List.range P.nCols).filter fun i => decide (fixedMark P sol i = 0)

/-- One arc: cost, compressed column reached, original row (CglOddHole.cpp:201-206). -/
structure Arc where
  cost : ℚ
  dst : Nat
  row : Nat
deriving DecidableEq, Repr

/-- The inner arc loop, CglOddHole.cpp:236-244, over the elements of one row. `mark` is the list of marked
compressed columns. -/
def arcsRow (free : List Nat) (sol : Nat → ℚ) (dd : ℚ) (irow : Nat) : SVec → List Arc × List Nat → List Arc × List Nat
  | [], st => st
  | p :: ps, (arcs, mark) =>
    let kcol := free.idxOf p.1
    if kcol < free.length ∧ kcol ∉ mark then
      arcsRow free sol dd irow ps (arcs ++ [⟨dd - sol p.1, kcol, irow⟩], kcol :: mark)
    else arcsRow free sol dd irow ps (arcs, mark)

/-- The loop over the rows of column `i`, CglOddHole.cpp:229-246: rows `irow, irow+1, …` that contain the column and
are in the compressed matrix (`suitable > 0`). -/
def arcsCol (free : List Nat) (sol : Nat → ℚ) (i : Nat) : List (Row × Int) → Nat → List Arc × List Nat →
    List Arc × List Nat
  | [], _, st => st
  | (r, s) :: rs, irow, st =>
    if i ∈ r.coefs.map Prod.fst ∧ s > 0 then
      arcsCol free sol i rs (irow + 1) (arcsRow free sol (10000001 / 10000000 - sol i) irow r.coefs st)
    else arcsCol free sol i rs (irow + 1) st

/-- Cost clean-up, CglOddHole.cpp:258-272. -/
def cleanCost (packed : Bool) (c : ℚ) : ℚ :=
  let c := if packed then c else -c
  if c < 1 / 10 ^ 10 then 1 / 10 ^ 10 else c

/-- Arcs out of a compressed column, CglOddHole.cpp:218-272. -/
def arcsFrom (free : List Nat) (sol : Nat → ℚ) (rows : List (Row × Int)) (packed : Bool) (icol : Nat) : List Arc :=
  match free[icol]? with
  | none => []
  | some i => (arcsCol free sol i rows 0 ([], [icol])).1.map fun a => { a with cost := cleanCost packed a.cost }

/-- The bipartite doubling, CglOddHole.cpp:283-293: arcs of node `v` (columns `0..n-1`, copies `n..2n-1`). -/
def arcs2 (n : Nat) (arcs : Nat → List Arc) (v : Nat) : List Arc :=
  if v < n then (arcs v).map fun a => { a with dst := a.dst + n } else arcs (v - n)

/-- How a call can fail to return a result: the search loop has not finished within the step budget, an array is read
out of range (or a loop cannot end), or more than `nRows` rows are written to `mrow`. -/
inductive Fault | outOfFuel | badIndex | mrowOverflow
deriving DecidableEq, Repr

/-- Labels of the shortest path search: `path[].cost` and `path[].back`. -/
structure Labels where
  cost : Nat → ℚ
  back : Nat → Option Nat

/-- The arc loop of the search, CglOddHole.cpp:366-380. A node is marked exactly while it is on the stack. -/
def relax (inode : Nat) (thisCost : ℚ) : List Arc → Labels × List (ℚ × Nat) → Labels × List (ℚ × Nat)
  | [], st => st
  | a :: as, (lab, stack) =>
    if a.dst ∉ stack.map Prod.snd ∧ thisCost + a.cost < lab.cost a.dst - 1 / 10 ^ 12 then
      relax inode thisCost as
        ({ cost := fun j => if j = a.dst then thisCost + a.cost else lab.cost j,
           back := fun j => if j = a.dst then some inode else lab.back j },
         (thisCost + a.cost, a.dst) :: stack)
    else relax inode thisCost as (lab, stack)

/-- The search loop, CglOddHole.cpp:357-381. `fuel` bounds the number of nodes taken off the stack; `outOfFuel` = not
finished. -/
def search (arcs : Nat → List Arc) : Nat → Labels × List (ℚ × Nat) → Except Fault Labels
  | 0, _ => .error .outOfFuel
  | _ + 1, (lab, []) => .ok lab
  | fuel + 1, (lab, (c, v) :: stack) => search arcs fuel (relax v c (arcs v) (lab, stack))

/-- The walk back along `path[].back`, CglOddHole.cpp:396-419: nodes kept, in the order found. `badIndex`: a back
pointer that is not a node (array index out of range), or more steps than nodes (a cycle, so the loop would not
end). -/
def walk (n icol : Nat) (lab : Labels) : Nat → Nat → List Nat → List Nat → Except Fault (List Nat)
  | 0, _, _, _ => .error .badIndex
  | fuel + 1, jcol, mark, cand =>
    if jcol = icol then .ok cand
    else match lab.back jcol with
      | none => .error .badIndex
      | some j =>
        let jj := if j ≥ n then j - n else j
        if jj ∈ mark then walk n icol lab fuel j mark cand
        else walk n icol lab fuel j (jj :: mark) (cand ++ [j])

/-- The rows along the chain, CglOddHole.cpp:432-447, from the end of `candidate` to its start: for each pair
(`candidate[k]`, `candidate[k-1]`) the row of the first arc joining them. The Boolean is `good`. -/
def chainRows (arcs : Nat → List Arc) : List Nat → List Nat × Bool
  | [] => ([], true)
  | [_] => ([], true)
  | b :: a :: rest =>
    let r := chainRows arcs (a :: rest)
    match (arcs a).find? (fun e => decide (e.dst = b)) with
    | some e => (r.1 ++ [e.row], r.2)
    | none => (r.1, false)

/-- Append a column at its first occurrence. -/
def insertNew (acc : List Nat) (c : Nat) : List Nat := if c ∈ acc then acc else acc ++ [c]

/-- The counting loop and the halving loop, CglOddHole.cpp:452-485: (column, half of its rounded count), columns in
order of first occurrence, zero halves left out. -/
def halves (packed : Bool) (cols : List Nat) : List (Nat × Nat) :=
  ((cols.foldl insertNew []).map fun c => (c, (cols.count c + (if packed then 0 else 1)) / 2)).filter
    fun p => decide (p.2 ≠ 0)

/-- Left-hand side at the cleaned solution. -/
def lhs (sol : Nat → ℚ) (els : List (Nat × Nat)) : ℚ := (els.map fun p => sol p.1 * (p.2 : ℚ)).sum

/-- Sort key, CglOddHole.cpp:517-522. -/
def sortKey (sol dj : Nat → ℚ) (c : Nat) : ℚ := if sol c ≠ 0 then -(sol c) else |dj c|

/-- From the counted row to the entries of the cut, CglOddHole.cpp:486-545: `none` = `good=false`. Simplification:
`std::sort` may order equal keys in any way; here equal keys keep their order. -/
def finish (o : Obj) (packed : Bool) (sol dj : Nat → ℚ) (rhs : ℚ) (els : List (Nat × Nat)) : Option (List (Nat × Nat)) :=
  let violation := if packed then lhs sol els - rhs else rhs - lhs sol els
  if violation < o.minimumViolation then none
  else if (els.length : ℚ) * o.minimumViolationPer > violation ∨ (els.length : Int) > o.maximumEntries then
    if packed then
      let sorted := els.insertionSort (fun a b => sortKey sol dj a.1 ≤ sortKey sol dj b.1)
      let els' := sorted.take (min els.length o.maximumEntries.toNat)
      if lhs sol els' - rhs < o.minimumViolation then none else some els'
    else none
  else some els

/-- The cut, CglOddHole.cpp:489-498, 570. -/
def mkCut (packed : Bool) (rhs : ℚ) (els : List (Nat × Nat)) : RowCut :=
  if packed then { lb := -dblMax, ub := rhs, row := els.map fun p => (p.1, (p.2 : ℚ)) }
  else { lb := rhs, ub := dblMax, row := els.map fun p => (p.1, (p.2 : ℚ)) }

/-- The columns of the chosen rows, CglOddHole.cpp:454-461 (row numbers are in range by construction). -/
def colsOf (rows : List (Row × Int)) (rs : List Nat) : List Nat :=
  rs.flatMap fun i => match rows[i]? with
    | some rp => rp.1.coefs.map Prod.fst
    | none => []

/-- Everything after the chain is known, CglOddHole.cpp:425-575. State: cuts and `hash` values. `mrowOverflow`: more than
`nRows` rows written to `mrow` (CglOddHole.cpp:440 writes to an array of `nRows` without a check). -/
def useChain (o : Obj) (rows : List (Row × Int)) (arcs : Nat → List Arc) (packed : Bool) (sol dj check : Nat → ℚ)
    (cand : List Nat) (st : List RowCut × List ℚ) : Except Fault (List RowCut × List ℚ) :=
  let cr := chainRows arcs cand
  if cr.1.length > rows.length then .error .mrowOverflow
  else if cr.1.length % 2 ≠ 1 ∨ cr.2 = false then .ok st
  else
    let rhs : ℚ := ((cr.1.length / 2 + (if packed then 0 else 1) : Nat) : ℚ)
    match finish o packed sol dj rhs (halves packed (colsOf rows cr.1)) with
    | none => .ok st
    | some els =>
      let value := (els.map fun p => check p.1 * (p.2 : ℚ)).sum
      if value ∈ st.2 then .ok st
      else .ok (insertIfNotDuplicate st.1 (mkCut packed rhs els), st.2 ++ [value])

/-- One iteration of the column loop, CglOddHole.cpp:341-578. -/
def oneColumn (o : Obj) (rows : List (Row × Int)) (n : Nat) (arcs : Nat → List Arc) (packed : Bool)
    (sol dj check : Nat → ℚ) (fuel icol : Nat) (st : List RowCut × List ℚ) : Except Fault (List RowCut × List ℚ) :=
  let lab0 : Labels := { cost := fun j => if j = icol then 0 else 10 ^ 70, back := fun _ => none }
  match search arcs fuel (lab0, [(0, icol)]) with
  | .error e => .error e
  | .ok lab =>
    if lab.cost (icol + n) < 9999 / 10000 then
      match walk n icol lab (2 * n + 1) (icol + n) [] [icol + n] with
      | .error e => .error e
      | .ok cand => useChain o rows arcs packed sol dj check cand st
    else .ok st

/-- The column loop, from compressed column `icol`. -/
def columnLoop (o : Obj) (rows : List (Row × Int)) (n : Nat) (arcs : Nat → List Arc) (packed : Bool)
    (sol dj check : Nat → ℚ) (fuel : Nat) : Nat → Nat → List RowCut × List ℚ → Except Fault (List RowCut × List ℚ)
  | 0, _, st => .ok st
  | k + 1, icol, st => match oneColumn o rows n arcs packed sol dj check fuel icol st with
    | .error e => .error e
    | .ok st' => columnLoop o rows n arcs packed sol dj check fuel k (icol + 1) st'

/-- The private `generateCuts(debugger, rowCopy, …, packed)`, CglOddHole.cpp:151-600. `check` are the random
numbers. -/
def pass (o : Obj) (P : Prob) (lp dj check : Nat → ℚ) (fuel : Nat) (suit : List Int) (packed : Bool)
    (cs : List RowCut) : Except Fault (List RowCut) :=
  let free := freeCols P lp
  let sol := cleanSol P lp
  let rows := P.rows.zip suit
  let arcs := arcs2 free.length (arcsFrom free sol rows packed)
  (columnLoop o rows free.length arcs packed sol dj check fuel free.length 0 (cs, [])).map Prod.fst

/-- The public `generateCuts(si, cs, info)`, CglOddHole.cpp:31-149. Both passes are made by the local object `temp`,
a default-constructed `CglOddHole` (line 46), so they run with the default limits. `check1`, `check2` are the random
numbers of the two passes (the same if no generator is given). -/
def generateCuts (o : Obj) (P : Prob) (lp dj check1 check2 : Nat → ℚ) (fuel : Nat) (cs : List RowCut) :
    Except Fault (List RowCut) :=
  let temp : Obj := Obj.init
  let suit0 := createRowList P (checkRow o P.rows.length)
  let suit1 := (P.rows.zip suit0).map fun rs => packedSuit P lp rs.1 rs.2
  match pass temp P lp dj check1 fuel suit1 true cs with
  | .error e => .error e
  | .ok cs1 =>
    let suit2 := (P.rows.zip suit1).map fun rs => coverSuit P lp rs.1 rs.2
    let doCover := (P.rows.zip suit1).any fun rs => decide (rs.2 ≠ 0 ∧ rs.1.ub > 1001 / 1000)
    if doCover && decide (0 < (suit2.filter fun s => decide (s > 0)).length) then
      pass temp P lp dj check2 fuel suit2 false cs1
    else .ok cs1

end Cgl.OddHole
