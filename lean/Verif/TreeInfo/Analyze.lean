import Verif.TreeInfo.Model

/-!
# Model of `CglTreeProbingInfo::analyze` and the clique clean-up `outDupsEtc`
(`src/CglCommon/CglTreeInfo.cpp` 229-1235)
-/

namespace Cgl.TreeInfo

/-- A clique: its entries `(number of the 0-1 column, oneFixes)` and whether its type is 'E'.  Entries are words in
the code; `cliqueEntry_is_pair` shows that they carry just this pair. -/
structure Clique where
  lits : List (Nat × Bool)
  eq : Bool
deriving DecidableEq, Repr

/-- Columns of a clique. -/
def Clique.cols (c : Clique) : List Nat := c.lits.map Prod.fst

/-- Sorting the entries by column (`CglTreeInfo.cpp` 280-287); `CoinSort_2` is outside `/repo`. -/
def Clique.sorted (c : Clique) : Clique := { c with lits := c.lits.insertionSort fun a b => a.1 ≤ b.1 }

/-! ### Too many cliques -/

/-- `KEEP_CLIQUES` (`CglTreeInfo.cpp` 239). -/
def keepCliques : Nat := 10000

/-- The copying loop (`CglTreeInfo.cpp` 257-278). -/
def keepLoop (allow : Nat) : List Clique → Nat → List Clique
  | [], _ => []
  | c :: cs, nEqual =>
    if allow < c.lits.length then c :: keepLoop allow cs nEqual
    else if c.lits.length = allow ∧ nEqual ≠ 0 then c :: keepLoop allow cs (nEqual - 1)
    else keepLoop allow cs nEqual

/-- Getting rid of short cliques if there are lots (`CglTreeInfo.cpp` 238-279). -/
def keepLong (nMatrix : Nat) (cs : List Clique) : List Clique :=
  if keepCliques < cs.length - nMatrix then
    let sizes := ((cs.drop nMatrix).map fun c => c.lits.length).insertionSort (· ≤ ·)
    let top := sizes.drop (sizes.length - keepCliques)
    let allow := top.headD 0
    cs.take nMatrix ++ keepLoop allow (cs.drop nMatrix) (top.takeWhile fun n => decide (n ≤ allow)).length
  else cs

/-! ### Duplicates -/

/-- Column at a position, `numberIntegers` at the end (`CglTreeInfo.cpp` 295, 330-334). -/
def colAt (N : Nat) (l : List Nat) (p : Nat) : ℤ := if p = l.length then N else (l[p]?.getD 0 : ℕ)

/-- `position` and `value`. -/
structure Scan where
  pos : Nat → Nat
  val : Nat → ℤ

/-- The group of cliques that agree with the first one so far (`CglTreeInfo.cpp` 304-315). -/
def group (d : Scan) (k : Nat) (rest : List Nat) : List Nat :=
  rest.takeWhile fun j => ! (decide (d.val k < d.val j) || decide (d.pos j < d.pos k))

/-- Moving on to the next column in the cliques of a group (`CglTreeInfo.cpp` 320-338). -/
def advance (N : Nat) (cl : Nat → List Nat) (g : List Nat) (d : Scan) : Scan :=
  { pos := fun k => if k ∈ g ∧ d.val k < N then d.pos k + 1 else d.pos k
    val := fun k => if k ∈ g ∧ d.val k < N then colAt N (cl k) (d.pos k + 1) else d.val k }

/-- One turn of the lexicographic sort (`CglTreeInfo.cpp` 304-361); `done` and `seg` are `which` up to and after
`lastDone`, `pick` chooses which of the equal cliques is kept. -/
def dupStep (N : Nat) (pick : List Nat → Nat) (cl : Nat → List Nat) (done : List Nat) (k : Nat) (rest : List Nat) (d : Scan) :
    List Nat × List Nat × Scan :=
  if group d k rest = [] then (done ++ [k], rest, d)
  else
    let g := k :: group d k rest
    let d' := advance N cl g d
    let g' := g.insertionSort fun a b => d'.val a ≤ d'.val b
    let fin := g'.takeWhile fun j => decide ((N : ℤ) ≤ d'.val j)
    if fin = [] then (done, g' ++ rest.drop (group d k rest).length, d')
    else
      let low := pick fin
      (done ++ fin, g'.drop fin.length ++ rest.drop (group d k rest).length,
        { d' with val := fun j => if j ∈ fin ∧ j ≠ low then -2 else d'.val j })

/-- The lexicographic sort and the marking of duplicates (`CglTreeInfo.cpp` 300-362): `which` and `value`; `none` only
if the fuel runs out. -/
def dupLoop (N : Nat) (pick : List Nat → Nat) (cl : Nat → List Nat) : Nat → List Nat → List Nat → Scan → Option (List Nat × Scan)
  | _, done, [], d => some (done, d)
  | 0, _, _ :: _, _ => none
  | f + 1, done, k :: rest, d =>
    dupLoop N pick cl f (dupStep N pick cl done k rest d).1 (dupStep N pick cl done k rest d).2.1
      (dupStep N pick cl done k rest d).2.2

/-- The clique kept among equal ones: the one with the lowest number (`CglTreeInfo.cpp` 340-350). -/
def lowest (n : Nat) (fin : List Nat) : Nat := fin.foldl min n

/-! ### Subsets -/

/-- `while (iColumn < kColumn)` (`CglTreeInfo.cpp` 425-433): the new offset, `none` in the pair if the end is reached.
The outer `none` is a read past the array. -/
def skip (flat : List Nat) (stop kCol : Nat) : Nat → Nat → Option (Option Nat)
  | 0, _ => none
  | f + 1, idx =>
    match flat[idx]? with
    | none => none
    | some iCol => if iCol < kCol then (if idx + 1 < stop then skip flat stop kCol f (idx + 1) else some none) else some (some idx)

/-- The subset test (`CglTreeInfo.cpp` 414-437) over the columns of the smaller clique after its first; `idx` is
`j + offset`, a place in the array of all entries, `stop` is the end of the larger clique. -/
def subsetLoop (flat : List Nat) (stop : Nat) : List Nat → Nat → Option Bool
  | [], _ => some true
  | kCol :: ks, idx =>
    match flat[idx]? with
    | none => none
    | some iCol =>
      if kCol < iCol then some false
      else
        match skip flat stop kCol (flat.length + 1) idx with
        | none => none
        | some none => some false
        | some (some idx') => subsetLoop flat stop ks (idx' + 1)

/-- `while (iValue < kValue)` (`CglTreeInfo.cpp` 398-409). -/
def catchUp (N : Nat) (l : List Nat) (kVal : ℤ) : Nat → Nat × ℤ → Nat × ℤ
  | 0, p => p
  | f + 1, p => if p.2 < kVal then catchUp N l kVal f (p.1 + 1, colAt N l (p.1 + 1)) else p

/-- State of the subset search. -/
structure Sub where
  scan : Scan
  startLooking : Nat
  nOut : Nat

/-- `value[k] = v`. -/
def setAt {α : Type} (f : Nat → α) (k : Nat) (v : α) : Nat → α := fun j => if j = k then v else f j

/-- The inner loop (`CglTreeInfo.cpp` 385-446) for the clique `k` over the pairs of a place in `which` and the clique
there. -/
def subInner (N : Nat) (cl : Nat → List Nat) (flat : List Nat) (start : Nat → Nat) (k : Nat) (kVal : ℤ) :
    List (Nat × Nat) → Sub → Option Sub
  | [], s => some s
  | (ii, i) :: l, s =>
    if s.scan.val i = -2 ∨ s.scan.val i = N then
      subInner N cl flat start k kVal l (if ii = s.startLooking then { s with startLooking := s.startLooking + 1 } else s)
    else
      match (cl i).getLast? with
      | none => none
      | some last =>
        if (last : ℤ) < kVal then
          subInner N cl flat start k kVal l { s with scan := { s.scan with val := setAt s.scan.val i N } }
        else
          let p := catchUp N (cl i) kVal ((cl i).length + 1) (s.scan.pos i, s.scan.val i)
          let s := { s with scan := ⟨setAt s.scan.pos i p.1, setAt s.scan.val i p.2⟩ }
          if kVal < p.2 then subInner N cl flat start k kVal l s
          else if (cl k).length < (cl i).length - p.1 then
            match subsetLoop flat (start (i + 1)) (cl k).tail (start i + 1) with
            | none => none
            | some false => subInner N cl flat start k kVal l s
            | some true => some { s with scan := { s.scan with val := setAt s.scan.val k (-2) }, nOut := s.nOut + 1 }
          else subInner N cl flat start k kVal l s

/-- The outer loop (`CglTreeInfo.cpp` 375-447); `before` are the places already visited. -/
def subOuter (N : Nat) (cl : Nat → List Nat) (flat : List Nat) (start : Nat → Nat) :
    List (Nat × Nat) → List (Nat × Nat) → Sub → Option Sub
  | _, [], s => some s
  | before, (jj, k) :: l, s =>
    if s.scan.val k = -2 then
      subOuter N cl flat start (before ++ [(jj, k)]) l
        { s with nOut := s.nOut + 1, startLooking := if jj = s.startLooking then s.startLooking + 1 else s.startLooking }
    else
      match subInner N cl flat start k (s.scan.val k) (before.drop s.startLooking) s with
      | none => none
      | some s => subOuter N cl flat start (before ++ [(jj, k)]) l s

/-- `cliqueStart`. -/
def startOf (cs : List Clique) (i : Nat) : Nat := ((cs.take i).map fun c => c.lits.length).sum

/-- Columns of a clique by number. -/
def colsOf (cs : List Clique) (k : Nat) : List Nat := (cs[k]?.getD ⟨[], false⟩).cols

/-- Result of the clean-up: the cliques, how many of them come from the matrix, and the return value. -/
structure Cleaned where
  cliques : List Clique
  nMatrix : Nat
  ret : ℤ
deriving DecidableEq

/-- `outDupsEtc` (`CglTreeInfo.cpp` 229-515); `none` is a read outside an array (also if a clique is empty). -/
def outDupsEtc (N : Nat) (cliques : List Clique) (nMatrix : Nat) (numberLastTime : ℤ) : Option Cleaned :=
  let cs := (keepLong nMatrix cliques).map Clique.sorted
  let n := cs.length
  if cs.any fun c => c.lits.isEmpty then none
  else
    let cl := colsOf cs
    let first := fun k => colAt N (cl k) 0
    let which := (List.range n).insertionSort fun a b => first a ≤ first b
    match dupLoop N (lowest n) cl (n + startOf cs n + 1) [] which ⟨fun _ => 0, first⟩ with
    | none => none
    | some (which, d) =>
      let s : Sub := ⟨⟨fun _ => 0, fun k => if d.val k = -2 then -2 else first k⟩, 0, 0⟩
      match subOuter N cl (cs.flatMap Clique.cols) (startOf cs) [] ((List.range n).zip which) s with
      | none => none
      | some s =>
        if s.nOut = 0 then some ⟨cs, nMatrix, 0⟩
        else
          let kept := which.filter fun k => decide (s.scan.val k ≠ -2)
          let kM := kept.filter fun k => decide (k < nMatrix)
          let kO := kept.filter fun k => decide (nMatrix ≤ k)
          some ⟨(kM ++ kO).filterMap fun k => cs[k]?, kM.length,
            if ∃ k ∈ kept, numberLastTime ≤ (k : ℤ) then s.nOut else -1⟩

/-! ### `analyze` -/

/-- Reading a row (`CglTreeInfo.cpp` 568-599): the bounds without the fixed columns, and the columns with +1 and -1;
`none` if the row is no clique row. -/
def readRow (s : Info) (P : Prob) : SVec → ℚ → ℚ → Option (ℚ × ℚ × List Nat × List Nat)
  | [], lo, up => some (lo, up, [], [])
  | (j, v) :: l, lo, up =>
    if P.colUpper j - P.colLower j < 1 / 10 ^ 8 then readRow s P l (lo - P.colLower j * v) (up - P.colLower j * v)
    else
      match s.backward[j]? with
      | some (some i) =>
        if |v| ≠ 1 then none
        else
          match readRow s P l lo up with
          | none => none
          | some (lo, up, p, m) => if 0 < v then some (lo, up, i :: p, m) else some (lo, up, p, i :: m)
      | _ => none

/-- What a row gives (`CglTreeInfo.cpp` 625-668). -/
inductive RowKind
  | nothing
  /-- `state` is 3: the loop is left -/
  | infeasible
  | clique (c : Clique)
deriving DecidableEq

/-- The row as a clique (`CglTreeInfo.cpp` 600-668); `INT_MAX` and `INT_MIN` are taken as the bounds of `int`, values
beyond them on the other side cannot be converted and are not modelled.  A state that is negative does nothing, so the
part that looks at the lower bound (613-622) is left out. -/
def rowKind (s : Info) (P : Prob) (r : Row) : RowKind :=
  match readRow s P r.coefs r.lb r.ub with
  | none => .nothing
  | some (lo, up, p, m) =>
    let iUpper : ℤ := if 2 ^ 31 - 1 < up then 2 ^ 31 - 1 else ⌊up + 1 / 10 ^ 5⌋
    let iLower : ℤ := if lo < - 2 ^ 31 then - 2 ^ 31 else ⌈lo - 1 / 10 ^ 5⌉
    if up < 10 ^ 6 ∧ ¬ 1 / 10 ^ 9 < |(iUpper : ℚ) - up| ∧ ¬ p.length + m.length < 2 then
      if iUpper = 1 - m.length then
        .clique ⟨(p.map fun i => (i, true)) ++ m.map fun i => (i, false), decide (iLower = iUpper)⟩
      else if iUpper = - m.length then .nothing
      else if iUpper < - m.length then .infeasible
      else .nothing
    else .nothing

/-- The loop over the rows (`CglTreeInfo.cpp` 567-669). -/
def matrixCliques (s : Info) (P : Prob) : List Row → List Clique
  | [] => []
  | r :: rs =>
    match rowKind s P r with
    | .nothing => matrixCliques s P rs
    | .infeasible => []
    | .clique c => c :: matrixCliques s P rs

/-- The implications of a 0-1 column in one direction, as pairs. -/
def impliedPairs (s : Info) (i : Nat) (up : Bool) : List (Nat × Bool) :=
  ((implied s i up).getD []).map fun e => (sequence e, oneFixes e)

/-- The two-cliques from one entry `(j, one)` in the list of the column `i` in direction `up` against the lists of the
column `j` (`CglTreeInfo.cpp` 689-897): in each of the four combinations in which the second implication is the
contrapositive of the first. -/
def twoFrom (s : Info) (i : Nat) (up : Bool) (e : Nat × Bool) : List Clique :=
  if e.1 < i then
    ((impliedPairs s e.1 false).filter fun q => decide (q.1 = i ∧ e.2 = true ∧ q.2 = ! up)).map
        (fun _ => ⟨[(i, up), (e.1, false)], false⟩) ++
    ((impliedPairs s e.1 true).filter fun q => decide (q.1 = i ∧ e.2 = false ∧ q.2 = ! up)).map
        (fun _ => ⟨[(i, up), (e.1, true)], false⟩)
  else []

/-- All two-cliques (`CglTreeInfo.cpp` 685-898). -/
def twoCliques (s : Info) : List Clique :=
  (List.range s.numberIntegers).flatMap fun i =>
    (impliedPairs s i false).flatMap (twoFrom s i false) ++ (impliedPairs s i true).flatMap (twoFrom s i true)

/-- The numbers of the cliques in which an entry occurs (`whichClique`, `CglTreeInfo.cpp` 924-963). -/
def occurs (cs : List Clique) (e : Nat × Bool) : List Nat :=
  (List.range cs.length).flatMap fun k => ((cs[k]?.getD ⟨[], false⟩).lits.filter fun q => decide (q = e)).map fun _ => k

/-- Marking the entries that are in a clique with `(i, b)` (`CglTreeInfo.cpp` 972-985, 1057-1070): each later column once. -/
def marked (cs : List Clique) (i : Nat) (b : Bool) : List (Nat × Bool) :=
  ((occurs cs (i, b)).flatMap fun k => (cs[k]?.getD ⟨[], false⟩).lits).foldl
    (fun m e => if i < e.1 ∧ e.1 ∉ m.map Prod.fst then m ++ [e] else m) []

/-- The cliques that `(i, b)` extends (`CglTreeInfo.cpp` 986-1053, 1071-1142). -/
def extend (cs : List Clique) (i : Nat) (b : Bool) : List Clique :=
  let ids := (marked cs i b).flatMap (occurs cs)
  let order := ids.foldl (fun l k => if k ∈ l then l else l ++ [k]) []
  (order.filter fun k => decide (ids.count k = (cs[k]?.getD ⟨[], false⟩).lits.length)).map fun k =>
    (⟨(i, b) :: (cs[k]?.getD ⟨[], false⟩).lits, false⟩ : Clique).sorted

/-- One pass of strengthening (`CglTreeInfo.cpp` 917-1145): the new cliques. -/
def strengthen (N : Nat) (cs : List Clique) : List Clique :=
  (List.range N).flatMap fun i => extend cs i false ++ extend cs i true

/-- The passes (`CglTreeInfo.cpp` 913-1154); `iPass` counts them. -/
def passes (N : Nat) : Nat → Nat → List Clique → Nat → Option (List Clique × Nat)
  | 0, _, cs, nM => some (cs, nM)
  | f + 1, iPass, cs, nM =>
    let new := strengthen N cs
    if new = [] then some (cs, nM)
    else
      match outDupsEtc N (cs ++ new) nM cs.length with
      | none => none
      | some r =>
        if r.ret < 0 ∨ (1 < iPass ∧ 5000 < (r.cliques.length : ℤ) - r.ret) then some (r.cliques, r.nMatrix)
        else passes N f (iPass + 1) r.cliques r.nMatrix

/-- A clique as a row of the new model (`CglTreeInfo.cpp` 1195-1215). -/
def cliqueRow (s : Info) (c : Clique) : Row :=
  let rhs : ℚ := 1 - (c.lits.filter fun e => ! e.2).length
  ⟨if c.eq then rhs else - dblMax, rhs,
    c.lits.map fun e => (s.integerVariable[e.1]?.getD 0, if e.2 then 1 else -1)⟩

/-- `analyze` (`CglTreeInfo.cpp` 516-1235) with no extra cliques: `extra` is `numberExtraCliques`, negative to ask for a
model in any case.  A positive number writes through a null pointer in the first pass (671-680) and is `none`, as is any
other undefined behaviour; `some none` is a null result. -/
def analyze (s : Info) (P : Prob) (createSolver : Bool) (extra : ℤ) : Option (Option Prob) :=
  if createSolver = false then some none
  else
    let s := convert s
    if s.numberIntegers = 0 then some none
    else if 0 < extra then none
    else
      let mc := matrixCliques s P P.rows
      match outDupsEtc s.numberIntegers (mc ++ twoCliques s) mc.length (-1) with
      | none => none
      | some r =>
        match passes s.numberIntegers 20 1 r.cliques r.nMatrix with
        | none => none
        | some (cs, nM) =>
          if nM < cs.length ∨ extra < 0 then some (some { P with rows := cs.map (cliqueRow s) }) else some none

end Cgl.TreeInfo
