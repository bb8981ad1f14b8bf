import Verif.ZeroHalf.Model
import Mathlib.Data.List.Sort

/-!
# The search of the zero-half generator: `src/CglZeroHalf/Cgl012cut.cpp`, `src/CglZeroHalf/CglZeroHalf.cpp`

Which rows are added up is decided by a search for short odd cycles in a graph: the nodes are the columns away from
their bounds and one special node, the edges come from rows and column bounds.  `Verif.ZeroHalf` takes the result of
this search as an arbitrary list of cycles; here the search itself is modelled.

Modelled: the parity rows and the removal of equal ones (`get_parity_ilp`), the edges (`basic_separation`,
`best_weakening`), both ways of storing the separation graph, the auxiliary graph and the removal of nodes, the
shortest paths (`cglShortestPath`), the cycles and the list of cycles.

Not modelled: the clock (no time limit; a time limit only cuts the lists of cycles short), printing, the record of
the weakened columns of an edge (it is never read).  `double` arithmetic is exact.  Pointers to edges are the edges
themselves: the graph has at most one edge for two nodes and a parity.  `std::make_heap` and `std::pop_heap` are
arbitrary functions (`HeapLib`).
-/

namespace Cgl.ZHSearch

open ZeroHalf

/-- Ways the search can go wrong. -/
inductive Fault
  /-- signed overflow -/
  | overflow
  /-- access outside an array -/
  | memory
  /-- `abort()` -/
  | abort
  /-- a loop that does not end -/
  | hang
deriving DecidableEq, Repr

/-! ### The parity problem -/

/-- A row of the parity problem: `mtind`, `mrhs`, `slack`, `row_to_delete` (Cgl012cut.hpp 81–93). -/
structure ParRow where
  cols : List Nat
  odd : Bool
  slack : ℚ
  deleted : Bool
deriving DecidableEq, Repr

/-- `col_to_delete`: the column is at a bound.  Cgl012cut.cpp 779–809. -/
def colDeleted (I : Ilp) (x : Nat → ℚ) (j : Nat) : Bool :=
  decide (((bnd I.bnds j).2 : ℚ) - zeroTol < x j) || decide (x j < ((bnd I.bnds j).1 : ℚ) + zeroTol)

/-- What a column offers.  Cgl012cut.cpp 779–888. -/
def weakOf (I : Ilp) (x : Nat → ℚ) (j : Nat) : Weak := possWeak (x j) (bnd I.bnds j).1 (bnd I.bnds j).2

/-- `possible_weak[j] == ODD`. -/
def onlyOdd : Weak → Bool
  | .odd _ _ => true
  | _ => false

/-- The columns with an odd coefficient.  Cgl012cut.cpp 940–944. -/
def oddEntries (r : IRow) : List Nat :=
  (r.coefs.filter fun p => isOdd (p.2.tdiv (rowGcd r))).map Prod.fst

/-- Parity of the right-hand side.  Cgl012cut.cpp 937, 949–952. -/
def parityOf (I : Ilp) (x : Nat → ℚ) (r : IRow) : Bool :=
  (oddEntries r).foldl (fun b j => if colDeleted I x j && onlyOdd (weakOf I x j) then !b else b)
    (isOdd (r.rhs.tdiv (rowGcd r)))

/-- One row.  Cgl012cut.cpp 896–960. -/
def parRow (I : Ilp) (x : Nat → ℚ) (r : IRow) : ParRow where
  cols := (oddEntries r).filter fun j => !colDeleted I x j
  odd := parityOf I x r
  slack := rowSlack x r
  deleted := decide (maxSlack < rowSlack x r) || ((oddEntries r).filter fun j => !colDeleted I x j).isEmpty

/-- Two rows that are equal and still there.  Cgl012cut.cpp 975–990. -/
def sameRow (a b : ParRow) : Bool :=
  decide (a.odd = b.odd) && !a.deleted && !b.deleted && decide (a.cols = b.cols)

/-- One comparison.  Cgl012cut.cpp 973–996. -/
def dedupStep (rows : List ParRow) (p : Nat × Nat) : List ParRow :=
  match rows[p.1]?, rows[p.2]? with
  | some a, some b =>
    if sameRow a b then
      if a.slack < b.slack then rows.set p.2 { b with deleted := true } else rows.set p.1 { a with deleted := true }
    else rows
  | _, _ => rows

/-- The comparisons in order. -/
def allPairs (n : Nat) : List (Nat × Nat) :=
  (List.range n).flatMap fun i => ((List.range n).filter fun h => i < h).map fun h => (i, h)

/-- `get_parity_ilp` (Cgl012cut.cpp 760–1002), after the divisions by `gcd`. -/
def parityRows (I : Ilp) (x : Nat → ℚ) : List ParRow :=
  (allPairs I.rows.length).foldl dedupStep (I.rows.map (parRow I x))

/-! ### Edges -/

/-- An edge of the separation graph (Cgl012cut.hpp 107–113): node numbers, weight, parity, row (`none`: a bound). -/
structure Edge where
  u : Nat
  v : Nat
  weight : ℚ
  odd : Bool
  constr : Option Nat
deriving DecidableEq, Repr

/-- The three limits a user can set (Cgl012cut.hpp 506–508). -/
structure Limits where
  sparse : ℤ := 8000
  maxPairs : ℤ := -1
  maxFrac : ℤ := -1
deriving DecidableEq, Repr

/-- The nodes: columns away from their bounds, then the special node.  Cgl012cut.cpp 1033–1048. -/
def nodesOf (I : Ilp) (x : Nat → ℚ) : List Nat :=
  ((List.range I.bnds.length).filter fun j => !colDeleted I x j) ++ [I.bnds.length]

/-- `ind[j]` (zero for a column that is not a node).  Cgl012cut.cpp 1033–1048. -/
def indOf (nodes : List Nat) (j : Nat) : Nat := if j ∈ nodes then nodes.idxOf j else 0

/-- `zhRowPairCount`.  Cgl012cut.cpp 2722–2725. -/
def pairCount (n : Nat) : Except Fault ℤ :=
  if n ≤ 2 then .ok (if 1 ≤ n then 1 else 0)
  else if (n : ℤ) * (n - 1) ≤ intMax then .ok ((n : ℤ) * (n - 1) / 2)
  else .error .overflow

/-- The value is away from the integers.  Cgl012cut.cpp 170–173. -/
def fractional (v : ℚ) : Bool := !(decide (v - ⌊v⌋ < zeroTol) || decide (1 - (v - ⌊v⌋) < zeroTol))

/-- `cglZeroHalfCollectFractionality`, the count.  Cgl012cut.cpp 153–188. -/
def fracCount (x : Nat → ℚ) (r : IRow) : Nat := r.coefs.countP fun p => fractional (x p.1)

/-- An edge for a pair of columns of a row and a slack, if the slack is small enough. -/
def edgeIf (nodes : List Nat) (j k : Nat) (w : ℚ) (odd : Bool) (i : Option Nat) : List Edge :=
  if w < maxSlack then [⟨indOf nodes j, indOf nodes k, w, odd, i⟩] else []

/-- The columns of a row at other positions than two.  Cgl012cut.cpp 2782–2787. -/
def others (cols : List Nat) (a b : Nat) : List Nat := (cols.eraseIdx b).eraseIdx a

/-- The edges of two columns of a row with three or more; `a < b`.  Cgl012cut.cpp 2775–2815. -/
def pairEdges (I : Ilp) (x : Nat → ℚ) (nodes : List Nat) (i : Nat) (r : ParRow) (p : Nat × Nat) : List Edge :=
  match forward ((others r.cols p.1 p.2).map (weakOf I x)) (startSlacks r.odd r.slack) with
  | none => []
  | some (_, s) =>
    edgeIf nodes (r.cols.getD p.1 0) (r.cols.getD p.2 0) s.1 false (some i) ++
      edgeIf nodes (r.cols.getD p.1 0) (r.cols.getD p.2 0) s.2 true (some i)

/-- The edges of a row, once its limits are checked.  Cgl012cut.cpp 2738–2818. -/
def rowEdges (I : Ilp) (x : Nat → ℚ) (nodes : List Nat) (i : Nat) (r : ParRow) : List Edge :=
  match r.cols with
  | [j] => edgeIf nodes j I.bnds.length r.slack r.odd (some i)
  | [j, k] => edgeIf nodes j k r.slack r.odd (some i)
  | _ => (allPairs r.cols.length).flatMap (pairEdges I x nodes i r)

/-- One row with its limits.  Cgl012cut.cpp 2714–2822. -/
def rowOffers (lim : Limits) (I : Ilp) (x : Nat → ℚ) (nodes : List Nat) (i : Nat) (r : ParRow) (o : IRow) :
    Except Fault (List Edge) :=
  if r.deleted then .ok []
  else
    match pairCount r.cols.length with
    | .error e => .error e
    | .ok c =>
      if 0 ≤ lim.maxPairs ∧ lim.maxPairs < c then .ok []
      else if 0 ≤ lim.maxFrac ∧ lim.maxFrac < (fracCount x o : ℤ) then .ok []
      else .ok (rowEdges I x nodes i r)

/-- All rows.  Cgl012cut.cpp 2706–2823. -/
def rowsOffers (lim : Limits) (I : Ilp) (x : Nat → ℚ) (nodes : List Nat) :
    Nat → List (ParRow × IRow) → Except Fault (List Edge)
  | _, [] => .ok []
  | i, p :: l =>
    match rowOffers lim I x nodes i p.1 p.2 with
    | .error e => .error e
    | .ok es =>
      match rowsOffers lim I x nodes (i + 1) l with
      | .error e => .error e
      | .ok fs => .ok (es ++ fs)

/-- The edges of the bounds of a column.  Cgl012cut.cpp 2829–2845. -/
def boundEdges (I : Ilp) (x : Nat → ℚ) (nodes : List Nat) (j : Nat) : List Edge :=
  if colDeleted I x j then []
  else
    edgeIf nodes j I.bnds.length (x j - (bnd I.bnds j).1) (isOdd (bnd I.bnds j).1) none ++
      edgeIf nodes j I.bnds.length ((bnd I.bnds j).2 - x j) (isOdd (bnd I.bnds j).2) none

/-- All calls of `update_weight_sep_graph`, in order.  Cgl012cut.cpp 2706–2846. -/
def offers (lim : Limits) (I : Ilp) (x : Nat → ℚ) : Except Fault (List Edge) :=
  match rowsOffers lim I x (nodesOf I x) 0 ((parityRows I x).zip I.rows) with
  | .error e => .error e
  | .ok es => .ok (es ++ (List.range I.bnds.length).flatMap (boundEdges I x (nodesOf I x)))

/-! ### Storing the separation graph -/

/-- `SG_EDGE_INDEX`.  Cgl012cut.cpp 1014. -/
def sgIndex (n j k : Nat) : ℤ :=
  if j < k then (n : ℤ) * j - (j + 1) * j / 2 + k - j - 1 else (n : ℤ) * k - (k + 1) * k / 2 + j - k - 1

/-- The cheaper of the stored edge and the new one; a replaced edge keeps its end points.  Cgl012cut.cpp 1115–1124,
1143–1153. -/
def better (old e : Edge) : Edge := if e.weight < old.weight then { old with weight := e.weight, constr := e.constr } else old

/-- `even_adj_list` and `odd_adj_list`. -/
structure Dense where
  even : List (Option Edge)
  odd : List (Option Edge)
deriving DecidableEq, Repr

/-- An entry of a table. -/
def entry (t : List (Option Edge)) (i : ℤ) : Except Fault (Option Edge) :=
  if 0 ≤ i ∧ i < t.length then .ok (t.getD i.toNat none) else .error .memory

/-- One table. -/
def putTable (t : List (Option Edge)) (i : ℤ) (e : Edge) : Except Fault (List (Option Edge)) :=
  match entry t i with
  | .error f => .error f
  | .ok none => .ok (t.set i.toNat (some e))
  | .ok (some old) => .ok (t.set i.toNat (some (better old e)))

/-- `update_weight_sep_graph` with tables (Cgl012cut.cpp 1126–1156). -/
def putDense (n : Nat) (d : Dense) (e : Edge) : Except Fault Dense :=
  if e.odd then
    match putTable d.odd (sgIndex n e.u e.v) e with
    | .error f => .error f
    | .ok t => .ok { d with odd := t }
  else
    match putTable d.even (sgIndex n e.u e.v) e with
    | .error f => .error f
    | .ok t => .ok { d with even := t }

/-- All the updates. -/
def fillDense (n : Nat) : List Edge → Dense → Except Fault Dense
  | [], d => .ok d
  | e :: l, d =>
    match putDense n d e with
    | .error f => .error f
    | .ok d' => fillDense n l d'

/-- Empty tables (Cgl012cut.cpp 1060, 1071–1076). -/
def denseStart (n : Nat) : Dense where
  even := List.replicate (n * (n - 1) / 2) none
  odd := List.replicate (n * (n - 1) / 2) none

/-- The edges at `j`, with the other node, from the tables.  Cgl012cut.cpp 1361–1405 (and 1294–1302). -/
def incidentDense (n : Nat) (d : Dense) (j : Nat) : Nat → Except Fault (List (Nat × Edge))
  | 0 => .ok []
  | k + 1 =>
    match incidentDense n d j k with
    | .error f => .error f
    | .ok l =>
      if k = j then .ok l
      else
        match entry d.even (sgIndex n j k), entry d.odd (sgIndex n j k) with
        | .ok a, .ok b => .ok (l ++ (a.toList.map fun e => (k, e)) ++ (b.toList.map fun e => (k, e)))
        | _, _ => .error .memory

/-- `cglZeroHalfSparseEdgeKey` (Cgl012cut.cpp 99–105); the three parts do not overlap. -/
def sparseKey (j k : Nat) (odd : Bool) : Nat :=
  (if j < k then j else k) * 2 ^ 33 + (if j < k then k else j) * 2 + (if odd then 1 else 0)

/-- `sparseEdges` (keys with edges, in the order of insertion) and `sparseAdj` (the keys of the edges at a node). -/
structure Sparse where
  edges : List (Nat × Edge)
  adj : List (List Nat)
deriving DecidableEq, Repr

/-- `v[i].push_back(a)`. -/
def pushAt (adj : List (List Nat)) (i a : Nat) : Except Fault (List (List Nat)) :=
  match adj[i]? with
  | none => .error .memory
  | some l => .ok (adj.set i (l ++ [a]))

/-- The edge with a key. -/
def findKey (edges : List (Nat × Edge)) (key : Nat) : Option Edge :=
  (edges.find? fun p => p.1 = key).map Prod.snd

/-- The key of an edge. -/
def keyOf (e : Edge) : Nat := sparseKey e.u e.v e.odd

/-- `update_weight_sep_graph` with a hash table (Cgl012cut.cpp 1098–1125). -/
def putSparse (s : Sparse) (e : Edge) : Except Fault Sparse :=
  match findKey s.edges (keyOf e) with
  | none =>
    match pushAt s.adj e.u (keyOf e) with
    | .error f => .error f
    | .ok a =>
      match pushAt a e.v (keyOf e) with
      | .error f => .error f
      | .ok b => .ok ⟨s.edges ++ [(keyOf e, e)], b⟩
  | some old => .ok { s with edges := s.edges.map fun p => if p.1 = keyOf e then (p.1, better old e) else p }

/-- All the updates. -/
def fillSparse : List Edge → Sparse → Except Fault Sparse
  | [], s => .ok s
  | e :: l, s =>
    match putSparse s e with
    | .error f => .error f
    | .ok s' => fillSparse l s'

/-- The other end of an edge.  Cgl012cut.cpp 1320. -/
def otherEnd (j : Nat) (e : Edge) : Nat := if e.u = j then e.v else e.u

/-- The row as a number (`NONE` is -1). -/
def constrNo (c : Option Nat) : ℤ := match c with | none => -1 | some i => i

/-- The comparison of `std::sort`.  Cgl012cut.cpp 1279–1289; the comparison of addresses at the end is never
reached. -/
def edgeLe (p q : Nat × Edge) : Bool :=
  if p.1 ≠ q.1 then decide (p.1 < q.1)
  else if p.2.odd ≠ q.2.odd then q.2.odd
  else decide (constrNo p.2.constr ≤ constrNo q.2.constr)

/-- The edges at `j`, with the other node, from the hash table.  Cgl012cut.cpp 1276–1292, 1316–1320. -/
def incidentSparse (s : Sparse) (j : Nat) : Except Fault (List (Nat × Edge)) :=
  match s.adj[j]? with
  | none => .error .memory
  | some keys => .ok (((keys.filterMap (findKey s.edges)).map fun e => (otherEnd j e, e)).mergeSort edgeLe)

/-- `cglZeroHalfUseSparseSepGraph` (Cgl012cut.cpp 73–97).  `sizeof` does not matter. -/
def useSparse (lim : Limits) (n : Nat) : Bool :=
  decide (8000 < n) || decide (intMax < ((n * (n - 1) / 2 : Nat) : ℤ)) || decide (lim.sparse = 0) ||
    (decide (0 < lim.sparse) && decide (lim.sparse < n))

/-- A list for every node. -/
def collect (f : Nat → Except Fault (List (Nat × Edge))) : Nat → Except Fault (List (List (Nat × Edge)))
  | 0 => .ok []
  | n + 1 =>
    match collect f n with
    | .error e => .error e
    | .ok ls =>
      match f n with
      | .error e => .error e
      | .ok l => .ok (ls ++ [l])

/-- The separation graph as lists of edges at the nodes, with tables. -/
def graphDense (n : Nat) (es : List Edge) : Except Fault (List (List (Nat × Edge))) :=
  match fillDense n es (denseStart n) with
  | .error e => .error e
  | .ok d => collect (fun j => incidentDense n d j n) n

/-- The separation graph as lists of edges at the nodes, with a hash table. -/
def graphSparse (n : Nat) (es : List Edge) : Except Fault (List (List (Nat × Edge))) :=
  match fillSparse es ⟨[], List.replicate n []⟩ with
  | .error e => .error e
  | .ok s => collect (incidentSparse s) n

/-- The separation graph.  Cgl012cut.cpp 1019–1079, 1081–1156, 1272–1302. -/
def graphOf (lim : Limits) (n : Nat) (es : List Edge) : Except Fault (List (List (Nat × Edge))) :=
  if useSparse lim n then graphSparse n es else graphDense n es

/-! ### The auxiliary graph -/

/-- `ISCALE`. -/
def iscale : ℤ := 10000

/-- An arc (Cgl012cut.hpp 42–47). -/
structure Arc where
  dest : Nat
  len : ℤ
  edge : Edge
deriving DecidableEq, Repr

/-- The arc of an edge that leaves the first (`second` false) or second twin of a node.  Cgl012cut.cpp 1316–1405. -/
def arcOf (second : Bool) (p : Nat × Edge) : Arc :=
  ⟨2 * p.1 + (if p.2.odd != second then 1 else 0), truncQ (p.2.weight * iscale), p.2⟩

/-- `define_aux_graph` (Cgl012cut.cpp 1250–1415): node `2j` and node `2j+1` for every node `j`. -/
def auxGraph (g : List (List (Nat × Edge))) : List (List Arc) :=
  g.flatMap fun l => [l.map (arcOf false), l.map (arcOf true)]

/-- `cancel_node_aux_graph` (Cgl012cut.cpp 1422–1456). -/
def cancel (A : List (List Arc)) (j : Nat) : List (List Arc) :=
  (A.modify (2 * j) fun l => l.map fun a => { a with len := iscale }).modify (2 * j + 1)
    fun l => l.map fun a => { a with len := iscale }

/-- The arcs that leave a node. -/
def arcsAt (A : List (List Arc)) (v : Nat) : List Arc := A.getD v []

/-! ### Shortest paths -/

/-- `std::make_heap` and `std::pop_heap` followed by `pop_back`, for keys given by a function. -/
structure HeapLib where
  make : (Nat → ℤ) → List Nat → List Nat
  pop : (Nat → ℤ) → List Nat → List Nat

/-- `nodes[i].distanceBack`, `nodes[i].parentNode` (`none` is -1) and the vector `nodes_`. -/
structure SP where
  dist : Nat → ℤ
  par : Nat → Option Nat
  heap : List Nat

/-- One arc.  CglZeroHalf.cpp 580–592.  The sum fits an `int` (`dist_bound`). -/
def relax (i : Nat) (d : ℤ) (s : SP) (a : Arc) : SP :=
  if d + a.len < s.dist a.dest then
    ⟨Function.update s.dist a.dest (d + a.len), Function.update s.par a.dest (some i), s.heap ++ [a.dest]⟩
  else s

/-- The loop with `numberCandidates`.  CglZeroHalf.cpp 550–594. -/
def spLoop (lib : HeapLib) (A : List (List Arc)) : Nat → SP → Except Fault SP
  | 0, s => .ok s
  | c + 1, s =>
    match s.heap with
    | [] => .error .memory
    | i :: _ =>
      if s.dist i = intMax then .ok { s with heap := lib.pop s.dist s.heap }
      else if iscale ≤ s.dist i then .ok { s with heap := lib.pop s.dist s.heap }
      else spLoop lib A c ((arcsAt A i).foldl (relax i (s.dist i)) { s with heap := lib.pop s.dist s.heap })

/-- Before the loop.  CglZeroHalf.cpp 536–549. -/
def spStart (lib : HeapLib) (n src : Nat) : SP where
  dist := Function.update (fun _ => intMax) src 0
  par := fun _ => none
  heap := lib.make (Function.update (fun _ => intMax) src 0) (List.range n)

/-- `cglShortestPath` with `maximumLength` = `ISCALE` (CglZeroHalf.cpp 522–595). -/
def shortestPath (lib : HeapLib) (A : List (List Arc)) (src : Nat) : Except Fault SP :=
  spLoop lib A A.length (spStart lib A.length src)

/-! ### Cycles -/

/-- `AG_MATE`.  Cgl012cut.cpp 1242. -/
def mate (v : Nat) : Nat := 2 * (v / 2) + (if v % 2 = 0 then 1 else 0)

/-- A cycle (Cgl012cut.hpp 150–154). -/
structure Cycle where
  weight : ℚ
  edges : List Edge
deriving DecidableEq, Repr

/-- `forw_arb[v].dist`.  Cgl012cut.cpp 1790–1812. -/
def forwDist (s : SP) (v : Nat) : ℤ := if (s.par v).isSome then s.dist v else intMax

/-- `forw_arb[v].pred`. -/
def forwPred (s : SP) (v : Nat) : Option Nat := s.par v

/-- `backw_arb[v].dist`.  Cgl012cut.cpp 1813–1839. -/
def backDist (s : SP) (v : Nat) : ℤ := forwDist s (mate v)

/-- `backw_arb[v].pred`. -/
def backPred (s : SP) (v : Nat) : Option Nat := (s.par (mate v)).map mate

/-- Number of edges to the root of one tree; `some none` if the path ends elsewhere.  Cgl012cut.cpp 1881–1889,
1891–1900. -/
def countPath (pred : Nat → Option Nat) (root : Nat) : Nat → Nat → Except Fault (Option Nat)
  | 0, _ => .error .hang
  | fuel + 1, v =>
    match pred v with
    | none => .ok none
    | some p =>
      if p = root then .ok (some 1)
      else
        match countPath pred root fuel p with
        | .error e => .error e
        | .ok none => .ok none
        | .ok (some n) => .ok (some (n + 1))

/-- `cglZeroHalfGetAuxiliaryArcEdge` (Cgl012cut.cpp 107–122). -/
def arcEdge (A : List (List Arc)) (src dst : Nat) : Option Edge :=
  ((arcsAt A src).find? fun a => a.dest = dst).map Arc.edge

/-- The edges of the path.  Cgl012cut.cpp 1911–1919, 1921–1929. -/
def pathEdges (A : List (List Arc)) (pred : Nat → Option Nat) (root : Nat) : Nat → Nat → Except Fault (List Edge)
  | 0, _ => .error .hang
  | fuel + 1, v =>
    match pred v with
    | none => .error .memory
    | some p =>
      match arcEdge A p v with
      | none => .error .abort
      | some e =>
        if p = root then .ok [e]
        else
          match pathEdges A pred root fuel p with
          | .error f => .error f
          | .ok l => .ok (e :: l)

/-- `cnt[i]++` and the test for the two ends of the edges.  Cgl012cut.cpp 1568–1581. -/
def simpleLoop : List Edge → (Nat → Nat) → Bool
  | [], _ => true
  | e :: l, cnt =>
    let c := Function.update cnt e.u (cnt e.u + 1)
    if 2 < c e.u then false
    else
      let c' := Function.update c e.v (c e.v + 1)
      if 2 < c' e.v then false else simpleLoop l c'

/-- `simple_cycle` (Cgl012cut.cpp 1546–1586). -/
def simpleCycle (c : Cycle) : Bool := simpleLoop c.edges fun _ => 0

/-- `same_cycle` (Cgl012cut.cpp 1591–1617). -/
def sameCycle (a b : Cycle) : Bool := decide (a.edges = b.edges) || decide (a.edges = b.edges.reverse)

/-- `add_cycle_to_list` (Cgl012cut.cpp 1653–1675) for a list with room for `cap` cycles. -/
def addCycle (cap : Nat) (l : List Cycle) (c : Cycle) : Except Fault (List Cycle) :=
  if !simpleCycle c then .ok l
  else if l.any (sameCycle c) then .ok l
  else if l.length < cap then .ok (l ++ [c])
  else .error .memory

/-- One intermediate node.  Cgl012cut.cpp 1872–1936. -/
def viaNode (A : List (List Arc)) (s : SP) (j kt : Nat) (l : List Cycle) : Except Fault (List Cycle) :=
  let w := ((forwDist s kt + backDist s kt : ℤ) : ℚ) / iscale
  if w < 1 + epsTol then
    match countPath (forwPred s) (2 * j) (A.length + 1) kt, countPath (backPred s) (2 * j + 1) (A.length + 1) kt with
    | .ok (some _), .ok (some _) =>
      match pathEdges A (forwPred s) (2 * j) (A.length + 1) kt,
        pathEdges A (backPred s) (2 * j + 1) (A.length + 1) kt with
      | .ok a, .ok b => addCycle (A.length - 2) l ⟨w, a ++ b⟩
      | .error f, _ => .error f
      | _, .error f => .error f
    | .error f, _ => .error f
    | .ok none, _ => .ok l
    | _, .error f => .error f
    | _, .ok none => .ok l
  else .ok l

/-- All intermediate nodes.  Cgl012cut.cpp 1861–1940. -/
def viaLoop (A : List (List Arc)) (s : SP) (j : Nat) : List Nat → List Cycle → Except Fault (List Cycle)
  | [], l => .ok l
  | k :: ks, l =>
    if k = j then viaLoop A s j ks l
    else
      match viaNode A s j (2 * k) l with
      | .error f => .error f
      | .ok l' =>
        match viaNode A s j (2 * k + 1) l' with
        | .error f => .error f
        | .ok l'' => viaLoop A s j ks l''

/-- `get_shortest_odd_cycle_list` (Cgl012cut.cpp 1703–1952). -/
def oddCycles (lib : HeapLib) (A : List (List Arc)) (j : Nat) : Except Fault (List Cycle) :=
  match shortestPath lib A (2 * j) with
  | .error f => .error f
  | .ok s => viaLoop A s j (List.range (A.length / 2)) []

/-- The loop over the nodes; every node is cancelled after its turn.  Cgl012cut.cpp 2885–2940. -/
def nodesLoop (lib : HeapLib) : List Nat → List (List Arc) → Except Fault (List (List Cycle))
  | [], _ => .ok []
  | j :: js, A =>
    match oddCycles lib A j with
    | .error f => .error f
    | .ok l =>
      match nodesLoop lib js (cancel A j) with
      | .error f => .error f
      | .ok ls => .ok (l :: ls)

/-- The rows of a cycle (bounds left out).  Cgl012cut.cpp 2276–2292. -/
def cycleRows (c : Cycle) : List Nat := c.edges.filterMap Edge.constr

/-- The search of `basic_separation` (Cgl012cut.cpp 2667–2946): for every node the cycles. -/
def search (lib : HeapLib) (lim : Limits) (I : Ilp) (x : Nat → ℚ) : Except Fault (List (List Cycle)) :=
  match offers lim I x with
  | .error f => .error f
  | .ok es =>
    match graphOf lim (nodesOf I x).length es with
    | .error f => .error f
    | .ok g => nodesLoop lib (List.range (nodesOf I x).length) (auxGraph g)

/-- The cycles as `Verif.ZeroHalf` takes them. -/
def rowsOf (ls : List (List Cycle)) : List (List (List Nat)) := ls.map fun l => l.map cycleRows

end Cgl.ZHSearch
