import Verif.ZHSearch.Model

/-!
# The search of the zero-half generator: what the theorems talk about
-/

namespace Cgl.ZHSearch

open ZeroHalf

/-! ### Heaps -/

/-- A heap with the smallest key at the front: no entry has a larger key than the entries below it. -/
def IsHeap (key : Nat → ℤ) (l : List Nat) : Prop :=
  ∀ (i a b : Nat), 0 < i → l[(i - 1) / 2]? = some a → l[i]? = some b → key a ≤ key b

/-- What the C++ standard says about the heap functions: `make_heap` gives a heap with the same entries; `pop_heap` on
a heap moves the front entry away and leaves a heap of the others.  On a vector that is no heap the standard allows
anything; `pop_perm` asks that no entry gets lost even then. -/
structure HeapLib.Lawful (lib : HeapLib) : Prop where
  make_perm : ∀ key l, (lib.make key l).Perm l
  make_heap : ∀ key l, IsHeap key (lib.make key l)
  pop_perm : ∀ key l, (lib.pop key l).Perm l.tail
  pop_heap : ∀ key l, IsHeap key l → IsHeap key (lib.pop key l)

/-- The calls of `std::pop_heap` in the loop of the shortest paths: keys and vector. -/
def popCalls (lib : HeapLib) (A : List (List Arc)) : Nat → SP → List ((Nat → ℤ) × List Nat)
  | 0, _ => []
  | c + 1, s =>
    match s.heap with
    | [] => []
    | i :: _ =>
      (s.dist, s.heap) ::
        if s.dist i = intMax then []
        else if iscale ≤ s.dist i then []
        else popCalls lib A c ((arcsAt A i).foldl (relax i (s.dist i)) { s with heap := lib.pop s.dist s.heap })

/-- There is a way from `u` to `v` over arcs with total length `d`. -/
inductive Reaches (A : List (List Arc)) : Nat → Nat → ℤ → Prop
  | nil {u : Nat} : Reaches A u u 0
  | cons {u v : Nat} {d : ℤ} {a : Arc} : a ∈ arcsAt A u → Reaches A a.dest v d → Reaches A u v (a.len + d)

/-! ### The lightest edges -/

/-- The edge joins `j` and `k` and has parity `p`. -/
def joins (e : Edge) (j k : Nat) (p : Bool) : Prop := e.odd = p ∧ (e.u = j ∧ e.v = k ∨ e.u = k ∧ e.v = j)

instance (e : Edge) (j k : Nat) (p : Bool) : Decidable (joins e j k p) := by unfold joins; infer_instance

/-- Nodes exist and are different. -/
def Edge.Proper (n : Nat) (e : Edge) : Prop := e.u < n ∧ e.v < n ∧ e.u ≠ e.v

/-- `w` is the smallest weight of the edges of `es` between `j` and `k` with parity `p`, and `c` is the row of the
first edge with this weight. -/
def Lightest (es : List Edge) (j k : Nat) (p : Bool) (w : ℚ) (c : Option Nat) : Prop :=
  ∃ l r e, es = l ++ e :: r ∧ joins e j k p ∧ e.weight = w ∧ e.constr = c ∧
    (∀ f ∈ l, joins f j k p → w < f.weight) ∧ ∀ f ∈ r, joins f j k p → w ≤ f.weight

/-! ### Walks -/

/-- A walk from `a` to `b` over edges of `E`. -/
def Walk (E : Edge → Prop) : Nat → Nat → List Edge → Prop
  | a, b, [] => a = b
  | a, b, e :: l => E e ∧ (e.u = a ∧ Walk E e.v b l ∨ e.v = a ∧ Walk E e.u b l)

/-- The number of odd edges is odd. -/
def OddMany (l : List Edge) : Prop := l.countP (fun e => e.odd) % 2 = 1

/-- The weight of an edge in units of 1/10000, rounded towards zero. -/
def units (e : Edge) : ℤ := truncQ (e.weight * 10000)

/-- An odd cycle through `j`: two walks from some other node to `j`, together with an odd number of odd edges, that
touch no node more than twice; the weights in units add up to at most `10000 * weight`, which is at most 10000. -/
structure OddCycle (E : Edge → Prop) (j : Nat) (c : Cycle) : Prop where
  walk : ∃ k a b, k ≠ j ∧ c.edges = a ++ b ∧ a ≠ [] ∧ b ≠ [] ∧ Walk E k j a ∧ Walk E k j b
  odd : OddMany c.edges
  simple : ∀ v, (c.edges.map fun e => e.u).count v + (c.edges.map fun e => e.v).count v ≤ 2
  weight : ((c.edges.map units).sum : ℚ) ≤ 10000 * c.weight
  light : c.weight ≤ 1

/-- The edges of the graph as the search uses it. -/
def inGraph (g : List (List (Nat × Edge))) (e : Edge) : Prop := ∃ l ∈ g, ∃ k, (k, e) ∈ l

/-! ### Where edges come from -/

/-- A bound of a column. -/
def boundOf (I : Ilp) (j : Nat) : Side → ℤ
  | .lower => (I.bnds.getD j (0, 0)).1
  | .upper => (I.bnds.getD j (0, 0)).2

/-- The distance of the point from the bound. -/
def gap (I : Ilp) (x : Nat → ℚ) (j : Nat) : Side → ℚ
  | .lower => x j - boundOf I j .lower
  | .upper => boundOf I j .upper - x j

/-- The point is at least 1e-6 away from both bounds of the column. -/
def Away (I : Ilp) (x : Nat → ℚ) (j : Nat) : Prop := 1 / 10 ^ 6 ≤ gap I x j .lower ∧ 1 / 10 ^ 6 ≤ gap I x j .upper

instance (I : Ilp) (x : Nat → ℚ) (j : Nat) : Decidable (Away I x j) := by unfold Away; infer_instance

/-- What a bound adds to the slack: the distance, and nothing for a column that is at a bound. -/
def loss (I : Ilp) (x : Nat → ℚ) (q : Nat × Side) : ℚ := if Away I x q.1 then gap I x q.1 q.2 else 0

/-- The bound of a column that is at a bound. -/
def nearSide (I : Ilp) (x : Nat → ℚ) (j : Nat) : Side := if gap I x j .upper < 1 / 10 ^ 6 then .upper else .lower

/-- The bounds that are used: of a column at a bound only that one, of others those at most one away. -/
def Usable (I : Ilp) (x : Nat → ℚ) (q : Nat × Side) : Prop :=
  if Away I x q.1 then gap I x q.1 q.2 ≤ 1 else q.2 = nearSide I x q.1

/-- The sum of the bounds chosen. -/
def boundSum (I : Ilp) (T : List (Nat × Side)) : ℤ := (T.map fun q => boundOf I q.1 q.2).sum

/-- What the bounds chosen add to the slack. -/
def lossSum (I : Ilp) (x : Nat → ℚ) (T : List (Nat × Side)) : ℚ := (T.map (loss I x)).sum

/-- The edge comes from a row: the columns with an odd coefficient (after division by the gcd of the row) are the ends of
the edge, apart from the special node, and columns for which bounds `T` are chosen; the weight is the slack of the row
with what the bounds add; the parity is that of the right-hand side with the bounds. -/
def FromRow (I : Ilp) (x : Nat → ℚ) (e : Edge) : Prop :=
  ∃ (i : Nat) (r : IRow) (a b : Nat) (T : List (Nat × Side)), e.constr = some i ∧ I.rows[i]? = some r ∧
    (nodesOf I x)[e.u]? = some a ∧ (nodesOf I x)[e.v]? = some b ∧
    ((r.coefs.filter fun p => isOdd (p.2.tdiv (rowGcd r))).map Prod.fst).Perm
      ([a, b].filter (fun j => decide (j < I.bnds.length)) ++ T.map Prod.fst) ∧
    (∀ q ∈ T, Usable I x q) ∧ e.weight = rowSlack x r + lossSum I x T ∧
    e.odd = isOdd (r.rhs.tdiv (rowGcd r) + boundSum I T)

/-- The edge comes from a bound of a column: it joins the column and the special node. -/
def FromBound (I : Ilp) (x : Nat → ℚ) (e : Edge) : Prop :=
  ∃ (j : Nat) (t : Side), e.constr = none ∧ j < I.bnds.length ∧ Away I x j ∧
    ((nodesOf I x)[e.u]? = some j ∧ (nodesOf I x)[e.v]? = some I.bnds.length ∨
      (nodesOf I x)[e.v]? = some j ∧ (nodesOf I x)[e.u]? = some I.bnds.length) ∧
    e.weight = gap I x j t ∧ e.odd = isOdd (boundOf I j t)

/-- An edge the search ought to look at: from a bound, or from a row with any choice of usable bounds for all columns but
two; from a row with one column away from its bounds, that column and the special node. -/
def Tried (I : Ilp) (x : Nat → ℚ) (e : Edge) : Prop :=
  FromBound I x e ∨
  ∃ (i : Nat) (r : IRow) (a b : Nat) (T : List (Nat × Side)), I.rows[i]? = some r ∧
    (nodesOf I x)[e.u]? = some a ∧ (nodesOf I x)[e.v]? = some b ∧
    ((r.coefs.filter fun p => isOdd (p.2.tdiv (rowGcd r))).map Prod.fst).Perm
      ([a, b].filter (fun j => decide (j < I.bnds.length)) ++ T.map Prod.fst) ∧
    (∀ q ∈ T, Usable I x q) ∧ e.weight = rowSlack x r + lossSum I x T ∧
    e.odd = isOdd (r.rhs.tdiv (rowGcd r) + boundSum I T) ∧
    (a < I.bnds.length ∧ b < I.bnds.length ∨ ∀ q ∈ T, ¬ Away I x q.1)

/-- An edge with a meaning and a weight below 1 - 1e-4. -/
structure EdgeOK (I : Ilp) (x : Nat → ℚ) (e : Edge) : Prop where
  source : FromRow I x e ∨ FromBound I x e
  ends : e.u ≠ e.v
  light : e.weight < 1 - 1 / 10 ^ 4

/-- The rows of an integer program name every column once, and only columns that exist. -/
def Ilp.Tidy (I : Ilp) : Prop := ∀ r ∈ I.rows, (r.coefs.map Prod.fst).Nodup ∧ ∀ p ∈ r.coefs, p.1 < I.bnds.length

end Cgl.ZHSearch
