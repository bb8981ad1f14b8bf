import Verif.Conflict.Model

/-!
# What is assumed about the conflict graph and about the CoinUtils classes, and what is claimed

`Respects`, `SoundFor` and `Binary` say what the conflict graph means; `BKEnv.OK`, `OWEnv.OK` and `StrEnv.OK` are the
documented contracts of the external searches.
-/

namespace Cgl.Conflict

/-- Whether the literal of a node is true, false, or neither at `x`. -/
def ZeroOne (n : Nat) (x : Nat → ℚ) (u : Nat) : Prop := lit n x u = 0 ∨ lit n x u = 1

/-- `x` respects the conflict graph: the columns of two conflicting nodes are 0 or 1, and the two literals are not
both true. -/
def Respects (G : Graph) (x : Nat → ℚ) : Prop :=
  ∀ u < 2 * G.nCols, ∀ v < 2 * G.nCols, G.adj u v = true →
    ZeroOne G.nCols x u ∧ ZeroOne G.nCols x v ∧ ¬(lit G.nCols x u = 1 ∧ lit G.nCols x v = 1)

instance (n : Nat) (x : Nat → ℚ) (u : Nat) : Decidable (ZeroOne n x u) := by unfold ZeroOne; infer_instance
instance (G : Graph) (x : Nat → ℚ) : Decidable (Respects G x) := by unfold Respects; infer_instance

/-- The graph is a conflict graph of the problem: every feasible point respects it. -/
def Graph.SoundFor (G : Graph) (P : Prob) : Prop := ∀ x, P.Feasible x → Respects G x

/-- A clique of the graph, without repetitions. -/
structure IsClique (G : Graph) (C : List Nat) : Prop where
  nodup : C.Nodup
  nodes : ∀ u ∈ C, u < 2 * G.nCols
  adj : ∀ u ∈ C, ∀ v ∈ C, u ≠ v → G.adj u v = true

instance (G : Graph) (C : List Nat) : Decidable (IsClique G C) :=
  decidable_of_iff (C.Nodup ∧ (∀ u ∈ C, u < 2 * G.nCols) ∧ ∀ u ∈ C, ∀ v ∈ C, u ≠ v → G.adj u v = true)
    ⟨fun h => ⟨h.1, h.2.1, h.2.2⟩, fun h => ⟨h.1, h.2, h.3⟩⟩

/-- `S` is an extension of `C`: it contains `C`, and every node it adds conflicts with all others
(`CoinCliqueExtender::extendClique`). -/
structure Extends (G : Graph) (C S : List Nat) : Prop where
  nodup : S.Nodup
  nodes : ∀ u ∈ S, u < 2 * G.nCols
  sub : ∀ u ∈ C, u ∈ S
  adj : ∀ u ∈ S, ∀ v ∈ S, u ≠ v → (u ∉ C ∨ v ∉ C) → G.adj u v = true

instance (G : Graph) (C S : List Nat) : Decidable (Extends G C S) :=
  decidable_of_iff (S.Nodup ∧ (∀ u ∈ S, u < 2 * G.nCols) ∧ (∀ u ∈ C, u ∈ S) ∧
      ∀ u ∈ S, ∀ v ∈ S, u ≠ v → (u ∉ C ∨ v ∉ C) → G.adj u v = true)
    ⟨fun h => ⟨h.1, h.2.1, h.2.2.1, h.2.2.2⟩, fun h => ⟨h.1, h.2, h.3, h.4⟩⟩

/-- The cut pool only selects among the cuts it was given and may reorder the entries of a cut (`CoinCutPool`). -/
def PoolOK (pool : List (SVec × ℚ) → List (SVec × ℚ)) : Prop :=
  ∀ l, ∀ c ∈ pool l, ∃ d ∈ l, c.1.Perm d.1 ∧ c.2 = d.2

/-- A clique found by the search on the induced subgraph: at least one position, distinct positions, pairwise conflicting nodes, total
weight at least the minimum (`CoinBronKerbosch`). -/
structure FoundClique (G : Graph) (minWeight : ℚ) (nodes : List (Nat × ℚ)) (c : List Nat) : Prop where
  nonempty : c ≠ []
  nodup : c.Nodup
  range : ∀ i ∈ c, i < nodes.length
  adj : ∀ i ∈ c, ∀ j ∈ c, i ≠ j → ∀ p q, nodes[i]? = some p → nodes[j]? = some q → G.adj p.1 q.1 = true
  weight : minWeight ≤ (c.map fun i => ((nodes[i]?).getD (0, 0)).2).sum

/-- The contracts of the classes `CglBKClique` uses. -/
structure BKEnv.OK (env : BKEnv) (G : Graph) : Prop where
  top : ∀ m l, (env.top m l).Subperm l
  bk : ∀ k w nodes, ∀ c ∈ (env.bk k w nodes).1, FoundClique G w nodes c
  ext : ∀ k C S, IsClique G C → env.ext k C = some S → Extends G C S
  pool : PoolOK env.pool

/-- An odd wheel: an odd cycle, and a clique of centre nodes that conflict with every node of the cycle; the right-hand
side is half the size of the cycle, rounded down (`CoinOddWheelSeparator`). -/
structure IsWheel (G : Graph) (w : Wheel) : Prop where
  size : 5 ≤ w.hole.length
  odd : w.hole.length % 2 = 1
  holeNodes : ∀ u ∈ w.hole, u < 2 * G.nCols
  cycle : ∀ i < w.hole.length, ∀ u v, w.hole[i]? = some u → w.hole[(i + 1) % w.hole.length]? = some v →
    G.adj u v = true
  center : IsClique G w.center
  spokes : ∀ c ∈ w.center, ∀ u ∈ w.hole, G.adj c u = true
  rhs : w.rhs = ((w.hole.length / 2 : ℕ) : ℚ)

/-- The contracts of the classes `CglOddWheel` uses. -/
structure OWEnv.OK (env : OWEnv) (G : Graph) : Prop where
  wheels : ∀ e t, ∀ w ∈ env.wheels e t, IsWheel G w
  pool : PoolOK env.pool

/-- The contract of the clique extender in `CglCliqueStrengthening`. -/
structure StrEnv.OK (env : StrEnv) (G : Graph) : Prop where
  ext : ∀ k C S, env.ext k C = some S → Extends G C S

/-- The names of the rows leave room for the suffixes `_ext` and `_dup` in 256 characters. -/
def StrEnv.ShortNames (env : StrEnv) : Prop := ∀ i, env.nameLen i + 9 ≤ 256

/-- Only columns with bounds in {0, 1} have conflicts. -/
def Graph.Binary (G : Graph) (P : Prob) : Prop :=
  ∀ u < 2 * G.nCols, ∀ v < 2 * G.nCols, G.adj u v = true →
    isBinary P (if u < G.nCols then u else u - G.nCols) = true

instance (G : Graph) (P : Prob) : Decidable (G.Binary P) := by unfold Graph.Binary; infer_instance

/-- The literal form of a row: nodes and coefficients with negative coefficients complemented. -/
def litForm (P : Prob) (r : Row) : List (Nat × ℚ) :=
  r.coefs.map fun p => (nodeOf P.nCols p.1 (p.2 * multOf r P.inf), sizeOf (p.2 * multOf r P.inf))

/-- The right-hand side of the literal form. -/
def litRhs (P : Prob) (r : Row) : ℚ :=
  multOf r P.inf * (r.senseRhs P.inf).2 + (r.coefs.map fun p => rhsOf (p.2 * multOf r P.inf)).sum

/-- The coefficients of the row are either equal or at least 1e-6 apart in size, and none is tiny. -/
def Spread (P : Prob) (r : Row) : Prop :=
  ∀ p ∈ litForm P r, 0 ≤ p.2 ∧ p.2 + strEps ≤ dblMax ∧ ∀ q ∈ litForm P r, p.2 < q.2 → p.2 + strEps ≤ q.2

instance (P : Prob) (r : Row) : Decidable (Spread P r) := by unfold Spread; infer_instance

/-- The row allows each of its literals alone (and none at all), so it says no more than "at most one". -/
def Packing (P : Prob) (r : Row) : Prop := 0 ≤ litRhs P r ∧ ∀ p ∈ litForm P r, p.2 ≤ litRhs P r

instance (P : Prob) (r : Row) : Decidable (Packing P r) := by unfold Packing; infer_instance

/-- A fresh or used `CglBKClique`: everything reachable by construction, copies, setters and calls. -/
inductive BKObj.Reached : BKObj → Prop
  | init : Reached .init
  | copy {o} : Reached o → Reached o.copy
  | minViol {o} (v) : Reached o → Reached (o.setMinViol v)
  | minFrac {o} (v) : Reached o → Reached (o.setMinFrac v)
  | maxCalls {o} (v) : Reached o → Reached (o.setMaxCalls v)
  | maxSeconds {o} (v) : Reached o → Reached (o.setMaxSeconds v)
  | maxInduced {o} (v) : Reached o → Reached (o.setMaxInduced v)
  | extMethod {o o'} (v) : Reached o → o.setExtMethod v = .ok o' → Reached o'
  | generate {o o'} (env P G x cs cs') : Reached o → bkGenerate env P G x o cs = .ok (o', cs') → Reached o'

end Cgl.Conflict
