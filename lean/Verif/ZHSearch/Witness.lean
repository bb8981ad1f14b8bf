import Verif.ZHSearch.Complete
import Mathlib.Data.List.Sort

/-!
# The search of the zero-half generator: what goes wrong, and examples
-/

namespace Cgl.ZHSearch

open ZeroHalf

/-! ### A library that does what the standard says -/

/-- Sorts by key. -/
def sortKey (key : Nat → ℤ) (l : List Nat) : List Nat := l.insertionSort fun a b => key a ≤ key b

/-- Heap functions that sort. -/
def sortLib : HeapLib where
  make := sortKey
  pop := fun key l => sortKey key l.tail

theorem sortKey_perm (key : Nat → ℤ) (l : List Nat) : (sortKey key l).Perm l := List.perm_insertionSort _ l

theorem sortKey_heap (key : Nat → ℤ) (l : List Nat) : IsHeap key (sortKey key l) := by
  have hs : (sortKey key l).Pairwise fun a b => key a ≤ key b := by
    have : Std.Total (fun a b : Nat => key a ≤ key b) := ⟨fun a b => le_total _ _⟩
    have : IsTrans Nat (fun a b => key a ≤ key b) := ⟨fun a b c => le_trans⟩
    exact List.pairwise_insertionSort _ l
  intro i a b hi ha hb
  obtain ⟨h1, rfl⟩ := List.getElem?_eq_some_iff.mp ha
  obtain ⟨h2, rfl⟩ := List.getElem?_eq_some_iff.mp hb
  exact (List.pairwise_iff_getElem.mp hs) _ _ h1 h2 (by omega)

theorem sortLib_lawful : sortLib.Lawful :=
  ⟨fun key l => sortKey_perm key l, fun key l => sortKey_heap key l, fun key l => sortKey_perm key l.tail,
    fun key l _ => sortKey_heap key l.tail⟩

/-! ### Missed paths -/

theorem heap_front {key : Nat → ℤ} {l : List Nat} (h : IsHeap key l) {a : Nat} (ha : l[0]? = some a) :
    ∀ (i b : Nat), l[i]? = some b → key a ≤ key b := by
  intro i
  induction i using Nat.strong_induction_on with
  | _ i ih =>
    intro b hb
    rcases Nat.eq_zero_or_pos i with rfl | hi
    · rw [ha] at hb
      rw [Option.some.inj hb]
    · have hlt : (i - 1) / 2 < i := by omega
      have hlen : (i - 1) / 2 < l.length := by
        have := (List.getElem?_eq_some_iff.mp hb).1
        omega
      have hp := List.getElem?_eq_getElem hlen
      exact (ih _ hlt _ hp).trans (h i _ b hi hp hb)

/-- The vector at the start: the source in front. -/
theorem start_front {lib : HeapLib} (h : lib.Lawful) {n src : Nat} (hs : src < n) :
    ∃ t, (spStart lib n src).heap = src :: t ∧ t.Perm ((List.range n).erase src) := by
  have hp := h.make_perm (Function.update (fun _ => intMax) src 0) (List.range n)
  have hh := h.make_heap (Function.update (fun _ => intMax) src 0) (List.range n)
  cases hl : lib.make (Function.update (fun _ => intMax) src 0) (List.range n) with
  | nil =>
    rw [hl] at hp
    have := hp.length_eq
    rw [List.length_range] at this
    simp at this
    omega
  | cons a t =>
    rw [hl] at hp hh
    have hm : src ∈ a :: t := hp.mem_iff.mpr (List.mem_range.mpr hs)
    obtain ⟨i, hi⟩ := List.mem_iff_getElem?.mp hm
    have hle := heap_front hh rfl i src hi
    have hsa : a = src := by
      by_contra hne
      rw [Function.update_self, Function.update_of_ne hne] at hle
      unfold intMax at hle
      omega
    subst hsa
    refine ⟨t, hl, ?_⟩
    have := hp.erase a
    rw [List.erase_cons_head] at this
    exact this

theorem relax_le (i : Nat) (d : ℤ) : ∀ (l : List Arc) (s : SP) (v : Nat), (l.foldl (relax i d) s).dist v ≤ s.dist v := by
  intro l
  induction l with
  | nil => intro s v; exact le_rfl
  | cons a l ih =>
    intro s v
    refine (ih _ v).trans ?_
    unfold relax
    split
    · next h =>
      dsimp only
      by_cases hv : v = a.dest
      · rw [hv, Function.update_self]
        exact h.le
      · rw [Function.update_of_ne hv]
    · exact le_rfl

theorem relax_arc (i : Nat) (d : ℤ) : ∀ (l : List Arc) (s : SP), ∀ a ∈ l, (l.foldl (relax i d) s).dist a.dest ≤ d + a.len := by
  intro l
  induction l with
  | nil => intro s a ha; cases ha
  | cons b l ih =>
    intro s a ha
    rcases List.mem_cons.mp ha with rfl | ha
    · rw [List.foldl_cons]
      refine (relax_le i d l _ _).trans ?_
      unfold relax
      split
      · dsimp only
        rw [Function.update_self]
      · next h => exact not_lt.mp h
    · exact ih _ a ha

theorem spLoop_le (lib : HeapLib) (A : List (List Arc)) : ∀ (c : Nat) (s s' : SP), spLoop lib A c s = .ok s' →
    ∀ v, s'.dist v ≤ s.dist v := by
  intro c
  induction c with
  | zero => intro s s' h v; cases h; exact le_rfl
  | succ c ih =>
    intro s s' h v
    rw [spLoop] at h
    split at h
    · cases h
    · split at h
      · cases h; exact le_rfl
      · split at h
        · cases h; exact le_rfl
        · exact (ih _ _ h v).trans (relax_le _ _ _ _ v)

theorem inv_reaches {A : List (List Arc)} {src : Nat} {s : SP} (h : Inv A src s) {v : Nat} (hv : Up s.par src v) :
    ∃ d, Reaches A src v d ∧ d ≤ s.dist v := by
  have snoc : ∀ {u w : Nat} {d : ℤ} {a : Arc}, Reaches A u w d → a ∈ arcsAt A w → Reaches A u a.dest (d + a.len) := by
    intro u w d a hr ha
    induction hr with
    | nil =>
      have := Reaches.cons ha (Reaches.nil (A := A))
      rwa [add_comm] at this
    | cons hb _ ih =>
      rw [add_assoc]
      exact Reaches.cons hb (ih ha)
  induction hv with
  | base => exact ⟨0, Reaches.nil, h.srcDist.ge⟩
  | @step v p hp _ ih =>
    obtain ⟨d, hd, hle⟩ := ih
    obtain ⟨a, ha, rfl, hle'⟩ := h.arc v p hp
    exact ⟨_, snoc hd ha, by linarith⟩

/-- **What is true of the shortest paths** (part of "every node gets its distance"): a node that is found is at the end of
a way that is no longer than its distance says, and a node whose shortest way is one arc gets its distance.  Missing:
nodes farther away (`shortestPath_misses`). -/
theorem shortestPath_partial {lib : HeapLib} (h : lib.Lawful) {n : Nat} {es : List Edge}
    (hlen : LenOK es) {src : Nat} (hs : src < 2 * n) :
    ∃ s, shortestPath lib (auxGraph (adjacency n es)) src = .ok s ∧
      (∀ v, s.par v ≠ none → ∃ d, Reaches (auxGraph (adjacency n es)) src v d ∧ d ≤ s.dist v) ∧
      ∀ a ∈ arcsAt (auxGraph (adjacency n es)) src,
        (∀ d, Reaches (auxGraph (adjacency n es)) src a.dest d → a.len ≤ d) → s.dist a.dest = a.len := by
  have hA := good_aux (n := n) hlen
  have hAl := hA.length
  obtain ⟨s, hsp, hinv⟩ := shortestPath_inv h.keeps hA src
  generalize auxGraph (adjacency n es) = A at *
  have hreach : ∀ v, s.par v ≠ none → ∃ d, Reaches A src v d ∧ d ≤ s.dist v := by
    intro v hv
    obtain ⟨p, hp⟩ := Option.ne_none_iff_exists'.mp hv
    exact inv_reaches hinv (hinv.up v p hp)
  refine ⟨s, hsp, hreach, fun a ha hshort => ?_⟩
  have hle : s.dist a.dest ≤ a.len := by
    unfold shortestPath at hsp
    obtain ⟨t, ht, _⟩ := start_front h (n := A.length) (src := src) (by omega)
    obtain ⟨c, hc⟩ : ∃ c, A.length = c + 1 := ⟨A.length - 1, by omega⟩
    have hd0 : (spStart lib A.length src).dist src = 0 := by
      unfold spStart
      dsimp only
      rw [Function.update_self]
    generalize spStart lib A.length src = s0 at *
    rw [hc, spLoop, ht] at hsp
    dsimp only at hsp
    rw [hd0, if_neg (by decide), if_neg (by decide)] at hsp
    refine (spLoop_le lib A _ _ _ hsp _).trans ?_
    have := relax_arc src 0 (arcsAt A src) { s0 with heap := lib.pop s0.dist (src :: t) } a ha
    rwa [zero_add] at this
  refine le_antisymm hle ?_
  by_cases hp : s.par a.dest = none
  · by_cases he : a.dest = src
    · rw [he, hinv.srcDist]
      rw [he] at hshort
      exact hshort 0 Reaches.nil
    · rw [hinv.far _ he hp] at hle
      have := hA.high src a ha
      unfold intMax at hle
      omega
  · obtain ⟨d, h1, h2⟩ := hreach _ hp
    exact (hshort d h1).trans h2

/-- The edges of a way over three nodes. -/
def twoSteps (p q : Nat) : List Edge := [⟨0, p, 0, false, some 0⟩, ⟨p, q, 0, false, some 1⟩]

/-- **The shortest paths miss ways, whatever the heap functions do**: for every library that does what the standard says
there is a graph with a way of length zero from the source to a node that is never found. -/
theorem shortestPath_misses {lib : HeapLib} (h : lib.Lawful) :
    ∃ es v, (∀ e ∈ es, e.Proper 3) ∧ LenOK es ∧ Reaches (auxGraph (adjacency 3 es)) 0 v 0 ∧
      ∃ s, shortestPath lib (auxGraph (adjacency 3 es)) 0 = .ok s ∧ s.par v = none ∧ v ≠ 0 := by
  obtain ⟨t, ht, hperm⟩ := start_front h (n := 6) (src := 0) (by decide)
  have hlen : t.length = 5 := hperm.length_eq
  -- the front after the first call
  have hpop := h.pop_perm (spStart lib 6 0).dist (0 :: t)
  rw [List.tail_cons] at hpop
  cases hl : lib.pop (spStart lib 6 0).dist (0 :: t) with
  | nil =>
    rw [hl] at hpop
    have := hpop.length_eq
    rw [hlen] at this
    cases this
  | cons f t' =>
    have hf : f ∈ (List.range 6).erase 0 := by
      have : f ∈ t := hpop.mem_iff.mp (by rw [hl]; exact List.mem_cons_self ..)
      exact hperm.mem_iff.mp this
    have hf0 : f ≠ 0 := by
      intro e
      rw [e] at hf
      revert hf
      decide
    have key : ∀ p q, (p = 1 ∧ q = 2 ∨ p = 2 ∧ q = 1) → f ≠ 2 * p →
        ∃ s, shortestPath lib (auxGraph (adjacency 3 (twoSteps p q))) 0 = .ok s ∧ s.par (2 * q) = none := by
      intro p q hpq hfp
      have harcs : arcsAt (auxGraph (adjacency 3 (twoSteps p q))) 0 = [⟨2 * p, 0, ⟨0, p, 0, false, some 0⟩⟩] := by
        rcases hpq with ⟨rfl, rfl⟩ | ⟨rfl, rfl⟩ <;> decide +kernel
      have hAl : (auxGraph (adjacency 3 (twoSteps p q))).length = 6 := by
        rw [auxGraph_length]
        simp [adjacency]
      have hd0 : (spStart lib 6 0).dist 0 = 0 := by
        unfold spStart
        dsimp only
        rw [Function.update_self]
      have hdp : (spStart lib 6 0).dist (2 * p) = intMax := by
        unfold spStart
        dsimp only
        rw [Function.update_of_ne (by omega)]
      have hdf : (spStart lib 6 0).dist f = intMax := by
        unfold spStart
        dsimp only
        rw [Function.update_of_ne hf0]
      unfold shortestPath
      rw [hAl, spLoop, ht]
      dsimp only
      rw [hd0, if_neg (by decide), if_neg (by decide), harcs, List.foldl_cons, List.foldl_nil, hl]
      unfold relax
      dsimp only
      rw [if_pos (by rw [hdp]; decide)]
      rw [spLoop]
      simp only [List.cons_append]
      rw [Function.update_of_ne hfp, hdf, if_pos rfl]
      refine ⟨_, rfl, ?_⟩
      dsimp only
      rw [Function.update_of_ne (by omega)]
      rfl
    have hreach : ∀ p q, (p = 1 ∧ q = 2 ∨ p = 2 ∧ q = 1) → Reaches (auxGraph (adjacency 3 (twoSteps p q))) 0 (2 * q) 0 := by
      intro p q hpq
      have h1 : (⟨2 * p, 0, ⟨0, p, 0, false, some 0⟩⟩ : Arc) ∈ arcsAt (auxGraph (adjacency 3 (twoSteps p q))) 0 := by
        rcases hpq with ⟨rfl, rfl⟩ | ⟨rfl, rfl⟩ <;> decide +kernel
      have h2 : (⟨2 * q, 0, ⟨p, q, 0, false, some 1⟩⟩ : Arc) ∈ arcsAt (auxGraph (adjacency 3 (twoSteps p q))) (2 * p) := by
        rcases hpq with ⟨rfl, rfl⟩ | ⟨rfl, rfl⟩ <;> decide +kernel
      exact Reaches.cons h1 (Reaches.cons h2 Reaches.nil)
    have hprop : ∀ p q, (p = 1 ∧ q = 2 ∨ p = 2 ∧ q = 1) → (∀ e ∈ twoSteps p q, e.Proper 3) ∧ LenOK (twoSteps p q) := by
      intro p q hpq
      constructor
      · intro e he
        unfold twoSteps at he
        rcases List.mem_cons.mp he with rfl | he
        · exact ⟨by dsimp only; omega, by dsimp only; omega, by dsimp only; omega⟩
        · obtain rfl := List.mem_singleton.mp he
          exact ⟨by dsimp only; omega, by dsimp only; omega, by dsimp only; omega⟩
      · intro e he
        unfold twoSteps at he
        have hw : e.weight = 0 := by
          rcases List.mem_cons.mp he with rfl | he
          · rfl
          · obtain rfl := List.mem_singleton.mp he
            rfl
        have hu : units e = 0 := by
          unfold units
          rw [hw]
          decide +kernel
        rw [hu]
        decide
    by_cases hc : f = 2
    · have hpq : (2 = 1 ∧ 1 = 2 ∨ 2 = 2 ∧ 1 = 1) := by decide
      obtain ⟨s, h1, h2⟩ := key 2 1 hpq (by omega)
      exact ⟨twoSteps 2 1, 2, (hprop 2 1 hpq).1, (hprop 2 1 hpq).2, hreach 2 1 hpq, s, h1, h2, by decide⟩
    · have hpq : (1 = 1 ∧ 2 = 2 ∨ 1 = 2 ∧ 2 = 1) := by decide
      obtain ⟨s, h1, h2⟩ := key 1 2 hpq (by omega)
      exact ⟨twoSteps 1 2, 4, (hprop 1 2 hpq).1, (hprop 1 2 hpq).2, hreach 1 2 hpq, s, h1, h2, by decide⟩

/-! ### A vector that is no heap -/

/-- A column with an odd lower bound, and a row far from tight. -/
def oneI : Ilp where
  bnds := [(1, 10)]
  rows := [⟨[(0, 1)], 10, false⟩]

/-- The column is half way between 1 and 2. -/
def oneX : Nat → ℚ := fun _ => 3 / 2

/-- The edge of the lower bound. -/
def oneEdge : Edge := ⟨0, 1, 1 / 2, true, none⟩

example : offers {} oneI oneX = .ok [oneEdge] ∧ (nodesOf oneI oneX).length = 2 := by decide +kernel

/-- **The heap functions are called with vectors that are no heaps**, whatever they do: for every library that does what
the standard says, the second call of `std::pop_heap` breaks its precondition, already for one column. -/
theorem popHeap_precondition {lib : HeapLib} (h : lib.Lawful) :
    ∃ call ∈ popCalls lib (auxGraph (adjacency 2 [oneEdge])) 4 (spStart lib 4 0), ¬ IsHeap call.1 call.2 := by
  obtain ⟨t, ht, hperm⟩ := start_front h (n := 4) (src := 0) (by decide)
  have hpop := h.pop_perm (spStart lib 4 0).dist (0 :: t)
  rw [List.tail_cons] at hpop
  have hp2 := hpop.trans hperm
  have harcs : arcsAt (auxGraph (adjacency 2 [oneEdge])) 0 = [⟨3, 5000, oneEdge⟩] := by decide +kernel
  have hd0 : (spStart lib 4 0).dist 0 = 0 := by
    unfold spStart
    dsimp only
    rw [Function.update_self]
  have hd : ∀ v, v ≠ 0 → (spStart lib 4 0).dist v = intMax := by
    intro v hv
    unfold spStart
    dsimp only
    rw [Function.update_of_ne hv]
  have herase : (List.range 4).erase 0 = [1, 2, 3] := by decide
  rw [herase] at hp2
  generalize hl : lib.pop (spStart lib 4 0).dist (0 :: t) = l at hp2
  have hlen : l.length = 3 := hp2.length_eq
  match l, hlen with
  | [a, b, c], _ =>
    have hmem : ∀ v ∈ [a, b, c], v ≠ 0 := by
      intro v hv
      have := hp2.mem_iff.mp hv
      intro e
      rw [e] at this
      revert this
      decide
    have ha := hmem a (by simp)
    have hb := hmem b (by simp)
    have hnd : [a, b, c].Nodup := hp2.nodup_iff.mpr (by decide)
    have hab : a ≠ b := by
      intro e
      rw [e] at hnd
      simp at hnd
    rw [popCalls, ht]
    dsimp only
    rw [hd0, if_neg (by decide), if_neg (by decide), harcs, List.foldl_cons, List.foldl_nil, hl]
    unfold relax
    dsimp only
    rw [if_pos (by rw [hd 3 (by decide)]; decide)]
    rw [popCalls]
    simp only [List.cons_append, List.nil_append]
    refine ⟨_, List.mem_cons_of_mem _ (List.mem_cons_self ..), ?_⟩
    dsimp only
    intro hh
    by_cases hb3 : b = 3
    · have := hh 1 a b (by decide) rfl rfl
      rw [hb3, Function.update_self, Function.update_of_ne (by omega), hd a ha] at this
      unfold intMax at this
      omega
    · have := hh 3 b 3 (by decide) rfl rfl
      rw [Function.update_self, Function.update_of_ne hb3, hd b hb] at this
      unfold intMax at this
      omega

/-! ### A violated cut that is missed -/

/-- Three columns between 0 and 1, no two of which are 1 together. -/
def triI : Ilp where
  bnds := [(0, 1), (0, 1), (0, 1)]
  rows := [⟨[(0, 1), (1, 1)], 1, false⟩, ⟨[(1, 1), (2, 1)], 1, false⟩, ⟨[(0, 1), (2, 1)], 1, false⟩]

/-- All columns at one half. -/
def half : Nat → ℚ := fun _ => 1 / 2

/-- The odd cycle of the three rows. -/
def triCycle : Cycle where
  weight := 0
  edges := [⟨0, 1, 0, true, some 0⟩, ⟨1, 2, 0, true, some 1⟩, ⟨0, 2, 0, true, some 2⟩]

/-- The edges offered for the three rows. -/
def triOffers : List Edge := [⟨0, 1, 0, true, some 0⟩, ⟨1, 2, 0, true, some 1⟩, ⟨0, 2, 0, true, some 2⟩,
  ⟨0, 3, 1 / 2, false, none⟩, ⟨0, 3, 1 / 2, true, none⟩, ⟨1, 3, 1 / 2, false, none⟩, ⟨1, 3, 1 / 2, true, none⟩,
  ⟨2, 3, 1 / 2, false, none⟩, ⟨2, 3, 1 / 2, true, none⟩]

theorem triOffers_eq : offers {} triI half = .ok triOffers := by decide +kernel

theorem tri_tidy : Ilp.Tidy triI := by
  unfold Ilp.Tidy
  decide +kernel

/-- What the search finds with this library: cycles of the two bounds of a column. -/
theorem tri_search : (search sortLib {} triI half).toOption.map rowsOf = some [[[]], [[]], [[]], [[], [], []]] := by
  decide +kernel

/-- The three rows are an odd cycle of weight zero in the graph of the search. -/
theorem tri_oddCycle : OddCycle (GraphEdge {} triI half) 0 triCycle := by
  have hE : ∀ e ∈ triCycle.edges, GraphEdge {} triI half e := by
    intro e he
    have hb : bestOf triOffers e.u e.v e.odd = some e := by
      revert e
      decide +kernel
    have hl : e.u < 4 ∧ e.v < 4 ∧ e.u ≠ e.v := by
      revert e
      decide +kernel
    exact kept_graphEdge (n := 4) tri_tidy triOffers_eq ⟨e.u, e.v, e.odd, hl.1, hl.2.1, hl.2.2, hb⟩
  refine ⟨⟨1, [⟨0, 1, 0, true, some 0⟩], [⟨1, 2, 0, true, some 1⟩, ⟨0, 2, 0, true, some 2⟩], by decide, rfl, by simp, by simp, ?_, ?_⟩, ?_, ?_, ?_, ?_⟩
  · exact ⟨hE _ (by simp [triCycle]), Or.inr ⟨rfl, rfl⟩⟩
  · exact ⟨hE _ (by simp [triCycle]), Or.inl ⟨rfl, hE _ (by simp [triCycle]), Or.inr ⟨rfl, rfl⟩⟩⟩
  · unfold OddMany
    decide +kernel
  · intro v
    by_cases hv : v < 3
    · have h3 : v = 0 ∨ v = 1 ∨ v = 2 := by omega
      rcases h3 with rfl | rfl | rfl <;> decide +kernel
    · have h1 : v ∉ triCycle.edges.map fun e => e.u := by
        intro hm
        have : v ∈ [0, 1, 0] := hm
        simp at this
        omega
      have h2 : v ∉ triCycle.edges.map fun e => e.v := by
        intro hm
        have : v ∈ [1, 2, 2] := hm
        simp at this
        omega
      rw [List.count_eq_zero_of_not_mem h1, List.count_eq_zero_of_not_mem h2]
      omega
  · decide +kernel
  · decide +kernel

/-- **A violated cut is missed**: a library that does what the standard says, a problem, a point and an odd cycle of weight
zero in the graph of the search whose rows give a cut violated by one half; the search finds no cycle with a row in it,
and the generator no cut. -/
theorem search_misses : ∃ (lib : HeapLib) (I : Ilp) (x : Nat → ℚ) (c : Cycle) (z : ZCut) (ls : List (List Cycle)),
    lib.Lawful ∧ Ilp.Tidy I ∧ OddCycle (GraphEdge {} I x) 0 c ∧ c.weight = 0 ∧
      getCut I x (cycleRows c) = .ok (.cut z) ∧ z.violation x = 1 / 2 ∧
      search lib {} I x = .ok ls ∧ (∀ l ∈ ls, ∀ d ∈ l, cycleRows d = []) ∧
      separate ⟨rowsOf ls, fun _ => false⟩ I x = .ok [] := by
  cases hs : search sortLib {} triI half with
  | error f =>
    have := tri_search
    rw [hs] at this
    cases this
  | ok ls =>
    have hr : rowsOf ls = [[[]], [[]], [[]], [[], [], []]] := by
      have := tri_search
      rw [hs] at this
      exact Option.some.inj this
    refine ⟨sortLib, triI, half, triCycle, ⟨[(0, 1), (1, 1), (2, 1)], 1⟩, ls, sortLib_lawful, tri_tidy, tri_oddCycle, rfl,
      ?_, by decide +kernel, hs, ?_, ?_⟩
    · decide +kernel
    · intro l hl d hd
      have h1 : cycleRows d ∈ l.map cycleRows := List.mem_map.mpr ⟨d, hd, rfl⟩
      have h2 : l.map cycleRows ∈ rowsOf ls := List.mem_map.mpr ⟨l, hl, rfl⟩
      rw [hr] at h2
      generalize l.map cycleRows = m at h1 h2
      generalize cycleRows d = k at h1
      revert k
      revert m
      decide +kernel
    · rw [hr]
      decide +kernel

/-! ### Examples -/

/-- The hypotheses of `search_cycles` and `search_storage`. -/
example : sortLib.Keeps ∧ Ilp.Tidy triI ∧ triI.bnds.length < 2 ^ 31 ∧ ∀ r ∈ triI.rows, r.coefs.length ≤ 46341 :=
  ⟨sortLib_lawful.keeps, tri_tidy, by decide, by decide +kernel⟩

/-- An edge as in `graph_lightest`: the second row, nothing weakened. -/
example : Tried triI half ⟨1, 2, 0, true, some 1⟩ := by
  refine Or.inr ⟨1, ⟨[(1, 1), (2, 1)], 1, false⟩, 1, 2, [], rfl, by decide +kernel, by decide +kernel, by decide +kernel, ?_,
    by decide +kernel, by decide +kernel, Or.inl (by decide +kernel)⟩
  intro q hq
  cases hq

/-- The hash table is used when the limit says so. -/
example : useSparse {} 4 = false ∧ useSparse { sparse := 0 } 4 = true := by decide +kernel

/-- Row `x_0 + … + x_{2k-1} ≤ k`. -/
def longRow (k : Nat) : IRow := ⟨(List.range (2 * k)).map fun j => (j, 1), k, false⟩

/-- A problem with one long row, all columns between 0 and 1. -/
def longI (k : Nat) : Ilp where
  bnds := List.replicate (2 * k) (0, 1)
  rows := [longRow k]

theorem gcd_ones : ∀ (l : List (Nat × ℤ)), (∀ p ∈ l, p.2 = 1) → l.foldl (fun g p => ((Int.gcd g p.2 : ℕ) : ℤ)) 1 = 1 := by
  intro l
  induction l with
  | nil => intro _; rfl
  | cons p l ih =>
    intro h
    rw [List.foldl_cons, h p (List.mem_cons_self ..)]
    exact ih fun q hq => h q (List.mem_cons_of_mem _ hq)

theorem gcd_ones' (l : List (Nat × ℤ)) (h : ∀ p ∈ l, p.2 = 1) (hl : l ≠ []) (z : ℤ) :
    l.foldl (fun g p => ((Int.gcd g p.2 : ℕ) : ℤ)) z = 1 := by
  cases l with
  | nil => exact absurd rfl hl
  | cons p l =>
    rw [List.foldl_cons, h p (List.mem_cons_self ..), Int.gcd_one_right]
    exact gcd_ones l fun q hq => h q (List.mem_cons_of_mem _ hq)

/-- The hypotheses of `search_overflow`: a problem with one row of 46342 columns or more. -/
theorem long_overflow {k : Nat} (hk : 23171 ≤ k) : ∃ p ∈ parityRows (longI k) half, p.deleted = false ∧ 46342 ≤ p.cols.length := by
  have hcoef : ∀ p ∈ (longRow k).coefs, p.2 = 1 := by
    intro p hp
    obtain ⟨j, _, rfl⟩ := List.mem_map.mp hp
    rfl
  have hg : rowGcd (longRow k) = 1 := gcd_ones' (longRow k).coefs hcoef (by
    intro e
    have := congrArg List.length e
    unfold longRow at this
    simp at this
    omega) _
  have hodd : oddEntries (longRow k) = List.range (2 * k) := by
    unfold oddEntries
    rw [hg, List.filter_eq_self.mpr]
    · unfold longRow
      dsimp only
      rw [List.map_map]
      exact List.map_id _
    · intro p hp
      rw [hcoef p hp]
      decide
  have hcols : (oddEntries (longRow k)).filter (fun j => !colDeleted (longI k) half j) = List.range (2 * k) := by
    rw [hodd, List.filter_eq_self.mpr]
    intro j hj
    have hb : bnd (longI k).bnds j = (0, 1) := by
      unfold bnd longI
      dsimp only
      rw [List.getD_eq_getElem?_getD, List.getElem?_replicate, if_pos (List.mem_range.mp hj)]
      rfl
    unfold colDeleted
    rw [hb]
    unfold half zeroTol
    norm_num
  have hslack : rowSlack half (longRow k) = 0 := by
    have hd : idot (longRow k).coefs half = k := by
      unfold idot longRow half
      rw [List.map_map]
      have : ((fun p : Nat × ℤ => (p.2 : ℚ) * (1 / 2)) ∘ fun j : Nat => (j, (1 : ℤ))) = fun _ => (1 / 2 : ℚ) := by
        funext j
        simp
      rw [this, List.map_const', List.sum_replicate, List.length_range, nsmul_eq_mul]
      push_cast
      ring
    unfold rowSlack
    rw [hd]
    unfold longRow zeroTol
    norm_num
  refine ⟨parRow (longI k) half (longRow k), ?_, ?_, ?_⟩
  · have : parityRows (longI k) half = [parRow (longI k) half (longRow k)] := rfl
    rw [this]
    exact List.mem_singleton_self _
  · unfold parRow
    dsimp only
    rw [hcols, hslack]
    have h1 : ¬ maxSlack < 0 := by decide +kernel
    have h2 : (List.range (2 * k)).isEmpty = false := by
      rw [List.isEmpty_eq_false_iff]
      intro e
      have := congrArg List.length e
      rw [List.length_range, List.length_nil] at this
      omega
    rw [h2, decide_eq_false h1, Bool.or_false]
  · unfold parRow
    dsimp only
    rw [hcols, List.length_range]
    omega

example (lib : HeapLib) (lim : Limits) : search lib lim (longI 23171) half = .error .overflow := by
  obtain ⟨p, h1, h2, h3⟩ := long_overflow (le_refl 23171)
  exact search_overflow lib lim _ _ h1 h2 h3

end Cgl.ZHSearch
