import Verif.ZHSearch.Store
import Mathlib.Data.List.Perm.Subperm

/-!
# The paths of the search

`Good` says what every auxiliary graph of the search looks like, also after nodes were cancelled.  `Inv` is an invariant
of the label-correcting loop; it needs nothing of the heap functions except that no entry gets lost.
-/

namespace Cgl.ZHSearch

open ZeroHalf

/-! ### The auxiliary graph -/

/-- The parity of a step between two nodes of the auxiliary graph. -/
def stepOdd (v w : Nat) : Bool := decide (v % 2 ≠ w % 2)

/-- An auxiliary graph for the edges `es`. -/
structure Good (n : Nat) (es : List Edge) (A : List (List Arc)) : Prop where
  length : A.length = 2 * n
  src : ∀ v a, a ∈ arcsAt A v → v < 2 * n
  dest : ∀ v a, a ∈ arcsAt A v → a.dest < 2 * n
  other : ∀ v a, a ∈ arcsAt A v → a.dest / 2 ≠ v / 2
  best : ∀ v a, a ∈ arcsAt A v → bestOf es (v / 2) (a.dest / 2) (stepOdd v a.dest) = some a.edge
  low : ∀ v a, a ∈ arcsAt A v → units a.edge ≤ a.len
  nonneg : ∀ v a, a ∈ arcsAt A v → 0 ≤ a.len
  high : ∀ v a, a ∈ arcsAt A v → a.len ≤ 10000
  twin : ∀ v a, a ∈ arcsAt A v → ∃ b ∈ arcsAt A (mate v), b.dest = mate a.dest

theorem mate_mate (v : Nat) : mate (mate v) = v := by
  unfold mate
  split <;> split <;> omega

theorem mate_inj {v w : Nat} (h : mate v = mate w) : v = w := by rw [← mate_mate v, h, mate_mate]

theorem mate_half (v : Nat) : mate v / 2 = v / 2 := by
  unfold mate
  split <;> omega

theorem mate_mod (v : Nat) : mate v % 2 = 1 - v % 2 := by
  unfold mate
  split <;> omega

theorem stepOdd_mate (v w : Nat) : stepOdd (mate v) (mate w) = stepOdd v w := by
  unfold stepOdd
  rw [mate_mod, mate_mod]
  apply decide_eq_decide.mpr
  have := Nat.mod_lt v (show 0 < 2 by decide)
  have := Nat.mod_lt w (show 0 < 2 by decide)
  omega

theorem arcEdge_eq {n : Nat} {es : List Edge} {A : List (List Arc)} (h : Good n es A) {v w : Nat} {a : Arc}
    (ha : a ∈ arcsAt A v) (hw : a.dest = w) : arcEdge A v w = some a.edge := by
  unfold arcEdge
  cases hf : (arcsAt A v).find? fun a => decide (a.dest = w) with
  | none =>
    have := List.find?_eq_none.mp hf a ha
    simp [hw] at this
  | some b =>
    have hb := List.mem_of_find?_eq_some hf
    have hd : b.dest = w := by simpa using List.find?_some hf
    have h1 := h.best v a ha
    have h2 := h.best v b hb
    rw [hw] at h1
    rw [hd, h1] at h2
    simp only [Option.map_some]
    exact h2.symm

theorem arcEdge_mate {n : Nat} {es : List Edge} {A : List (List Arc)} (h : Good n es A) {v w : Nat} {a : Arc}
    (ha : a ∈ arcsAt A v) (hw : a.dest = w) : arcEdge A (mate v) (mate w) = some a.edge := by
  obtain ⟨b, hb, hbd⟩ := h.twin v a ha
  have h1 := h.best v a ha
  have h2 := h.best (mate v) b hb
  rw [hbd, stepOdd_mate, mate_half, mate_half, h1] at h2
  rw [arcEdge_eq h hb (by rw [hbd, hw]), Option.some.inj h2]

/-! ### The loop -/

/-- The node reaches the source over `par`. -/
inductive Up (par : Nat → Option Nat) (src : Nat) : Nat → Prop
  | base : Up par src src
  | step {v p : Nat} : par v = some p → Up par src p → Up par src v

/-- The invariant of the loop. -/
structure Inv (A : List (List Arc)) (src : Nat) (s : SP) : Prop where
  srcDist : s.dist src = 0
  srcPar : s.par src = none
  nonneg : ∀ v, 0 ≤ s.dist v
  arc : ∀ v p, s.par v = some p → ∃ a ∈ arcsAt A p, a.dest = v ∧ s.dist p + a.len ≤ s.dist v
  up : ∀ v p, s.par v = some p → Up s.par src v
  high : ∀ v p, s.par v = some p → s.dist v < 20000
  far : ∀ v, v ≠ src → s.par v = none → s.dist v = intMax

theorem up_update {A : List (List Arc)} {src : Nat} {s : SP} (h : Inv A src s) (hA : ∀ v a, a ∈ arcsAt A v → 0 ≤ a.len)
    {w i : Nat} : ∀ v, Up s.par src v → s.dist v < s.dist w → Up (Function.update s.par w (some i)) src v := by
  intro v hv
  induction hv with
  | base => intro _; exact Up.base
  | @step v p hp _ ih =>
    intro hlt
    obtain ⟨a, ha, _, hle⟩ := h.arc v p hp
    have h0 := hA p a ha
    refine Up.step (p := p) ?_ (ih (by omega))
    rw [Function.update_of_ne]
    · exact hp
    · rintro rfl
      exact lt_irrefl _ hlt

theorem up_keep {par : Nat → Option Nat} {src w i : Nat} (hw : w ≠ src)
    (hi : Up (Function.update par w (some i)) src i) :
    ∀ v, Up par src v → Up (Function.update par w (some i)) src v := by
  intro v hv
  induction hv with
  | base => exact Up.base
  | @step v p hp _ ih =>
    by_cases hvw : v = w
    · subst hvw
      exact Up.step (by rw [Function.update_self]) hi
    · exact Up.step (by rw [Function.update_of_ne hvw]; exact hp) ih

theorem relax_inv {n : Nat} {es : List Edge} {A : List (List Arc)} (hA : Good n es A) {src i : Nat} {s : SP} {a : Arc}
    (h : Inv A src s) (ha : a ∈ arcsAt A i) (hi : s.dist i < 10000) :
    Inv A src (relax i (s.dist i) s a) ∧ (relax i (s.dist i) s a).dist i = s.dist i ∧
      s.heap.length ≤ (relax i (s.dist i) s a).heap.length := by
  unfold relax
  by_cases hr : s.dist i + a.len < s.dist a.dest
  · rw [if_pos hr]
    have hlen := hA.nonneg i a ha
    have hhigh := hA.high i a ha
    have hne : a.dest ≠ i := by
      intro e
      exact hA.other i a ha (by rw [e])
    have hsrc : a.dest ≠ src := by
      intro e
      rw [e, h.srcDist] at hr
      have := h.nonneg i
      omega
    have hupi : Up s.par src i := by
      by_cases his : i = src
      · rw [his]; exact Up.base
      · cases hp : s.par i with
        | none =>
          have := h.far i his hp
          unfold intMax at this
          omega
        | some p => exact h.up i p hp
    have hupi' : Up (Function.update s.par a.dest (some i)) src i :=
      up_update h hA.nonneg i hupi (by omega)
    refine ⟨⟨?_, ?_, ?_, ?_, ?_, ?_, ?_⟩, ?_, ?_⟩
    · dsimp only
      rw [Function.update_of_ne (Ne.symm hsrc)]; exact h.srcDist
    · dsimp only
      rw [Function.update_of_ne (Ne.symm hsrc)]; exact h.srcPar
    · intro v
      dsimp only
      by_cases hv : v = a.dest
      · rw [hv, Function.update_self]
        have := h.nonneg i
        omega
      · rw [Function.update_of_ne hv]; exact h.nonneg v
    · intro v p hp
      dsimp only at hp ⊢
      by_cases hv : v = a.dest
      · subst hv
        rw [Function.update_self] at hp
        obtain rfl := Option.some.inj hp
        refine ⟨a, ha, rfl, ?_⟩
        rw [Function.update_self, Function.update_of_ne (Ne.symm hne)]
      · rw [Function.update_of_ne hv] at hp
        obtain ⟨b, hb, hbd, hble⟩ := h.arc v p hp
        refine ⟨b, hb, hbd, ?_⟩
        rw [Function.update_of_ne hv]
        by_cases hpd : p = a.dest
        · rw [hpd, Function.update_self]
          rw [hpd] at hble
          omega
        · rw [Function.update_of_ne hpd]; exact hble
    · intro v p hp
      dsimp only at hp ⊢
      by_cases hv : v = a.dest
      · subst hv
        exact Up.step (by rw [Function.update_self]) hupi'
      · rw [Function.update_of_ne hv] at hp
        exact up_keep hsrc hupi' v (h.up v p hp)
    · intro v p hp
      dsimp only at hp ⊢
      by_cases hv : v = a.dest
      · rw [hv, Function.update_self]
        omega
      · rw [Function.update_of_ne hv] at hp ⊢
        exact h.high v p hp
    · intro v hvs hp
      dsimp only at hp ⊢
      by_cases hv : v = a.dest
      · subst hv
        rw [Function.update_self] at hp
        cases hp
      · rw [Function.update_of_ne hv] at hp ⊢
        exact h.far v hvs hp
    · dsimp only
      rw [Function.update_of_ne (Ne.symm hne)]
    · dsimp only
      rw [List.length_append]
      omega
  · rw [if_neg hr]
    exact ⟨h, rfl, le_rfl⟩

theorem relaxAll_inv {n : Nat} {es : List Edge} {A : List (List Arc)} (hA : Good n es A) {src i : Nat} (d : ℤ) (hd : d < 10000) :
    ∀ (l : List Arc) (s : SP), (∀ a ∈ l, a ∈ arcsAt A i) → s.dist i = d → Inv A src s →
      Inv A src (l.foldl (relax i d) s) ∧ s.heap.length ≤ (l.foldl (relax i d) s).heap.length := by
  intro l
  induction l with
  | nil => intro s _ _ h; exact ⟨h, le_rfl⟩
  | cons a l ih =>
    intro s hl hs h
    obtain ⟨h1, h2, h3⟩ := relax_inv hA h (hl a (List.mem_cons_self ..)) (by rw [hs]; exact hd)
    rw [hs] at h1 h2 h3
    rw [List.foldl_cons]
    obtain ⟨h4, h5⟩ := ih _ (fun b hb => hl b (List.mem_cons_of_mem _ hb)) h2 h1
    exact ⟨h4, h3.trans h5⟩

theorem inv_heap {A : List (List Arc)} {src : Nat} {s : SP} {l : List Nat} (h : Inv A src s) : Inv A src { s with heap := l } :=
  ⟨h.srcDist, h.srcPar, h.nonneg, h.arc, h.up, h.high, h.far⟩

/-- No entry of the vector gets lost. -/
structure HeapLib.Keeps (lib : HeapLib) : Prop where
  make_length : ∀ key l, (lib.make key l).length = l.length
  pop_length : ∀ key l, (lib.pop key l).length = l.length - 1

theorem HeapLib.Lawful.keeps {lib : HeapLib} (h : lib.Lawful) : lib.Keeps :=
  ⟨fun key l => (h.make_perm key l).length_eq, fun key l => by rw [(h.pop_perm key l).length_eq, List.length_tail]⟩

theorem spLoop_inv {lib : HeapLib} (hlib : lib.Keeps) {n : Nat} {es : List Edge} {A : List (List Arc)} (hA : Good n es A)
    {src : Nat} : ∀ (c : Nat) (s : SP), c ≤ s.heap.length → Inv A src s →
      ∃ s', spLoop lib A c s = .ok s' ∧ Inv A src s' := by
  intro c
  induction c with
  | zero => intro s _ h; exact ⟨s, rfl, h⟩
  | succ c ih =>
    intro s hc h
    cases hh : s.heap with
    | nil => rw [hh] at hc; simp at hc
    | cons i t =>
      rw [spLoop, hh]
      dsimp only
      by_cases h1 : s.dist i = intMax
      · rw [if_pos h1]; exact ⟨_, rfl, inv_heap h⟩
      · rw [if_neg h1]
        by_cases h2 : iscale ≤ s.dist i
        · rw [if_pos h2]; exact ⟨_, rfl, inv_heap h⟩
        · rw [if_neg h2]
          have hd : s.dist i < 10000 := by unfold iscale at h2; omega
          obtain ⟨h3, h4⟩ := relaxAll_inv hA (s.dist i) hd (arcsAt A i) { s with heap := lib.pop s.dist (i :: t) }
            (fun a ha => ha) rfl (inv_heap h)
          refine ih _ ?_ h3
          refine le_trans ?_ h4
          dsimp only
          rw [hlib.pop_length]
          rw [hh] at hc
          simp at hc ⊢
          omega

theorem spStart_inv (lib : HeapLib) (A : List (List Arc)) (n src : Nat) : Inv A src (spStart lib n src) := by
  refine ⟨?_, rfl, ?_, ?_, ?_, ?_, ?_⟩
  · unfold spStart
    dsimp only
    rw [Function.update_self]
  · intro v
    unfold spStart
    dsimp only
    by_cases hv : v = src
    · rw [hv, Function.update_self]
    · rw [Function.update_of_ne hv]; unfold intMax; omega
  · intro v p h; cases h
  · intro v p h; cases h
  · intro v p h; cases h
  · intro v hv _
    unfold spStart
    dsimp only
    rw [Function.update_of_ne hv]

/-- **The shortest paths end without a fault**, for every heap library that loses no entry. -/
theorem shortestPath_inv {lib : HeapLib} (hlib : lib.Keeps) {n : Nat} {es : List Edge} {A : List (List Arc)}
    (hA : Good n es A) (src : Nat) : ∃ s, shortestPath lib A src = .ok s ∧ Inv A src s := by
  unfold shortestPath
  refine spLoop_inv hlib hA _ _ ?_ (spStart_inv lib A _ src)
  unfold spStart
  dsimp only
  rw [hlib.make_length, List.length_range]

/-- **The lengths fit an `int`.** -/
theorem dist_bound {A : List (List Arc)} {src : Nat} {s : SP} (h : Inv A src s) (v : Nat) :
    s.dist v = intMax ∨ 0 ≤ s.dist v ∧ s.dist v < 20000 := by
  by_cases hv : v = src
  · right; rw [hv, h.srcDist]; omega
  · cases hp : s.par v with
    | none => exact Or.inl (h.far v hv hp)
    | some p => exact Or.inr ⟨h.nonneg v, h.high v p hp⟩

/-! ### The way to the source -/

/-- The nodes on the way from a node to the source. -/
inductive Chain (par : Nat → Option Nat) (src : Nat) : Nat → List Nat → Prop
  | base : Chain par src src [src]
  | step {v p : Nat} {l : List Nat} : par v = some p → Chain par src p l → Chain par src v (v :: l)

theorem Up.chain {par : Nat → Option Nat} {src v : Nat} (h : Up par src v) : ∃ l, Chain par src v l := by
  induction h with
  | base => exact ⟨_, Chain.base⟩
  | step hp _ ih =>
    obtain ⟨l, hl⟩ := ih
    exact ⟨_, Chain.step hp hl⟩

theorem Chain.unique {par : Nat → Option Nat} {src : Nat} (hs : par src = none) {v : Nat} {l : List Nat}
    (h : Chain par src v l) : ∀ m, Chain par src v m → l = m := by
  induction h with
  | base =>
    intro m hm
    cases hm with
    | base => rfl
    | step hp _ => rw [hs] at hp; cases hp
  | @step v p l hp hl ih =>
    intro m hm
    cases hm with
    | base => rw [hs] at hp; cases hp
    | @step _ q m hq hm =>
      rw [hp] at hq
      obtain rfl := Option.some.inj hq
      rw [ih m hm]

theorem Chain.sub {par : Nat → Option Nat} {src : Nat} {v : Nat} {l : List Nat} (h : Chain par src v l) :
    ∀ w ∈ l, ∃ m, Chain par src w m ∧ m.length ≤ l.length := by
  induction h with
  | base =>
    intro w hw
    obtain rfl := List.mem_singleton.mp hw
    exact ⟨_, Chain.base, le_rfl⟩
  | @step v p l hp hl ih =>
    intro w hw
    rcases List.mem_cons.mp hw with rfl | hw
    · exact ⟨_, Chain.step hp hl, le_rfl⟩
    · obtain ⟨m, hm, hle⟩ := ih w hw
      exact ⟨m, hm, by rw [List.length_cons]; omega⟩

theorem Chain.nodup {par : Nat → Option Nat} {src : Nat} (hs : par src = none) {v : Nat} {l : List Nat}
    (h : Chain par src v l) : l.Nodup := by
  induction h with
  | base => exact List.nodup_singleton _
  | @step v p l hp hl ih =>
    refine List.nodup_cons.mpr ⟨fun hv => ?_, ih⟩
    obtain ⟨m, hm, hle⟩ := hl.sub v hv
    have := (Chain.step hp hl).unique hs m hm
    rw [← this, List.length_cons] at hle
    omega

theorem Chain.lt {n : Nat} {es : List Edge} {A : List (List Arc)} (hA : Good n es A) {src : Nat} {s : SP} (h : Inv A src s)
    (hs : src < 2 * n) {v : Nat} {l : List Nat} (hc : Chain s.par src v l) : ∀ w ∈ l, w < 2 * n := by
  induction hc with
  | base => intro w hw; rw [List.mem_singleton.mp hw]; exact hs
  | @step v p l hp hl ih =>
    intro w hw
    rcases List.mem_cons.mp hw with rfl | hw
    · obtain ⟨a, ha, hd, _⟩ := h.arc _ _ hp
      rw [← hd]
      exact hA.dest p a ha
    · exact ih w hw

theorem Chain.length_le {n : Nat} {es : List Edge} {A : List (List Arc)} (hA : Good n es A) {src : Nat} {s : SP}
    (h : Inv A src s) (hs : src < 2 * n) {v : Nat} {l : List Nat} (hc : Chain s.par src v l) : l.length ≤ A.length := by
  have h1 := hc.nodup h.srcPar
  have h2 : l ⊆ List.range (2 * n) := fun w hw => List.mem_range.mpr (hc.lt hA h hs w hw)
  have := (List.subperm_of_subset h1 h2).length_le
  rw [List.length_range] at this
  rw [hA.length]
  exact this

/-- The edges of a path of the tree. -/
structure PathOK (E : Edge → Prop) (s : SP) (src v : Nat) (l : List Edge) : Prop where
  ne : l ≠ []
  walk : Walk E (v / 2) (src / 2) l
  odd : l.countP (fun e => e.odd) % 2 = (v + src) % 2
  sum : (l.map units).sum ≤ s.dist v

theorem walk_cons {E : Edge → Prop} {a b c : Nat} {p : Bool} {e : Edge} {l : List Edge} (hE : E e) (hj : joins e b a p)
    (hw : Walk E b c l) : Walk E a c (e :: l) := by
  refine ⟨hE, ?_⟩
  rcases hj.2 with ⟨h1, h2⟩ | ⟨h1, h2⟩
  · exact Or.inr ⟨h2, h1 ▸ hw⟩
  · exact Or.inl ⟨h1, h2 ▸ hw⟩

/-- The edges that are kept. -/
def Kept (n : Nat) (es : List Edge) (e : Edge) : Prop := ∃ j k p, j < n ∧ k < n ∧ j ≠ k ∧ bestOf es j k p = some e

theorem paths_ok {n : Nat} {es : List Edge} {A : List (List Arc)} (hA : Good n es A) {src : Nat} {s : SP} (h : Inv A src s)
    (pred : Nat → Option Nat) (f : Nat → Nat) (hf : ∀ v w, f v = f w → v = w) (hpred : ∀ v, pred (f v) = (s.par v).map f)
    (harc : ∀ v a, a ∈ arcsAt A v → arcEdge A (f v) (f a.dest) = some a.edge)
    {v : Nat} {l : List Nat} (hc : Chain s.par src v l) : ∀ fuel, v ≠ src → l.length ≤ fuel →
      countPath pred (f src) fuel (f v) = .ok (some (l.length - 1)) ∧
        ∃ es', pathEdges A pred (f src) fuel (f v) = .ok es' ∧ PathOK (Kept n es) s src v es' := by
  induction hc with
  | base => intro fuel h1; exact absurd rfl h1
  | @step v p l hp hl ih =>
    intro fuel hv hlen
    cases fuel with
    | zero => simp at hlen
    | succ fuel =>
      obtain ⟨a, ha, hd, hle⟩ := h.arc v p hp
      have hbest := hA.best p a ha
      have hkept : Kept n es a.edge := by
        refine ⟨p / 2, a.dest / 2, _, ?_, ?_, Ne.symm (hA.other p a ha), hbest⟩
        · have := hA.src p a ha; omega
        · have := hA.dest p a ha; omega
      have hjoin := bestOf_joins _ _ _ _ _ hbest
      have hedge := harc p a ha
      rw [hd] at hedge hjoin
      have hlow := hA.low p a ha
      have hodd : (if a.edge.odd then 1 else 0) % 2 = (p + v) % 2 := by
        rw [hjoin.1]
        unfold stepOdd
        by_cases hpv : p % 2 = v % 2
        · simp [hpv]; omega
        · simp [hpv]; omega
      rw [countPath, pathEdges, hpred, hp]
      simp only [Option.map_some]
      rw [hedge]
      dsimp only
      by_cases hps : p = src
      · subst hps
        rw [if_pos rfl, if_pos rfl]
        have hl1 : l.length = 1 := by
          have := hl.unique h.srcPar _ Chain.base
          rw [this]; rfl
        refine ⟨by rw [List.length_cons, hl1], [a.edge], rfl, ⟨by simp, ?_, ?_, ?_⟩⟩
        · exact walk_cons hkept hjoin rfl
        · rw [List.countP_cons, List.countP_nil]
          rw [Nat.zero_add, hodd, Nat.add_comm]
        · rw [h.srcDist] at hle
          simp
          omega
      · have hfne : f p ≠ f src := fun e => hps (hf _ _ e)
        rw [if_neg hfne, if_neg hfne]
        obtain ⟨h1, es', h2, h3⟩ := ih fuel hps (by rw [List.length_cons] at hlen; omega)
        rw [h1, h2]
        dsimp only
        have hl1 : 1 ≤ l.length := by
          cases hl with
          | base => simp
          | step => simp
        refine ⟨by rw [List.length_cons, Nat.sub_add_cancel hl1, Nat.add_sub_cancel], a.edge :: es', rfl, ⟨by simp, ?_, ?_, ?_⟩⟩
        · exact walk_cons hkept hjoin h3.walk
        · rw [List.countP_cons]
          have := h3.odd
          omega
        · rw [List.map_cons, List.sum_cons]
          have := h3.sum
          omega

end Cgl.ZHSearch
