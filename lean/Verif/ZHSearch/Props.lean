import Verif.ZHSearch.Cycles
import Verif.ZHSearch.Edges
import Verif.ZeroHalf.Load

/-!
# The search of the zero-half generator: properties
-/

namespace Cgl.ZHSearch

open ZeroHalf

theorem edgeOK_of {I : Ilp} {x : Nat → ℚ} {e d : Edge} (he : EdgeOK I x e) {j k : Nat} {p : Bool} (h1 : joins e j k p)
    (h2 : joins d j k p) (hw : e.weight = d.weight) (hc : e.constr = d.constr) : EdgeOK I x d := by
  obtain ⟨o1, s1⟩ := h1
  obtain ⟨o2, s2⟩ := h2
  have hodd : d.odd = e.odd := o2.trans o1.symm
  have hends : d.u = e.u ∧ d.v = e.v ∨ d.u = e.v ∧ d.v = e.u := by
    rcases s1 with ⟨a, b⟩ | ⟨a, b⟩ <;> rcases s2 with ⟨c, f⟩ | ⟨c, f⟩
    · exact Or.inl ⟨c.trans a.symm, f.trans b.symm⟩
    · exact Or.inr ⟨c.trans b.symm, f.trans a.symm⟩
    · exact Or.inr ⟨c.trans b.symm, f.trans a.symm⟩
    · exact Or.inl ⟨c.trans a.symm, f.trans b.symm⟩
  refine ⟨?_, ?_, by rw [← hw]; exact he.light⟩
  · rcases he.source with ⟨i, r, a, b, T, g1, g2, g3, g4, g5, g6, g7, g8⟩ | ⟨c, t, g1, g2, g3, g4, g5, g6⟩
    · left
      rcases hends with ⟨hu, hv⟩ | ⟨hu, hv⟩
      · exact ⟨i, r, a, b, T, hc ▸ g1, g2, hu ▸ g3, hv ▸ g4, g5, g6, hw ▸ g7, hodd ▸ g8⟩
      · refine ⟨i, r, b, a, T, hc ▸ g1, g2, hu ▸ g4, hv ▸ g3, g5.trans ?_, g6, hw ▸ g7, hodd ▸ g8⟩
        exact List.Perm.append_right _ (List.Perm.filter _ (List.Perm.swap ..))
    · right
      refine ⟨c, t, hc ▸ g1, g2, g3, ?_, hw ▸ g5, hodd ▸ g6⟩
      rcases hends with ⟨hu, hv⟩ | ⟨hu, hv⟩
      · rw [hu, hv]; exact g4
      · rw [hu, hv]; exact g4.symm.imp (fun h => h) (fun h => h)
  · have := he.ends
    rcases hends with ⟨hu, hv⟩ | ⟨hu, hv⟩
    · rw [hu, hv]; exact this
    · rw [hu, hv]; exact Ne.symm this

theorem edgeOK_proper {I : Ilp} {x : Nat → ℚ} {e : Edge} (h : EdgeOK I x e) : e.Proper (nodesOf I x).length := by
  have hlt : ∀ {u a : Nat}, (nodesOf I x)[u]? = some a → u < (nodesOf I x).length := by
    intro u a hu
    exact (List.getElem?_eq_some_iff.mp hu).1
  refine ⟨?_, ?_, h.ends⟩
  · rcases h.source with ⟨_, _, _, _, _, _, _, g3, _⟩ | ⟨_, _, _, _, _, ⟨g, _⟩ | ⟨_, g⟩, _⟩
    · exact hlt g3
    · exact hlt g
    · exact hlt g
  · rcases h.source with ⟨_, _, _, _, _, _, _, _, g4, _⟩ | ⟨_, _, _, _, _, ⟨_, g⟩ | ⟨g, _⟩, _⟩
    · exact hlt g4
    · exact hlt g
    · exact hlt g

theorem rowSlack_low (x : Nat → ℚ) (r : IRow) : -(1 / 10 ^ 6 : ℚ) ≤ rowSlack x r := by
  unfold rowSlack
  dsimp only
  generalize (if r.ge = true then -((r.rhs : ℚ) - idot r.coefs x) else (r.rhs : ℚ) - idot r.coefs x) = s
  by_cases h : s < -zeroTol
  · rw [if_pos h]; unfold bigInf; norm_num
  · rw [if_neg h]; unfold zeroTol at h; push Not at h; exact h

theorem edgeOK_low {I : Ilp} {x : Nat → ℚ} {e : Edge} (h : EdgeOK I x e) : -(1 / 10 ^ 6 : ℚ) ≤ e.weight := by
  rcases h.source with ⟨_, r, _, _, T, _, _, _, _, _, _, g7, _⟩ | ⟨j, t, _, _, g3, _, g5, _⟩
  · rw [g7]
    have h1 := rowSlack_low x r
    have h2 := lossSum_nonneg I x T
    linarith
  · rw [g5]
    have h1 : (0 : ℚ) ≤ 1 / 10 ^ 6 := by norm_num
    cases t
    · linarith [g3.1]
    · linarith [g3.2]

theorem edgeOK_units {I : Ilp} {x : Nat → ℚ} {e : Edge} (h : EdgeOK I x e) : 0 ≤ units e ∧ units e ≤ 10000 := by
  have h1 := edgeOK_low h
  have h2 := h.light
  unfold units truncQ
  split
  · constructor
    · exact Int.floor_nonneg.mpr (by assumption)
    · have : ⌊e.weight * 10000⌋ < 10000 := Int.floor_lt.mpr (by push_cast; norm_num at h2 ⊢; linarith)
      omega
  · next hn =>
    push Not at hn
    have hc : ⌈e.weight * 10000⌉ = 0 := by
      rw [Int.ceil_eq_iff]
      push_cast
      constructor
      · norm_num at h1; linarith
      · linarith
    rw [hc]
    omega

theorem pairCount_ok {n : Nat} (h : n ≤ 46341) : ∃ c, pairCount n = .ok c := by
  unfold pairCount
  by_cases h2 : n ≤ 2
  · rw [if_pos h2]; exact ⟨_, rfl⟩
  · rw [if_neg h2, if_pos]
    · exact ⟨_, rfl⟩
    · have hb : (n : ℤ) ≤ 46341 := by exact_mod_cast h
      have hn : (2 : ℤ) < n := by exact_mod_cast (not_le.mp h2)
      unfold intMax
      nlinarith

theorem rowOffers_total {lim : Limits} {I : Ilp} {x : Nat → ℚ} {nodes : List Nat} {i : Nat} {p : ParRow} {o : IRow}
    (h : p.cols.length ≤ 46341) : ∃ es, rowOffers lim I x nodes i p o = .ok es := by
  unfold rowOffers
  split
  · exact ⟨_, rfl⟩
  · obtain ⟨c, hc⟩ := pairCount_ok h
    rw [hc]
    dsimp only
    split
    · exact ⟨_, rfl⟩
    · split <;> exact ⟨_, rfl⟩

theorem rowsOffers_total {lim : Limits} {I : Ilp} {x : Nat → ℚ} {nodes : List Nat} : ∀ (ps : List (ParRow × IRow)) (i : Nat),
    (∀ q ∈ ps, q.1.cols.length ≤ 46341) → ∃ es, rowsOffers lim I x nodes i ps = .ok es := by
  intro ps
  induction ps with
  | nil => intro i _; exact ⟨[], rfl⟩
  | cons q ps ih =>
    intro i h
    obtain ⟨e1, h1⟩ := rowOffers_total (lim := lim) (I := I) (x := x) (nodes := nodes) (i := i) (o := q.2)
      (h q (List.mem_cons_self ..))
    obtain ⟨e2, h2⟩ := ih (i + 1) (fun r hr => h r (List.mem_cons_of_mem _ hr))
    rw [rowsOffers, h1]
    dsimp only
    rw [h2]
    exact ⟨_, rfl⟩

theorem offers_total (lim : Limits) {I : Ilp} (x : Nat → ℚ) (h : ∀ r ∈ I.rows, r.coefs.length ≤ 46341) :
    ∃ es, offers lim I x = .ok es := by
  obtain ⟨es, h1⟩ := rowsOffers_total (lim := lim) (I := I) (x := x) (nodes := nodesOf I x)
    ((parityRows I x).zip I.rows) 0 (by
      intro q hq
      have hs := parityRows_stands I x
      obtain ⟨k, hk, e⟩ := List.mem_iff_getElem.mp hq
      rw [List.forall₂_iff_get] at hs
      rw [List.length_zip] at hk
      rw [List.getElem_zip] at e
      have h2 := hs.2 k (by omega) (by omega)
      simp only [List.get_eq_getElem] at h2
      rw [← e]
      dsimp only
      rw [h2.1]
      have h3 := h _ (List.getElem_mem (show k < I.rows.length by omega))
      refine le_trans ?_ h3
      unfold parRow oddEntries
      dsimp only
      refine le_trans (List.length_filter_le _ _) ?_
      rw [List.length_map]
      exact List.length_filter_le _ _)
  unfold offers
  rw [h1]
  exact ⟨_, rfl⟩

/-! ### The search -/

/-- The edges the search works with: each comes from a row or a bound, and no edge that is offered for the same two nodes
and the same parity is lighter. -/
def GraphEdge (lim : Limits) (I : Ilp) (x : Nat → ℚ) (e : Edge) : Prop :=
  EdgeOK I x e ∧ ∃ es, offers lim I x = .ok es ∧ Lightest es e.u e.v e.odd e.weight e.constr

theorem kept_graphEdge {lim : Limits} {I : Ilp} {x : Nat → ℚ} {es : List Edge} (hI : Ilp.Tidy I) (ho : offers lim I x = .ok es)
    {n : Nat} {d : Edge} (h : Kept n es d) : GraphEdge lim I x d := by
  obtain ⟨j, k, p, _, _, _, hb⟩ := h
  have hj := bestOf_joins _ _ _ _ _ hb
  have hb' : bestOf es d.u d.v d.odd = some d := by
    rcases hj with ⟨rfl, ⟨rfl, rfl⟩ | ⟨rfl, rfl⟩⟩
    · exact hb
    · rw [bestOf_comm]; exact hb
  have hl := (bestOf_lightest es _ _ _).2 d hb'
  refine ⟨?_, es, ho, hl⟩
  obtain ⟨l, r, e, h1, h2, h3, h4, _⟩ := hl
  exact edgeOK_of (offers_ok hI ho e (by rw [h1]; simp)) h2 ⟨rfl, Or.inl ⟨rfl, rfl⟩⟩ h3 h4

theorem nodeOK_mono {E F : Edge → Prop} (h : ∀ e, E e → F e) {j : Nat} {l : List Cycle} (hl : NodeOK E j l) : NodeOK F j l := by
  have hw : ∀ (l : List Edge) (a b : Nat), Walk E a b l → Walk F a b l := by
    intro l
    induction l with
    | nil => intro a b hw; exact hw
    | cons e l ih =>
      rintro a b ⟨h1, h2⟩
      exact ⟨h e h1, h2.imp (fun g => ⟨g.1, ih _ _ g.2⟩) (fun g => ⟨g.1, ih _ _ g.2⟩)⟩
  refine ⟨fun c hc => ?_, hl.distinct⟩
  obtain ⟨⟨k, a, b, h1, h2, h3, h4, h5, h6⟩, h7, h8, h9, h10⟩ := hl.cycle c hc
  exact ⟨⟨k, a, b, h1, h2, h3, h4, hw _ _ _ h5, hw _ _ _ h6⟩, h7, h8, h9, h10⟩

/-- **The search ends, and every cycle it finds is an odd cycle.**  For every integer program with fewer than 2^31 columns
and at most 46341 entries in a row, every point, every setting of the limits and every implementation of the heap
functions that loses no entry: no fault, one list of cycles for every node, every cycle in it an odd cycle through that
node over edges that come from rows and bounds, and no cycle twice. -/
theorem search_cycles {lib : HeapLib} (hlib : lib.Keeps) (lim : Limits) {I : Ilp} (x : Nat → ℚ) (hI : Ilp.Tidy I)
    (hn : I.bnds.length < 2 ^ 31) (hr : ∀ r ∈ I.rows, r.coefs.length ≤ 46341) :
    ∃ ls, search lib lim I x = .ok ls ∧
      List.Forall₂ (NodeOK (GraphEdge lim I x)) (List.range (nodesOf I x).length) ls := by
  obtain ⟨es, ho⟩ := offers_total lim x hr
  have hok := offers_ok hI ho
  have hN : (nodesOf I x).length ≤ 2 ^ 31 := by
    unfold nodesOf
    rw [List.length_append]
    have := List.length_filter_le (fun j => !colDeleted I x j) (List.range I.bnds.length)
    rw [List.length_range] at this
    simp only [List.length_cons, List.length_nil]
    omega
  unfold search
  rw [ho]
  dsimp only
  rw [graphOf_eq lim hN (fun e he => edgeOK_proper (hok e he))]
  dsimp only
  have hlen : LenOK es := fun e he => edgeOK_units (hok e he)
  obtain ⟨ls, h1, h2⟩ := nodesLoop_ok hlib hlen (List.range (nodesOf I x).length) _ (good_aux (n := (nodesOf I x).length) hlen)
    (fun j hj => List.mem_range.mp hj)
  refine ⟨ls, h1, h2.imp fun j l h => nodeOK_mono (fun e he => ?_) h⟩
  exact kept_graphEdge hI ho he

/-- **The storage of the graph does not change what is found**: the limit that decides between tables and a hash table
has no effect. -/
theorem search_storage (lib : HeapLib) (lim : Limits) (s : ℤ) {I : Ilp} (x : Nat → ℚ) (hI : Ilp.Tidy I)
    (hn : I.bnds.length < 2 ^ 31) : search lib { lim with sparse := s } I x = search lib lim I x := by
  have hN : (nodesOf I x).length ≤ 2 ^ 31 := by
    unfold nodesOf
    rw [List.length_append]
    have := List.length_filter_le (fun j => !colDeleted I x j) (List.range I.bnds.length)
    rw [List.length_range] at this
    simp only [List.length_cons, List.length_nil]
    omega
  have hoff : offers { lim with sparse := s } I x = offers lim I x := by
    have hrow : ∀ (ps : List (ParRow × IRow)) (i : Nat),
        rowsOffers { lim with sparse := s } I x (nodesOf I x) i ps = rowsOffers lim I x (nodesOf I x) i ps := by
      intro ps
      induction ps with
      | nil => intro i; rfl
      | cons q ps ih => intro i; rw [rowsOffers, rowsOffers, ih]; rfl
    unfold offers
    rw [hrow]
  unfold search
  rw [hoff]
  rcases ho : offers lim I x with f | es
  · rfl
  · dsimp only
    have hok := offers_ok hI ho
    rw [graphOf_eq _ hN (fun e he => edgeOK_proper (hok e he)), graphOf_eq _ hN (fun e he => edgeOK_proper (hok e he))]

/-- A row with too many odd entries overflows. -/
theorem pairCount_overflow {n : Nat} (h : 46342 ≤ n) : pairCount n = .error .overflow := by
  unfold pairCount
  rw [if_neg (by omega), if_neg]
  have hb : (46342 : ℤ) ≤ n := by exact_mod_cast h
  unfold intMax
  nlinarith

/-- **A long row makes the search overflow**: if the parity problem has a row that is not deleted with more than 46341
columns away from their bounds, the count of its pairs does not fit an `int`, whatever the limits are. -/
theorem search_overflow (lib : HeapLib) (lim : Limits) (I : Ilp) (x : Nat → ℚ) {p : ParRow} (hp : p ∈ parityRows I x)
    (hd : p.deleted = false) (hc : 46342 ≤ p.cols.length) : search lib lim I x = .error .overflow := by
  have hrow : ∀ {i : Nat} {p : ParRow} {o : IRow} {f : Fault}, rowOffers lim I x (nodesOf I x) i p o = .error f → f = .overflow := by
    intro i p o f h
    unfold rowOffers at h
    split at h
    · cases h
    · rcases hpc : pairCount p.cols.length with g | c
      · rw [hpc] at h
        cases h
        unfold pairCount at hpc
        split at hpc
        · cases hpc
        · split at hpc
          · cases hpc
          · cases hpc; rfl
      · rw [hpc] at h
        dsimp only at h
        split at h
        · cases h
        · split at h <;> cases h
  have key : ∀ (ps : List (ParRow × IRow)) (i : Nat), (∃ q ∈ ps, q.1 = p) →
      rowsOffers lim I x (nodesOf I x) i ps = .error .overflow := by
    intro ps
    induction ps with
    | nil => rintro i ⟨q, hq, _⟩; cases hq
    | cons q ps ih =>
      rintro i ⟨q', hq', he⟩
      rw [rowsOffers]
      rcases ho : rowOffers lim I x (nodesOf I x) i q.1 q.2 with f | es
      · rw [hrow ho]
      · dsimp only
        rcases List.mem_cons.mp hq' with rfl | hq'
        · exfalso
          unfold rowOffers at ho
          rw [he, hd, pairCount_overflow hc] at ho
          cases ho
        · rw [ih (i + 1) ⟨q', hq', he⟩]
  have hz : ∃ q ∈ (parityRows I x).zip I.rows, q.1 = p := by
    obtain ⟨k, hk, e⟩ := List.mem_iff_getElem.mp hp
    have hl := (parityRows_stands I x).length_eq
    refine ⟨((parityRows I x)[k], I.rows[k]), ?_, e⟩
    rw [← List.getElem_zip (h := by rw [List.length_zip]; omega)]
    exact List.getElem_mem _
  unfold search offers
  rw [key _ 0 hz]

end Cgl.ZHSearch
