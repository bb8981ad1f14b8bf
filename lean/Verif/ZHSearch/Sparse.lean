import Verif.ZHSearch.Store

/-!
# The hash table gives the same graph as the tables
-/

namespace Cgl.ZHSearch

open ZeroHalf

/-! ### Keys -/

theorem sparseKey_comm {j k : Nat} (h : j ≠ k) (p : Bool) : sparseKey j k p = sparseKey k j p := by
  unfold sparseKey
  rcases Nat.lt_or_gt_of_ne h with hl | hl
  · simp only [hl, if_true, if_neg (Nat.lt_asymm hl)]
  · have hg : ¬ j < k := Nat.lt_asymm hl
    have hl' : k < j := hl
    simp only [hg, hl', if_true, if_false]

theorem sparseKey_inj {n j k j' k' : Nat} {p p' : Bool} (hn : n ≤ 2 ^ 31) (hj : j < n) (hk : k < n) (hj' : j' < n)
    (hk' : k' < n) (h : sparseKey j k p = sparseKey j' k' p') :
    p = p' ∧ (j = j' ∧ k = k' ∨ j = k' ∧ k = j') := by
  unfold sparseKey at h
  have hp : (if p then 1 else 0 : Nat) < 2 := by split <;> omega
  have hp' : (if p' then 1 else 0 : Nat) < 2 := by split <;> omega
  by_cases h1 : j < k <;> by_cases h2 : j' < k'
  all_goals
    simp only [h1, h2, if_true, if_false] at h
    refine ⟨?_, by omega⟩
    have : (if p then 1 else 0 : Nat) = (if p' then 1 else 0 : Nat) := by omega
    cases p <;> cases p' <;> first | rfl | (simp at this)

/-! ### The table -/

/-- The hash table and the lists of keys hold the kept edges. -/
structure SRep (n : Nat) (es : List Edge) (s : Sparse) : Prop where
  find : ∀ j k p, j < n → k < n → j ≠ k → findKey s.edges (sparseKey j k p) = bestOf es j k p
  length : s.adj.length = n
  nodup : ∀ j < n, (s.adj.getD j []).Nodup
  mem : ∀ j < n, ∀ key, key ∈ s.adj.getD j [] ↔
    ∃ k p, k < n ∧ k ≠ j ∧ key = sparseKey j k p ∧ (bestOf es j k p).isSome

theorem findKey_snoc (l : List (Nat × Edge)) (q : Nat × Edge) (key : Nat) :
    findKey (l ++ [q]) key = (findKey l key).or (if q.1 = key then some q.2 else none) := by
  unfold findKey
  rw [List.find?_append]
  cases hf : l.find? fun p => decide (p.1 = key) with
  | some a => rfl
  | none =>
    by_cases hq : q.1 = key
    · simp [hq]
    · simp [hq]

theorem findKey_replace (l : List (Nat × Edge)) (key key' : Nat) (d : Edge) (hd : (findKey l key).isSome) :
    findKey (l.map fun p => if p.1 = key then (p.1, d) else p) key' = if key' = key then some d else findKey l key' := by
  induction l with
  | nil => cases hd
  | cons q l ih =>
    unfold findKey at *
    rw [List.map_cons, List.find?_cons, List.find?_cons]
    by_cases hq : q.1 = key
    · rw [if_pos hq]
      by_cases hk : key' = key
      · subst hk
        simp [hq]
      · rw [if_neg hk]
        have hqk : ¬ q.1 = key' := fun e => hk (e ▸ hq)
        simp only [hqk, decide_false]
        by_cases hr : ((l.find? fun p => decide (p.1 = key)).map Prod.snd).isSome
        · have := ih hr
          rw [if_neg hk] at this
          exact this
        · have hnone : ∀ p ∈ l, ¬ p.1 = key := by
            intro p hp e
            apply hr
            rw [Option.isSome_map]
            exact List.find?_isSome.mpr ⟨p, hp, by simpa using e⟩
          have hid : (l.map fun p => if p.1 = key then (p.1, d) else p) = l := by
            conv_rhs => rw [← List.map_id l]
            apply List.map_congr_left
            intro p hp
            rw [if_neg (hnone p hp)]; rfl
          rw [hid]
    · rw [if_neg hq]
      have hr : ((l.find? fun p => decide (p.1 = key)).map Prod.snd).isSome := by
        rw [List.find?_cons] at hd
        simpa [hq] using hd
      by_cases hqk : q.1 = key'
      · have : key' ≠ key := fun e => hq (hqk.trans e)
        simp [hqk, this]
      · simp only [hqk, decide_false]
        exact ih hr

theorem pushAt_ok {adj : List (List Nat)} {i a : Nat} (h : i < adj.length) :
    pushAt adj i a = .ok (adj.set i (adj.getD i [] ++ [a])) := by
  unfold pushAt
  rw [List.getElem?_eq_getElem h, List.getD_eq_getElem?_getD, List.getElem?_eq_getElem h]
  rfl

theorem getD_set {adj : List (List Nat)} {i j : Nat} {l : List Nat} (h : i < adj.length) :
    (adj.set i l).getD j [] = if i = j then l else adj.getD j [] := by
  rw [List.getD_eq_getElem?_getD, List.getElem?_set, List.getD_eq_getElem?_getD]
  by_cases hij : i = j
  · subst hij
    simp [h]
  · rw [if_neg hij, if_neg hij]

theorem putSparse_rep {n : Nat} {es : List Edge} {s : Sparse} {e : Edge} (hn : n ≤ 2 ^ 31) (he : e.Proper n)
    (h : SRep n es s) : ∃ s', putSparse s e = .ok s' ∧ SRep n (es ++ [e]) s' := by
  obtain ⟨hu, hv, hne⟩ := he
  have hfind : findKey s.edges (keyOf e) = bestOf es e.u e.v e.odd := h.find _ _ _ hu hv hne
  have hkey : ∀ j k p, j < n → k < n → j ≠ k → (keyOf e = sparseKey j k p ↔ joins e j k p) := by
    intro j k p hj hk hjk
    constructor
    · intro hh
      obtain ⟨h1, h2⟩ := sparseKey_inj hn hu hv hj hk hh
      exact ⟨h1, h2⟩
    · rintro ⟨h1, ⟨h2, h3⟩ | ⟨h2, h3⟩⟩
      · unfold keyOf; rw [h1, h2, h3]
      · unfold keyOf; rw [h1, h2, h3, sparseKey_comm (Ne.symm hjk)]
  cases hb : bestOf es e.u e.v e.odd with
  | none =>
    rw [hb] at hfind
    have hstep : putSparse s e = .ok ⟨s.edges ++ [(keyOf e, e)], (s.adj.set e.u (s.adj.getD e.u [] ++ [keyOf e])).set e.v
        ((s.adj.set e.u (s.adj.getD e.u [] ++ [keyOf e])).getD e.v [] ++ [keyOf e])⟩ := by
      unfold putSparse
      rw [hfind]
      dsimp only
      rw [pushAt_ok (by rw [h.length]; exact hu)]
      dsimp only
      rw [pushAt_ok (by rw [List.length_set, h.length]; exact hv)]
    have hadj : ∀ j, ((s.adj.set e.u (s.adj.getD e.u [] ++ [keyOf e])).set e.v
        ((s.adj.set e.u (s.adj.getD e.u [] ++ [keyOf e])).getD e.v [] ++ [keyOf e])).getD j [] =
        if j = e.u ∨ j = e.v then s.adj.getD j [] ++ [keyOf e] else s.adj.getD j [] := by
      intro j
      rw [getD_set (by rw [List.length_set, h.length]; exact hv), getD_set (by rw [h.length]; exact hu),
        getD_set (by rw [h.length]; exact hu)]
      by_cases h1 : e.v = j
      · subst h1
        rw [if_pos rfl, if_neg hne, if_pos (Or.inr rfl)]
      · rw [if_neg h1]
        by_cases h2 : e.u = j
        · subst h2
          rw [if_pos rfl, if_pos (Or.inl rfl)]
        · rw [if_neg h2, if_neg]
          rintro (h3 | h3)
          · exact h2 h3.symm
          · exact h1 h3.symm
    have hnew : ∀ j < n, (j = e.u ∨ j = e.v) → keyOf e ∉ s.adj.getD j [] := by
      intro j hj hju hmem
      obtain ⟨k, p, hk, hkj, hke, hsome⟩ := (h.mem j hj _).mp hmem
      obtain ⟨h1, h2⟩ := (hkey j k p hj hk (Ne.symm hkj)).mp hke
      have : bestOf es j k p = bestOf es e.u e.v e.odd := by
        rcases h2 with ⟨h3, h4⟩ | ⟨h3, h4⟩
        · rw [h1, h3, h4]
        · rw [h1, h3, h4, bestOf_comm]
      rw [this, hb] at hsome
      cases hsome
    refine ⟨_, hstep, ⟨fun j k p hj hk hjk => ?_, by rw [List.length_set, List.length_set]; exact h.length,
      fun j hj => ?_, fun j hj key => ?_⟩⟩
    · rw [findKey_snoc, h.find j k p hj hk hjk, bestOf_snoc]
      dsimp only
      by_cases hjo : joins e j k p
      · rw [if_pos hjo, if_pos ((hkey j k p hj hk hjk).mpr hjo)]
        have : bestOf es j k p = none := by
          rw [← hb]
          obtain ⟨h1, h2⟩ := hjo
          rcases h2 with ⟨h3, h4⟩ | ⟨h3, h4⟩
          · rw [h1, h3, h4]
          · rw [h1, h3, h4, bestOf_comm]
        rw [this]
        rfl
      · rw [if_neg hjo, if_neg (fun hh => hjo ((hkey j k p hj hk hjk).mp hh)), Option.or_none]
    · dsimp only
      rw [hadj]
      split
      · next hc =>
        refine List.Nodup.append (h.nodup j hj) (List.nodup_singleton _) ?_
        intro a ha hb'
        obtain rfl := List.mem_singleton.mp hb'
        exact hnew j hj hc ha
      · exact h.nodup j hj
    · dsimp only
      rw [hadj]
      have hold : ∀ k p, (bestOf (es ++ [e]) j k p).isSome ↔ joins e j k p ∨ (bestOf es j k p).isSome := by
        intro k p
        rw [bestOf_snoc]
        by_cases hjo : joins e j k p
        · rw [if_pos hjo]
          refine ⟨fun _ => Or.inl hjo, fun _ => ?_⟩
          cases bestOf es j k p <;> rfl
        · rw [if_neg hjo]
          exact ⟨Or.inr, fun hh => hh.resolve_left hjo⟩
      constructor
      · intro hmem
        by_cases hc : j = e.u ∨ j = e.v
        · rw [if_pos hc] at hmem
          rcases List.mem_append.mp hmem with hm | hm
          · obtain ⟨k, p, h1, h2, h3, h4⟩ := (h.mem j hj key).mp hm
            exact ⟨k, p, h1, h2, h3, (hold k p).mpr (Or.inr h4)⟩
          · obtain rfl := List.mem_singleton.mp hm
            rcases hc with rfl | rfl
            · exact ⟨e.v, e.odd, hv, Ne.symm hne, rfl, (hold _ _).mpr (Or.inl ⟨rfl, Or.inl ⟨rfl, rfl⟩⟩)⟩
            · exact ⟨e.u, e.odd, hu, hne, sparseKey_comm hne _, (hold _ _).mpr (Or.inl ⟨rfl, Or.inr ⟨rfl, rfl⟩⟩)⟩
        · rw [if_neg hc] at hmem
          obtain ⟨k, p, h1, h2, h3, h4⟩ := (h.mem j hj key).mp hmem
          exact ⟨k, p, h1, h2, h3, (hold k p).mpr (Or.inr h4)⟩
      · rintro ⟨k, p, h1, h2, h3, h4⟩
        rcases (hold k p).mp h4 with hjo | hs
        · have hc : j = e.u ∨ j = e.v := by
            rcases hjo.2 with ⟨h5, _⟩ | ⟨_, h5⟩
            · exact Or.inl h5.symm
            · exact Or.inr h5.symm
          rw [if_pos hc]
          apply List.mem_append_right
          rw [h3, (hkey j k p hj h1 (Ne.symm h2)).mpr hjo]
          exact List.mem_singleton_self _
        · have : key ∈ s.adj.getD j [] := (h.mem j hj key).mpr ⟨k, p, h1, h2, h3, hs⟩
          split
          · exact List.mem_append_left _ this
          · exact this
  | some old =>
    rw [hb] at hfind
    have hstep : putSparse s e = .ok { s with edges := s.edges.map fun p => if p.1 = keyOf e then (p.1, better old e) else p } := by
      unfold putSparse
      rw [hfind]
    have hjb : ∀ j k p, joins e j k p → bestOf es j k p = some old := by
      rintro j k p ⟨h1, ⟨h3, h4⟩ | ⟨h3, h4⟩⟩
      · rw [← h1, ← h3, ← h4]; exact hb
      · rw [← h1, ← h3, ← h4, bestOf_comm]; exact hb
    refine ⟨_, hstep, ⟨fun j k p hj hk hjk => ?_, h.length, h.nodup, fun j hj key => ?_⟩⟩
    · rw [findKey_replace _ _ _ _ (by rw [hfind]; rfl), bestOf_snoc]
      by_cases hjo : joins e j k p
      · rw [if_pos hjo, if_pos ((hkey j k p hj hk hjk).mpr hjo).symm, hjb j k p hjo]
        rfl
      · rw [if_neg hjo, if_neg (fun hh => hjo ((hkey j k p hj hk hjk).mp hh.symm))]
        exact h.find j k p hj hk hjk
    · have hold : ∀ k p, (bestOf (es ++ [e]) j k p).isSome ↔ (bestOf es j k p).isSome := by
        intro k p
        rw [bestOf_snoc]
        by_cases hjo : joins e j k p
        · rw [if_pos hjo, hjb j k p hjo]
          exact ⟨fun _ => rfl, fun _ => rfl⟩
        · rw [if_neg hjo]
      dsimp only
      rw [h.mem j hj key]
      simp only [hold]

theorem fillSparse_rep {n : Nat} (hn : n ≤ 2 ^ 31) (es : List Edge) : ∀ (done : List Edge) (s : Sparse),
    (∀ e ∈ es, e.Proper n) → SRep n done s → ∃ s', fillSparse es s = .ok s' ∧ SRep n (done ++ es) s' := by
  induction es with
  | nil => intro done s _ h; exact ⟨s, rfl, by simpa using h⟩
  | cons e es ih =>
    intro done s hp h
    obtain ⟨s1, h1, h2⟩ := putSparse_rep hn (hp e (List.mem_cons_self ..)) h
    obtain ⟨s2, h3, h4⟩ := ih (done ++ [e]) s1 (fun f hf => hp f (List.mem_cons_of_mem _ hf)) h2
    refine ⟨s2, ?_, by simpa using h4⟩
    rw [fillSparse, h1]
    exact h3

theorem srep_start (n : Nat) : SRep n [] ⟨[], List.replicate n []⟩ := by
  have hg : ∀ j, (List.replicate n ([] : List Nat)).getD j [] = [] := by
    intro j
    rw [List.getD_eq_getElem?_getD, List.getElem?_replicate]
    split <;> rfl
  refine ⟨fun j k p _ _ _ => rfl, List.length_replicate, fun j _ => ?_, fun j _ key => ?_⟩
  · dsimp only
    rw [hg]; exact List.nodup_nil
  · dsimp only
    rw [hg]
    constructor
    · intro h; cases h
    · rintro ⟨k, p, _, _, _, h⟩
      cases h

/-! ### The order of the edges at a node -/

theorem edgeLe_trans (a b c : Nat × Edge) (h1 : edgeLe a b = true) (h2 : edgeLe b c = true) : edgeLe a c = true := by
  unfold edgeLe at *
  by_cases e1 : a.1 = b.1 <;> by_cases e2 : b.1 = c.1
  · rw [if_neg (by simpa using e1)] at h1
    rw [if_neg (by simpa using e2)] at h2
    rw [if_neg (by simpa using e1.trans e2)]
    cases ha : a.2.odd <;> cases hb : b.2.odd <;> cases hc : c.2.odd <;> rw [ha, hb] at h1 <;> rw [hb, hc] at h2 <;>
      simp at h1 h2 ⊢ <;> omega
  · rw [if_pos (by simpa using e2)] at h2
    rw [if_pos (by rw [e1]; simpa using e2), e1]
    exact h2
  · rw [if_pos (by simpa using e1)] at h1
    rw [if_pos (by rw [← e2]; simpa using e1), ← e2]
    exact h1
  · rw [if_pos (by simpa using e1)] at h1
    rw [if_pos (by simpa using e2)] at h2
    have h3 := of_decide_eq_true h1
    have h4 := of_decide_eq_true h2
    rw [if_pos (by simp; omega)]
    exact decide_eq_true (by omega)

theorem edgeLe_total (a b : Nat × Edge) : (edgeLe a b || edgeLe b a) = true := by
  unfold edgeLe
  by_cases e1 : a.1 = b.1
  · have n1 : ¬ a.1 ≠ b.1 := by simpa using e1
    have n2 : ¬ b.1 ≠ a.1 := by simpa using e1.symm
    simp only [if_neg n1, if_neg n2]
    cases ha : a.2.odd <;> cases hb : b.2.odd <;> simp <;> omega
  · rw [if_pos (by simpa using e1), if_pos (by simpa using (Ne.symm e1))]
    simp
    omega

/-- Strictly before: smaller other node, or the even edge. -/
def Before (a b : Nat × Edge) : Prop := a.1 < b.1 ∨ a.1 = b.1 ∧ a.2.odd = false ∧ b.2.odd = true

theorem Before.le {a b : Nat × Edge} (h : Before a b) : edgeLe a b = true := by
  unfold edgeLe
  rcases h with h | ⟨h1, h2, h3⟩
  · rw [if_pos (by omega)]
    exact decide_eq_true h
  · rw [if_neg (by simpa using h1), h2, h3]
    simp

theorem Before.ne {a b : Nat × Edge} (h : Before a b) : a ≠ b := by
  rintro rfl
  rcases h with h | ⟨_, h2, h3⟩
  · omega
  · rw [h2] at h3; cases h3

theorem mem_edgesTo {es : List Edge} {j k : Nat} {q : Nat × Edge} :
    q ∈ edgesTo es j k ↔ k ≠ j ∧ q.1 = k ∧ ∃ p, bestOf es j k p = some q.2 := by
  unfold edgesTo
  by_cases hk : k = j
  · simp [hk]
  · rw [if_neg hk, List.mem_append, List.mem_map, List.mem_map]
    constructor
    · rintro (⟨e, he, rfl⟩ | ⟨e, he, rfl⟩)
      · exact ⟨hk, rfl, false, Option.mem_toList.mp he⟩
      · exact ⟨hk, rfl, true, Option.mem_toList.mp he⟩
    · rintro ⟨_, h1, p, h2⟩
      cases p
      · exact Or.inl ⟨q.2, Option.mem_toList.mpr h2, by rw [← h1]⟩
      · exact Or.inr ⟨q.2, Option.mem_toList.mpr h2, by rw [← h1]⟩

theorem mem_edgesAt {es : List Edge} {j n : Nat} {q : Nat × Edge} :
    q ∈ edgesAt es j n ↔ q.1 < n ∧ q.1 ≠ j ∧ ∃ p, bestOf es j q.1 p = some q.2 := by
  unfold edgesAt
  rw [List.mem_flatMap]
  constructor
  · rintro ⟨k, hk, h⟩
    obtain ⟨h1, h2, h3⟩ := mem_edgesTo.mp h
    subst h2
    exact ⟨List.mem_range.mp hk, h1, h3⟩
  · rintro ⟨h1, h2, h3⟩
    exact ⟨q.1, List.mem_range.mpr h1, mem_edgesTo.mpr ⟨h2, rfl, h3⟩⟩

theorem edgesTo_before (es : List Edge) (j k : Nat) : (edgesTo es j k).Pairwise Before := by
  unfold edgesTo
  by_cases hk : k = j
  · rw [if_pos hk]; exact List.Pairwise.nil
  · rw [if_neg hk]
    cases h1 : bestOf es j k false <;> cases h2 : bestOf es j k true <;> simp
    exact Or.inr ⟨rfl, (bestOf_joins _ _ _ _ _ h1).1, (bestOf_joins _ _ _ _ _ h2).1⟩

theorem edgesAt_before (es : List Edge) (j n : Nat) : (edgesAt es j n).Pairwise Before := by
  unfold edgesAt
  rw [List.pairwise_flatMap]
  refine ⟨fun k _ => edgesTo_before es j k, ?_⟩
  refine List.pairwise_lt_range.imp ?_
  intro a b hab x hx y hy
  obtain ⟨_, h1, _⟩ := mem_edgesTo.mp hx
  obtain ⟨_, h2, _⟩ := mem_edgesTo.mp hy
  exact Or.inl (by omega)

theorem otherEnd_eq {e : Edge} {j k : Nat} {p : Bool} (h : joins e j k p) (hjk : j ≠ k) : otherEnd j e = k := by
  unfold otherEnd
  rcases h.2 with ⟨h1, h2⟩ | ⟨h1, h2⟩
  · rw [if_pos h1, h2]
  · rw [if_neg (by omega), h1]

theorem incidentSparse_eq {n : Nat} {es : List Edge} {s : Sparse} (h : SRep n es s) {j : Nat} (hj : j < n) :
    incidentSparse s j = .ok (edgesAt es j n) := by
  have hlen : j < s.adj.length := by rw [h.length]; exact hj
  unfold incidentSparse
  rw [List.getElem?_eq_getElem hlen]
  dsimp only
  have hget : s.adj[j] = s.adj.getD j [] := by
    rw [List.getD_eq_getElem?_getD, List.getElem?_eq_getElem hlen]; rfl
  rw [hget]
  congr 1
  set L := ((s.adj.getD j []).filterMap (findKey s.edges)).map fun e => (otherEnd j e, e) with hL
  have hmemL : ∀ q, q ∈ L ↔ q ∈ edgesAt es j n := by
    intro q
    rw [hL, List.mem_map, mem_edgesAt]
    constructor
    · rintro ⟨e, he, rfl⟩
      obtain ⟨key, hk, hf⟩ := List.mem_filterMap.mp he
      obtain ⟨k, p, h1, h2, h3, h4⟩ := (h.mem j hj key).mp hk
      rw [h3, h.find j k p hj h1 (Ne.symm h2)] at hf
      have hjo := bestOf_joins _ _ _ _ _ hf
      rw [otherEnd_eq hjo (Ne.symm h2)]
      exact ⟨h1, h2, p, hf⟩
    · rintro ⟨h1, h2, p, h3⟩
      refine ⟨q.2, List.mem_filterMap.mpr ⟨sparseKey j q.1 p, (h.mem j hj _).mpr ⟨q.1, p, h1, h2, rfl, by rw [h3]; rfl⟩, ?_⟩, ?_⟩
      · rw [h.find j q.1 p hj h1 (Ne.symm h2)]; exact h3
      · rw [otherEnd_eq (bestOf_joins _ _ _ _ _ h3) (Ne.symm h2)]
  have hndL : L.Nodup := by
    rw [hL]
    refine List.Nodup.map (fun a b hab => (Prod.mk.inj hab).2) ?_
    refine List.pairwise_filterMap.mpr (List.Pairwise.imp_of_mem ?_ (h.nodup j hj))
    intro key key' hm hm' hne e he e' he' hee
    subst hee
    obtain ⟨k, p, h1, h2, h3, h4⟩ := (h.mem j hj key).mp hm
    obtain ⟨k', p', h1', h2', h3', h4'⟩ := (h.mem j hj key').mp hm'
    rw [h3, h.find j k p hj h1 (Ne.symm h2)] at he
    rw [h3', h.find j k' p' hj h1' (Ne.symm h2')] at he'
    have g1 := bestOf_joins _ _ _ _ _ he
    have g2 := bestOf_joins _ _ _ _ _ he'
    apply hne
    rw [h3, h3', ← otherEnd_eq g1 (Ne.symm h2), ← otherEnd_eq g2 (Ne.symm h2'), ← g1.1, ← g2.1]
  have hperm : L.Perm (edgesAt es j n) :=
    (List.perm_ext_iff_of_nodup hndL ((edgesAt_before es j n).imp Before.ne)).mpr hmemL
  have hperm2 : (L.mergeSort edgeLe).Perm (edgesAt es j n) := (List.mergeSort_perm L edgeLe).trans hperm
  refine hperm2.eq_of_pairwise (le := fun a b => edgeLe a b = true) ?_ (List.pairwise_mergeSort edgeLe_trans edgeLe_total L)
    ((edgesAt_before es j n).imp Before.le)
  intro a b ha hb hab hba
  obtain ⟨a1, a2, p, a3⟩ := mem_edgesAt.mp (hperm2.mem_iff.mp ha)
  obtain ⟨b1, b2, q, b3⟩ := mem_edgesAt.mp hb
  have e1 : a.1 = b.1 := by
    by_contra hne
    unfold edgeLe at hab hba
    rw [if_pos hne] at hab
    rw [if_pos (Ne.symm hne)] at hba
    have := of_decide_eq_true hab
    have := of_decide_eq_true hba
    omega
  have e2 : p = q := by
    unfold edgeLe at hab hba
    rw [if_neg (by simpa using e1)] at hab
    rw [if_neg (by simpa using e1.symm)] at hba
    have f1 := (bestOf_joins _ _ _ _ _ a3).1
    have f2 := (bestOf_joins _ _ _ _ _ b3).1
    rw [f1, f2] at hab hba
    cases p <;> cases q <;> simp at hab hba ⊢
  rw [← e1, ← e2, a3] at b3
  exact Prod.ext e1 (Option.some.inj b3)

/-- **The hash table gives the lightest edges.** -/
theorem graphSparse_eq {n : Nat} {es : List Edge} (hn : n ≤ 2 ^ 31) (h : ∀ e ∈ es, e.Proper n) :
    graphSparse n es = .ok (adjacency n es) := by
  obtain ⟨s, h1, h2⟩ := fillSparse_rep hn es [] _ h (srep_start n)
  unfold graphSparse
  rw [h1]
  exact collect_eq n fun j hj => incidentSparse_eq h2 hj

/-- **How the graph is stored does not matter.** -/
theorem graphOf_eq {n : Nat} {es : List Edge} (lim : Limits) (hn : n ≤ 2 ^ 31) (h : ∀ e ∈ es, e.Proper n) :
    graphOf lim n es = .ok (adjacency n es) := by
  unfold graphOf
  split
  · exact graphSparse_eq hn h
  · exact graphDense_eq h

end Cgl.ZHSearch
