import Verif.Conflict.Build
import Mathlib.Data.List.Nodup
import Mathlib.Data.List.Perm.Subperm

/-!
# `CglBKClique`: cuts are valid, cut off the LP point, and the call ends without failed assertion
-/

namespace Cgl.Conflict

/-- A node that has a conflict. -/
def Tied (G : Graph) (u : Nat) : Prop := u < 2 * G.nCols ∧ ∃ v < 2 * G.nCols, G.adj u v = true

theorem Tied.zeroOne {G : Graph} {u : Nat} (h : Tied G u) {x : Nat → ℚ} (hx : Respects G x) :
    ZeroOne G.nCols x u := by
  obtain ⟨hu, v, hv, ha⟩ := h
  exact (hx u hu v hv ha).1

theorem tied_of_degree {G : Graph} {u : Nat} (hu : u < 2 * G.nCols) (h : 2 ≤ G.degree u) : Tied G u := by
  refine ⟨hu, ?_⟩
  unfold Graph.degree at h
  have : (List.range (2 * G.nCols)).filter (G.adj u) ≠ [] := by
    intro e; rw [e] at h; simp at h
  obtain ⟨v, hv⟩ := List.exists_mem_of_ne_nil _ this
  rw [List.mem_filter, List.mem_range] at hv
  exact ⟨v, hv.1, hv.2⟩

/-- The node lists the search may be given. -/
structure GoodNodes (G : Graph) (x : Nat → ℚ) (nodes : List (Nat × ℚ)) : Prop where
  nodup : (nodes.map Prod.fst).Nodup
  tied : ∀ p ∈ nodes, Tied G p.1
  weight : ∀ p ∈ nodes, p.2 = lit G.nCols x p.1 * 1000

theorem inducedNodes_good (G : Graph) (minFrac : ℚ) (x : Nat → ℚ) : GoodNodes G x (inducedNodes G minFrac x) := by
  unfold inducedNodes
  constructor
  · rw [List.map_map]
    have : (Prod.fst ∘ fun u => (u, lit G.nCols x u * 1000)) = id := by funext u; rfl
    rw [this, List.map_id]
    exact List.Nodup.filter _ List.nodup_range
  · intro p hp
    obtain ⟨u, hu, rfl⟩ := List.mem_map.mp hp
    rw [List.mem_filter, List.mem_range] at hu
    simp only [Bool.and_eq_true, decide_eq_true_eq] at hu
    exact tied_of_degree hu.1 hu.2.1
  · intro p hp
    obtain ⟨u, hu, rfl⟩ := List.mem_map.mp hp
    rfl

theorem cappedNodes_good {env : BKEnv} {G : Graph} (hE : env.OK G) {x : Nat → ℚ} {l : List (Nat × ℚ)}
    (h : GoodNodes G x l) (m : Nat) : GoodNodes G x (cappedNodes env m l) := by
  unfold cappedNodes
  split
  · have hs := hE.top m l
    constructor
    · obtain ⟨l', hp, hsub⟩ := hs
      exact ((hp.map Prod.fst).nodup_iff).mp ((hsub.map Prod.fst).nodup h.nodup)
    · intro p hp; exact h.tied p (hs.subset hp)
    · intro p hp; exact h.weight p (hs.subset hp)
  · exact h

theorem GoodNodes.length_le {G : Graph} {x : Nat → ℚ} {nodes : List (Nat × ℚ)} (h : GoodNodes G x nodes) :
    nodes.length ≤ 2 * G.nCols := by
  have hs : nodes.map Prod.fst ⊆ List.range (2 * G.nCols) := by
    intro d hd
    obtain ⟨p, hp, rfl⟩ := List.mem_map.mp hd
    exact List.mem_range.mpr (h.tied p hp).1
  simpa using (List.subperm_of_subset h.nodup hs).length_le

/-- Node of a position. -/
def nodeAt (nodes : List (Nat × ℚ)) (i : Nat) : Nat := ((nodes[i]?).getD (0, 0)).1

theorem mapClique_ok {nodes : List (Nat × ℚ)} {c : List Nat} (h : ∀ i ∈ c, i < nodes.length) :
    mapClique nodes c = .ok (c.map (nodeAt nodes)) := by
  induction c with
  | nil => rfl
  | cons i is ih =>
    have hi := h i (by simp)
    simp only [mapClique, List.getElem?_eq_getElem hi, ih (fun j hj => h j (by simp [hj])), List.map_cons, nodeAt,
      Option.getD_some]

/-- The cliques `separateCliques` returns. -/
structure GoodClique (G : Graph) (x : Nat → ℚ) (w : ℚ) (C : List Nat) : Prop where
  clique : IsClique G C
  tied : ∀ u ∈ C, Tied G u
  nonempty : C ≠ []
  weight : w ≤ (C.map (lit G.nCols x)).sum * 1000

theorem nodeAt_mem {nodes : List (Nat × ℚ)} {i : Nat} (h : i < nodes.length) :
    ∃ p ∈ nodes, nodes[i]? = some p ∧ nodeAt nodes i = p.1 := by
  refine ⟨nodes[i], List.getElem_mem h, List.getElem?_eq_getElem h, ?_⟩
  simp [nodeAt, List.getElem?_eq_getElem h]

theorem nodeAt_inj {G : Graph} {x : Nat → ℚ} {nodes : List (Nat × ℚ)} (h : GoodNodes G x nodes) {i j : Nat}
    (hi : i < nodes.length) (hj : j < nodes.length) (e : nodeAt nodes i = nodeAt nodes j) : i = j := by
  have hi' : i < (nodes.map Prod.fst).length := by simpa using hi
  have hj' : j < (nodes.map Prod.fst).length := by simpa using hj
  refine (List.Nodup.getElem_inj_iff h.nodup (hi := hi') (hj := hj')).mp ?_
  simpa [nodeAt, List.getElem?_eq_getElem hi, List.getElem?_eq_getElem hj] using e

theorem found_good {G : Graph} {x : Nat → ℚ} {w : ℚ} {nodes : List (Nat × ℚ)} (hN : GoodNodes G x nodes)
    {c : List Nat} (h : FoundClique G w nodes c) : GoodClique G x w (c.map (nodeAt nodes)) := by
  constructor
  · constructor
    · refine List.Nodup.map_on ?_ h.nodup
      intro i hi j hj e
      exact nodeAt_inj hN (h.range i hi) (h.range j hj) e
    · intro u hu
      obtain ⟨i, hi, rfl⟩ := List.mem_map.mp hu
      obtain ⟨p, hp, _, e⟩ := nodeAt_mem (h.range i hi)
      rw [e]; exact (hN.tied p hp).1
    · intro u hu v hv hne
      obtain ⟨i, hi, rfl⟩ := List.mem_map.mp hu
      obtain ⟨j, hj, rfl⟩ := List.mem_map.mp hv
      obtain ⟨p, hp, ep, e⟩ := nodeAt_mem (h.range i hi)
      obtain ⟨q, hq, eq, e'⟩ := nodeAt_mem (h.range j hj)
      rw [e, e']
      exact h.adj i hi j hj (fun he => hne (he ▸ rfl)) p q ep eq
  · intro u hu
    obtain ⟨i, hi, rfl⟩ := List.mem_map.mp hu
    obtain ⟨p, hp, _, e⟩ := nodeAt_mem (h.range i hi)
    rw [e]; exact hN.tied p hp
  · simpa using h.nonempty
  · refine le_trans h.weight (le_of_eq ?_)
    have hr := h.range
    clear h
    induction c with
    | nil => simp
    | cons i is ih =>
      have hi := hr i (by simp)
      obtain ⟨p, hp, ep, e⟩ := nodeAt_mem hi
      simp only [List.map_cons, List.sum_cons, ih (fun j hj => hr j (by simp [hj])), e, ep, Option.getD_some,
        hN.weight p hp]
      ring

theorem found_length {G : Graph} {w : ℚ} {nodes : List (Nat × ℚ)} {c : List Nat} (h : FoundClique G w nodes c) :
    c.length ≤ nodes.length := by
  have hs : c ⊆ List.range nodes.length := fun i hi => List.mem_range.mpr (h.range i hi)
  simpa using (List.subperm_of_subset h.nodup hs).length_le

theorem mapCliques_ok {G : Graph} {x : Nat → ℚ} {w : ℚ} {cap : Nat} {nodes : List (Nat × ℚ)} (hN : GoodNodes G x nodes)
    (hcap : G.nCols ≤ cap) {cl : List (List Nat)} (h : ∀ c ∈ cl, FoundClique G w nodes c) :
    ∃ r, mapCliques cap nodes cl = .ok r ∧ ∀ C ∈ r, GoodClique G x w C := by
  induction cl with
  | nil => exact ⟨[], rfl, by simp⟩
  | cons c rest ih =>
    obtain ⟨r, e, hr⟩ := ih (fun d hd => h d (by simp [hd]))
    have hc := h c (by simp)
    have hl : ¬ 2 * cap < c.length := by
      have := found_length hc
      have := hN.length_le
      omega
    refine ⟨c.map (nodeAt nodes) :: r, ?_, ?_⟩
    · simp only [mapCliques, if_neg hl, mapClique_ok hc.range, e]
    · intro C hC
      rcases List.mem_cons.mp hC with rfl | hC
      · exact found_good hN hc
      · exact hr C hC

theorem separateCliques_ok {env : BKEnv} {G : Graph} (hE : env.OK G) (x : Nat → ℚ) {o : BKObj} (hcap : G.nCols ≤ o.cap) :
    ∃ o' r, separateCliques env G x o = .ok (o', r) ∧ (∀ C ∈ r, GoodClique G x o.minWeight C) ∧
      o'.cap = o.cap ∧ o'.extMethod = o.extMethod ∧ o'.minWeight = o.minWeight ∧ o'.minViol = o.minViol := by
  unfold separateCliques
  split
  · exact ⟨o, [], rfl, by simp, rfl, rfl, rfl, rfl⟩
  · have hN := cappedNodes_good hE (inducedNodes_good G o.minFrac x) o.maxInduced
    unfold searchCliques
    split
    · obtain ⟨r, e, hr⟩ := mapCliques_ok hN hcap (hE.bk o.maxCalls o.minWeight _)
      rw [e]
      exact ⟨_, r, rfl, hr, rfl, rfl, rfl, rfl⟩
    · exact ⟨_, [], rfl, by simp, rfl, rfl, rfl, rfl⟩

/-- The cliques that are turned into cuts. -/
structure CutClique (G : Graph) (x : Nat → ℚ) (w : ℚ) (C : List Nat) : Prop where
  clique : IsClique G C
  tied : ∀ u ∈ C, Tied G u
  weight : (∀ u, Tied G u → 0 ≤ lit G.nCols x u) → w ≤ (C.map (lit G.nCols x)).sum * 1000

theorem GoodClique.cut {G : Graph} {x : Nat → ℚ} {w : ℚ} {C : List Nat} (h : GoodClique G x w C) :
    CutClique G x w C := ⟨h.clique, h.tied, fun _ => h.weight⟩

theorem sum_sub_le {n : Nat} {x : Nat → ℚ} {C S : List Nat} (hn : C.Nodup) (hs : ∀ u ∈ C, u ∈ S)
    (hp : ∀ u ∈ S, 0 ≤ lit n x u) : (C.map (lit n x)).sum ≤ (S.map (lit n x)).sum := by
  have h := List.subperm_of_subset hn hs
  obtain ⟨l, hl, hsub⟩ := h
  rw [← (hl.map (lit n x)).sum_eq]
  clear hs hl hn
  induction hsub with
  | slnil => simp
  | cons a _ ih =>
    have := hp a (by simp)
    have := ih (fun u hu => hp u (by simp [hu]))
    simp only [List.map_cons, List.sum_cons]; linarith
  | cons_cons a _ ih =>
    have := ih (fun u hu => hp u (by simp [hu]))
    simp only [List.map_cons, List.sum_cons]; linarith

theorem GoodClique.extended {G : Graph} {x : Nat → ℚ} {w : ℚ} {C S : List Nat} (h : GoodClique G x w C)
    (he : Extends G C S) : CutClique G x w S := by
  have ht : ∀ u ∈ S, Tied G u := by
    intro u hu
    by_cases hc : u ∈ C
    · exact h.tied u hc
    · obtain ⟨v, hv⟩ := List.exists_mem_of_ne_nil _ h.nonempty
      have hne : u ≠ v := fun e => hc (e ▸ hv)
      exact ⟨he.nodes u hu, v, he.nodes v (he.sub v hv), he.adj u hu v (he.sub v hv) hne (Or.inl hc)⟩
  refine ⟨⟨he.nodup, he.nodes, ?_⟩, ht, ?_⟩
  · intro u hu v hv hne
    by_cases hc : u ∉ C ∨ v ∉ C
    · exact he.adj u hu v hv hne hc
    · rw [not_or, not_not, not_not] at hc
      exact h.clique.adj u hc.1 v hc.2 hne
  · intro hp
    have := sum_sub_le (x := x) h.clique.nodup he.sub (fun u hu => hp u (ht u hu))
    have := h.weight
    linarith

theorem extSplit_good {env : BKEnv} {G : Graph} (hE : env.OK G) {x : Nat → ℚ} {w : ℚ} {cl : List (List Nat)} :
    ∀ (k : Nat), (∀ C ∈ cl, GoodClique G x w C) →
      (∀ C ∈ (extSplit env k cl).1, CutClique G x w C) ∧ ∀ C ∈ (extSplit env k cl).2, CutClique G x w C := by
  induction cl with
  | nil => intro k _; simp [extSplit]
  | cons C rest ih =>
    intro k h
    obtain ⟨i1, i2⟩ := ih (k + 1) (fun D hD => h D (by simp [hD]))
    have hC := h C (by simp)
    unfold extSplit
    rcases he : env.ext k C with _ | S
    · refine ⟨?_, i2⟩
      intro D hD
      rcases List.mem_cons.mp hD with rfl | hD
      · exact hC.cut
      · exact i1 D hD
    · refine ⟨i1, ?_⟩
      intro D hD
      rcases List.mem_cons.mp hD with rfl | hD
      · exact hC.extended (hE.ext k C _ hC.clique he)
      · exact i2 D hD

theorem chosen_good {env : BKEnv} {G : Graph} (hE : env.OK G) {x : Nat → ℚ} {w : ℚ} {cl : List (List Nat)} (e : Nat)
    (h : ∀ C ∈ cl, GoodClique G x w C) : ∀ C ∈ chosenCliques env e cl, CutClique G x w C := by
  unfold chosenCliques
  split
  · intro C hC; exact (h C hC).cut
  · intro C hC
    obtain ⟨h1, h2⟩ := extSplit_good hE 0 h
    rcases List.mem_append.mp hC with hC | hC
    · exact h1 C hC
    · exact h2 C hC

/-- A clique becomes a row that says "at most one of the literals", provided some point respects the graph. -/
theorem cliqueCut_ok {G : Graph} {x : Nat → ℚ} {w : ℚ} {C : List Nat} (h : CutClique G x w C) {cap : Nat}
    (hcap : G.nCols ≤ cap) (hz : ∃ z, Respects G z) :
    ∃ c, cliqueCut cap G.nCols C = .ok c := by
  obtain ⟨b, e, hb⟩ := addNodes_ok (cap := cap) (inv_start G.nCols) h.clique.nodes (by simpa using h.clique.nodup)
    (Or.inl hcap)
  obtain ⟨z, hz⟩ := hz
  have h01 : ∀ u ∈ C, ZeroOne G.nCols z u := fun u hu => (h.tied u hu).zeroOne hz
  have hs := clique_sum_le_one hz h.clique h01
  have hd := dup_le_sum (x := z) hb (by
    intro u hu
    rcases h01 u (by simpa using hu) with e | e
    · rw [e]
    · rw [e]; norm_num)
  simp only [List.nil_append] at hd
  have hd' : ¬ 2 ≤ b.dup := by
    intro h2
    have : (2 : ℚ) ≤ (b.dup : ℚ) := by exact_mod_cast h2
    linarith
  obtain ⟨c, ec, _⟩ := finish_ok hb
  exact ⟨c, by simp only [cliqueCut, e, if_neg hd', ec]⟩

theorem cliqueCut_dot {cap n : Nat} {C : List Nat} (hn : C.Nodup) (hC : ∀ u ∈ C, u < 2 * n) (hcap : n ≤ cap)
    {c : SVec × ℚ} (h : cliqueCut cap n C = .ok c) (x : Nat → ℚ) :
    SVec.dot c.1 x - c.2 = (C.map (lit n x)).sum - 1 := by
  obtain ⟨b, e, hb⟩ := addNodes_ok (cap := cap) (inv_start n) hC (by simpa using hn) (Or.inl hcap)
  obtain ⟨c', ec, hc'⟩ := finish_ok hb
  simp only [cliqueCut, e] at h
  split at h
  · cases h
  · rw [ec] at h
    cases h
    simpa using hc' x

theorem cliqueCuts_ok {G : Graph} {x : Nat → ℚ} {w : ℚ} {cl : List (List Nat)} (h : ∀ C ∈ cl, CutClique G x w C)
    {cap : Nat} (hcap : G.nCols ≤ cap) (hz : ∃ z, Respects G z) : ∃ cs, cliqueCuts cap G.nCols cl = .ok cs := by
  induction cl with
  | nil => exact ⟨[], rfl⟩
  | cons C rest ih =>
    obtain ⟨cs, e⟩ := ih (fun D hD => h D (by simp [hD]))
    obtain ⟨c, ec⟩ := cliqueCut_ok (h C (by simp)) hcap hz
    exact ⟨c :: cs, by simp only [cliqueCuts, ec, e]⟩

theorem cliqueCuts_mem {cap n : Nat} {cl : List (List Nat)} : ∀ {cs : List (SVec × ℚ)}, cliqueCuts cap n cl = .ok cs →
    ∀ c ∈ cs, ∃ C ∈ cl, cliqueCut cap n C = .ok c := by
  induction cl with
  | nil => intro cs h; cases h; simp
  | cons C rest ih =>
    intro cs h
    unfold cliqueCuts at h
    rcases h1 : cliqueCut cap n C with f | c1
    · rw [h1] at h; cases h
    · rcases h2 : cliqueCuts cap n rest with f | cs2
      · rw [h1, h2] at h; cases h
      · rw [h1, h2] at h; cases h
        intro c hc
        rcases List.mem_cons.mp hc with rfl | hc
        · exact ⟨C, by simp, h1⟩
        · obtain ⟨D, hD, e⟩ := ih h2 c hc
          exact ⟨D, by simp [hD], e⟩

theorem mem_handOver {cuts : List (SVec × ℚ)} : ∀ {cs : List RowCut} {c : RowCut}, c ∈ handOver cs cuts →
    c ∈ cs ∨ ∃ d ∈ cuts, c = { lb := -dblMax, ub := d.2, row := d.1 } := by
  induction cuts with
  | nil => intro cs c h; exact Or.inl h
  | cons d ds ih =>
    intro cs c h
    have h' : c ∈ handOver (insertIfNotDuplicate cs { lb := -dblMax, ub := d.2, row := d.1 }) ds := h
    rcases ih h' with h1 | ⟨e, he, rfl⟩
    · rcases mem_insertIfNotDuplicate.mp h1 with h2 | h2
      · exact Or.inl h2
      · exact Or.inr ⟨d, by simp, h2⟩
    · exact Or.inr ⟨e, by simp [he], rfl⟩

theorem checkMemory_cap (o : BKObj) (n : Nat) : n ≤ (o.checkMemory n).cap := by
  unfold BKObj.checkMemory
  split
  · exact le_refl _
  · omega

theorem shortTime_same (o : BKObj) : o.shortTime.cap = o.cap ∧ o.shortTime.extMethod = o.extMethod ∧
    o.shortTime.minWeight = o.minWeight ∧ o.shortTime.minViol = o.minViol := by
  unfold BKObj.shortTime
  split <;> exact ⟨rfl, rfl, rfl, rfl⟩

theorem checkMemory_same (o : BKObj) (n : Nat) : (o.checkMemory n).extMethod = o.extMethod ∧
    (o.checkMemory n).minWeight = o.minWeight ∧ (o.checkMemory n).minViol = o.minViol := by
  unfold BKObj.checkMemory
  split <;> exact ⟨rfl, rfl, rfl⟩

/-- What a successful call does: every cut is old or comes from a clique. -/
theorem bk_cut {env : BKEnv} {P : Prob} {G : Graph} {x : Nat → ℚ} {o o' : BKObj} {cs cs' : List RowCut}
    (hE : env.OK G) (h : bkGenerate env P G x o cs = .ok (o', cs')) : ∀ c ∈ cs', c ∈ cs ∨
      (G.nCols = P.nCols ∧ c.lb = -dblMax ∧ ∃ C, CutClique G x o.minWeight C ∧
        ∀ y, SVec.dot c.row y - c.ub = (C.map (lit G.nCols y)).sum - 1) := by
  unfold bkGenerate at h
  split at h
  · cases h; intro c hc; exact Or.inl hc
  · split at h
    · cases h
    · rename_i hn
      rw [not_not] at hn
      rw [hn] at h
      have hcap : G.nCols ≤ (o.checkMemory G.nCols).shortTime.cap := by
        rw [(shortTime_same _).1]; exact checkMemory_cap o _
      obtain ⟨o1, r, e, hr, hc1, he1, hw1, _⟩ := separateCliques_ok hE x hcap
      rw [e] at h
      simp only at h
      split at h
      · cases h; intro c hc; exact Or.inl hc
      · unfold insertCuts at h
        rcases h2 : cliqueCuts o1.cap G.nCols (chosenCliques env o1.extMethod r) with f | cuts
        · rw [h2] at h; cases h
        · rw [h2] at h; cases h
          intro c hc
          rcases mem_handOver hc with h3 | ⟨d, hd, rfl⟩
          · exact Or.inl h3
          · right
            obtain ⟨d', hd', hp, hq⟩ := hE.pool _ d hd
            obtain ⟨C, hC, eC⟩ := cliqueCuts_mem h2 d' hd'
            have hgood := chosen_good hE _ hr C hC
            have hw : (o.checkMemory G.nCols).shortTime.minWeight = o.minWeight := by
              rw [(shortTime_same _).2.2.1, (checkMemory_same o _).2.1]
            rw [hw] at hgood
            refine ⟨hn.symm, rfl, C, hgood, fun y => ?_⟩
            show SVec.dot d.1 y - d.2 = _
            rw [SVec.dot_perm hp, hq]
            exact cliqueCut_dot hgood.clique.nodup hgood.clique.nodes (by rw [hc1]; exact hcap) eC y

end Cgl.Conflict
