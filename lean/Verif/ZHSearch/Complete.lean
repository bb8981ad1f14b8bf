import Verif.ZHSearch.Props

/-!
# The search of the zero-half generator: no better edge is overlooked
-/

namespace Cgl.ZHSearch

open ZeroHalf

/-! ### Equal rows -/

/-- For every row there at the start an equal one, with no more slack, is still there. -/
def Covers (init rows : List ParRow) : Prop :=
  ∀ p ∈ init, p.deleted = false → ∃ q ∈ rows, q.deleted = false ∧ q.cols = p.cols ∧ q.odd = p.odd ∧ q.slack ≤ p.slack

theorem covers_set {init rows : List ParRow} (h : Covers init rows) {i k : Nat} {a b : ParRow} (hik : i ≠ k)
    (ha : rows[i]? = some a) (hb : rows[k]? = some b) (hbd : b.deleted = false) (hc : b.cols = a.cols) (ho : b.odd = a.odd)
    (hs : b.slack ≤ a.slack) : Covers init (rows.set i { a with deleted := true }) := by
  intro p hp hd
  obtain ⟨q, hq, q1, q2, q3, q4⟩ := h p hp hd
  obtain ⟨m, hm⟩ := List.mem_iff_getElem?.mp hq
  by_cases him : m = i
  · subst him
    rw [ha] at hm
    obtain rfl := Option.some.inj hm
    refine ⟨b, ?_, hbd, hc.trans q2, ho.trans q3, hs.trans q4⟩
    apply List.mem_of_getElem? (i := k)
    rw [List.getElem?_set_ne hik]
    exact hb
  · refine ⟨q, ?_, q1, q2, q3, q4⟩
    apply List.mem_of_getElem? (i := m)
    rw [List.getElem?_set_ne (Ne.symm him)]
    exact hm

theorem dedup_covers {init rows : List ParRow} (h : Covers init rows) {q : Nat × Nat} (hq : q.1 ≠ q.2) :
    Covers init (dedupStep rows q) := by
  unfold dedupStep
  rcases h1 : rows[q.1]? with _ | a
  · exact h
  · rcases h2 : rows[q.2]? with _ | b
    · exact h
    · dsimp only
      by_cases hs : sameRow a b = true
      · rw [if_pos hs]
        unfold sameRow at hs
        simp only [Bool.and_eq_true, decide_eq_true_eq, Bool.not_eq_true'] at hs
        obtain ⟨⟨⟨s1, s2⟩, s3⟩, s4⟩ := hs
        by_cases hlt : a.slack < b.slack
        · rw [if_pos hlt]
          exact covers_set h (Ne.symm hq) h2 h1 s2 s4 s1 hlt.le
        · rw [if_neg hlt]
          exact covers_set h hq h1 h2 s3 s4.symm s1.symm (not_lt.mp hlt)
      · rw [if_neg hs]
        exact h

theorem parityRows_covers (I : Ilp) (x : Nat → ℚ) : Covers (I.rows.map (parRow I x)) (parityRows I x) := by
  have key : ∀ (l : List (Nat × Nat)) (rows : List ParRow), (∀ q ∈ l, q.1 ≠ q.2) → Covers (I.rows.map (parRow I x)) rows →
      Covers (I.rows.map (parRow I x)) (l.foldl dedupStep rows) := by
    intro l
    induction l with
    | nil => intro rows _ h; exact h
    | cons q l ih =>
      intro rows hl h
      exact ih _ (fun q' hq' => hl q' (List.mem_cons_of_mem _ hq')) (dedup_covers h (hl q (List.mem_cons_self ..)))
  refine key _ _ (fun q hq => ?_) (fun p hp hd => ⟨p, hp, hd, rfl, rfl, le_rfl⟩)
  have := (mem_allPairs hq).1
  omega

/-! ### Choices -/

theorem perm_lift {α β : Type} (f : α → β) {a b : List β} (h : a.Perm b) : ∀ l : List α, l.map f = a →
    ∃ m : List α, m.Perm l ∧ m.map f = b := by
  induction h with
  | nil => intro l hl; exact ⟨l, List.Perm.refl _, hl⟩
  | cons y _ ih =>
    intro l hl
    cases l with
    | nil => cases hl
    | cons z l =>
      rw [List.map_cons, List.cons.injEq] at hl
      obtain ⟨m, h1, h2⟩ := ih l hl.2
      exact ⟨z :: m, List.Perm.cons _ h1, by rw [List.map_cons, h2, hl.1]⟩
  | swap y z t =>
    intro l hl
    match l, hl with
    | u :: v :: w, hl =>
      rw [List.map_cons, List.map_cons, List.cons.injEq, List.cons.injEq] at hl
      exact ⟨v :: u :: w, List.Perm.swap .., by rw [List.map_cons, List.map_cons, hl.1, hl.2.1, hl.2.2]⟩
  | trans _ _ ih1 ih2 =>
    intro l hl
    obtain ⟨m, h1, h2⟩ := ih1 l hl
    obtain ⟨k, h3, h4⟩ := ih2 m h2
    exact ⟨k, h3.trans h1, h4⟩

theorem boundSum_perm {I : Ilp} {S T : List (Nat × Side)} (h : S.Perm T) : boundSum I S = boundSum I T := by
  unfold boundSum
  exact (h.map _).sum_eq

theorem lossSum_perm {I : Ilp} {x : Nat → ℚ} {S T : List (Nat × Side)} (h : S.Perm T) : lossSum I x S = lossSum I x T := by
  unfold lossSum
  exact (h.map _).sum_eq

/-- Usable bounds are a choice, or there is a cheaper one with the same parity. -/
theorem bounds_choice {I : Ilp} {x : Nat → ℚ} : ∀ (T : List (Nat × Side)), (∀ q ∈ T, Usable I x q) →
    ∃ ts m, Choice ((T.map Prod.fst).map (weakOf I x)) ts (isOdd (boundSum I T)) m ∧ m ≤ lossSum I x T := by
  intro T
  induction T with
  | nil => intro _; exact ⟨[], 0, Choice.nil, le_rfl⟩
  | cons q T ih =>
    intro h
    obtain ⟨ts, m, h1, h2⟩ := ih fun q' hq' => h q' (List.mem_cons_of_mem _ hq')
    obtain ⟨s, l, h3, h4⟩ := weakOf_has (h q (List.mem_cons_self ..))
    refine ⟨s :: ts, l + m, ?_, ?_⟩
    · have : boundSum I (q :: T) = boundOf I q.1 q.2 + boundSum I T := by
        unfold boundSum
        rw [List.map_cons, List.sum_cons]
      rw [this, isOdd_add]
      exact Choice.cons h3 h1
    · have : lossSum I x (q :: T) = loss I x q + lossSum I x T := by
        unfold lossSum
        rw [List.map_cons, List.sum_cons]
      rw [this]
      exact add_le_add h4 h2

theorem usable_near {I : Ilp} {x : Nat → ℚ} {q : Nat × Side} (h : Usable I x q) (hA : ¬ Away I x q.1) :
    q = (q.1, nearSide I x q.1) := by
  unfold Usable at h
  rw [if_neg hA] at h
  exact Prod.ext rfl h

/-! ### One row -/

/-- The parts of a choice: the columns away from their bounds, and those at a bound. -/
theorem split_choice {I : Ilp} {x : Nat → ℚ} {r : IRow} {a b : Nat} {T : List (Nat × Side)}
    (ha : a ∈ nodesOf I x) (hb : b ∈ nodesOf I x)
    (hp : (oddEntries r).Perm ([a, b].filter (fun j => decide (j < I.bnds.length)) ++ T.map Prod.fst))
    (hu : ∀ q ∈ T, Usable I x q) :
    (parRow I x r).cols.Perm ([a, b].filter (fun j => decide (j < I.bnds.length)) ++
      (T.filter fun q => !colDeleted I x q.1).map Prod.fst) ∧
    boundSum I T = boundSum I (T.filter fun q => !colDeleted I x q.1) + boundSum I (nearBounds I x r) ∧
    lossSum I x T = lossSum I x (T.filter fun q => !colDeleted I x q.1) := by
  have hends : ∀ j ∈ [a, b].filter (fun j => decide (j < I.bnds.length)), colDeleted I x j = false := by
    intro j hj
    obtain ⟨h1, h2⟩ := List.mem_filter.mp hj
    have h3 : j ∈ nodesOf I x := by
      rcases List.mem_cons.mp h1 with rfl | h1
      · exact ha
      · rw [List.mem_singleton.mp h1]; exact hb
    rcases mem_nodes.mp h3 with ⟨_, h4⟩ | h4
    · exact h4
    · rw [decide_eq_true_eq] at h2; omega
  have hcols : (parRow I x r).cols.Perm ([a, b].filter (fun j => decide (j < I.bnds.length)) ++
      (T.filter fun q => !colDeleted I x q.1).map Prod.fst) := by
    have he : ([a, b].filter (fun j => decide (j < I.bnds.length))).filter (fun j => !colDeleted I x j) =
        [a, b].filter (fun j => decide (j < I.bnds.length)) :=
      List.filter_eq_self.mpr (fun j hj => by rw [hends j hj]; rfl)
    have := hp.filter fun j => !colDeleted I x j
    rw [List.filter_append, he, List.filter_map] at this
    exact this
  have hT : (nearBounds I x r).Perm (T.filter fun q => colDeleted I x q.1) := by
    have h1 := hp.filter fun j => colDeleted I x j
    have he : ([a, b].filter (fun j => decide (j < I.bnds.length))).filter (fun j => colDeleted I x j) = [] :=
      List.filter_eq_nil_iff.mpr (fun j hj => by rw [hends j hj]; simp)
    rw [List.filter_append, he, List.nil_append, List.filter_map] at h1
    have h2 := h1.map fun j => (j, nearSide I x j)
    rw [List.map_map] at h2
    have h3 : (T.filter fun q => colDeleted I x q.1).map ((fun j => (j, nearSide I x j)) ∘ Prod.fst) =
        T.filter fun q => colDeleted I x q.1 := by
      conv_rhs => rw [← List.map_id (T.filter fun q => colDeleted I x q.1)]
      apply List.map_congr_left
      intro q hq
      obtain ⟨h4, h5⟩ := List.mem_filter.mp hq
      exact (usable_near (hu q h4) ((colDeleted_iff I x q.1).mp h5)).symm
    have h4 : (List.filter ((fun j => colDeleted I x j) ∘ Prod.fst) T) = T.filter fun q => colDeleted I x q.1 := rfl
    rw [h4, h3] at h2
    exact h2
  have hsplit : (T.filter (fun q => !colDeleted I x q.1) ++ T.filter fun q => colDeleted I x q.1).Perm T :=
    List.perm_append_comm.trans (List.filter_append_perm (fun q : Nat × Side => colDeleted I x q.1) T)
  refine ⟨hcols, ?_, ?_⟩
  · rw [← boundSum_perm hsplit, boundSum_append, boundSum_perm hT]
  · rw [← lossSum_perm hsplit, lossSum_append, ← lossSum_perm hT, nearBounds_loss, add_zero]

theorem mem_allPairs' {n i k : Nat} (h1 : i < k) (h2 : k < n) : (i, k) ∈ allPairs n := by
  unfold allPairs
  refine List.mem_flatMap.mpr ⟨i, List.mem_range.mpr (by omega), List.mem_map.mpr ⟨k, ?_, rfl⟩⟩
  exact List.mem_filter.mpr ⟨List.mem_range.mpr h2, by simpa using h1⟩

theorem edgeIf_mem {nodes : List Nat} {j k : Nat} {w : ℚ} {o : Bool} {c : Option Nat} (h : w < maxSlack) :
    (⟨indOf nodes j, indOf nodes k, w, o, c⟩ : Edge) ∈ edgeIf nodes j k w o c := by
  unfold edgeIf
  rw [if_pos h]
  exact List.mem_singleton_self _

theorem indOf_eq {I : Ilp} {x : Nat → ℚ} {u a : Nat} (h : (nodesOf I x)[u]? = some a) : indOf (nodesOf I x) a = u := by
  have hm := List.mem_of_getElem? h
  have h1 := indOf_get hm
  have hl : indOf (nodesOf I x) a < (nodesOf I x).length := (List.getElem?_eq_some_iff.mp h1).1
  exact (List.getElem?_inj hl (nodes_nodup I x)).mp (h1.trans h.symm)

/-- A row gives an edge as light as any choice. -/
theorem rowEdges_complete {I : Ilp} {x : Nat → ℚ} {i : Nat} {r : IRow} {p : ParRow} (hn : (r.coefs.map Prod.fst).Nodup)
    (h1 : p.cols = (parRow I x r).cols) (h2 : p.odd = (parRow I x r).odd) (h3 : p.slack ≤ (parRow I x r).slack)
    {u v a b : Nat} (huv : u ≠ v) {T : List (Nat × Side)} (ha : (nodesOf I x)[u]? = some a) (hb : (nodesOf I x)[v]? = some b)
    (hp : (oddEntries r).Perm ([a, b].filter (fun j => decide (j < I.bnds.length)) ++ T.map Prod.fst))
    (hu : ∀ q ∈ T, Usable I x q) (hw : rowSlack x r + lossSum I x T < maxSlack)
    (hs : a < I.bnds.length ∧ b < I.bnds.length ∨ ∀ q ∈ T, ¬ Away I x q.1) :
    ∃ f ∈ rowEdges I x (nodesOf I x) i p, joins f u v (isOdd (r.rhs.tdiv (rowGcd r) + boundSum I T)) ∧
      f.weight ≤ rowSlack x r + lossSum I x T := by
  have ham := List.mem_of_getElem? ha
  have hbm := List.mem_of_getElem? hb
  have hab : a ≠ b := by
    rintro rfl
    exact huv ((indOf_eq ha).symm.trans (indOf_eq hb))
  obtain ⟨c1, c2, c3⟩ := split_choice ham hbm hp hu
  rw [← h1] at c1
  generalize hT' : T.filter (fun q => !colDeleted I x q.1) = T' at *
  have hu' : ∀ q ∈ T', Usable I x q := by
    intro q hq
    rw [← hT'] at hq
    exact hu q (List.mem_filter.mp hq).1
  have hodd : p.odd = isOdd (r.rhs.tdiv (rowGcd r) + boundSum I (nearBounds I x r)) := by
    rw [h2]; exact parityOf_eq I x r
  have hpar : isOdd (r.rhs.tdiv (rowGcd r) + boundSum I T) = Bool.xor p.odd (isOdd (boundSum I T')) := by
    rw [hodd, ← isOdd_add, c2]
    congr 1
    ring
  rw [hpar, c3]
  rw [c3] at hw
  have hslack : p.slack ≤ rowSlack x r := h3
  have hloss := lossSum_nonneg I x T'
  have hjoin : ∀ {w : ℚ} {o : Bool} {c : Option Nat}, joins ⟨indOf (nodesOf I x) a, indOf (nodesOf I x) b, w, o, c⟩ u v o :=
    ⟨rfl, Or.inl ⟨indOf_eq ha, indOf_eq hb⟩⟩
  have hjoin' : ∀ {w : ℚ} {o : Bool} {c : Option Nat}, joins ⟨indOf (nodesOf I x) b, indOf (nodesOf I x) a, w, o, c⟩ u v o :=
    ⟨rfl, Or.inr ⟨indOf_eq hb, indOf_eq ha⟩⟩
  by_cases hboth : a < I.bnds.length ∧ b < I.bnds.length
  · have hf : [a, b].filter (fun j => decide (j < I.bnds.length)) = [a, b] := by
      apply List.filter_eq_self.mpr
      intro j hj
      rcases List.mem_cons.mp hj with rfl | hj
      · simpa using hboth.1
      · rw [List.mem_singleton.mp hj]; simpa using hboth.2
    rw [hf] at c1
    have hlen : p.cols.length = T'.length + 2 := by
      rw [c1.length_eq]
      simp
    have hnd : p.cols.Nodup := by
      rw [h1]
      exact (List.Nodup.sublist (List.Sublist.map _ List.filter_sublist) hn).filter _
    unfold rowEdges
    split
    · next j hj => rw [hj] at hlen; simp at hlen
    · next j k hjk =>
      have hTn : T' = [] := by
        rw [hjk] at hlen
        rw [List.length_cons, List.length_cons, List.length_nil] at hlen
        exact List.length_eq_zero_iff.mp (by omega)
      rw [hTn] at hw ⊢ c1
      rw [hjk] at c1
      have hw0 : p.slack < maxSlack := by
        have : lossSum I x [] = 0 := rfl
        rw [this] at hw
        linarith
      have hle : p.slack ≤ rowSlack x r + lossSum I x [] := by
        have : lossSum I x [] = 0 := rfl
        rw [this]
        linarith
      have hx : Bool.xor p.odd (isOdd (boundSum I [])) = p.odd := by
        cases p.odd <;> rfl
      rw [hx]
      have hor : j = a ∧ k = b ∨ j = b ∧ k = a := by
        have hja : j ∈ [a, b] := c1.mem_iff.mp (by simp)
        have hka : k ∈ [a, b] := c1.mem_iff.mp (by simp)
        have hjk' : j ≠ k := by
          rw [hjk] at hnd
          intro e
          rw [e] at hnd
          simp at hnd
        simp at hja hka
        omega
      rcases hor with ⟨rfl, rfl⟩ | ⟨rfl, rfl⟩
      · exact ⟨_, edgeIf_mem hw0, hjoin, hle⟩
      · exact ⟨_, edgeIf_mem hw0, hjoin', hle⟩
    · -- three columns or more
      have hpos : ∃ q ∈ allPairs p.cols.length, p.cols.getD q.1 0 = a ∧ p.cols.getD q.2 0 = b ∨
          p.cols.getD q.1 0 = b ∧ p.cols.getD q.2 0 = a := by
        obtain ⟨k, hk⟩ := List.mem_iff_getElem?.mp (c1.mem_iff.mpr (show a ∈ [a, b] ++ T'.map Prod.fst by simp))
        obtain ⟨m, hm⟩ := List.mem_iff_getElem?.mp (c1.mem_iff.mpr (show b ∈ [a, b] ++ T'.map Prod.fst by simp))
        have hkl := (List.getElem?_eq_some_iff.mp hk).1
        have hml := (List.getElem?_eq_some_iff.mp hm).1
        have e1 : p.cols.getD k 0 = a := by rw [List.getD_eq_getElem?_getD, hk]; rfl
        have e2 : p.cols.getD m 0 = b := by rw [List.getD_eq_getElem?_getD, hm]; rfl
        have hkm : k ≠ m := by
          rintro rfl
          exact hab (e1.symm.trans e2)
        rcases Nat.lt_or_gt_of_ne hkm with h | h
        · exact ⟨(k, m), mem_allPairs' h hml, Or.inl ⟨e1, e2⟩⟩
        · exact ⟨(m, k), mem_allPairs' h hkl, Or.inr ⟨e2, e1⟩⟩
      obtain ⟨q, hq, hor⟩ := hpos
      obtain ⟨hq1, hq2⟩ := mem_allPairs hq
      have hop := others_perm hq1 hq2
      have hoth : (T'.map Prod.fst).Perm (others p.cols q.1 q.2) := by
        have h4 := c1.symm.trans hop
        rcases hor with ⟨e1, e2⟩ | ⟨e1, e2⟩
        · rw [e1, e2] at h4
          exact (List.perm_cons _).mp ((List.perm_cons _).mp h4)
        · rw [e1, e2] at h4
          have h5 := (List.Perm.swap b a (T'.map Prod.fst)).symm.trans h4
          first
            | exact (List.perm_cons _).mp ((List.perm_cons _).mp h5)
            | exact (List.perm_cons _).mp ((List.perm_cons _).mp ((List.Perm.swap a b (T'.map Prod.fst)).symm.trans h4))
      obtain ⟨S, hS1, hS2⟩ := perm_lift Prod.fst hoth T' rfl
      obtain ⟨ts, m, hch, hm⟩ := bounds_choice S fun q' hq' => hu' q' (hS1.mem_iff.mp hq')
      rw [hS2, boundSum_perm hS1] at hch
      rw [lossSum_perm hS1] at hm
      have hsel : sel p.odd (startSlacks p.odd p.slack) = p.slack := by
        unfold sel startSlacks
        cases p.odd <;> rfl
      have hnonneg : ∀ w ∈ (others p.cols q.1 q.2).map (weakOf I x), ∀ t pp l, Opt w t pp l → 0 ≤ l := by
        intro w hw t pp l ho
        obtain ⟨j, _, rfl⟩ := List.mem_map.mp hw
        rw [(weakOf_opt ho).2.2]
        exact loss_nonneg I x _
      obtain ⟨ss, b', hfw, hle⟩ := forward_best hch hnonneg (startSlacks p.odd p.slack) p.odd (by rw [hsel]; linarith)
      rw [hsel] at hle
      have hlt : sel (Bool.xor p.odd (isOdd (boundSum I T'))) b' < maxSlack := by linarith
      have hmem : ∀ o, sel o b' < maxSlack →
          (⟨indOf (nodesOf I x) (p.cols.getD q.1 0), indOf (nodesOf I x) (p.cols.getD q.2 0), sel o b', o, some i⟩ : Edge) ∈
            pairEdges I x (nodesOf I x) i p q := by
        intro o ho
        unfold pairEdges
        rw [hfw]
        dsimp only
        cases o
        · exact List.mem_append_left _ (edgeIf_mem ho)
        · exact List.mem_append_right _ (edgeIf_mem ho)
      refine ⟨_, List.mem_flatMap.mpr ⟨q, hq, hmem _ hlt⟩, ?_, by dsimp only; linarith⟩
      rcases hor with ⟨e1, e2⟩ | ⟨e1, e2⟩
      · rw [e1, e2]; exact hjoin
      · rw [e1, e2]; exact hjoin'
  · -- a column and the special node
    have hTn : T' = [] := by
      rw [← hT']
      apply List.filter_eq_nil_iff.mpr
      intro q hq
      have := (hs.resolve_left hboth) q hq
      rw [(colDeleted_iff I x q.1).mpr this]
      simp
    rw [hTn] at hw c1 ⊢
    have hl0 : lossSum I x [] = 0 := rfl
    rw [hl0] at hw ⊢
    have hx : Bool.xor p.odd (isOdd (boundSum I [])) = p.odd := by
      cases p.odd <;> rfl
    rw [hx]
    have hw0 : p.slack < maxSlack := by linarith
    have hle : p.slack ≤ rowSlack x r + 0 := by linarith
    have hna : ∀ {j : Nat}, j ∈ nodesOf I x → j < I.bnds.length ∨ j = I.bnds.length := by
      intro j hj
      rcases mem_nodes.mp hj with ⟨h, _⟩ | h
      · exact Or.inl h
      · exact Or.inr h
    have hone : a < I.bnds.length ∧ b = I.bnds.length ∨ b < I.bnds.length ∧ a = I.bnds.length := by
      rcases hna ham with h4 | h4 <;> rcases hna hbm with h5 | h5
      · exact absurd ⟨h4, h5⟩ hboth
      · exact Or.inl ⟨h4, h5⟩
      · exact Or.inr ⟨h5, h4⟩
      · exact absurd (h4.trans h5.symm) hab
    rcases hone with ⟨h4, h5⟩ | ⟨h4, h5⟩
    · rw [List.filter_cons, if_pos (by simpa using h4), List.filter_cons, if_neg (by simp [h5])] at c1
      have hc : p.cols = [a] := List.perm_singleton.mp c1
      unfold rowEdges
      rw [hc]
      dsimp only
      refine ⟨_, edgeIf_mem hw0, ?_, hle⟩
      rw [← h5]
      exact hjoin
    · rw [List.filter_cons, if_neg (by simp [h5]), List.filter_cons, if_pos (by simpa using h4)] at c1
      have hc : p.cols = [b] := List.perm_singleton.mp c1
      unfold rowEdges
      rw [hc]
      dsimp only
      refine ⟨_, edgeIf_mem hw0, ?_, hle⟩
      rw [← h5]
      exact hjoin'

/-! ### All rows -/

theorem rowsOffers_mem {lim : Limits} {I : Ilp} {x : Nat → ℚ} (h1 : lim.maxPairs < 0) (h2 : lim.maxFrac < 0) :
    ∀ (ps : List (ParRow × IRow)) (i : Nat) (es : List Edge), rowsOffers lim I x (nodesOf I x) i ps = .ok es →
      ∀ k q, ps[k]? = some q → q.1.deleted = false → ∀ e ∈ rowEdges I x (nodesOf I x) (i + k) q.1, e ∈ es := by
  intro ps
  induction ps with
  | nil => intro i es _ k q hk; cases hk
  | cons p ps ih =>
    intro i es h k q hk hd e he
    rw [rowsOffers] at h
    rcases ho : rowOffers lim I x (nodesOf I x) i p.1 p.2 with f | es1
    · rw [ho] at h; cases h
    · rw [ho] at h
      dsimp only at h
      rcases hr : rowsOffers lim I x (nodesOf I x) (i + 1) ps with f | es2
      · rw [hr] at h; cases h
      · rw [hr] at h
        cases h
        cases k with
        | zero =>
          obtain rfl := Option.some.inj hk
          refine List.mem_append_left _ ?_
          unfold rowOffers at ho
          rw [hd] at ho
          rw [if_neg (by simp)] at ho
          split at ho
          · cases ho
          · rw [if_neg (by omega), if_neg (by omega)] at ho
            cases ho
            exact he
        | succ k =>
          refine List.mem_append_right _ (ih (i + 1) es2 hr k q hk hd e ?_)
          rw [show i + 1 + k = i + (k + 1) by omega]
          exact he

/-- **No better edge is overlooked** (with the two limits on rows switched off, as they are by default): for every bound,
and for every row and every choice of usable bounds for all its odd columns but two, an edge between the same nodes with
the same parity is offered that is at least as light. -/
theorem offers_complete {lim : Limits} (h1 : lim.maxPairs < 0) (h2 : lim.maxFrac < 0) {I : Ilp} {x : Nat → ℚ} (hI : Ilp.Tidy I)
    {es : List Edge} (h : offers lim I x = .ok es) {e : Edge} (he : Tried I x e) (huv : e.u ≠ e.v)
    (hl : e.weight < 1 - 1 / 10 ^ 4) : ∃ f ∈ es, joins f e.u e.v e.odd ∧ f.weight ≤ e.weight := by
  have hl' : e.weight < maxSlack := by unfold maxSlack epsTol; exact hl
  unfold offers at h
  rcases hr : rowsOffers lim I x (nodesOf I x) 0 ((parityRows I x).zip I.rows) with f | es1
  · rw [hr] at h; cases h
  · rw [hr] at h
    cases h
    rcases he with ⟨j, t, _, g2, g3, g4, g5, g6⟩ | ⟨i, r, a, b, T, g1, g2, g3, g4, g5, g6, g7, g8⟩
    · have hd : colDeleted I x j = false := by
        cases hc : colDeleted I x j
        · rfl
        · exact absurd g3 ((colDeleted_iff I x j).mp hc)
      have hmem : (⟨indOf (nodesOf I x) j, indOf (nodesOf I x) I.bnds.length, e.weight, e.odd, none⟩ : Edge) ∈
          boundEdges I x (nodesOf I x) j := by
        unfold boundEdges
        rw [hd, if_neg (by simp)]
        cases t
        · refine List.mem_append_left _ ?_
          have e1 : e.weight = x j - (bnd I.bnds j).1 := g5
          have e2 : e.odd = isOdd (bnd I.bnds j).1 := g6
          rw [e1] at hl' ⊢
          rw [e2]
          exact edgeIf_mem hl'
        · refine List.mem_append_right _ ?_
          have e1 : e.weight = (bnd I.bnds j).2 - x j := g5
          have e2 : e.odd = isOdd (bnd I.bnds j).2 := g6
          rw [e1] at hl' ⊢
          rw [e2]
          exact edgeIf_mem hl'
      refine ⟨_, List.mem_append_right _ (List.mem_flatMap.mpr ⟨j, List.mem_range.mpr g2, hmem⟩), ⟨rfl, ?_⟩, le_rfl⟩
      rcases g4 with ⟨k1, k2⟩ | ⟨k1, k2⟩
      · exact Or.inl ⟨indOf_eq k1, indOf_eq k2⟩
      · exact Or.inr ⟨indOf_eq k1, indOf_eq k2⟩
    · have hrow : r ∈ I.rows := List.mem_of_getElem? g1
      have hT := lossSum_nonneg I x T
      have hw : rowSlack x r + lossSum I x T < maxSlack := by rw [← g6]; exact hl'
      have ham := List.mem_of_getElem? g2
      have hbm := List.mem_of_getElem? g3
      have hnd : (parRow I x r).deleted = false := by
        have hne : (parRow I x r).cols ≠ [] := by
          intro hc
          have c1 := (split_choice ham hbm g4 g5).1
          rw [hc] at c1
          have hnil := (List.append_eq_nil_iff.mp (List.nil_perm.mp c1)).1
          have hall := List.filter_eq_nil_iff.mp hnil
          have ha' := hall a (by simp)
          have hb' := hall b (by simp)
          have hab : a ≠ b := by
            rintro rfl
            exact huv ((indOf_eq g2).symm.trans (indOf_eq g3))
          rw [decide_eq_true_eq] at ha' hb'
          rcases mem_nodes.mp ham with ⟨k1, _⟩ | k1
          · exact ha' k1
          · rcases mem_nodes.mp hbm with ⟨k2, _⟩ | k2
            · exact hb' k2
            · exact hab (k1.trans k2.symm)
        have e1 : (parRow I x r).deleted = (decide (maxSlack < rowSlack x r) || (parRow I x r).cols.isEmpty) := rfl
        rw [e1, decide_eq_false (by linarith), Bool.false_or]
        exact List.isEmpty_eq_false_iff.mpr hne
      obtain ⟨p, hp, p1, p2, p3, p4⟩ := parityRows_covers I x _ (List.mem_map.mpr ⟨r, hrow, rfl⟩) hnd
      obtain ⟨k, hk, ek⟩ := List.mem_iff_getElem.mp hp
      have hlen := (parityRows_stands I x).length_eq
      obtain ⟨f, f1, f2, f3⟩ := rowEdges_complete (i := 0 + k) (hI r hrow).1 p2 p3 p4 huv g2 g3 g4 g5 hw g8
      refine ⟨f, List.mem_append_left _ ?_, ?_, ?_⟩
      · refine rowsOffers_mem h1 h2 _ 0 es1 hr k (p, I.rows[k]) ?_ p1 f f1
        rw [List.getElem?_zip_eq_some]
        exact ⟨by rw [List.getElem?_eq_getElem hk, ek], List.getElem?_eq_getElem (by omega)⟩
      · rw [g7]; exact f2
      · rw [g6]; exact f3

/-- **The edges the search works with are the lightest there are** (with the two limits on rows switched off). -/
theorem graph_lightest {lim : Limits} (h1 : lim.maxPairs < 0) (h2 : lim.maxFrac < 0) {I : Ilp} {x : Nat → ℚ} (hI : Ilp.Tidy I)
    (hr : ∀ r ∈ I.rows, r.coefs.length ≤ 46341) {e : Edge} (he : Tried I x e) (huv : e.u ≠ e.v)
    (hl : e.weight < 1 - 1 / 10 ^ 4) :
    ∃ f, GraphEdge lim I x f ∧ joins f e.u e.v e.odd ∧ f.weight ≤ e.weight := by
  obtain ⟨es, ho⟩ := offers_total lim x hr
  obtain ⟨g, g1, g2, g3⟩ := offers_complete h1 h2 hI ho he huv hl
  have hb := bestOf_lightest es e.u e.v e.odd
  cases hd : bestOf es e.u e.v e.odd with
  | none => exact absurd g2 (hb.1.mp hd g g1)
  | some d =>
    have hj := bestOf_joins _ _ _ _ _ hd
    have hlt := hb.2 d hd
    have hp := edgeOK_proper (offers_ok hI ho g g1)
    have hK : Kept (nodesOf I x).length es d := by
      have hn : e.u < (nodesOf I x).length ∧ e.v < (nodesOf I x).length := by
        rcases g2.2 with ⟨k1, k2⟩ | ⟨k1, k2⟩
        · rw [← k1, ← k2]; exact ⟨hp.1, hp.2.1⟩
        · rw [← k1, ← k2]; exact ⟨hp.2.1, hp.1⟩
      exact ⟨e.u, e.v, e.odd, hn.1, hn.2, huv, hd⟩
    refine ⟨d, kept_graphEdge hI ho hK, hj, le_trans ?_ g3⟩
    obtain ⟨l, r, c, k1, k2, k3, k4, k5, k6⟩ := hlt
    rw [k1] at g1
    rcases List.mem_append.mp g1 with h | h
    · exact (k5 g h g2).le
    · rcases List.mem_cons.mp h with rfl | h
      · exact k3.ge
      · exact k6 g h g2

end Cgl.ZHSearch
