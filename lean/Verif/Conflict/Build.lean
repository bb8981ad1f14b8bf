import Verif.Conflict.Spec

/-!
# The row of a clique: `addNodes`, `finish`
-/

namespace Cgl.Conflict

theorem coefAt_none {v : SVec} {c : Nat} (h : coefAt v c = none) : c ∉ v.map Prod.fst := by
  unfold coefAt at h
  simp only [Option.map_eq_none_iff, List.find?_eq_none] at h
  intro hc
  obtain ⟨p, hp, rfl⟩ := List.mem_map.mp hc
  exact h p hp (by simp)

theorem coefAt_some {v : SVec} {c : Nat} {a : ℚ} (h : coefAt v c = some a) : (c, a) ∈ v := by
  unfold coefAt at h
  obtain ⟨p, hp, rfl⟩ := Option.map_eq_some_iff.mp h
  have h1 := List.find?_some hp
  have h2 := List.mem_of_find?_eq_some hp
  simp only [beq_iff_eq] at h1
  rw [← h1]; exact h2

theorem bump_keys (v : SVec) (c : Nat) (d : ℚ) : (bump v c d).map Prod.fst = v.map Prod.fst := by
  unfold bump
  rw [List.map_map]
  apply List.map_congr_left
  intro p _
  simp only [Function.comp]
  split <;> rfl

theorem bump_absent {v : SVec} {c : Nat} {d : ℚ} (h : c ∉ v.map Prod.fst) : bump v c d = v := by
  unfold bump
  conv_rhs => rw [← List.map_id v]
  apply List.map_congr_left
  intro p hp
  have : p.1 ≠ c := fun e => h (e ▸ List.mem_map_of_mem hp)
  simp [this]

/-- One entry changes. -/
theorem bump_split {v : SVec} {c : Nat} {a : ℚ} (hn : (v.map Prod.fst).Nodup) (h : (c, a) ∈ v) (d : ℚ) :
    ∃ v1 v2, v = v1 ++ (c, a) :: v2 ∧ bump v c d = v1 ++ (c, a + d) :: v2 := by
  obtain ⟨v1, v2, rfl⟩ := List.append_of_mem h
  refine ⟨v1, v2, rfl, ?_⟩
  simp only [List.map_append, List.map_cons, List.nodup_append, List.nodup_cons] at hn
  obtain ⟨_, ⟨h2, _⟩, h3⟩ := hn
  have h1 : c ∉ v1.map Prod.fst := fun hc => h3 c hc c (by simp) rfl
  have e : bump (v1 ++ (c, a) :: v2) c d = bump v1 c d ++ (c, a + d) :: bump v2 c d := by
    simp [bump]
  rw [e, bump_absent h1, bump_absent h2]

theorem compactRhs_append (v w : SVec) : compactRhs (v ++ w) = compactRhs v + compactRhs w := by
  simp only [compactRhs, List.filter_append, List.length_append]; push_cast; ring

theorem compactRhs_cons (p : Nat × ℚ) (v : SVec) :
    compactRhs (p :: v) = (if p.2 = -1 then -1 else 0) + compactRhs v := by
  unfold compactRhs
  by_cases h : p.2 = -1
  · simp [h]
    try ring
  · simp [h]

theorem compactRhs_nil : compactRhs [] = 0 := by simp [compactRhs]

/-- State of the build after the nodes `els`. -/
structure Inv (n : Nat) (els : List Nat) (b : Build) : Prop where
  nodup : (b.row.map Prod.fst).Nodup
  cols : ∀ p ∈ b.row, p.1 < n
  coefs : ∀ p ∈ b.row, (p.2 = 1 ∧ p.1 ∈ els) ∨ (p.2 = -1 ∧ p.1 + n ∈ els) ∨ (p.2 = 0 ∧ p.1 ∈ els ∧ p.1 + n ∈ els)
  dot : ∀ x, SVec.dot b.row x - b.rhs = (els.map (lit n x)).sum - 1
  count : b.rhs = 1 + compactRhs b.row - b.dup
  len : b.row.length ≤ els.length

theorem inv_start (n : Nat) : Inv n [] start := by
  constructor
  · simp [start]
  · simp [start]
  · simp [start]
  · intro x; simp [start]
  · simp [start, compactRhs_nil]
  · simp [start]

theorem Inv.length_lt {n : Nat} {els : List Nat} {b : Build} (h : Inv n els b) {c : Nat} (hc : c < n)
    (hn : c ∉ b.row.map Prod.fst) : b.row.length < n := by
  have h1 : (c :: b.row.map Prod.fst).Nodup := List.nodup_cons.mpr ⟨hn, h.nodup⟩
  have h2 : c :: b.row.map Prod.fst ⊆ List.range n := by
    intro d hd
    rcases List.mem_cons.mp hd with rfl | hd
    · exact List.mem_range.mpr hc
    · obtain ⟨p, hp, rfl⟩ := List.mem_map.mp hd
      exact List.mem_range.mpr (h.cols p hp)
  have := (List.subperm_of_subset h1 h2).length_le
  simp only [List.length_cons, List.length_map, List.length_range] at this
  omega

theorem coefs_mono {n : Nat} {els : List Nat} {u : Nat} {p : Nat × ℚ}
    (h : (p.2 = 1 ∧ p.1 ∈ els) ∨ (p.2 = -1 ∧ p.1 + n ∈ els) ∨ (p.2 = 0 ∧ p.1 ∈ els ∧ p.1 + n ∈ els)) :
    (p.2 = 1 ∧ p.1 ∈ els ++ [u]) ∨ (p.2 = -1 ∧ p.1 + n ∈ els ++ [u]) ∨
      (p.2 = 0 ∧ p.1 ∈ els ++ [u] ∧ p.1 + n ∈ els ++ [u]) := by
  rcases h with ⟨h1, h2⟩ | ⟨h1, h2⟩ | ⟨h1, h2, h3⟩
  · exact Or.inl ⟨h1, List.mem_append_left _ h2⟩
  · exact Or.inr (Or.inl ⟨h1, List.mem_append_left _ h2⟩)
  · exact Or.inr (Or.inr ⟨h1, List.mem_append_left _ h2, List.mem_append_left _ h3⟩)

/-- A node that is new, inside the graph, and for which there is room, is added. -/
theorem addNode_ok {cap n : Nat} {els : List Nat} {b : Build} (h : Inv n els b) {u : Nat} (hu : u < 2 * n)
    (hnew : u ∉ els) (hcap : n ≤ cap ∨ els.length < cap) :
    ∃ b', addNode cap n b u = .ok b' ∧ Inv n (els ++ [u]) b' := by
  have room : ∀ c, c < n → c ∉ b.row.map Prod.fst → b.row.length < cap := by
    intro c hc hn
    have := h.length_lt hc hn
    have := h.len
    omega
  unfold addNode
  by_cases hun : u < n
  · rw [if_pos hun]
    unfold addEntry
    rcases hc : coefAt b.row u with _ | a
    · have hk := coefAt_none hc
      simp only [room u hun hk, if_true]
      refine ⟨_, rfl, ?_⟩
      constructor
      · simp only [List.map_append, List.map_cons, List.map_nil, List.nodup_append]
        refine ⟨h.nodup, by simp, ?_⟩
        intro a ha b' hb' e
        simp only [List.mem_singleton] at hb'
        exact hk (hb' ▸ e ▸ ha)
      · intro p hp
        rcases List.mem_append.mp hp with hp | hp
        · exact h.cols p hp
        · simp only [List.mem_singleton] at hp; subst hp; exact hun
      · intro p hp
        rcases List.mem_append.mp hp with hp | hp
        · exact coefs_mono (h.coefs p hp)
        · simp only [List.mem_singleton] at hp; subst hp
          exact Or.inl ⟨rfl, by simp⟩
      · intro x
        have := h.dot x
        simp only [SVec.dot_append, SVec.dot_cons, SVec.dot_nil, List.map_append, List.map_cons, List.map_nil,
          List.sum_append, List.sum_cons, List.sum_nil]
        have e : lit n x u = x u := by simp [lit, hun]
        rw [e]; linarith
      · have := h.count
        simp only [compactRhs_append, compactRhs_cons, compactRhs_nil]
        norm_num; linarith
      · have := h.len
        simp only [List.length_append, List.length_cons, List.length_nil]; omega
    · have hm := coefAt_some hc
      have ha : a = -1 := by
        rcases h.coefs _ hm with ⟨_, h2⟩ | ⟨h1, _⟩ | ⟨_, h2, _⟩
        · exact absurd h2 hnew
        · exact h1
        · exact absurd h2 hnew
      have hs : u + n ∈ els := by
        rcases h.coefs _ hm with ⟨_, h2⟩ | ⟨_, h2⟩ | ⟨_, h2, _⟩
        · exact absurd h2 hnew
        · exact h2
        · exact absurd h2 hnew
      subst ha
      simp only [show ((-1 : ℚ) + 1 = 0) by norm_num, if_true]
      obtain ⟨v1, v2, e1, e2⟩ := bump_split h.nodup hm 1
      refine ⟨_, rfl, ?_⟩
      constructor
      · show ((bump b.row u 1).map Prod.fst).Nodup
        rw [bump_keys]; exact h.nodup
      · intro p hp
        have : p.1 ∈ (bump b.row u 1).map Prod.fst := List.mem_map_of_mem hp
        rw [bump_keys] at this
        obtain ⟨q, hq, e⟩ := List.mem_map.mp this
        rw [← e]; exact h.cols q hq
      · intro p hp
        have hp' : p ∈ v1 ++ (u, (-1 : ℚ) + 1) :: v2 := by rw [← e2]; exact hp
        simp only [List.mem_append, List.mem_cons] at hp'
        rcases hp' with hp' | hp' | hp'
        · exact coefs_mono (h.coefs p (by rw [e1]; simp [hp']))
        · subst hp'
          refine Or.inr (Or.inr ⟨by norm_num, by simp, by simp [hs]⟩)
        · exact coefs_mono (h.coefs p (by rw [e1]; simp [hp']))
      · intro x
        have := h.dot x
        show SVec.dot (bump b.row u 1) x - b.rhs = _
        rw [e2]; rw [e1] at this
        simp only [SVec.dot_append, SVec.dot_cons, List.map_append, List.map_cons, List.map_nil,
          List.sum_append, List.sum_cons, List.sum_nil] at this ⊢
        have e : lit n x u = x u := by simp [lit, hun]
        rw [e]; linarith
      · have := h.count
        show b.rhs = 1 + compactRhs (bump b.row u 1) - ((b.dup + 1 : ℕ) : ℚ)
        rw [e2]; rw [e1] at this
        simp only [compactRhs_append, compactRhs_cons] at this ⊢
        push_cast
        norm_num at this ⊢; linarith
      · have := h.len
        show (bump b.row u 1).length ≤ _
        simp only [bump, List.length_map, List.length_append, List.length_cons, List.length_nil]; omega
  · have hc' : u - n < n := by omega
    have hun' : u - n + n = u := by omega
    rw [if_neg hun, if_pos hc']
    unfold addEntry
    rcases hc : coefAt b.row (u - n) with _ | a
    · have hk := coefAt_none hc
      simp only [room _ hc' hk, if_true]
      refine ⟨_, rfl, ?_⟩
      constructor
      · simp only [List.map_append, List.map_cons, List.map_nil, List.nodup_append]
        refine ⟨h.nodup, by simp, ?_⟩
        intro a ha b' hb' e
        simp only [List.mem_singleton] at hb'
        exact hk (hb' ▸ e ▸ ha)
      · intro p hp
        rcases List.mem_append.mp hp with hp | hp
        · exact h.cols p hp
        · simp only [List.mem_singleton] at hp; subst hp; exact hc'
      · intro p hp
        rcases List.mem_append.mp hp with hp | hp
        · exact coefs_mono (h.coefs p hp)
        · simp only [List.mem_singleton] at hp; subst hp
          exact Or.inr (Or.inl ⟨rfl, by simp [hun']⟩)
      · intro x
        have := h.dot x
        simp only [SVec.dot_append, SVec.dot_cons, SVec.dot_nil, List.map_append, List.map_cons, List.map_nil,
          List.sum_append, List.sum_cons, List.sum_nil]
        have e : lit n x u = 1 - x (u - n) := by simp [lit, hun]
        rw [e]; linarith
      · have := h.count
        simp only [compactRhs_append, compactRhs_cons, compactRhs_nil]
        norm_num; linarith
      · have := h.len
        simp only [List.length_append, List.length_cons, List.length_nil]; omega
    · have hm := coefAt_some hc
      have ha : a = 1 ∧ u - n ∈ els := by
        rcases h.coefs _ hm with ⟨h1, h2⟩ | ⟨_, h2⟩ | ⟨_, _, h2⟩
        · exact ⟨h1, h2⟩
        · exact absurd (hun' ▸ h2) hnew
        · exact absurd (hun' ▸ h2) hnew
      obtain ⟨rfl, hs⟩ := ha
      simp only [show ((1 : ℚ) + -1 = 0) by norm_num, if_true]
      obtain ⟨v1, v2, e1, e2⟩ := bump_split h.nodup hm (-1)
      refine ⟨_, rfl, ?_⟩
      constructor
      · show ((bump b.row (u - n) (-1)).map Prod.fst).Nodup
        rw [bump_keys]; exact h.nodup
      · intro p hp
        have : p.1 ∈ (bump b.row (u - n) (-1)).map Prod.fst := List.mem_map_of_mem hp
        rw [bump_keys] at this
        obtain ⟨q, hq, e⟩ := List.mem_map.mp this
        rw [← e]; exact h.cols q hq
      · intro p hp
        have hp' : p ∈ v1 ++ (u - n, (1 : ℚ) + -1) :: v2 := by rw [← e2]; exact hp
        simp only [List.mem_append, List.mem_cons] at hp'
        rcases hp' with hp' | hp' | hp'
        · exact coefs_mono (h.coefs p (by rw [e1]; simp [hp']))
        · subst hp'
          refine Or.inr (Or.inr ⟨by norm_num, by simp [hs], by simp [hun']⟩)
        · exact coefs_mono (h.coefs p (by rw [e1]; simp [hp']))
      · intro x
        have := h.dot x
        show SVec.dot (bump b.row (u - n) (-1)) x - (b.rhs - 1) = _
        rw [e2]; rw [e1] at this
        simp only [SVec.dot_append, SVec.dot_cons, List.map_append, List.map_cons, List.map_nil,
          List.sum_append, List.sum_cons, List.sum_nil] at this ⊢
        have e : lit n x u = 1 - x (u - n) := by simp [lit, hun]
        rw [e]; linarith
      · have := h.count
        show b.rhs - 1 = 1 + compactRhs (bump b.row (u - n) (-1)) - ((b.dup + 1 : ℕ) : ℚ)
        rw [e2]; rw [e1] at this
        simp only [compactRhs_append, compactRhs_cons] at this ⊢
        push_cast
        norm_num at this ⊢; linarith
      · have := h.len
        show (bump b.row (u - n) (-1)).length ≤ _
        simp only [bump, List.length_map, List.length_append, List.length_cons, List.length_nil]; omega

theorem addNodes_ok {cap n : Nat} {us : List Nat} : ∀ {els : List Nat} {b : Build}, Inv n els b →
    (∀ u ∈ us, u < 2 * n) → (els ++ us).Nodup → (n ≤ cap ∨ els.length + us.length ≤ cap) →
    ∃ b', addNodes cap n b us = .ok b' ∧ Inv n (els ++ us) b' := by
  induction us with
  | nil => intro els b h _ _ _; exact ⟨b, rfl, by simpa using h⟩
  | cons u us ih =>
    intro els b h hu hn hcap
    have hnew : u ∉ els := by
      intro hin
      exact (List.nodup_append.mp hn).2.2 u hin u (by simp) rfl
    obtain ⟨b1, e1, h1⟩ := addNode_ok (cap := cap) h (hu u (by simp)) hnew (by
      simp only [List.length_cons] at hcap; omega)
    obtain ⟨b2, e2, h2⟩ := ih (els := els ++ [u]) h1 (fun v hv => hu v (by simp [hv]))
      (by rw [List.append_assoc]; exact hn) (by simp only [List.length_cons, List.length_append, List.length_nil] at *; omega)
    refine ⟨b2, ?_, by rw [List.append_assoc] at h2; exact h2⟩
    simp only [addNodes, e1, e2]

theorem dot_compact {v : SVec} (h : ∀ p ∈ v, p.2 = 1 ∨ p.2 = -1 ∨ p.2 = 0) (x : Nat → ℚ) :
    SVec.dot (compact v) x = SVec.dot v x := by
  induction v with
  | nil => rfl
  | cons p v ih =>
    have ih' := ih (fun q hq => h q (by simp [hq]))
    unfold compact at ih' ⊢
    rcases h p (by simp) with e | e | e
    · simp [e, ih']
    · simp [e, ih']
    · rw [List.filter_cons_of_neg (by rw [e]; decide), ih', SVec.dot_cons, e]; ring

/-- The row says exactly "at most one of the literals". -/
theorem finish_ok {n : Nat} {els : List Nat} {b : Build} (h : Inv n els b) :
    ∃ c, finish b = .ok c ∧ ∀ x, SVec.dot c.1 x - c.2 = (els.map (lit n x)).sum - 1 := by
  have hu : ∀ p ∈ b.row, p.2 = 1 ∨ p.2 = -1 ∨ p.2 = 0 := by
    intro p hp
    rcases h.coefs p hp with ⟨h1, _⟩ | ⟨h1, _⟩ | ⟨h1, _⟩
    · exact Or.inl h1
    · exact Or.inr (Or.inl h1)
    · exact Or.inr (Or.inr h1)
  unfold finish
  by_cases h1 : b.dup = 1
  · rw [if_pos h1]
    have : unitRow b.row = true := by
      unfold unitRow
      rw [List.all_eq_true]
      intro p hp
      rcases hu p hp with e | e | e <;> simp [e]
    rw [if_pos this]
    refine ⟨_, rfl, fun x => ?_⟩
    have hc := h.count
    have hx := h.dot x
    rw [h1] at hc
    simp only [dot_compact hu]
    push_cast at hc
    linarith
  · rw [if_neg h1]
    exact ⟨_, rfl, h.dot⟩

/-- Every complementary pair contributes 1. -/
theorem dup_le_sum {n : Nat} {els : List Nat} {b : Build} (h : Inv n els b) {x : Nat → ℚ}
    (hx : ∀ u ∈ els, 0 ≤ lit n x u) : (b.dup : ℚ) ≤ (els.map (lit n x)).sum := by
  have h1 := h.dot x
  have h2 := h.count
  suffices hs : 0 ≤ SVec.dot b.row x - compactRhs b.row by linarith
  have hc : ∀ p ∈ b.row, 0 ≤ p.2 * x p.1 + (if p.2 = -1 then 1 else 0) := by
    intro p hp
    have hlt := h.cols p hp
    rcases h.coefs p hp with ⟨e, hm⟩ | ⟨e, hm⟩ | ⟨e, _⟩
    · have := hx _ hm
      simp only [lit, hlt, if_true] at this
      rw [e]; norm_num; exact this
    · have := hx _ hm
      simp only [lit, show ¬(p.1 + n < n) by omega, if_false, Nat.add_sub_cancel] at this
      rw [e]; norm_num; linarith
    · rw [e]; norm_num
  revert hc
  generalize b.row = v
  intro hc
  induction v with
  | nil => simp [compactRhs_nil]
  | cons p v ih =>
    have i1 := ih (fun q hq => hc q (by simp [hq]))
    have i2 := hc p (by simp)
    rw [SVec.dot_cons, compactRhs_cons]
    split at i2 <;> rename_i hp
    · rw [if_pos hp]; linarith
    · rw [if_neg hp]; linarith

/-! ### Cliques at points that respect the graph -/

/-- If at most one of distinct nodes can be true, the literals sum to at most 1. -/
theorem sum_le_one {n : Nat} {x : Nat → ℚ} {C : List Nat} (hn : C.Nodup) (h01 : ∀ u ∈ C, ZeroOne n x u)
    (hc : ∀ u ∈ C, ∀ v ∈ C, u ≠ v → ¬(lit n x u = 1 ∧ lit n x v = 1)) : (C.map (lit n x)).sum ≤ 1 := by
  induction C with
  | nil => simp
  | cons u C ih =>
    have ih' := ih (List.nodup_cons.mp hn).2 (fun v hv => h01 v (by simp [hv]))
      (fun v hv w hw => hc v (by simp [hv]) w (by simp [hw]))
    rw [List.map_cons, List.sum_cons]
    rcases h01 u (by simp) with e | e
    · rw [e]; linarith
    · have hz : (C.map (lit n x)).sum = 0 := by
        apply List.sum_eq_zero
        intro q hq
        obtain ⟨v, hv, rfl⟩ := List.mem_map.mp hq
        have hne : u ≠ v := fun e' => (List.nodup_cons.mp hn).1 (e' ▸ hv)
        rcases h01 v (by simp [hv]) with e' | e'
        · exact e'
        · exact absurd ⟨e, e'⟩ (hc u (by simp) v (by simp [hv]) hne)
      rw [e, hz]; norm_num

/-- A clique with at least two nodes: at most one literal is true at a point that respects the graph. -/
theorem clique_sum_le_one {G : Graph} {x : Nat → ℚ} (hx : Respects G x) {C : List Nat} (hC : IsClique G C)
    (h01 : ∀ u ∈ C, ZeroOne G.nCols x u) : (C.map (lit G.nCols x)).sum ≤ 1 :=
  sum_le_one hC.nodup h01 fun u hu v hv hne =>
    (hx u (hC.nodes u hu) v (hC.nodes v hv) (hC.adj u hu v hv hne)).2.2

end Cgl.Conflict
