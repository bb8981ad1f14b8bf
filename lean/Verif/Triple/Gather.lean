import Verif.Triple.Masks

/-! # Reading two rows with the same columns -/

namespace Cgl.Triple

theorem coefOf_cons (p : Nat × ℚ) (v : SVec) (k : Nat) : coefOf (p :: v) k = (if p.1 = k then p.2 else 0) + coefOf v k := by
  unfold coefOf; rw [List.map_cons, List.sum_cons]

theorem coefOf_zero {v : SVec} {k : Nat} (h : ∀ p ∈ v, p.1 ≠ k) : coefOf v k = 0 := by
  induction v with
  | nil => rfl
  | cons p v ih =>
    rw [coefOf_cons, if_neg (h p (by simp)), ih fun q hq => h q (List.mem_cons_of_mem _ hq), add_zero]

theorem coefOf_mem {v : SVec} (hn : (v.map Prod.fst).Nodup) {p : Nat × ℚ} (hp : p ∈ v) : coefOf v p.1 = p.2 := by
  induction v with
  | nil => cases hp
  | cons q v ih =>
    rw [List.map_cons, List.nodup_cons] at hn
    rw [coefOf_cons]
    rcases List.mem_cons.mp hp with rfl | hp
    · rw [if_pos rfl, coefOf_zero, add_zero]
      intro q hq hc
      exact hn.1 (List.mem_map.mpr ⟨q, hq, hc⟩)
    · rw [if_neg, zero_add, ih hn.2 hp]
      intro hc
      exact hn.1 (List.mem_map.mpr ⟨p, hp, hc.symm⟩)

theorem sum_single {K : List Nat} (hK : K.Nodup) {j : Nat} (hj : j ∈ K) (c : ℚ) (x : Nat → ℚ) :
    (K.map fun k => (if j = k then c else 0) * x k).sum = c * x j := by
  induction K with
  | nil => cases hj
  | cons k K ih =>
    rw [List.nodup_cons] at hK
    rw [List.map_cons, List.sum_cons]
    by_cases h : j = k
    · subst h
      rw [if_pos rfl]
      have : (K.map fun k => (if j = k then c else 0) * x k).sum = 0 := by
        apply List.sum_eq_zero
        intro y hy
        obtain ⟨k, hk, rfl⟩ := List.mem_map.mp hy
        rw [if_neg, zero_mul]
        rintro rfl
        exact hK.1 hk
      rw [this, add_zero]
    · rw [if_neg h, zero_mul, zero_add, ih hK.2]
      rcases List.mem_cons.mp hj with h1 | h1
      · exact absurd h1 h
      · exact h1

theorem dot_over {v : SVec} {K : List Nat} (hK : K.Nodup) (h : ∀ p ∈ v, p.1 ∈ K) (x : Nat → ℚ) :
    SVec.dot v x = (K.map fun k => coefOf v k * x k).sum := by
  induction v with
  | nil =>
    rw [SVec.dot_nil]
    symm
    apply List.sum_eq_zero
    intro y hy
    obtain ⟨k, -, rfl⟩ := List.mem_map.mp hy
    show coefOf [] k * x k = 0
    rw [show coefOf [] k = 0 from rfl, zero_mul]
  | cons p v ih =>
    rw [SVec.dot_cons, ih fun q hq => h q (List.mem_cons_of_mem _ hq), ← sum_single hK (h p (by simp)) p.2 x,
      ← List.sum_map_add]
    congr 1
    apply List.map_congr_left
    intro k _
    rw [coefOf_cons]; ring

/-- What holds while rows with the columns `S` are read: `d` are the entries of the row at hand read so far. -/
structure GInv (i : Nat) (S : List Nat) (d : SVec) (g : Gather) : Prop where
  one : ∀ a, g.j1 = some a → a ≠ i ∧ a ∈ S
  two : ∀ b, g.j2 = some b → b ≠ i ∧ b ∈ S ∧ g.j1 ≠ some b
  order : g.j1 = none → g.j2 = none
  vals : ∀ p ∈ d, (p.1 = i ∧ g.e0 = some p.2) ∨ (g.j1 = some p.1 ∧ g.e1 = some p.2) ∨ (g.j2 = some p.1 ∧ g.e2 = some p.2)

theorem gatherEntry_spec {i : Nat} {S : List Nat} {d : SVec} {g : Gather} {p : Nat × ℚ} (h : GInv i S d g) (hi : i ∈ S)
    (hS : S.length ≤ 3) (hp : p.1 ∈ S) (hn : ∀ q ∈ d, q.1 ≠ p.1) :
    ∃ g', gatherEntry i g p = .ok g' ∧ GInv i S (d ++ [p]) g' ∧ (∀ a, g.j1 = some a → g'.j1 = some a) ∧
      (∀ a, g.j2 = some a → g'.j2 = some a) := by
  unfold gatherEntry
  by_cases h1 : p.1 = i
  · rw [if_pos h1]
    refine ⟨_, rfl, ⟨h.one, h.two, h.order, ?_⟩, fun a ha => ha, fun a ha => ha⟩
    intro q hq
    rcases List.mem_append.mp hq with hq | hq
    · rcases h.vals q hq with ⟨a, -⟩ | a
      · exact absurd (a.trans h1.symm) (hn q hq)
      · exact Or.inr a
    · rw [List.mem_singleton.mp hq]; exact Or.inl ⟨h1, rfl⟩
  · rw [if_neg h1]
    by_cases h2 : g.j1 = some p.1
    · rw [if_pos h2]
      refine ⟨_, rfl, ⟨h.one, h.two, h.order, ?_⟩, fun a ha => ha, fun a ha => ha⟩
      intro q hq
      rcases List.mem_append.mp hq with hq | hq
      · rcases h.vals q hq with a | ⟨a, -⟩ | a
        · exact Or.inl a
        · rw [h2] at a
          exact absurd (Option.some.inj a).symm (hn q hq)
        · exact Or.inr (Or.inr a)
      · rw [List.mem_singleton.mp hq]; exact Or.inr (Or.inl ⟨h2, rfl⟩)
    · rw [if_neg h2]
      by_cases h3 : g.j2 = some p.1
      · rw [if_pos h3]
        refine ⟨_, rfl, ⟨h.one, h.two, h.order, ?_⟩, fun a ha => ha, fun a ha => ha⟩
        intro q hq
        rcases List.mem_append.mp hq with hq | hq
        · rcases h.vals q hq with a | a | ⟨a, -⟩
          · exact Or.inl a
          · exact Or.inr (Or.inl a)
          · rw [h3] at a
            exact absurd (Option.some.inj a).symm (hn q hq)
        · rw [List.mem_singleton.mp hq]; exact Or.inr (Or.inr ⟨h3, rfl⟩)
      · rw [if_neg h3]
        by_cases h4 : g.j1 = none
        · rw [if_pos h4]
          have h5 := h.order h4
          refine ⟨_, rfl, ⟨?_, ?_, ?_, ?_⟩, ?_, fun a ha => ha⟩
          · intro a ha
            rw [← Option.some.inj ha]; exact ⟨h1, hp⟩
          · intro b hb
            dsimp only at hb
            rw [h5] at hb; cases hb
          · intro hc; cases hc
          · intro q hq
            rcases List.mem_append.mp hq with hq | hq
            · rcases h.vals q hq with a | ⟨a, -⟩ | ⟨a, -⟩
              · exact Or.inl a
              · rw [h4] at a; cases a
              · rw [h5] at a; cases a
            · rw [List.mem_singleton.mp hq]; exact Or.inr (Or.inl ⟨rfl, rfl⟩)
          · intro a ha; rw [h4] at ha; cases ha
        · rw [if_neg h4]
          obtain ⟨a, ha⟩ := Option.ne_none_iff_exists'.mp h4
          obtain ⟨a1, a2⟩ := h.one a ha
          by_cases h5 : g.j2 = none
          · rw [if_pos h5]
            refine ⟨_, rfl, ⟨h.one, ?_, ?_, ?_⟩, fun a ha => ha, ?_⟩
            · intro b hb
              rw [← Option.some.inj hb]; exact ⟨h1, hp, h2⟩
            · intro hc; exact absurd hc h4
            · intro q hq
              rcases List.mem_append.mp hq with hq | hq
              · rcases h.vals q hq with a | a | ⟨a, -⟩
                · exact Or.inl a
                · exact Or.inr (Or.inl a)
                · rw [h5] at a; cases a
              · rw [List.mem_singleton.mp hq]; exact Or.inr (Or.inr ⟨rfl, rfl⟩)
            · intro a ha; rw [h5] at ha; cases ha
          · exfalso
            obtain ⟨b, hb⟩ := Option.ne_none_iff_exists'.mp h5
            obtain ⟨b1, b2, b3⟩ := h.two b hb
            have hnd : [i, a, b, p.1].Nodup := by
              have e1 : a ≠ b := fun e => b3 (e ▸ ha)
              have e2 : a ≠ p.1 := fun e => h2 (e ▸ ha)
              have e3 : b ≠ p.1 := fun e => h3 (e ▸ hb)
              simp only [List.nodup_cons, List.mem_cons, List.not_mem_nil, or_false, not_or, List.nodup_nil, and_true,
                not_false_iff]
              exact ⟨⟨a1.symm, b1.symm, fun e => h1 e.symm⟩, ⟨e1, e2⟩, e3⟩
            have hsub : [i, a, b, p.1] ⊆ S := by
              intro k hk
              simp only [List.mem_cons, List.not_mem_nil, or_false] at hk
              rcases hk with rfl | rfl | rfl | rfl
              · exact hi
              · exact a2
              · exact b2
              · exact hp
            have := (List.subperm_of_subset hnd hsub).length_le
            simp only [List.length_cons, List.length_nil] at this
            omega

theorem gatherRow_spec {i : Nat} {S : List Nat} (hi : i ∈ S) (hS : S.length ≤ 3) : ∀ (v d : SVec) (g : Gather), GInv i S d g →
    (∀ p ∈ v, p.1 ∈ S) → ((d ++ v).map Prod.fst).Nodup →
    ∃ g', gatherRow i v g = .ok g' ∧ GInv i S (d ++ v) g' ∧ (∀ a, g.j1 = some a → g'.j1 = some a) ∧
      (∀ a, g.j2 = some a → g'.j2 = some a) := by
  intro v
  induction v with
  | nil => intro d g h _ _; rw [List.append_nil]; exact ⟨g, rfl, h, fun a ha => ha, fun a ha => ha⟩
  | cons p v ih =>
    intro d g h hv hn
    have hn' := hn
    rw [List.map_append, List.map_cons, List.nodup_append] at hn'
    obtain ⟨g1, e1, h1, h2, h3⟩ := gatherEntry_spec h hi hS (hv p (by simp)) (fun q hq =>
      hn'.2.2 q.1 (List.mem_map_of_mem hq) p.1 (by simp))
    rw [show d ++ p :: v = (d ++ [p]) ++ v by rw [List.append_assoc]; rfl] at hn
    obtain ⟨g2, e2, k1, k2, k3⟩ := ih (d ++ [p]) g1 h1 (fun q hq => hv q (List.mem_cons_of_mem _ hq)) hn
    refine ⟨g2, ?_, ?_, fun a ha => k2 a (h2 a ha), fun a ha => k3 a (h3 a ha)⟩
    · unfold gatherRow; rw [e1]; exact e2
    · rw [List.append_assoc] at k1; exact k1

/-- The elements read are the coefficients. -/
theorem GInv.values {i : Nat} {S : List Nat} {d : SVec} {g : Gather} (h : GInv i S d g) (hn : (d.map Prod.fst).Nodup)
    (hS : ∀ k, k ∈ S ↔ k ∈ d.map Prod.fst) (hi : i ∈ S) :
    g.e0 = some (coefOf d i) ∧ (∀ a, g.j1 = some a → g.e1 = some (coefOf d a)) ∧
      (∀ b, g.j2 = some b → g.e2 = some (coefOf d b)) := by
  refine ⟨?_, ?_, ?_⟩
  · obtain ⟨p, hp, e⟩ := List.mem_map.mp ((hS i).mp hi)
    rcases h.vals p hp with ⟨-, a⟩ | ⟨a, -⟩ | ⟨a, -⟩
    · rw [a, ← e, coefOf_mem hn hp]
    · exact absurd e (h.one _ a).1
    · exact absurd e (h.two _ a).1
  · intro a ha
    obtain ⟨p, hp, e⟩ := List.mem_map.mp ((hS a).mp (h.one a ha).2)
    rcases h.vals p hp with ⟨b, -⟩ | ⟨-, b⟩ | ⟨b, -⟩
    · exact absurd (e.symm.trans b) (h.one a ha).1
    · rw [b, ← e, coefOf_mem hn hp]
    · exact absurd (e ▸ ha) (h.two _ b).2.2
  · intro a ha
    obtain ⟨p, hp, e⟩ := List.mem_map.mp ((hS a).mp (h.two a ha).2.1)
    rcases h.vals p hp with ⟨b, -⟩ | ⟨b, -⟩ | ⟨-, b⟩
    · exact absurd (e.symm.trans b) (h.two a ha).1
    · exact absurd (e ▸ b) (h.two a ha).2.2
    · rw [b, ← e, coefOf_mem hn hp]

/-- The columns of the row. -/
theorem GInv.columns {i : Nat} {S : List Nat} {d : SVec} {g : Gather} (h : GInv i S d g) (hn : (d.map Prod.fst).Nodup)
    (hS : ∀ k, k ∈ S ↔ k ∈ d.map Prod.fst) (hi : i ∈ S) :
    (g.j1 = none ∧ d.length = 1) ∨ (∃ a, g.j1 = some a ∧ g.j2 = none ∧ d.length = 2 ∧ a ≠ i ∧ ∀ p ∈ d, p.1 ∈ [i, a]) ∨
      ∃ a b, g.j1 = some a ∧ g.j2 = some b ∧ d.length = 3 ∧ [i, a, b].Nodup ∧ ∀ p ∈ d, p.1 ∈ [i, a, b] := by
  have count : ∀ K : List Nat, K.Nodup → (∀ k ∈ K, k ∈ S) → (∀ p ∈ d, p.1 ∈ K) → d.length = K.length := by
    intro K hK h1 h2
    have h3 := (List.subperm_of_subset hK (fun k hk => (hS k).mp (h1 k hk))).length_le
    have h4 := (List.subperm_of_subset hn (fun k hk => by
      obtain ⟨p, hp, e⟩ := List.mem_map.mp hk
      exact e ▸ h2 p hp : d.map Prod.fst ⊆ K)).length_le
    rw [List.length_map] at h3 h4
    omega
  cases h1 : g.j1 with
  | none =>
    left
    have h2 := h.order h1
    refine ⟨rfl, count [i] (List.nodup_singleton _) (fun k hk => by rw [List.mem_singleton.mp hk]; exact hi) ?_⟩
    intro p hp
    rcases h.vals p hp with ⟨a, -⟩ | ⟨a, -⟩ | ⟨a, -⟩
    · rw [a]; simp
    · rw [h1] at a; cases a
    · rw [h2] at a; cases a
  | some a =>
    right
    obtain ⟨a1, a2⟩ := h.one a h1
    cases h2 : g.j2 with
    | none =>
      left
      have hsub : ∀ p ∈ d, p.1 ∈ [i, a] := by
        intro p hp
        rcases h.vals p hp with ⟨b, -⟩ | ⟨b, -⟩ | ⟨b, -⟩
        · rw [b]; simp
        · rw [h1] at b; rw [← Option.some.inj b]; simp
        · rw [h2] at b; cases b
      refine ⟨a, rfl, rfl, count [i, a] (by simp [a1.symm]) ?_ hsub, a1, hsub⟩
      intro k hk
      simp only [List.mem_cons, List.not_mem_nil, or_false] at hk
      rcases hk with rfl | rfl
      · exact hi
      · exact a2
    | some b =>
      right
      obtain ⟨b1, b2, b3⟩ := h.two b h2
      have hsub : ∀ p ∈ d, p.1 ∈ [i, a, b] := by
        intro p hp
        rcases h.vals p hp with ⟨c, -⟩ | ⟨c, -⟩ | ⟨c, -⟩
        · rw [c]; simp
        · rw [h1] at c; rw [← Option.some.inj c]; simp
        · rw [h2] at c; rw [← Option.some.inj c]; simp
      have hab : a ≠ b := fun e => b3 (e ▸ h1)
      have hnd : [i, a, b].Nodup := by simp [a1.symm, b1.symm, hab]
      refine ⟨a, b, rfl, rfl, count _ hnd ?_ hsub, hnd, hsub⟩
      intro k hk
      simp only [List.mem_cons, List.not_mem_nil, or_false] at hk
      rcases hk with rfl | rfl | rfl
      · exact hi
      · exact a2
      · exact b2

end Cgl.Triple
