import Verif.Finish.Model
import Verif.Finish.Spec
import Mathlib.Algebra.Order.BigOperators.Group.List
import Mathlib.Data.List.Nodup

/-! # What the end of preprocessing reports and changes -/

namespace Cgl.Finish

/-! ### Sets -/

theorem lookRow_good (P : Prob) (cost : Nat → ℚ) (gub : Bool) (mark : Nat → Bool) : ∀ (l : SVec) (s : Look),
    (lookRow P cost gub mark l s).good = true → s.good = true ∧ ∀ p ∈ l, p.2 = 1 ∧ P.isInt p.1 = true ∧ P.colLower p.1 = 0 ∧
      (gub = false → mark p.1 = false) := by
  intro l
  induction l with
  | nil => intro s h; exact ⟨h, by simp⟩
  | cons p l ih =>
    intro s h
    unfold lookRow at h
    split at h
    · simp at h
    · rename_i h1
      simp only [not_or, not_not, ne_eq, Bool.not_eq_false] at h1
      split at h
      · have := (ih _ h).1; simp at this
      · rename_i h2
        obtain ⟨ha, hb⟩ := ih _ h
        refine ⟨ha, fun q hq => ?_⟩
        rcases List.mem_cons.mp hq with rfl | hq
        · refine ⟨h1.1, h1.2.1, h1.2.2, fun hg => ?_⟩
          by_contra hm
          exact h2 ⟨by simpa using hm, hg⟩
        · exact hb q hq

/-- What holds while rows are looked at. -/
structure Ok (P : Prob) (gub : Bool) (s : Found) : Prop where
  row : ∀ t ∈ s.sets, ∃ r ∈ P.rows, r.lb = 1 ∧ r.ub = 1 ∧ t = r.coefs.map Prod.fst ∧
    ∀ p ∈ r.coefs, p.2 = 1 ∧ P.isInt p.1 = true ∧ P.colLower p.1 = 0
  mark : ∀ t ∈ s.sets, ∀ j ∈ t, s.mark j = true
  disjoint : gub = false → s.sets.Pairwise fun a b => ∀ j ∈ a, j ∉ b
  count : s.inSOS = (s.sets.map List.length).sum

theorem findRow_ok {P : Prob} {cost : Nat → ℚ} {ones gub : Bool} {s : Found} (h : Ok P gub s) {r : Row} (hr : r ∈ P.rows) :
    Ok P gub (findRow P cost ones gub s r) := by
  unfold findRow
  split
  · rename_i h1
    split
    · exact h
    · dsimp only
      split
      · rename_i h2
        have hg := (lookRow_good _ _ _ _ _ _ h2.1).2
        refine ⟨?_, ?_, ?_, ?_⟩
        · intro t ht
          rcases List.mem_append.mp ht with ht | ht
          · exact h.row t ht
          · rw [List.mem_singleton] at ht
            exact ⟨r, hr, h1.1, h1.2, ht, fun p hp => ⟨(hg p hp).1, (hg p hp).2.1, (hg p hp).2.2.1⟩⟩
        · intro t ht j hj
          dsimp only
          rw [Bool.or_eq_true]
          rcases List.mem_append.mp ht with ht | ht
          · exact Or.inr (h.mark t ht j hj)
          · rw [List.mem_singleton] at ht
            left
            rw [List.contains_iff_mem, ← ht]; exact hj
        · intro hgub
          dsimp only
          rw [List.pairwise_append]
          refine ⟨h.disjoint hgub, List.pairwise_singleton _ _, ?_⟩
          intro a ha b hb j hj hjb
          rw [List.mem_singleton] at hb
          rw [hb] at hjb
          obtain ⟨p, hp, rfl⟩ := List.mem_map.mp hjb
          have := (hg p hp).2.2.2 hgub
          rw [h.mark a ha _ hj] at this
          exact absurd this (by decide)
        · dsimp only
          rw [List.map_append, List.sum_append, h.count]
          simp
      · exact ⟨h.row, h.mark, h.disjoint, h.count⟩
  · exact h

theorem findAll_ok (P : Prob) (cost : Nat → ℚ) (ones gub : Bool) : Ok P gub (findAll P cost ones gub) := by
  have key : ∀ (l : List Row) (s : Found), (∀ r ∈ l, r ∈ P.rows) → Ok P gub s →
      Ok P gub (l.foldl (findRow P cost ones gub) s) := by
    intro l
    induction l with
    | nil => intro s _ h; exact h
    | cons r l ih =>
      intro s hl h
      exact ih _ (fun q hq => hl q (List.mem_cons_of_mem _ hq)) (findRow_ok h (hl r List.mem_cons_self))
  exact key _ _ (fun r h => h) ⟨by simp, by simp, fun _ => List.Pairwise.nil, rfl⟩

theorem sos_sub {P : Prob} {cost : Nat → ℚ} {m : ℤ} {n : Nat} {ones gub : Bool} {t : List Nat} (h : t ∈ sos P cost m n ones gub) :
    t ∈ (findAll P cost ones gub).sets := by
  unfold sos at h
  split at h
  · dsimp only at h
    split at h
    · simp at h
    · exact h
  · simp at h

theorem dot_ones {v : SVec} (h : ∀ p ∈ v, p.2 = 1) (x : Nat → ℚ) : v.dot x = ((v.map Prod.fst).map x).sum := by
  induction v with
  | nil => rfl
  | cons p v ih =>
    rw [SVec.dot_cons, ih fun q hq => h q (List.mem_cons_of_mem _ hq), h p List.mem_cons_self]
    simp

theorem sum_zero {l : List Nat} {x : Nat → ℚ} (h0 : ∀ j ∈ l, 0 ≤ x j) (hs : (l.map x).sum = 0) : ∀ j ∈ l, x j = 0 := by
  induction l with
  | nil => simp
  | cons a l ih =>
    rw [List.map_cons, List.sum_cons] at hs
    have ha := h0 a List.mem_cons_self
    have hl : 0 ≤ (l.map x).sum := List.sum_nonneg (by
      intro q hq; obtain ⟨j, hj, rfl⟩ := List.mem_map.mp hq; exact h0 j (List.mem_cons_of_mem _ hj))
    intro j hj
    rcases List.mem_cons.mp hj with rfl | hj
    · linarith
    · exact ih (fun k hk => h0 k (List.mem_cons_of_mem _ hk)) (by linarith) j hj

/-- Integers that are not negative with sum 1: one of them is 1, the others are 0. -/
theorem one_of {l : List Nat} (hn : l.Nodup) {x : Nat → ℚ} (h0 : ∀ j ∈ l, 0 ≤ x j) (hi : ∀ j ∈ l, IsInteger (x j))
    (hs : (l.map x).sum = 1) : ∃ j ∈ l, x j = 1 ∧ ∀ k ∈ l, k ≠ j → x k = 0 := by
  induction l with
  | nil => simp at hs
  | cons a l ih =>
    rw [List.map_cons, List.sum_cons] at hs
    rw [List.nodup_cons] at hn
    have ha := h0 a List.mem_cons_self
    have h0' : ∀ j ∈ l, 0 ≤ x j := fun j hj => h0 j (List.mem_cons_of_mem _ hj)
    have hl : 0 ≤ (l.map x).sum := List.sum_nonneg (by
      intro q hq; obtain ⟨j, hj, rfl⟩ := List.mem_map.mp hq; exact h0' j hj)
    obtain ⟨z, hz⟩ := hi a List.mem_cons_self
    have hz0 : 0 ≤ z := by rw [hz] at ha; exact_mod_cast ha
    have hz1 : z ≤ 1 := by
      have : x a ≤ 1 := by linarith
      rw [hz] at this; exact_mod_cast this
    have hcase : z = 0 ∨ z = 1 := by omega
    rcases hcase with rfl | rfl
    · have hxa : x a = 0 := by rw [hz]; simp
      obtain ⟨j, hj, h1, h2⟩ := ih hn.2 h0' (fun j hj => hi j (List.mem_cons_of_mem _ hj)) (by rw [hxa] at hs; linarith)
      refine ⟨j, List.mem_cons_of_mem _ hj, h1, fun k hk hkj => ?_⟩
      rcases List.mem_cons.mp hk with rfl | hk
      · exact hxa
      · exact h2 k hk hkj
    · have hxa : x a = 1 := by rw [hz]; simp
      have hz := sum_zero h0' (by rw [hxa] at hs; linarith)
      refine ⟨a, List.mem_cons_self, hxa, fun k hk hkj => ?_⟩
      exact hz k ((List.mem_cons.mp hk).resolve_left hkj)

/-- **C143.** In every feasible point exactly one column of a set that is reported is 1 and all others of the set are 0. -/
theorem sos_valid (P : Prob) (cost : Nat → ℚ) (makeEquality : ℤ) (numberCliques : Nat) (ones gub : Bool) (hwf : P.WF)
    (hinf : 1 < P.inf) (t : List Nat) (ht : t ∈ sos P cost makeEquality numberCliques ones gub) (x : Nat → ℚ) (hx : P.Feasible x) :
    ∃ j ∈ t, x j = 1 ∧ ∀ k ∈ t, k ≠ j → x k = 0 := by
  obtain ⟨r, hr, hl, hu, rfl, hall⟩ := (findAll_ok P cost ones gub).row t (sos_sub ht)
  have h1 := (hx.rows r hr).1 (by rw [hl]; linarith)
  have h2 := (hx.rows r hr).2 (by rw [hu]; exact hinf)
  rw [hl] at h1; rw [hu] at h2
  rw [dot_ones (fun p hp => (hall p hp).1)] at h1 h2
  refine one_of (hwf.nodup r hr) ?_ ?_ (le_antisymm h2 h1)
  · intro j hj
    obtain ⟨p, hp, rfl⟩ := List.mem_map.mp hj
    have := hx.lower p.1 (hwf.cols r hr p hp) (by rw [(hall p hp).2.2]; linarith)
    rwa [(hall p hp).2.2] at this
  · intro j hj
    obtain ⟨p, hp, rfl⟩ := List.mem_map.mp hj
    exact hx.int p.1 (hwf.cols r hr p hp) (hall p hp).2.1

/-- **C143.** The sets do not overlap, unless all rows are wanted (`allToGub`); and with `makeEquality` 2 at most one integer column
is in none of them (by numbers). -/
theorem sos_disjoint (P : Prob) (cost : Nat → ℚ) (makeEquality : ℤ) (numberCliques : Nat) (ones gub : Bool) :
    (gub = false → (sos P cost makeEquality numberCliques ones gub).Pairwise fun a b => ∀ j ∈ a, j ∉ b) ∧
    (makeEquality = 2 → sos P cost makeEquality numberCliques ones gub ≠ [] →
      (List.range P.nCols).countP P.isInt ≤ ((sos P cost makeEquality numberCliques ones gub).map List.length).sum + 1) := by
  have hok := findAll_ok P cost ones gub
  unfold sos
  split
  · dsimp only
    split
    · exact ⟨fun _ => List.Pairwise.nil, fun _ h => absurd rfl h⟩
    · rename_i h
      refine ⟨hok.disjoint, fun hm _ => ?_⟩
      rw [not_and, not_or, not_lt] at h
      have := (h hm).2
      rw [hok.count] at this
      exact this
  · exact ⟨fun _ => List.Pairwise.nil, fun _ h => absurd rfl h⟩

theorem lookRow_true (P : Prob) (cost : Nat → ℚ) (gub : Bool) (mark : Nat → Bool) : ∀ (l : SVec) (s : Look), s.good = true →
    (∀ p ∈ l, p.2 = 1 ∧ P.isInt p.1 = true ∧ P.colLower p.1 = 0 ∧ mark p.1 = false) →
    (lookRow P cost gub mark l s).good = true := by
  intro l
  induction l with
  | nil => intro s h _; exact h
  | cons p l ih =>
    intro s h hl
    obtain ⟨h1, h2, h3, h4⟩ := hl p List.mem_cons_self
    unfold lookRow
    rw [if_neg (by simp [h1, h2, h3]), if_neg (by simp [h4])]
    exact ih _ h fun q hq => hl q (List.mem_cons_of_mem _ hq)

/-- Only columns of sets are marked. -/
def MarkIn (s : Found) : Prop := ∀ j, s.mark j = true → ∃ t ∈ s.sets, j ∈ t

theorem findRow_mark {P : Prob} {cost : Nat → ℚ} {ones gub : Bool} {s : Found} (h : MarkIn s) (r : Row) :
    MarkIn (findRow P cost ones gub s r) ∧ ∀ t ∈ s.sets, t ∈ (findRow P cost ones gub s r).sets := by
  unfold findRow
  split
  · split
    · exact ⟨h, fun t ht => ht⟩
    · dsimp only
      split
      · refine ⟨fun j hj => ?_, fun t ht => List.mem_append_left _ ht⟩
        dsimp only at hj ⊢
        rw [Bool.or_eq_true, List.contains_iff_mem] at hj
        rcases hj with hj | hj
        · exact ⟨_, List.mem_append_right _ List.mem_cons_self, hj⟩
        · obtain ⟨t, ht, hjt⟩ := h j hj
          exact ⟨t, List.mem_append_left _ ht, hjt⟩
      · exact ⟨h, fun t ht => ht⟩
  · exact ⟨h, fun t ht => ht⟩

theorem findRow_meets {P : Prob} {cost : Nat → ℚ} {s : Found} (h : MarkIn s) {r : Row} (hr : Eligible P r) :
    ∃ t ∈ (findRow P cost false false s r).sets, ∃ p ∈ r.coefs, p.1 ∈ t := by
  obtain ⟨hl, hu, hlen, hall⟩ := hr
  by_cases hm : ∃ p ∈ r.coefs, s.mark p.1 = true
  · obtain ⟨p, hp, hmp⟩ := hm
    obtain ⟨t, ht, hpt⟩ := h _ hmp
    exact ⟨t, (findRow_mark h r).2 t ht, p, hp, hpt⟩
  · have hg := lookRow_true P cost false s.mark r.coefs ⟨true, 0, 0⟩ rfl fun p hp =>
      ⟨(hall p hp).1, (hall p hp).2.1, (hall p hp).2.2, by
        by_contra hc; exact hm ⟨p, hp, by simpa using hc⟩⟩
    obtain ⟨p, hp⟩ := List.exists_mem_of_length_pos (l := r.coefs) (by omega)
    refine ⟨r.coefs.map Prod.fst, ?_, p, hp, List.mem_map_of_mem hp⟩
    unfold findRow
    rw [if_pos ⟨hl, hu⟩, if_neg (by rintro (⟨a, _⟩ | ⟨_, a⟩) <;> [omega; exact absurd a (by decide)])]
    dsimp only
    rw [if_pos ⟨hg, by simp⟩]
    exact List.mem_append_right _ List.mem_cons_self

/-- **C143.** With `makeEquality` 3, a clique and the default options no suitable row is forgotten: it has a column in a set that is
reported. -/
theorem sos_complete (P : Prob) (cost : Nat → ℚ) (numberCliques : Nat) (hc : numberCliques ≠ 0) (r : Row) (hr : r ∈ P.rows)
    (he : Eligible P r) : ∃ t ∈ sos P cost 3 numberCliques false false, ∃ p ∈ r.coefs, p.1 ∈ t := by
  have key : ∀ (l : List Row) (s : Found), MarkIn s →
      (r ∈ l ∨ ∃ t ∈ s.sets, ∃ p ∈ r.coefs, p.1 ∈ t) →
      ∃ t ∈ (l.foldl (findRow P cost false false) s).sets, ∃ p ∈ r.coefs, p.1 ∈ t := by
    intro l
    induction l with
    | nil => intro s _ h; exact h.resolve_left (by simp)
    | cons q l ih =>
      intro s hs h
      refine ih _ (findRow_mark hs q).1 ?_
      rcases h with h | ⟨t, ht, h⟩
      · rcases List.mem_cons.mp h with rfl | h
        · exact Or.inr (findRow_meets hs he)
        · exact Or.inl h
      · exact Or.inr ⟨t, (findRow_mark hs q).2 t ht, h⟩
  have := key P.rows ⟨[], fun _ => false, 0, 0⟩ (fun j hj => absurd hj (by simp)) (Or.inl hr)
  unfold sos
  rw [if_pos ⟨Or.inr rfl, hc⟩]
  dsimp only
  rw [if_neg (by rintro ⟨a, _⟩; exact absurd a (by decide))]
  exact this

theorem lookRow_overlap (P : Prob) (cost : Nat → ℚ) (mark : Nat → Bool) : ∀ (l : SVec) (s : Look),
    s.overlap ≤ (lookRow P cost false mark l s).overlap ∧
    ((∀ p ∈ l, p.2 = 1 ∧ P.isInt p.1 = true ∧ P.colLower p.1 = 0) → (∃ p ∈ l, mark p.1 = true) →
      s.overlap < (lookRow P cost false mark l s).overlap) := by
  intro l
  induction l with
  | nil => intro s; exact ⟨le_refl _, fun _ h => by simp at h⟩
  | cons p l ih =>
    intro s
    unfold lookRow
    split
    · rename_i h
      refine ⟨le_refl _, fun hl _ => ?_⟩
      obtain ⟨a, b, c⟩ := hl p List.mem_cons_self
      simp [a, b, c] at h
    · split
      · rename_i h
        have := (ih ⟨false, s.overlap + 1, if cost p.1 ≠ 0 then s.nObj + 1 else s.nObj⟩).1
        dsimp only at this
        exact ⟨by omega, fun _ _ => by omega⟩
      · rename_i h
        have hi := ih { s with nObj := if cost p.1 ≠ 0 then s.nObj + 1 else s.nObj }
        refine ⟨hi.1, fun hl hm => hi.2 (fun q hq => hl q (List.mem_cons_of_mem _ hq)) ?_⟩
        obtain ⟨q, hq, hqm⟩ := hm
        rcases List.mem_cons.mp hq with rfl | hq
        · exact absurd ⟨hqm, rfl⟩ h
        · exact ⟨q, hq, hqm⟩

theorem findRow_overlap (P : Prob) (cost : Nat → ℚ) (s : Found) (r : Row) :
    s.overlap ≤ (findRow P cost false false s r).overlap ∧
    (Eligible P r → (findRow P cost false false s r).overlap = 0 →
      r.coefs.map Prod.fst ∈ (findRow P cost false false s r).sets) := by
  unfold findRow
  split
  · split
    · rename_i h
      refine ⟨le_refl _, fun he _ => ?_⟩
      have := he.2.2.1
      rcases h with ⟨a, _⟩ | ⟨_, a⟩
      · omega
      · exact absurd a (by decide)
    · dsimp only
      split
      · exact ⟨Nat.le_add_right _ _, fun _ _ => List.mem_append_right _ List.mem_cons_self⟩
      · rename_i h
        refine ⟨Nat.le_add_right _ _, fun he h0 => ?_⟩
        exfalso
        apply h
        refine ⟨lookRow_true P cost false s.mark r.coefs ⟨true, 0, 0⟩ rfl fun p hp => ⟨(he.2.2.2 p hp).1, (he.2.2.2 p hp).2.1, (he.2.2.2 p hp).2.2, ?_⟩, by simp⟩
        by_contra hm
        have := (lookRow_overlap P cost s.mark r.coefs ⟨true, 0, 0⟩).2 he.2.2.2 ⟨p, hp, by simpa using hm⟩
        dsimp only at this h0
        omega
  · rename_i h
    exact ⟨le_refl _, fun he _ => absurd ⟨he.1, he.2.1⟩ h⟩

theorem findRow_sets (P : Prob) (cost : Nat → ℚ) (ones gub : Bool) (s : Found) (r : Row) :
    ∀ t ∈ s.sets, t ∈ (findRow P cost ones gub s r).sets := by
  intro t ht
  unfold findRow
  split
  · split
    · exact ht
    · dsimp only
      split
      · exact List.mem_append_left _ ht
      · exact ht
  · exact ht

/-- **C143.** With `makeEquality` 2 and the default options, if sets are reported then every suitable row is one of them (so suitable rows
do not overlap). -/
theorem sos_all (P : Prob) (cost : Nat → ℚ) (numberCliques : Nat) (hs : sos P cost 2 numberCliques false false ≠ []) (r : Row)
    (hr : r ∈ P.rows) (he : Eligible P r) : r.coefs.map Prod.fst ∈ sos P cost 2 numberCliques false false := by
  have key : ∀ (l : List Row) (s : Found), s.overlap ≤ (l.foldl (findRow P cost false false) s).overlap ∧
      ((l.foldl (findRow P cost false false) s).overlap = 0 → (r ∈ l ∨ r.coefs.map Prod.fst ∈ s.sets) →
        r.coefs.map Prod.fst ∈ (l.foldl (findRow P cost false false) s).sets) := by
    intro l
    induction l with
    | nil => intro s; exact ⟨le_refl _, fun _ h => h.resolve_left (by simp)⟩
    | cons q l ih =>
      intro s
      have h1 := findRow_overlap P cost s q
      have h2 := ih (findRow P cost false false s q)
      rw [List.foldl_cons]
      refine ⟨le_trans h1.1 h2.1, fun h0 h => h2.2 h0 ?_⟩
      have h3 : (findRow P cost false false s q).overlap = 0 := by have := h2.1; omega
      rcases h with h | h
      · rcases List.mem_cons.mp h with rfl | h
        · exact Or.inr (h1.2 he h3)
        · exact Or.inl h
      · exact Or.inr (findRow_sets P cost false false s q _ h)
  unfold sos at hs ⊢
  split
  · rename_i h1
    rw [if_pos h1] at hs
    dsimp only at hs ⊢
    split
    · rename_i h2
      rw [if_pos h2] at hs
      exact absurd rfl hs
    · rename_i h2
      rw [not_and, not_or, not_not] at h2
      exact (key P.rows ⟨[], fun _ => false, 0, 0⟩).2 (h2 rfl).1 (Or.inl hr)
  · rename_i h1
    rw [if_neg h1] at hs
    exact absurd rfl hs

/-! ### Rows that become cuts -/

/-- **C144.** The feasible points before are those that are feasible for the model after and satisfy the stored cuts. -/
theorem cuts_points (P : Prob) (rowType : Nat → ℤ) (x : Nat → ℚ) :
    P.Feasible x ↔ (takeCuts P rowType).1.Feasible x ∧ ∀ c ∈ (takeCuts P rowType).2, c.SatIn P.inf x := by
  unfold takeCuts
  split
  · constructor
    · intro h
      refine ⟨⟨?_, h.lower, h.upper, h.int⟩, ?_⟩
      · intro r hr
        obtain ⟨q, hq, rfl⟩ := List.mem_map.mp hr
        exact h.rows q.1 (List.fst_mem_of_mem_zipIdx (List.mem_filter.mp hq).1)
      · intro c hc
        obtain ⟨q, hq, rfl⟩ := List.mem_map.mp hc
        exact h.rows q.1 (List.fst_mem_of_mem_zipIdx (List.mem_filter.mp hq).1)
    · rintro ⟨h, hc⟩
      refine ⟨?_, h.lower, h.upper, h.int⟩
      intro r hr
      obtain ⟨i, hi⟩ := List.getElem?_of_mem hr
      have hmem : (r, i) ∈ P.rows.zipIdx := by
        rw [List.mem_zipIdx_iff_getElem?]; exact hi
      by_cases ht : rowType i = 1
      · exact hc ⟨r.lb, r.ub, r.coefs⟩ (List.mem_map.mpr ⟨(r, i), List.mem_filter.mpr ⟨hmem, by simp [ht]⟩, rfl⟩)
      · exact h.rows r (List.mem_map.mpr ⟨(r, i), List.mem_filter.mpr ⟨hmem, by simp [ht]⟩, rfl⟩)
  · simp

/-- **C144.** A row leaves the model exactly if its type is 1. -/
theorem cuts_rows (P : Prob) (rowType : Nat → ℤ) :
    (takeCuts P rowType).1.rows = (P.rows.zipIdx.filter fun q => decide (rowType q.2 ≠ 1)).map Prod.fst := by
  unfold takeCuts
  split
  · simp only [ne_eq, decide_not]
  · rename_i h
    have hall : ∀ q ∈ P.rows.zipIdx, decide (rowType q.2 ≠ 1) = true := by
      intro q hq
      rw [decide_eq_true_eq]
      intro h1
      apply h
      rw [List.any_eq_true]
      refine ⟨q.2, ?_, by simp [h1]⟩
      rw [List.mem_range]
      have := List.snd_lt_add_of_mem_zipIdx hq
      simpa using this
    rw [List.filter_eq_self.mpr hall]
    simp

/-! ### Right hand sides -/

theorem newLower_near (v : ℚ) : |v - newLower v| < 1 / 10 ^ 13 := by
  unfold newLower; split
  · rename_i h; exact h.2.2
  · simp

theorem newUpper_near (v : ℚ) : |v - newUpper v| < 1 / 10 ^ 13 := by
  unfold newUpper; split
  · rename_i h; exact h.2.2
  · simp

theorem newLower_inf {inf v : ℚ} (h : 10 ^ 15 + 1 ≤ inf) : -inf < newLower v ↔ -inf < v := by
  have hn := abs_lt.mp (newLower_near v)
  unfold newLower at hn ⊢
  split
  · rename_i hc
    rw [if_pos hc] at hn
    constructor
    · intro _; linarith [hc.1]
    · intro _; linarith [hc.1, hn.2, show (1 : ℚ) / 10 ^ 13 < 1 by norm_num]
  · rfl

theorem newUpper_inf {inf v : ℚ} (h : 10 ^ 15 + 1 ≤ inf) : newUpper v < inf ↔ v < inf := by
  have hn := abs_lt.mp (newUpper_near v)
  unfold newUpper at hn ⊢
  split
  · rename_i hc
    rw [if_pos hc] at hn
    constructor
    · intro _; linarith [hc.1]
    · intro _; linarith [hc.1, hn.1, show (1 : ℚ) / 10 ^ 13 < 1 by norm_num]
  · rfl

/-- **C145.** Coefficients, bounds of columns and integrality stay; a point that is feasible before satisfies the new rows up to 1e-13,
and a point that is feasible after satisfies the old rows up to 1e-13. -/
theorem clean_near (P : Prob) (hinf : 10 ^ 15 + 1 ≤ P.inf) (x : Nat → ℚ) :
    (P.Feasible x → ∀ r ∈ (clean P).rows, Near P.inf r x) ∧ ((clean P).Feasible x → ∀ r ∈ P.rows, Near P.inf r x) ∧
    (clean P).rows.map Row.coefs = P.rows.map Row.coefs ∧ (clean P).colLower = P.colLower ∧ (clean P).colUpper = P.colUpper ∧
    (clean P).isInt = P.isInt := by
  have hpos : (0 : ℚ) < 1 / 10 ^ 13 := by norm_num
  have weak : ∀ r : Row, r.Sat P.inf x → Near P.inf r x := fun r h => ⟨fun a => by linarith [h.1 a], fun a => by linarith [h.2 a]⟩
  refine ⟨?_, ?_, ?_, rfl, rfl, rfl⟩
  · intro h r hr
    obtain ⟨s, hs, rfl⟩ := List.mem_map.mp hr
    have hsat := h.rows s hs
    unfold cleanRow
    split
    · have a := abs_lt.mp (newLower_near s.lb)
      have b := abs_lt.mp (newUpper_near s.ub)
      refine ⟨fun hl => ?_, fun hu => ?_⟩
      · have := hsat.1 ((newLower_inf hinf).mp hl); dsimp only; linarith [a.1]
      · have := hsat.2 ((newUpper_inf hinf).mp hu); dsimp only; linarith [b.2]
    · exact weak s hsat
  · intro h s hs
    have hsat := h.rows (cleanRow P s) (List.mem_map_of_mem hs)
    unfold cleanRow at hsat
    split at hsat
    · have a := abs_lt.mp (newLower_near s.lb)
      have b := abs_lt.mp (newUpper_near s.ub)
      refine ⟨fun hl => ?_, fun hu => ?_⟩
      · have := hsat.1 ((newLower_inf hinf).mpr hl); dsimp only at this; linarith [a.2]
      · have := hsat.2 ((newUpper_inf hinf).mpr hu); dsimp only at this; linarith [b.1]
    · exact weak s hsat
  · unfold clean
    dsimp only
    rw [List.map_map]
    refine List.map_congr_left fun r _ => ?_
    simp only [Function.comp]
    unfold cleanRow; split <;> rfl

theorem dot_int {v : SVec} {y : Nat → ℚ} (h : ∀ p ∈ v, IsInteger p.2 ∧ IsInteger (y p.1)) : IsInteger (v.dot y) := by
  induction v with
  | nil => exact ⟨0, by simp⟩
  | cons p v ih =>
    obtain ⟨⟨a, ha⟩, ⟨b, hb⟩⟩ := h p List.mem_cons_self
    obtain ⟨c, hc⟩ := ih fun q hq => h q (List.mem_cons_of_mem _ hq)
    exact ⟨a * b + c, by rw [SVec.dot_cons, ha, hb, hc]; push_cast; ring⟩

/-- **C145.** No feasible point is lost if rows in integer columns have integer coefficients. -/
theorem clean_keeps (P : Prob) (hwf : P.WF) (hinf : 10 ^ 15 + 1 ≤ P.inf)
    (hco : ∀ r ∈ P.rows, (∀ p ∈ r.coefs, P.isInt p.1 = true) → ∀ p ∈ r.coefs, IsInteger p.2) (x : Nat → ℚ) (hx : P.Feasible x) :
    (clean P).Feasible x := by
  refine ⟨?_, hx.lower, hx.upper, hx.int⟩
  intro r hr
  obtain ⟨s, hs, rfl⟩ := List.mem_map.mp hr
  have hsat := hx.rows s hs
  change (cleanRow P s).Sat P.inf x
  unfold cleanRow
  split
  · rename_i hc
    have hall : ∀ p ∈ s.coefs, P.isInt p.1 = true := by
      intro p hp
      have := List.all_eq_true.mp hc.1 p hp
      rw [Bool.and_eq_true] at this
      exact this.1
    obtain ⟨z, hz⟩ := dot_int (v := s.coefs) (y := x)
      (fun p hp => ⟨hco s hs hall p hp, hx.int p.1 (hwf.cols s hs p hp) (hall p hp)⟩)
    refine ⟨fun hl => ?_, fun hu => ?_⟩
    · have h1 := hsat.1 ((newLower_inf hinf).mp hl)
      have hn := abs_lt.mp (newLower_near s.lb)
      dsimp only
      unfold newLower at hn ⊢
      split
      · rename_i h2
        rw [if_pos h2] at hn
        rw [hz] at h1 ⊢
        unfold round at hn ⊢
        have : ((⌊s.lb + 1 / 2⌋ : ℤ) : ℚ) < z + 1 := by linarith [hn.1, show (1 : ℚ) / 10 ^ 13 < 1 by norm_num]
        have h3 : ⌊s.lb + 1 / 2⌋ < z + 1 := by exact_mod_cast this
        exact_mod_cast Int.lt_add_one_iff.mp h3
      · exact h1
    · have h1 := hsat.2 ((newUpper_inf hinf).mp hu)
      have hn := abs_lt.mp (newUpper_near s.ub)
      dsimp only
      unfold newUpper at hn ⊢
      split
      · rename_i h2
        rw [if_pos h2] at hn
        rw [hz] at h1 ⊢
        unfold round at hn ⊢
        have : (z : ℚ) < ((⌊s.ub + 1 / 2⌋ : ℤ) : ℚ) + 1 := by linarith [hn.2, show (1 : ℚ) / 10 ^ 13 < 1 by norm_num]
        have h3 : z < ⌊s.ub + 1 / 2⌋ + 1 := by exact_mod_cast this
        exact_mod_cast Int.lt_add_one_iff.mp h3
      · exact h1
  · exact hsat

end Cgl.Finish
