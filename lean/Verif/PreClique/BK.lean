import Verif.PreClique.Model
import Mathlib.Data.Finset.Card
import Mathlib.Data.Finset.Dedup
import Mathlib.Data.List.Pairwise

/-!
# The Bron-Kerbosch search

`bk` reports only maximal cliques, each at most once (`bk_sound`, `bk_unique`); it reports all of them if no column is
listed twice in a neighbourhood (`bk_complete`).
-/

namespace Cgl.PreClique

/-- `C` is a maximal clique of the graph on the vertices `V` with neighbourhoods `adj`. -/
structure MaxClique (adj : Nat → List Nat) (V : List Nat) (C : Finset Nat) : Prop where
  inV : ∀ u ∈ C, u ∈ V
  clique : ∀ u ∈ C, ∀ v ∈ C, u ≠ v → v ∈ adj u
  maximal : ∀ w ∈ V, w ∉ C → ∃ u ∈ C, w ∉ adj u

/-- An undirected graph without loops. -/
structure Graph (adj : Nat → List Nat) : Prop where
  symm : ∀ u v, v ∈ adj u → u ∈ adj v
  irrefl : ∀ u, u ∉ adj u

/-- State of the search: the candidates and the "nots" are together the common neighbours of the columns taken. -/
structure Inv (adj : Nat → List Nat) (V cand nots inn : List Nat) : Prop where
  mem : ∀ v, (v ∈ cand ∨ v ∈ nots) ↔ v ∈ V ∧ ∀ u ∈ inn, v ∈ adj u
  disj : ∀ v ∈ cand, v ∉ nots
  nodup : cand.Nodup
  inV : ∀ u ∈ inn, u ∈ V
  clique : inn.Pairwise fun u v => v ∈ adj u

variable {adj : Nat → List Nat} {V : List Nat}

theorem Inv.inn_nodup (g : Graph adj) {cand nots inn : List Nat} (h : Inv adj V cand nots inn) : inn.Nodup :=
  h.clique.imp fun {a b} hab => fun (e : a = b) => g.irrefl a (by rw [← e] at hab; exact hab)

/-- The state of the recursive call. -/
theorem Inv.take (g : Graph adj) {cand nots inn : List Nat} {v : Nat} (h : Inv adj V cand nots inn) (hv : v ∈ cand) :
    Inv adj V ((cand.filter fun k => decide (k ≠ v)).filter fun k => decide (k ∈ adj v))
      (nots.filter fun k => decide (k ∈ adj v)) (inn ++ [v]) := by
  have hvV := (h.mem v).mp (Or.inl hv)
  refine ⟨fun w => ?_, fun w hw hn => ?_, ?_, fun u hu => ?_, ?_⟩
  · constructor
    · intro hw
      have hw' : (w ∈ cand ∨ w ∈ nots) ∧ w ∈ adj v := by
        rcases hw with hw | hw
        · simp only [List.mem_filter, decide_eq_true_eq] at hw; exact ⟨Or.inl hw.1.1, hw.2⟩
        · simp only [List.mem_filter, decide_eq_true_eq] at hw; exact ⟨Or.inr hw.1, hw.2⟩
      obtain ⟨h1, h2⟩ := (h.mem w).mp hw'.1
      refine ⟨h1, fun u hu => ?_⟩
      rcases List.mem_append.mp hu with hu | hu
      · exact h2 u hu
      · rw [List.mem_singleton.mp hu]; exact hw'.2
    · rintro ⟨h1, h2⟩
      have hwv : w ∈ adj v := h2 v (by simp)
      have hne : w ≠ v := fun e => g.irrefl v (by rw [e] at hwv; exact hwv)
      rcases (h.mem w).mpr ⟨h1, fun u hu => h2 u (by simp [hu])⟩ with hw | hw
      · left; simp [hw, hne, hwv]
      · right; simp [hw, hwv]
  · simp only [List.mem_filter] at hw hn
    exact h.disj w hw.1.1 hn.1
  · exact (h.nodup.filter _).filter _
  · rcases List.mem_append.mp hu with hu | hu
    · exact h.inV u hu
    · rw [List.mem_singleton.mp hu]; exact hvV.1
  · rw [List.pairwise_append]
    refine ⟨h.clique, List.pairwise_singleton _ _, fun u hu w hw => ?_⟩
    rw [List.mem_singleton.mp hw]; exact hvV.2 u hu

/-- The state after one column has been dealt with. -/
theorem Inv.drop {cand nots inn : List Nat} {v : Nat} (h : Inv adj V cand nots inn) (hv : v ∈ cand) :
    Inv adj V (cand.filter fun k => decide (k ≠ v)) (v :: nots) inn := by
  refine ⟨fun w => ?_, fun w hw hn => ?_, h.nodup.filter _, h.inV, h.clique⟩
  · rw [← h.mem w]
    by_cases e : w = v
    · subst e; simp [hv]
    · simp [e]
  · simp only [List.mem_filter, decide_eq_true_eq] at hw
    rcases List.mem_cons.mp hn with e | hn
    · exact hw.2 e
    · exact h.disj w hw.1 hn

theorem temp_subset {cand nots : List Nat} : ∀ v ∈ temp adj cand nots, v ∈ cand := by
  intro v hv
  unfold temp at hv
  split at hv
  · exact (List.mem_filter.mp hv).1
  · simp at hv

theorem temp_nodup {cand nots : List Nat} (h : cand.Nodup) : (temp adj cand nots).Nodup := by
  unfold temp
  split
  · exact h.filter _
  · exact List.nodup_nil

theorem bk_succ (adj : Nat → List Nat) (f : Nat) (cand nots inn : List Nat) : bk adj (f + 1) cand nots inn =
    if cand = [] ∧ nots = [] then [inn] else branch adj (bk adj f) (temp adj cand nots) cand nots inn := rfl

/-- What is known of a reported clique. -/
structure Reported (adj : Nat → List Nat) (V cand inn q : List Nat) : Prop where
  nodup : q.Nodup
  max : MaxClique adj V q.toFinset
  sub : ∀ x ∈ q, x ∈ inn ∨ x ∈ cand
  sup : ∀ x ∈ inn, x ∈ q

theorem branch_sound (g : Graph adj) {rec : List Nat → List Nat → List Nat → List (List Nat)}
    (hrec : ∀ cand nots inn q, Inv adj V cand nots inn → q ∈ rec cand nots inn → Reported adj V cand inn q) :
    ∀ (t cand nots inn q : List Nat), (∀ v ∈ t, v ∈ cand) → t.Nodup → Inv adj V cand nots inn →
      q ∈ branch adj rec t cand nots inn → Reported adj V cand inn q
  | [], _, _, _, _, _, _, _, hq => by simp [branch] at hq
  | v :: t, cand, nots, inn, q, ht, hnd, h, hq => by
    have hv : v ∈ cand := ht v (by simp)
    rw [List.nodup_cons] at hnd
    rw [branch, List.mem_append] at hq
    rcases hq with hq | hq
    · obtain ⟨h1, h2, h3, h4⟩ := hrec _ _ _ q (h.take g hv) hq
      refine ⟨h1, h2, fun x hx => ?_, fun x hx => h4 x (by simp [hx])⟩
      rcases h3 x hx with hx | hx
      · rcases List.mem_append.mp hx with hx | hx
        · exact Or.inl hx
        · rw [List.mem_singleton.mp hx]; exact Or.inr hv
      · simp only [List.mem_filter] at hx; exact Or.inr hx.1.1
    · obtain ⟨h1, h2, h3, h4⟩ := branch_sound g hrec t _ _ inn q
        (fun w hw => by
          have : w ≠ v := fun e => hnd.1 (e ▸ hw)
          simp [ht w (by simp [hw]), this]) hnd.2 (h.drop hv) hq
      refine ⟨h1, h2, fun x hx => ?_, h4⟩
      rcases h3 x hx with hx | hx
      · exact Or.inl hx
      · exact Or.inr (List.mem_filter.mp hx).1

/-- Everything the search reports is a maximal clique. -/
theorem bk_sound (g : Graph adj) : ∀ (f : Nat) (cand nots inn q : List Nat), Inv adj V cand nots inn →
    q ∈ bk adj f cand nots inn → Reported adj V cand inn q
  | 0, _, _, _, _, _, hq => by simp [bk] at hq
  | f + 1, cand, nots, inn, q, h, hq => by
    rw [bk_succ] at hq
    split at hq
    · rename_i he
      rw [List.mem_singleton.mp hq]
      refine ⟨h.inn_nodup g, ⟨fun u hu => h.inV u (by simpa using hu), fun u hu v hv hne => ?_, fun w hw hn => ?_⟩,
        fun x hx => Or.inl hx, fun x hx => hx⟩
      · have hp : inn.Pairwise fun u v => v ∈ adj u ∧ u ∈ adj v := h.clique.imp fun {a b} hab => ⟨hab, g.symm _ _ hab⟩
        simp only [List.mem_toFinset] at hu hv
        have : Std.Symm fun u v : Nat => v ∈ adj u ∧ u ∈ adj v := ⟨fun _ _ hab => ⟨hab.2, hab.1⟩⟩
        exact (hp.forall hu hv hne).1
      · by_contra hcon
        push Not at hcon
        have := (h.mem w).mpr ⟨hw, fun u hu => hcon u (by simpa using hu)⟩
        rw [he.1, he.2] at this
        simp at this
    · exact branch_sound g (fun cand nots inn q => bk_sound g f cand nots inn q) _ _ _ _ _ temp_subset
        (temp_nodup h.nodup) h hq

theorem branch_unique (g : Graph adj) {rec : List Nat → List Nat → List Nat → List (List Nat)}
    (hrec : ∀ cand nots inn q, Inv adj V cand nots inn → q ∈ rec cand nots inn → Reported adj V cand inn q)
    (hu : ∀ cand nots inn, Inv adj V cand nots inn → ((rec cand nots inn).map List.toFinset).Nodup) :
    ∀ (t cand nots inn : List Nat), (∀ v ∈ t, v ∈ cand) → t.Nodup → Inv adj V cand nots inn →
      ((branch adj rec t cand nots inn).map List.toFinset).Nodup
  | [], _, _, _, _, _, _ => by simp [branch]
  | v :: t, cand, nots, inn, ht, hnd, h => by
    have hv : v ∈ cand := ht v (by simp)
    rw [List.nodup_cons] at hnd
    have ht' : ∀ w ∈ t, w ∈ cand.filter fun k => decide (k ≠ v) := fun w hw => by
      have : w ≠ v := fun e => hnd.1 (e ▸ hw)
      simp [ht w (by simp [hw]), this]
    rw [branch, List.map_append, List.nodup_append]
    refine ⟨hu _ _ _ (h.take g hv), branch_unique g hrec hu t _ _ inn ht' hnd.2 (h.drop hv), ?_⟩
    intro a ha b hb e
    obtain ⟨q, hq, rfl⟩ := List.mem_map.mp ha
    obtain ⟨r, hr, rfl⟩ := List.mem_map.mp hb
    have hvq : v ∈ q := (hrec _ _ _ q (h.take g hv) hq).sup v (by simp)
    have hvr : v ∈ r := by
      have : v ∈ q.toFinset := by simpa using hvq
      rw [e] at this
      simpa using this
    rcases (branch_sound g hrec t _ _ inn r ht' hnd.2 (h.drop hv) hr).sub v hvr with hx | hx
    · exact g.irrefl v (((h.mem v).mp (Or.inl hv)).2 v hx)
    · simp at hx

/-- No clique is reported twice. -/
theorem bk_unique (g : Graph adj) : ∀ (f : Nat) (cand nots inn : List Nat), Inv adj V cand nots inn →
    ((bk adj f cand nots inn).map List.toFinset).Nodup
  | 0, _, _, _, _ => by simp [bk]
  | f + 1, cand, nots, inn, h => by
    rw [bk_succ]
    split
    · simp
    · exact branch_unique g (fun cand nots inn q => bk_sound g f cand nots inn q)
        (fun cand nots inn => bk_unique g f cand nots inn) _ _ _ _ temp_subset (temp_nodup h.nodup) h

/-! ### The chosen column -/

/-- The search for a column keeps the largest count and the column it belongs to. -/
theorem foldl_better (cand : List Nat) (S : Nat → Prop) : ∀ (l : List Nat) (s : Nat × Nat),
    (∀ v ∈ l, S v) → (s.1 ≠ 0 → S s.2 ∧ s.1 = marked adj cand s.2) →
    ((l.foldl (better adj cand) s).1 ≠ 0 → S (l.foldl (better adj cand) s).2 ∧
      (l.foldl (better adj cand) s).1 = marked adj cand (l.foldl (better adj cand) s).2) ∧
    s.1 ≤ (l.foldl (better adj cand) s).1 ∧
    ((l.foldl (better adj cand) s).1 = s.1 → (l.foldl (better adj cand) s).2 = s.2)
  | [], s, _, hs => by simpa using hs
  | v :: l, s, hl, hs => by
    rw [List.foldl_cons]
    by_cases hb : s.1 < marked adj cand v
    · rw [better, if_pos hb]
      obtain ⟨h1, h2, h3⟩ := foldl_better cand S l (marked adj cand v, v) (fun w hw => hl w (by simp [hw]))
        (fun _ => ⟨hl v (by simp), rfl⟩)
      refine ⟨h1, by simp only at h2; omega, fun e => ?_⟩
      simp only at h2; omega
    · rw [better, if_neg hb]
      exact foldl_better cand S l s (fun w hw => hl w (by simp [hw])) hs

/-- The chosen column is a candidate or a "not", and the number is its number of marked entries; if the number is 0 it
is the first candidate. -/
theorem pick_spec (cand nots : List Nat) :
    ((pick adj cand nots).1 ≠ 0 → ((pick adj cand nots).2 ∈ cand ∨ (pick adj cand nots).2 ∈ nots) ∧
      (pick adj cand nots).1 = marked adj cand (pick adj cand nots).2) ∧
    ((pick adj cand nots).1 = 0 → (pick adj cand nots).2 = cand.headD 0) := by
  obtain ⟨h1, -, h3⟩ := foldl_better (adj := adj) cand (fun v => v ∈ cand ∨ v ∈ nots) nots.reverse (0, cand.headD 0)
    (fun v hv => Or.inr (by simpa using hv)) (fun h => absurd rfl h)
  change ((pickNot adj cand nots).1 ≠ 0 → _) at h1
  change ((pickNot adj cand nots).1 = 0 → (pickNot adj cand nots).2 = _) at h3
  unfold pick
  split
  · obtain ⟨k1, k2, k3⟩ := foldl_better (adj := adj) cand (fun v => v ∈ cand ∨ v ∈ nots) cand (pickNot adj cand nots)
      (fun v hv => Or.inl hv) h1
    refine ⟨k1, fun e => ?_⟩
    have e0 : (pickNot adj cand nots).1 = 0 := by omega
    rw [k3 (by rw [e, e0]), h3 e0]
  · exact ⟨h1, h3⟩

theorem marked_le {cand : List Nat} {v : Nat} (hc : cand.Nodup) (hn : (adj v).Nodup)
    (h : cand.length ≤ marked adj cand v) : ∀ k ∈ cand, k ∈ adj v := by
  have e : marked adj cand v = ((adj v).filter fun k => decide (k ∈ cand)).length := List.countP_eq_length_filter
  rw [e] at h
  have hsub : ((adj v).filter fun k => decide (k ∈ cand)).toFinset ⊆ cand.toFinset := by
    intro k hk
    simp at hk ⊢
    exact hk.2
  have hcard : cand.toFinset.card ≤ ((adj v).filter fun k => decide (k ∈ cand)).toFinset.card := by
    rw [List.toFinset_card_of_nodup hc, List.toFinset_card_of_nodup (hn.filter _)]
    exact h
  have heq := Finset.eq_of_subset_of_card_le hsub hcard
  intro k hk
  have : k ∈ cand.toFinset := by simpa using hk
  rw [← heq] at this
  simp at this
  exact this.1

/-- Some column to branch on belongs to the maximal clique that is still to be found. -/
theorem temp_meets (g : Graph adj) (hn : ∀ v, (adj v).Nodup) {cand nots inn : List Nat} {C : Finset Nat}
    (h : Inv adj V cand nots inn) (hC : MaxClique adj V C)
    (hsub : ∀ x ∈ C, x ∈ inn ∨ x ∈ cand) (hne : ¬ (cand = [] ∧ nots = [])) : ∃ v ∈ temp adj cand nots, v ∈ C := by
  -- a candidate or "not" that is adjacent to all candidates in the clique extends the clique
  have key : ∀ p, (p ∈ cand ∨ p ∈ nots) → (∀ k ∈ cand, k ∈ C → k ∈ adj p) → False := by
    intro p hp hall
    obtain ⟨hpV, hpin⟩ := (h.mem p).mp hp
    by_cases hpC : p ∈ C
    · rcases hsub p hpC with hx | hx
      · exact g.irrefl p (hpin p hx)
      · exact g.irrefl p (hall p hx hpC)
    · obtain ⟨u, hu, hnu⟩ := hC.maximal p hpV hpC
      rcases hsub u hu with hx | hx
      · exact hnu (hpin u hx)
      · exact hnu (g.symm _ _ (hall u hx hu))
  obtain ⟨hs1, hs2⟩ := pick_spec (adj := adj) cand nots
  by_cases h0 : (pick adj cand nots).1 < cand.length
  · have hpm : (pick adj cand nots).2 ∈ cand ∨ (pick adj cand nots).2 ∈ nots := by
      by_cases hz : (pick adj cand nots).1 = 0
      · rw [hs2 hz]
        rcases cand with _ | ⟨a, l⟩
        · simp at h0
        · exact Or.inl (by simp)
      · exact (hs1 hz).1
    by_contra hcon
    push Not at hcon
    refine key _ hpm fun k hk hkC => ?_
    by_contra hka
    exact hcon k (by rw [temp, if_pos h0]; simp [hk, hka]) hkC
  · exfalso
    by_cases hz : (pick adj cand nots).1 = 0
    · have hc : cand = [] := List.length_eq_zero_iff.mp (by omega)
      rcases nots with _ | ⟨p, l⟩
      · exact hne ⟨hc, rfl⟩
      · exact key p (Or.inr (by simp)) (fun k hk => by rw [hc] at hk; simp at hk)
    · obtain ⟨hp, he⟩ := hs1 hz
      exact key _ hp fun k hk _ => marked_le h.nodup (hn _) (by omega) k hk

theorem branch_complete (g : Graph adj) {rec : List Nat → List Nat → List Nat → List (List Nat)} {n : Nat}
    {C : Finset Nat} (hC : MaxClique adj V C)
    (hrec : ∀ cand nots inn, cand.length < n → Inv adj V cand nots inn → (∀ x ∈ inn, x ∈ C) →
      (∀ x ∈ C, x ∈ inn ∨ x ∈ cand) → ∃ q ∈ rec cand nots inn, q.toFinset = C) :
    ∀ (t cand nots inn : List Nat), cand.length ≤ n → (∀ v ∈ t, v ∈ cand) → t.Nodup → Inv adj V cand nots inn →
      (∀ x ∈ inn, x ∈ C) → (∀ x ∈ C, x ∈ inn ∨ x ∈ cand) → (∃ v ∈ t, v ∈ C) →
      ∃ q ∈ branch adj rec t cand nots inn, q.toFinset = C
  | [], _, _, _, _, _, _, _, _, _, hex => by simp at hex
  | v :: t, cand, nots, inn, hlen, ht, hnd, h, hin, hsub, hex => by
    have hv : v ∈ cand := ht v (by simp)
    rw [List.nodup_cons] at hnd
    have hlt : (cand.filter fun k => decide (k ≠ v)).length < cand.length := by
      apply List.length_filter_lt_length_iff_exists.mpr
      exact ⟨v, hv, by simp⟩
    by_cases hvC : v ∈ C
    · obtain ⟨q, hq, hqC⟩ := hrec _ _ _ (lt_of_le_of_lt (List.length_filter_le _ _) (by omega)) (h.take g hv)
        (fun x hx => by
          rcases List.mem_append.mp hx with hx | hx
          · exact hin x hx
          · rw [List.mem_singleton.mp hx]; exact hvC)
        (fun x hx => by
          by_cases e : x = v
          · left; simp [e]
          · rcases hsub x hx with hy | hy
            · left; simp [hy]
            · right
              have := hC.clique v hvC x hx (Ne.symm e)
              simp [hy, e, this])
      exact ⟨q, by rw [branch]; exact List.mem_append_left _ hq, hqC⟩
    · obtain ⟨q, hq, hqC⟩ := branch_complete g hC hrec t _ (v :: nots) inn (by omega)
        (fun w hw => by
          have : w ≠ v := fun e => hnd.1 (e ▸ hw)
          simp [ht w (by simp [hw]), this]) hnd.2 (h.drop hv) hin
        (fun x hx => by
          rcases hsub x hx with hy | hy
          · exact Or.inl hy
          · right
            have : x ≠ v := fun e => hvC (e ▸ hx)
            simp [hy, this])
        (by
          obtain ⟨w, hw, hwC⟩ := hex
          rcases List.mem_cons.mp hw with e | hw
          · exact absurd (e ▸ hwC) hvC
          · exact ⟨w, hw, hwC⟩)
      exact ⟨q, by rw [branch]; exact List.mem_append_right _ hq, hqC⟩

/-- If no neighbourhood lists a column twice, the search finds every maximal clique. -/
theorem bk_complete (g : Graph adj) (hn : ∀ v, (adj v).Nodup) {C : Finset Nat} (hC : MaxClique adj V C) :
    ∀ (f : Nat) (cand nots inn : List Nat), cand.length < f → Inv adj V cand nots inn → (∀ x ∈ inn, x ∈ C) →
      (∀ x ∈ C, x ∈ inn ∨ x ∈ cand) → ∃ q ∈ bk adj f cand nots inn, q.toFinset = C
  | 0, _, _, _, hlen, _, _, _ => absurd hlen (Nat.not_lt_zero _)
  | f + 1, cand, nots, inn, hlen, h, hin, hsub => by
    rw [bk_succ]
    split
    · rename_i he
      refine ⟨inn, by simp, Finset.ext fun x => ?_⟩
      simp only [List.mem_toFinset]
      refine ⟨hin x, fun hx => ?_⟩
      rcases hsub x hx with hy | hy
      · exact hy
      · rw [he.1] at hy; simp at hy
    · rename_i he
      exact branch_complete g hC (n := f)
        (fun cand nots inn hl hi h1 h2 => bk_complete g hn hC f cand nots inn hl hi h1 h2)
        _ _ _ _ (by omega) temp_subset (temp_nodup h.nodup) h hin hsub (temp_meets g hn h hC hsub he)

/-! ### The depth bound is never reached -/

theorem branch_congr {rec rec' : List Nat → List Nat → List Nat → List (List Nat)} {n : Nat}
    (hrec : ∀ cand nots inn, cand.Nodup → cand.length < n → rec cand nots inn = rec' cand nots inn) :
    ∀ (t cand nots inn : List Nat), cand.Nodup → cand.length ≤ n → (∀ v ∈ t, v ∈ cand) → t.Nodup →
      branch adj rec t cand nots inn = branch adj rec' t cand nots inn
  | [], _, _, _, _, _, _, _ => rfl
  | v :: t, cand, nots, inn, hc, hlen, ht, hnd => by
    have hv : v ∈ cand := ht v (by simp)
    rw [List.nodup_cons] at hnd
    have hlt : (cand.filter fun k => decide (k ≠ v)).length < cand.length := by
      apply List.length_filter_lt_length_iff_exists.mpr
      exact ⟨v, hv, by simp⟩
    rw [branch, branch, hrec _ _ _ ((hc.filter _).filter _) (lt_of_le_of_lt (List.length_filter_le _ _) (by omega)),
      branch_congr hrec t _ _ _ (hc.filter _) (by omega) (fun w hw => by
          have : w ≠ v := fun e => hnd.1 (e ▸ hw)
          simp [ht w (by simp [hw]), this]) hnd.2]

/-- The result does not depend on the depth bound once it exceeds the number of candidates. -/
theorem bk_depth : ∀ (f f' : Nat) (cand nots inn : List Nat), cand.Nodup → cand.length < f → cand.length < f' →
    bk adj f cand nots inn = bk adj f' cand nots inn
  | 0, _, _, _, _, _, h, _ => absurd h (Nat.not_lt_zero _)
  | _ + 1, 0, _, _, _, _, _, h => absurd h (Nat.not_lt_zero _)
  | f + 1, f' + 1, cand, nots, inn, hnd, h, h' => by
    rw [bk_succ, bk_succ]
    split
    · rfl
    · exact branch_congr (n := cand.length)
        (fun cand' nots' inn' hd hl => bk_depth f f' cand' nots' inn' hd (by omega) (by omega))
        _ _ _ _ hnd le_rfl temp_subset (temp_nodup hnd)

end Cgl.PreClique
