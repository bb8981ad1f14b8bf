import Verif.PreClique.Spec
import Verif.PreClique.BK
import Mathlib.Data.List.GetD

/-!
# The conflict graph built by the constructor of `CglBK`
-/

namespace Cgl.PreClique

theorem mem_cols {r : Row} {j : Nat} : j ∈ cols r ↔ Row.Has r j := by
  unfold cols Row.Has; rw [List.mem_map]

theorem binary_iff {P : Prob} {j : Nat} : binary P j = true ↔ Binary P j := by
  unfold binary Binary
  simp only [Bool.and_eq_true, decide_eq_true_eq]
  tauto

theorem isClique_iff {P : Prob} {r : Row} : isClique P r = true ↔ SetRow P r := by
  unfold isClique
  simp only [Bool.and_eq_true, decide_eq_true_eq, List.all_eq_true, binary_iff]
  constructor
  · rintro ⟨⟨⟨h1, h2⟩, h3⟩, h4⟩
    exact ⟨h1, h2, fun p hp => ⟨(h3 p hp).2, (h3 p hp).1⟩, h4⟩
  · rintro ⟨h1, h2, h3, h4⟩
    exact ⟨⟨⟨h1, h2⟩, fun p hp => ⟨(h3 p hp).2, (h3 p hp).1⟩⟩, h4⟩

theorem sum_count {P : Prob} {j : Nat} : ∀ l : List Row, (∀ r ∈ l, (r.coefs.map Prod.fst).Nodup) →
    ((l.filter (isClique P)).map fun r => (cols r).count j).sum =
      l.countP fun s => decide (SetRow P s ∧ Row.Has s j)
  | [], _ => rfl
  | r :: l, h => by
    have ih := sum_count (P := P) (j := j) l (fun s hs => h s (by simp [hs]))
    rw [List.countP_cons, ← ih]
    by_cases hc : isClique P r = true
    · have hs := isClique_iff.mp hc
      rw [List.filter_cons_of_pos hc, List.map_cons, List.sum_cons]
      by_cases hj : j ∈ cols r
      · rw [if_pos (by simp [hs, mem_cols.mp hj]), List.count_eq_one_of_mem (l := cols r) (h r (by simp)) hj]; omega
      · rw [if_neg (by simp [hs, ← mem_cols, hj]), List.count_eq_zero_of_not_mem hj]; omega
    · have hs : ¬ SetRow P r := fun h => hc (isClique_iff.mpr h)
      rw [List.filter_cons_of_neg hc, if_neg (by simp [hs])]; rfl

theorem used_iff {P : Prob} (hP : P.WF) {r : Row} : used P r = true ↔ Used P r := by
  unfold used Used
  simp only [Bool.and_eq_true, isClique_iff, List.all_eq_true, decide_eq_true_eq, cols, List.mem_map]
  unfold numberIn
  refine and_congr_right fun _ => ⟨fun h p hp => ?_, ?_⟩
  · have := h p.1 ⟨p, hp, rfl⟩
    rw [sum_count _ hP.nodup] at this
    omega
  · rintro h j ⟨p, hp, rfl⟩
    have := h p hp
    rw [sum_count _ hP.nodup]
    omega

theorem rowAt_mem {P : Prob} {i : Nat} (h : i < P.rows.length) : rowAt P i ∈ P.rows := by
  unfold rowAt
  rw [List.getD_eq_getElem _ _ h]
  exact List.getElem_mem h

theorem exists_rowAt {P : Prob} {r : Row} (h : r ∈ P.rows) : ∃ i < P.rows.length, rowAt P i = r := by
  obtain ⟨i, hi, rfl⟩ := List.getElem_of_mem h
  exact ⟨i, hi, by unfold rowAt; rw [List.getD_eq_getElem _ _ hi]⟩

theorem rowType_nonneg {P : Prob} {i : Nat} : 0 ≤ rowType P i ↔ used P (rowAt P i) = true := by
  unfold rowType
  split
  · rename_i h; rw [h]; split <;> simp
  · rename_i h; simp [h]

theorem rowType_zero {P : Prob} {i : Nat} : rowType P i = 0 ↔ used P (rowAt P i) = true ∧ (rowAt P i).lb ≤ 0 := by
  unfold rowType
  by_cases h : used P (rowAt P i) = true
  · rw [if_pos h]
    by_cases h0 : 0 < (rowAt P i).lb
    · rw [if_pos h0]; simp [h, not_le.mpr h0]
    · rw [if_neg h0]; simp [h, not_lt.mp h0]
  · rw [if_neg h]; simp [h]

/-! ### Duplicate doubleton rows -/

/-- Two rows with the same bounds and the same entries. -/
structure Same (r s : Row) : Prop where
  lb : r.lb = s.lb
  ub : r.ub = s.ub
  coefs : r.coefs.Perm s.coefs

theorem Same.refl (r : Row) : Same r r := ⟨rfl, rfl, List.Perm.refl _⟩
theorem Same.trans {r s t : Row} (h : Same r s) (k : Same s t) : Same r t :=
  ⟨h.lb.trans k.lb, h.ub.trans k.ub, h.coefs.trans k.coefs⟩
theorem Same.symm {r s : Row} (h : Same r s) : Same s r := ⟨h.lb.symm, h.ub.symm, h.coefs.symm⟩

theorem ordered_perm {r : Row} (h : r.coefs.length = 2) : (ordered r).Perm r.coefs := by
  unfold ordered
  match hr : r.coefs, h with
  | [a, b], _ =>
    simp only
    split
    · exact List.Perm.swap _ _ _
    · exact List.Perm.refl _

theorem sameRow_same {P : Prob} {i k : Nat} (hi : doubleton P i = true) (hk : doubleton P k = true)
    (h : sameRow P i k = true) : Same (rowAt P i) (rowAt P k) := by
  unfold doubleton at hi hk
  unfold sameRow at h
  simp only [Bool.and_eq_true, decide_eq_true_eq] at hi hk h
  refine ⟨h.1, by rw [hi.2, hk.2], ?_⟩
  have := ordered_perm hi.1
  rw [h.2] at this
  exact this.symm.trans (ordered_perm hk.1)

theorem duplicates_sub {P : Prob} : ∀ l : List (ℚ × Nat), ∀ i ∈ duplicates P l, i ∈ (l.map Prod.snd).tail
  | [], i, h => by simp [duplicates] at h
  | [a], i, h => by simp [duplicates] at h
  | a :: b :: l, i, h => by
    rw [duplicates, List.mem_append] at h
    simp only [List.map_cons, List.tail_cons]
    rcases h with h | h
    · split at h
      · rw [List.mem_singleton.mp h]; simp
      · simp at h
    · have := duplicates_sub (b :: l) i h
      simp only [List.map_cons, List.tail_cons] at this
      simp [this]

/-- A row marked as a duplicate repeats a row that is not marked. -/
theorem duplicates_twin {P : Prob} : ∀ l : List (ℚ × Nat), (l.map Prod.snd).Nodup →
    (∀ e ∈ l, doubleton P e.2 = true) → ∀ i ∈ duplicates P l,
    ∃ k ∈ l.map Prod.snd, k ∉ duplicates P l ∧ Same (rowAt P k) (rowAt P i)
  | [], _, _, i, h => by simp [duplicates] at h
  | [a], _, _, i, h => by simp [duplicates] at h
  | a :: b :: l, hnd, hd, i, h => by
    have hnd' := hnd
    rw [List.map_cons, List.nodup_cons] at hnd'
    have ha : a.2 ∉ duplicates P (a :: b :: l) := fun hm => by
      have := duplicates_sub _ _ hm
      simp only [List.map_cons, List.tail_cons] at this
      exact hnd'.1 this
    rw [duplicates, List.mem_append] at h
    rcases h with h | h
    · split at h
      · rename_i hs
        rw [List.mem_singleton.mp h]
        exact ⟨a.2, by simp, ha, sameRow_same (hd a (by simp)) (hd b (by simp)) hs.2⟩
      · simp at h
    · obtain ⟨k, hk, hkn, hks⟩ := duplicates_twin (b :: l) hnd'.2 (fun e he => hd e (by simp [he])) i h
      by_cases hm : k ∈ duplicates P (a :: b :: l)
      · rw [duplicates, List.mem_append] at hm
        rcases hm with hm | hm
        · split at hm
          · rename_i hs
            rw [List.mem_singleton.mp hm] at hks
            exact ⟨a.2, by simp, ha, (sameRow_same (hd a (by simp)) (hd b (by simp)) hs.2).trans hks⟩
          · simp at hm
        · exact absurd hm hkn
      · exact ⟨k, by rw [List.map_cons]; exact List.mem_cons_of_mem _ hk, hm, hks⟩

/-- `CoinSort_2` permutes. -/
def Sorts (srt : List (ℚ × Nat) → List (ℚ × Nat)) : Prop := ∀ l, (srt l).Perm l

theorem keys_snd (c : Call) : (keys c).map Prod.snd = (List.range c.P.rows.length).filter (doubleton c.P) := by
  unfold keys
  rw [List.map_map]
  exact List.map_id _

theorem dups_twin {c : Call} (hs : Sorts c.srt) {i : Nat} (h : i ∈ dups c) :
    ∃ k < c.P.rows.length, k ∉ dups c ∧ Same (rowAt c.P k) (rowAt c.P i) := by
  have hp := (hs (keys c)).map Prod.snd
  rw [keys_snd] at hp
  obtain ⟨k, hk, h1, h2⟩ := duplicates_twin (P := c.P) (c.srt (keys c))
    (hp.nodup_iff.mpr (List.nodup_range.filter _))
    (fun e he => by
      have : e.2 ∈ (c.srt (keys c)).map Prod.snd := List.mem_map_of_mem he
      rw [hp.mem_iff] at this
      exact (List.mem_filter.mp this).2) i h
  rw [hp.mem_iff, List.mem_filter, List.mem_range] at hk
  exact ⟨k, hk.1, h1, h2⟩

/-! ### Neighbourhoods -/

theorem mem_links {c : Call} {j k i : Nat} : (k, i) ∈ links c j ↔ binary c.P j = true ∧ i < c.P.rows.length ∧
    0 ≤ rowType c.P i ∧ i ∉ dups c ∧ Row.Has (rowAt c.P i) j ∧ Row.Has (rowAt c.P i) k ∧ k ≠ j := by
  unfold links
  split
  · rename_i hb
    simp only [List.mem_flatMap, List.mem_range, hb, true_and]
    constructor
    · rintro ⟨i', hi', hm⟩
      split at hm
      · rename_i hc
        obtain ⟨k', hk', e⟩ := List.mem_map.mp hm
        simp only [Prod.mk.injEq] at e
        obtain ⟨rfl, rfl⟩ := e
        simp only [List.mem_filter, decide_eq_true_eq] at hk'
        exact ⟨hi', hc.1, hc.2.1, mem_cols.mp hc.2.2, mem_cols.mp hk'.1, hk'.2⟩
      · simp at hm
    · rintro ⟨h1, h2, h3, h4, h5, h6⟩
      refine ⟨i, h1, ?_⟩
      rw [if_pos ⟨h2, h3, mem_cols.mpr h4⟩]
      exact List.mem_map.mpr ⟨k, by simp [mem_cols.mpr h5, h6], rfl⟩
  · rename_i hb; simp [hb]

theorem mem_adj {c : Call} {j k : Nat} : k ∈ adj c j ↔ ∃ i, (k, i) ∈ links c j := by
  unfold adj
  rw [List.mem_map]
  constructor
  · rintro ⟨⟨a, i⟩, h, rfl⟩; exact ⟨i, h⟩
  · rintro ⟨i, h⟩; exact ⟨(k, i), h, rfl⟩

theorem Row.Has.perm {r s : Row} {j : Nat} (h : r.coefs.Perm s.coefs) (hr : Row.Has r j) : Row.Has s j := by
  obtain ⟨p, hp, e⟩ := hr
  exact ⟨p, h.mem_iff.mp hp, e⟩

theorem SetRow.binary {P : Prob} {r : Row} (h : SetRow P r) {j : Nat} (hj : Row.Has r j) : Binary P j := by
  obtain ⟨p, hp, rfl⟩ := hj
  exact (h.ones p hp).2

theorem SetRow.same {P : Prob} {r s : Row} (h : SetRow P r) (e : Same r s) : SetRow P s :=
  ⟨e.ub ▸ h.ub, e.lb ▸ h.lb, fun p hp => h.ones p (e.coefs.mem_iff.mpr hp), e.coefs.length_eq ▸ h.short⟩

theorem Used.same {P : Prob} {r s : Row} (h : Used P r) (e : Same r s) : Used P s :=
  ⟨h.1.same e, fun p hp => h.2 p (e.coefs.mem_iff.mpr hp)⟩

/-- The neighbours of a column are the columns it conflicts with. -/
theorem adj_conflict {c : Call} (hP : c.P.WF) (hs : Sorts c.srt) {u v : Nat} : v ∈ adj c u ↔ Conflict c.P u v := by
  rw [mem_adj]
  constructor
  · rintro ⟨i, h⟩
    rw [mem_links, rowType_nonneg, used_iff hP] at h
    obtain ⟨-, h2, h3, -, h5, h6, h7⟩ := h
    exact ⟨h7.symm, rowAt c.P i, rowAt_mem h2, h3, h5, h6⟩
  · rintro ⟨hne, r, hr, hu, h1, h2⟩
    obtain ⟨i, hi, rfl⟩ := exists_rowAt hr
    have hb : binary c.P u = true := binary_iff.mpr (hu.1.binary h1)
    by_cases hd : i ∈ dups c
    · obtain ⟨k, hk, hkd, hks⟩ := dups_twin hs hd
      exact ⟨k, mem_links.mpr ⟨hb, hk, rowType_nonneg.mpr ((used_iff hP).mpr (hu.same hks.symm)), hkd,
        h1.perm hks.coefs.symm, h2.perm hks.coefs.symm, hne.symm⟩⟩
    · exact ⟨i, mem_links.mpr ⟨hb, hi, rowType_nonneg.mpr ((used_iff hP).mpr hu), hd, h1, h2, hne.symm⟩⟩

theorem Conflict.symm {P : Prob} {u v : Nat} (h : Conflict P u v) : Conflict P v u := by
  obtain ⟨hne, r, hr, hu, h1, h2⟩ := h
  exact ⟨hne.symm, r, hr, hu, h2, h1⟩

theorem graph {c : Call} (hP : c.P.WF) (hs : Sorts c.srt) : Graph (adj c) :=
  ⟨fun _ _ h => (adj_conflict hP hs).mpr ((adj_conflict hP hs).mp h).symm,
   fun _ h => ((adj_conflict hP hs).mp h).1 rfl⟩

theorem mem_possible {c : Call} (hP : c.P.WF) (hs : Sorts c.srt) {u : Nat} :
    u ∈ possible c ↔ ∃ v, Conflict c.P u v := by
  unfold possible
  simp only [List.mem_filter, List.mem_range, decide_eq_true_eq]
  constructor
  · rintro ⟨-, h⟩
    obtain ⟨e, he⟩ := List.exists_mem_of_ne_nil _ h
    exact ⟨e.1, (adj_conflict hP hs).mp (mem_adj.mpr ⟨e.2, he⟩)⟩
  · rintro ⟨v, hv⟩
    refine ⟨?_, fun h => ?_⟩
    · obtain ⟨-, r, hr, -, ⟨p, hp, rfl⟩, -⟩ := hv
      exact hP.cols r hr p hp
    · obtain ⟨i, hi⟩ := mem_adj.mp ((adj_conflict hP hs).mpr hv)
      rw [h] at hi
      simp at hi

theorem start {c : Call} : Inv (adj c) (possible c) (possible c) [] [] :=
  ⟨fun v => by simp, fun v _ => by simp, List.nodup_range.filter _, fun u hu => by simp at hu, List.Pairwise.nil⟩

theorem maxClique_iff {c : Call} (hP : c.P.WF) (hs : Sorts c.srt) {C : Finset Nat} (h2 : 2 ≤ C.card) :
    MaxClique (adj c) (possible c) C ↔ MaximalClique c.P C := by
  obtain ⟨a, ha⟩ : C.Nonempty := Finset.card_pos.mp (by omega)
  constructor
  · intro h
    refine ⟨fun u hu v hv hne => (adj_conflict hP hs).mp (h.clique u hu v hv hne), fun w hw => ?_⟩
    by_cases hV : w ∈ possible c
    · obtain ⟨u, hu, hn⟩ := h.maximal w hV hw
      exact ⟨u, hu, fun hc => hn ((adj_conflict hP hs).mpr hc)⟩
    · exact ⟨a, ha, fun hc => hV ((mem_possible hP hs).mpr ⟨a, hc.symm⟩)⟩
  · intro h
    refine ⟨fun u hu => ?_, fun u hu v hv hne => (adj_conflict hP hs).mpr (h.conflict u hu v hv hne), fun w _ hw => ?_⟩
    · obtain ⟨v, hv, hne⟩ : ∃ v ∈ C, v ≠ u := Finset.exists_mem_ne (by omega) u
      exact (mem_possible hP hs).mpr ⟨v, h.conflict u hu v hv hne.symm⟩
    · obtain ⟨u, hu, hn⟩ := h.maximal w hw
      exact ⟨u, hu, fun hc => hn ((adj_conflict hP hs).mp hc)⟩

/-! ### What is saved -/

theorem saved_spec {c : Call} (hP : c.P.WF) (hs : Sorts c.srt) {q : List Nat} (h : q ∈ saved c) :
    q.Nodup ∧ MaximalClique c.P q.toFinset ∧ 2 < q.length := by
  unfold saved at h
  simp only [List.mem_filter, decide_eq_true_eq] at h
  have hr := bk_sound (graph hP hs) _ _ _ _ q start h.1
  refine ⟨hr.nodup, (maxClique_iff hP hs ?_).mp hr.max, h.2⟩
  rw [List.toFinset_card_of_nodup hr.nodup]; omega

theorem saved_unique {c : Call} (hP : c.P.WF) (hs : Sorts c.srt) : ((saved c).map List.toFinset).Nodup := by
  unfold saved
  exact (bk_unique (graph hP hs) _ _ _ _ start).sublist (List.filter_sublist.map _)

theorem saved_complete {c : Call} (hP : c.P.WF) (hs : Sorts c.srt) (hn : ∀ v, (adj c v).Nodup) {C : Finset Nat}
    (hC : MaximalClique c.P C) (h2 : 2 < C.card) : ∃ q ∈ saved c, q.toFinset = C := by
  have hM := (maxClique_iff hP hs (by omega)).mpr hC
  obtain ⟨q, hq, rfl⟩ := bk_complete (graph hP hs) hn hM ((possible c).length + 1) (possible c) [] [] (by omega) start
    (fun x hx => by simp at hx) (fun x hx => Or.inr (hM.inV x hx))
  refine ⟨q, ?_, rfl⟩
  unfold saved
  simp only [List.mem_filter, decide_eq_true_eq]
  exact ⟨hq, lt_of_lt_of_le h2 (List.toFinset_card_le _)⟩

end Cgl.PreClique
