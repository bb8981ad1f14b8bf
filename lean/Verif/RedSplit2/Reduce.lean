import Verif.RedSplit2.Row

/-!
# The choice of rows and the multipliers
-/

namespace Cgl.RedSplit2

/-! ### The rows that are combined are different rows of the tableau -/

theorem swap_perm {α : Type} (l : List α) (i j : Nat) : (swap l i j).Perm l := by
  unfold swap
  split
  · rename_i a b h1 h2
    obtain ⟨hi, rfl⟩ := List.getElem?_eq_some_iff.mp h1
    obtain ⟨hj, rfl⟩ := List.getElem?_eq_some_iff.mp h2
    exact List.set_set_perm hi hj
  · exact List.Perm.refl _

theorem qsort_perm (l : List (Nat × ℚ)) : (qsort l).Perm l := List.perm_insertionSort _ _

/-- Different rows of the tableau, none of them `k`. -/
def Others (c : Call) (k : Nat) (l : List (Nat × ℚ)) : Prop :=
  (l.map Prod.fst).Nodup ∧ ∀ e ∈ l, e.1 < mTab c ∧ e.1 ≠ k

theorem Others.perm {c : Call} {k : Nat} {l l' : List (Nat × ℚ)} (h : Others c k l) (hp : l'.Perm l) : Others c k l' :=
  ⟨(hp.map _).nodup_iff.mpr h.1, fun e he => h.2 e (hp.mem_iff.mp he)⟩

theorem Others.take {c : Call} {k : Nat} {l : List (Nat × ℚ)} (h : Others c k l) (n : Nat) : Others c k (l.take n) :=
  ⟨h.1.sublist ((List.take_sublist n l).map _), fun e he => h.2 e (List.mem_of_mem_take he)⟩

/-- Only the first components matter. -/
theorem Others.fst {c : Call} {k : Nat} {l l' : List (Nat × ℚ)} (h : Others c k l)
    (hp : l'.map Prod.fst = l.map Prod.fst) : Others c k l' := by
  refine ⟨hp ▸ h.1, fun e he => ?_⟩
  have : e.1 ∈ l.map Prod.fst := hp ▸ List.mem_map_of_mem he
  obtain ⟨e', he', h1⟩ := List.mem_map.mp this
  rw [← h1]; exact h.2 e' he'

theorem nzLoop_others {c : Call} {W : List Nat} {which k maxRows : Nat} : ∀ (l : List Nat) (arr : List (Nat × ℚ)) (nz : Nat),
    Others c k arr → (arr.map Prod.fst ++ l).Nodup → (∀ i ∈ l, i < mTab c) →
    Others c k (nzLoop c W which k maxRows l arr nz) := by
  intro l
  induction l with
  | nil => intro arr nz h _ _; exact h
  | cons i l ih =>
    intro arr nz h hn hl
    have hl' : ∀ i ∈ l, i < mTab c := fun a ha => hl a (List.mem_cons_of_mem _ ha)
    have key : ∀ q : ℚ, i ≠ k → Others c k (arr ++ [(i, q)]) ∧ ((arr ++ [(i, q)]).map Prod.fst ++ l).Nodup := by
      intro q hik
      have hn' : ((arr ++ [(i, q)]).map Prod.fst ++ l).Nodup := by simpa using hn
      refine ⟨⟨(List.nodup_append.mp hn').1, fun e he => ?_⟩, hn'⟩
      rcases List.mem_append.mp he with he | he
      · exact h.2 e he
      · rw [List.mem_singleton.mp he]; exact ⟨hl i (List.mem_cons_self ..), hik⟩
    unfold nzLoop
    split
    · exact h.take _
    split
    · rename_i hc
      have hik : i ≠ k := by simp only [candidate, Bool.and_eq_true, decide_eq_true_eq] at hc; exact hc.1.1
      split
      · obtain ⟨h1, h2⟩ := key 0 hik
        have hp := swap_perm (arr ++ [(i, 0)]) nz arr.length
        exact ih _ _ (h1.perm hp) (((hp.map _).append_right _).nodup_iff.mpr h2) hl'
      · obtain ⟨h1, h2⟩ := key (newNonzeros c W which k i) hik
        exact ih _ _ h1 h2 hl'
    · refine ih _ _ h ?_ hl'
      exact hn.sublist (List.Sublist.append_left (List.sublist_cons_self ..) _)

theorem byNonzeros_others {c : Call} {W : List Nat} {which k maxRows : Nat} :
    Others c k (byNonzeros c W which k maxRows) := by
  have h : Others c k (nzLoop c W which k maxRows (List.range (mTab c)) [] 0) :=
    nzLoop_others _ _ _ ⟨by simp, by simp⟩ (by simpa using List.nodup_range) fun i hi => List.mem_range.mp hi
  unfold byNonzeros
  dsimp only
  split
  · exact h.perm (qsort_perm _)
  · exact h

theorem greedyScan_fst {c : Call} {z : List Nat} {maxNz : ℚ} : ∀ (fuel i : Nat) (arr : List (Nat × ℚ)) (best : Nat)
    (minNz : ℚ), (greedyScan c z maxNz fuel i arr best minNz).1.map Prod.fst = arr.map Prod.fst := by
  intro fuel
  induction fuel with
  | zero => intros; rfl
  | succ fuel ih =>
    intro i arr best minNz
    unfold greedyScan
    split
    · rfl
    rename_i e he
    have hset : ∀ v : ℚ, (arr.set i (e.1, v)).map Prod.fst = arr.map Prod.fst := by
      intro v
      rw [List.map_set]
      obtain ⟨hi, rfl⟩ := List.getElem?_eq_some_iff.mp he
      have : (arr.map Prod.fst)[i]'(by simpa using hi) = arr[i].1 := by simp
      rw [← this]
      exact List.set_getElem_self _
    split
    · dsimp only
      split
      · exact hset _
      split
      · rw [ih, hset]
      · rw [ih, hset]
    · rfl

theorem greedyLoop_others {c : Call} {k maxRows : Nat} : ∀ (fuel counter : Nat) (arr : List (Nat × ℚ)) (zi zw : List Nat),
    Others c k arr → Others c k (greedyLoop c maxRows fuel counter arr zi zw) := by
  intro fuel
  induction fuel with
  | zero => intro counter arr zi zw h; exact h.take _
  | succ fuel ih =>
    intro counter arr zi zw h
    unfold greedyLoop
    split
    · dsimp only
      exact ih _ _ _ _ ((h.fst (greedyScan_fst _ _ _ _ _)).perm (swap_perm _ _ _))
    · exact h.take _

theorem greedy_others {c : Call} {W : List Nat} {which k maxRows : Nat} : Others c k (greedy c W which k maxRows) := by
  unfold greedy
  dsimp only
  split
  · exact greedyLoop_others _ _ _ _ _ byNonzeros_others
  · exact byNonzeros_others

theorem byCosine_others {c : Call} {W : List Nat} {which k maxRows : Nat} :
    Others c k (byCosine c W which k maxRows) := by
  have h : Others c k ((((List.range (mTab c)).filter fun i =>
      decide (i ≠ k) && decide (c.par .normIsZero < norm c W i)).map fun i => (i, cosine c W which k i)).filter fun e =>
        decide (e.2 ≠ 0)) := by
    constructor
    · refine List.Nodup.sublist (List.filter_sublist.map _) ?_
      rw [List.map_map]
      have : (Prod.fst ∘ fun i => (i, cosine c W which k i)) = id := rfl
      rw [this, List.map_id]
      exact List.nodup_range.filter _
    · intro e he
      obtain ⟨i, hi, rfl⟩ := List.mem_map.mp (List.mem_filter.mp he).1
      obtain ⟨h1, h2⟩ := List.mem_filter.mp hi
      simp only [Bool.and_eq_true, decide_eq_true_eq] at h2
      exact ⟨List.mem_range.mp h1, h2.1⟩
  unfold byCosine
  dsimp only
  split
  · exact h.perm (qsort_perm _)
  · exact h

theorem ranked_others {c : Call} {W : List Nat} {k maxRows : Nat} {rs : Param.Strat.RS} :
    Others c k (ranked c W k maxRows rs) := by
  unfold ranked
  split
  all_goals first
    | with_reducible exact byNonzeros_others
    | with_reducible exact greedy_others
    | with_reducible exact byCosine_others
    | exact ⟨by simp, by simp⟩

/-- The list of rows to combine starts with `k`, has no repetition, and consists of rows of the tableau. -/
theorem rowList_spec {c : Call} {W : List Nat} {n k : Nat} {rs : Param.Strat.RS} (hk : k < mTab c) :
    (rowList c W n k rs).Nodup ∧ (∀ r ∈ rowList c W n k rs, r < mTab c) ∧ k ∈ rowList c W n k rs ∧
      (rowList c W n k rs).length ≤ max n 1 := by
  have h := (ranked_others (c := c) (W := W) (k := k) (maxRows := n - 1) (rs := rs)).take (n - 1)
  unfold rowList
  refine ⟨List.nodup_cons.mpr ⟨fun hm => ?_, h.1⟩, fun r hr => ?_, List.mem_cons_self .., ?_⟩
  · obtain ⟨e, he, h1⟩ := List.mem_map.mp hm
    exact (h.2 e he).2 h1
  · rcases List.mem_cons.mp hr with rfl | hr
    · exact hk
    · obtain ⟨e, he, rfl⟩ := List.mem_map.mp hr
      exact (h.2 e he).1
  · rw [List.length_cons, List.length_map, List.length_take]
    omega

/-! ### Multipliers -/

theorem sumNorm_eq {limit : ℚ} : ∀ (l : List ℤ) (s : ℚ), sumNorm limit l s ≤ limit →
    sumNorm limit l s = s + (l.map fun b : ℤ => |(b : ℚ)|).sum := by
  intro l
  induction l with
  | nil => intro s _; simp [sumNorm]
  | cons b l ih =>
    intro s h
    unfold sumNorm at h ⊢
    split at h
    · rename_i hlt; exact absurd h (not_le.mpr hlt)
    · rename_i hlt
      rw [if_neg hlt, ih _ h, List.map_cons, List.sum_cons, add_assoc]

/-- The multipliers of a list of rows, by row of the tableau. -/
def spread (l : List Nat) (b : List ℤ) (r : Nat) : ℤ := if r ∈ l then b.getD (l.idxOf r) 0 else 0

theorem sum_spread {l : List Nat} (hn : l.Nodup) {N : Nat} (hl : ∀ r ∈ l, r < N) (b : List ℤ) (g : ℤ → Nat → ℚ)
    (hg : ∀ r, g 0 r = 0) : ∑ r ∈ Finset.range N, g (spread l b r) r =
      ((List.range l.length).map fun i => g (b.getD i 0) (l.getD i 0)).sum := by
  rw [list_range_sum]
  have hsub : (l.toFinset : Finset Nat) ⊆ Finset.range N := fun r hr =>
    Finset.mem_range.mpr (hl r (List.mem_toFinset.mp hr))
  rw [← Finset.sum_subset hsub fun r _ hr => by
    unfold spread; rw [if_neg (fun h => hr (List.mem_toFinset.mpr h)), hg]]
  symm
  refine Finset.sum_bij (fun i _ => l.getD i 0) ?_ ?_ ?_ ?_
  · intro i hi
    exact List.mem_toFinset.mpr (getD_mem (Finset.mem_range.mp hi))
  · intro i hi j hj h
    have hi := Finset.mem_range.mp hi
    have hj := Finset.mem_range.mp hj
    simp only [List.getD, List.getElem?_eq_getElem hi, List.getElem?_eq_getElem hj, Option.getD_some] at h
    exact (List.Nodup.getElem_inj_iff hn).mp h
  · intro r hr
    have hr := List.mem_toFinset.mp hr
    have hlt := List.idxOf_lt_length_of_mem hr
    refine ⟨l.idxOf r, Finset.mem_range.mpr hlt, ?_⟩
    simp [List.getD, List.getElem?_eq_getElem hlt, List.getElem_idxOf hlt]
  · intro i hi
    have hi := Finset.mem_range.mp hi
    unfold spread
    rw [if_pos (getD_mem hi)]
    have : l.idxOf (l.getD i 0) = i := by
      simp only [List.getD, List.getElem?_eq_getElem hi, Option.getD_some]
      exact hn.idxOf_getElem i hi
    rw [this]

/-- Multipliers found for row `k`: nothing outside the tableau, 1-norm within the limit and not 1, and the combined row is
shorter by the required factor on the working columns. -/
structure Better (c : Call) (W : List Nat) (k : Nat) (m : Nat → ℤ) : Prop where
  supp : ∀ r, mTab c ≤ r → m r = 0
  sum : ∑ r ∈ Finset.range (mTab c), |(m r : ℚ)| ≤ c.par .maxSumMultipliers
  one : ∑ r ∈ Finset.range (mTab c), |(m r : ℚ)| ≠ 1
  shorter : (W.map fun j => (∑ r ∈ Finset.range (mTab c), (m r : ℚ) * tab c r j) ^ 2).sum ≤
    norm c W k * (1 - c.par .minNormReduction)
  long : c.par .normIsZero < norm c W k

theorem getD_map_range (n : Nat) (f : Nat → ℤ) (i : Nat) (h : i < n) : ((List.range n).map f).getD i 0 = f i := by
  simp [List.getD, h]

theorem rowRound_found {c : Call} {W : List Nat} {n k : Nat} {rs : Param.Strat.RS} {flag : Bool} (hk : k < mTab c)
    {l : List Nat} {b : List ℤ} (h : rowRound c W n k rs flag = .found l b) :
    Better c W k (spread l b) ∧ k ∈ l := by
  unfold rowRound at h
  split at h
  · cases h
  rename_i h1
  dsimp only at h
  split at h
  · cases h
  split at h
  · cases h
  rename_i sol _
  split at h
  · cases h
  rename_i h2
  split at h
  · split at h <;> cases h
  rename_i h3
  split at h
  · rename_i h4
    rw [Outcome.found.injEq] at h
    obtain ⟨rfl, rfl⟩ := h
    obtain ⟨hn, hl, hmem, _⟩ := rowList_spec (c := c) (W := W) (n := n) (rs := rs) hk
    have hs := sumNorm_eq _ 0 (not_lt.mp h3)
    have hsum : ∑ r ∈ Finset.range (mTab c), |((spread (rowList c W n k rs)
        ((List.range (rowList c W n k rs).length).map fun i => rround (sol i)) r : ℤ) : ℚ)| =
        sumNorm (c.par .maxSumMultipliers)
          ((List.range (rowList c W n k rs).length).map fun i => rround (sol i)) 0 := by
      rw [hs, sum_spread hn hl _ (fun v _ => |(v : ℚ)|) (by simp), zero_add, List.map_map]
      congr 1
      refine List.map_congr_left fun i hi => ?_
      rw [getD_map_range _ _ _ (List.mem_range.mp hi)]; rfl
    refine ⟨⟨fun r hr => ?_, ?_, ?_, ?_, not_le.mp h1⟩, hmem⟩
    · unfold spread
      rw [if_neg fun h => absurd (hl r h) (by omega)]
    · rw [hsum]; exact not_lt.mp h3
    · rw [hsum]; exact h2
    · have : (W.map fun j => (∑ r ∈ Finset.range (mTab c), ((spread (rowList c W n k rs)
          ((List.range (rowList c W n k rs).length).map fun i => rround (sol i)) r : ℤ) : ℚ) * tab c r j) ^ 2).sum =
          comboNorm c W (rowList c W n k rs) ((List.range (rowList c W n k rs).length).map fun i => rround (sol i)) := by
        unfold comboNorm
        congr 1
        refine List.map_congr_left fun j _ => ?_
        rw [sum_spread hn hl _ (fun v r => (v : ℚ) * tab c r j) (by simp)]
      rw [this]; linarith
  · cases h

/-- The multipliers of row `k` after the reduction. -/
def RowOk (c : Call) (W : List Nat) (k : Nat) (m : Nat → ℤ) : Prop := m = startPi c k ∨ Better c W k m

theorem setPi_same {c : Call} {pi : Nat → Nat → ℤ} {k : Nat} {l : List Nat} (b : List ℤ) (h : pi k = startPi c k)
    (hk : k ∈ l) : setPi pi k l b k = spread l b := by
  funext r
  unfold setPi spread
  rw [Function.update_self]
  split
  · rfl
  · rename_i hr
    rw [h]
    unfold startPi
    rw [if_neg]
    rintro ⟨_, rfl⟩
    exact hr hk

theorem setPi_other {pi : Nat → Nat → ℤ} {k i : Nat} (l : List Nat) (b : List ℤ) (h : i ≠ k) :
    setPi pi k l b i = pi i := by
  unfold setPi
  rw [Function.update_of_ne h]

theorem reduceLoop_ok {c : Call} {W : List Nat} {n : Nat} {rs : Param.Strat.RS} : ∀ (l : List Nat) (flag : Bool)
    (pi : Nat → Nat → ℤ), l.Nodup → (∀ k ∈ l, k < mTab c ∧ pi k = startPi c k) → (∀ k, RowOk c W k (pi k)) →
    ∀ k, RowOk c W k (reduceLoop c W n rs l flag pi k) := by
  intro l
  induction l with
  | nil => intro flag pi _ _ h; exact h
  | cons a l ih =>
    intro flag pi hn hl h
    obtain ⟨ha, hpa⟩ := hl a (List.mem_cons_self ..)
    obtain ⟨hal, hn'⟩ := List.nodup_cons.mp hn
    have hl' : ∀ k ∈ l, k < mTab c ∧ pi k = startPi c k := fun k hk => hl k (List.mem_cons_of_mem _ hk)
    have hset : ∀ (f : Bool) (li : List Nat) (b : List ℤ), rowRound c W n a rs f = .found li b →
        ∀ k, RowOk c W k (reduceLoop c W n rs l false (setPi pi a li b) k) := by
      intro f li b hf
      obtain ⟨hbet, hmem⟩ := rowRound_found ha hf
      refine ih _ _ hn' (fun k hk => ?_) (fun k => ?_)
      · refine ⟨(hl' k hk).1, ?_⟩
        rw [setPi_other _ _ (by rintro rfl; exact hal hk)]
        exact (hl' k hk).2
      · by_cases hka : k = a
        · subst hka
          rw [setPi_same b hpa hmem]
          exact Or.inr hbet
        · rw [setPi_other _ _ hka]; exact h k
    unfold reduceLoop
    rcases h1 : rowRound c W n a rs flag with f | _ | ⟨li, b⟩
    · exact ih _ _ hn' hl' h
    · rcases h2 : rowRound c W n a rs true with f | _ | ⟨li, b⟩
      · exact ih _ _ hn' hl' h
      · exact ih _ _ hn' hl' h
      · exact hset _ _ _ h2
    · exact hset _ _ _ h1

theorem reduce_ok {c : Call} {W : List Nat} {n : ℤ} {rs : Param.Strat.RS} {pi : Nat → Nat → ℤ}
    (h : reduce c W n rs (startPi c) = .ok pi) (k : Nat) : RowOk c W k (pi k) := by
  unfold reduce at h
  dsimp only at h
  split at h
  · cases h; exact Or.inl rfl
  split at h
  · split at h
    · cases h
    · cases h; exact Or.inl rfl
  · cases h
    exact reduceLoop_ok _ _ _ List.nodup_range (fun k hk => ⟨List.mem_range.mp hk, rfl⟩) (fun k => Or.inl rfl) k

theorem unit_small (c : Call) (i : Nat) : Small c (unit i) := by
  unfold Small
  refine le_trans ?_ (le_max_left _ _)
  have : ∀ k, |((unit i k : ℤ) : ℚ)| = if k = i then 1 else 0 := by
    intro k; unfold unit; split <;> simp
  simp only [this, Finset.sum_ite_eq', Finset.mem_range]
  split <;> norm_num

theorem startPi_eq (c : Call) (k : Nat) : startPi c k = unit k ∨ startPi c k = fun _ => 0 := by
  by_cases h : c.par .skipGomory = 0
  · left; funext j; unfold startPi unit; simp only [h, true_and]
    by_cases hj : k = j
    · rw [if_pos hj, if_pos hj.symm]
    · rw [if_neg hj, if_neg (Ne.symm hj)]
  · right; funext j; unfold startPi; simp [h]

theorem RowOk.small {c : Call} {W : List Nat} {k : Nat} {m : Nat → ℤ} (h : RowOk c W k m) : Small c m := by
  rcases h with h | h
  · rcases startPi_eq c k with h' | h'
    · rw [h, h']; exact unit_small c k
    · rw [h, h']; unfold Small; simp
  · exact le_trans h.sum (le_max_right _ _)

end Cgl.RedSplit2
