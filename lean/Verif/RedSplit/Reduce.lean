import Verif.RedSplit.Row

/-!
# The reduction of the rows: what it keeps, and why it ends
-/

namespace Cgl.RedSplit

/-- What holds of the working data throughout: the rows are the combinations given by the multipliers, and the norms are
those of the rows. -/
structure Inv (P : Prob) (lp : Lp) (cont sel : List Nat) (s : St) : Prop where
  comb : Combined P lp sel s
  norm : ∀ r < sel.length, s.norm r = dotTab cont (s.tab r) (s.tab r)

theorem dotTab_step (cont : List Nat) (u v : Nat → ℚ) (t : ℚ) :
    dotTab cont (fun j => u j - t * v j) (fun j => u j - t * v j) =
      stepVal (dotTab cont u u) (dotTab cont v v) (dotTab cont u v) t := by
  unfold dotTab stepVal
  induction cont with
  | nil => simp
  | cons a l ih =>
    simp only [List.map_cons, List.sum_cons] at ih ⊢
    rw [ih]; ring

theorem dotTab_self_nonneg (cont : List Nat) (u : Nat → ℚ) : 0 ≤ dotTab cont u u := by
  unfold dotTab
  refine List.sum_nonneg fun v hv => ?_
  obtain ⟨j, _, rfl⟩ := List.mem_map.1 hv
  exact mul_self_nonneg _

theorem inv_init (P : Prob) (lp : Lp) (cont sel : List Nat) : Inv P lp cont sel (initSt P lp cont sel) := by
  refine ⟨fun r hr j => ?_, fun r hr => rfl⟩
  unfold initSt
  dsimp only
  rw [Finset.sum_eq_single r]
  · rw [if_pos rfl]; unfold tabv; push_cast; ring
  · intro k _ hk; rw [if_neg (Ne.symm hk)]; push_cast; ring
  · intro h; exact absurd (Finset.mem_range.mpr hr) h

/-- Sum of the norms. -/
def total (m : Nat) (s : St) : ℚ := ∑ r ∈ Finset.range m, s.norm r

theorem total_nonneg {P : Prob} {lp : Lp} {cont sel : List Nat} {s : St} (h : Inv P lp cont sel s) :
    0 ≤ total sel.length s :=
  Finset.sum_nonneg fun r hr => by rw [h.norm r (Finset.mem_range.mp hr)]; exact dotTab_self_nonneg _ _

theorem findStep_eq {cont : List Nat} {s : St} {r1 r2 : Nat} {t : ℤ} {q : ℚ} (h : findStep cont s r1 r2 = some (t, q)) :
    q = s.norm r1 - stepVal (s.norm r1) (s.norm r2) (dotTab cont (s.tab r1) (s.tab r2)) t := by
  have hc : ∀ (f t : ℤ), castInt (f : ℚ) = some t → t = f := by
    intro f t h
    unfold castInt truncQ at h
    simp at h
    exact h.2.symm
  unfold findStep at h
  dsimp only at h
  split at h
  · cases h
  · split at h
    · obtain ⟨u, hu, he⟩ := Option.map_eq_some_iff.mp h
      cases he
      rw [hc _ _ hu]
    · obtain ⟨u, hu, he⟩ := Option.map_eq_some_iff.mp h
      cases he
      have := hc (⌊dotTab cont (s.tab r1) (s.tab r2) / s.norm r2⌋ + 1) _ (by push_cast; exact hu)
      rw [this]; push_cast; rfl

theorem applyStep_inv {P : Prob} {lp : Lp} {cont sel : List Nat} {s t : St} (h : Inv P lp cont sel s) {a b : Nat}
    (ha : a < sel.length) (hb : b < sel.length) {step : ℤ} (ht : applyStep cont sel.length s a b step = some t) :
    Inv P lp cont sel t ∧ (∀ r, r ≠ a → t.norm r = s.norm r) ∧
      t.norm a = stepVal (s.norm a) (s.norm b) (dotTab cont (s.tab a) (s.tab b)) step := by
  unfold applyStep at ht
  split at ht
  swap
  · cases ht
  cases ht
  refine ⟨⟨fun r hr j => ?_, fun r hr => ?_⟩, fun r hr => ?_, ?_⟩
  · dsimp only
    by_cases e : r = a
    · subst e
      simp only [Function.update_self]
      rw [h.comb r hr, h.comb b hb, Finset.mul_sum, ← Finset.sum_sub_distrib]
      refine Finset.sum_congr rfl fun k _ => ?_
      push_cast; ring
    · simp only [Function.update_of_ne e]
      exact h.comb r hr j
  · dsimp only
    by_cases e : r = a
    · subst e; simp only [Function.update_self]
    · simp only [Function.update_of_ne e]; exact h.norm r hr
  · dsimp only; rw [Function.update_of_ne hr]
  · dsimp only
    rw [Function.update_self, h.norm a ha, h.norm b hb, dotTab_step]

theorem total_step {m : Nat} {s t : St} {a : Nat} (ha : a < m) (h : ∀ r, r ≠ a → t.norm r = s.norm r) :
    total m t = total m s - (s.norm a - t.norm a) := by
  unfold total
  have h1 := Finset.sum_erase_add (Finset.range m) t.norm (Finset.mem_range.mpr ha)
  have h2 := Finset.sum_erase_add (Finset.range m) s.norm (Finset.mem_range.mpr ha)
  have h3 : ∑ x ∈ (Finset.range m).erase a, t.norm x = ∑ x ∈ (Finset.range m).erase a, s.norm x :=
    Finset.sum_congr rfl fun r hr => h r (Finset.ne_of_mem_erase hr)
  linarith

/-- What one part of the loop does: the invariant stays, the sum of norms does not grow, if nothing was changed the norms
are the same, and if it is where the first change happens the sum goes down by a fixed amount. -/
structure Step (P : Prob) (lp : Lp) (cont sel : List Nat) (δ : ℚ) (s t : St × Bool) : Prop where
  inv : Inv P lp cont sel t.1
  le : total sel.length t.1 ≤ total sel.length s.1
  same : t.2 = true → s.2 = true ∧ t.1.norm = s.1.norm
  first : t.2 = false → s.2 = true → total sel.length t.1 ≤ total sel.length s.1 - δ

theorem Step.refl {P : Prob} {lp : Lp} {cont sel : List Nat} {δ : ℚ} {s : St × Bool} (h : Inv P lp cont sel s.1) :
    Step P lp cont sel δ s s :=
  ⟨h, le_refl _, fun h => ⟨h, rfl⟩, fun h h' => by rw [h] at h'; cases h'⟩

theorem Step.trans {P : Prob} {lp : Lp} {cont sel : List Nat} {δ : ℚ} {s t u : St × Bool}
    (h1 : Step P lp cont sel δ s t) (h2 : Step P lp cont sel δ t u) : Step P lp cont sel δ s u := by
  refine ⟨h2.inv, le_trans h2.le h1.le, fun h => ?_, fun h hs => ?_⟩
  · obtain ⟨ht, e⟩ := h2.same h
    obtain ⟨hs, e'⟩ := h1.same ht
    exact ⟨hs, e.trans e'⟩
  · rcases hb : t.2 with _ | _
    · exact le_trans h2.le (h1.first hb hs)
    · have := h2.first h hb
      have := h1.le
      linarith

theorem tryPair_step {prm : Prm} {P : Prob} {lp : Lp} {cont sel : List Nat} {iter : ℤ} {a b : Nat} {s t : St × Bool}
    (hm : 0 < par prm .minReduc) (h : Inv P lp cont sel s.1) (ha : a < sel.length) (hb : b < sel.length)
    (hz : s.2 = true → par prm .normIsZero < s.1.norm a) (ht : tryPair prm cont sel.length iter a b s = some t) :
    Step P lp cont sel (par prm .minReduc * par prm .normIsZero) s t := by
  unfold tryPair testPair at ht
  rcases hf : findStep cont s.1 a b with _ | ⟨step, q⟩
  · rw [hf] at ht; cases ht
  rw [hf] at ht
  dsimp only at ht
  by_cases hc : s.1.norm a ≠ 0 ∧ par prm .minReduc ≤ q / s.1.norm a
  · rw [if_pos hc] at ht
    rcases hu : applyStep cont sel.length s.1 a b step with _ | u
    · rw [hu] at ht; cases ht
    rw [hu] at ht
    cases ht
    obtain ⟨h1, h2, h3⟩ := applyStep_inv h ha hb hu
    have hq := findStep_eq hf
    have hpos : 0 < s.1.norm a := lt_of_le_of_ne (by rw [h.norm a ha]; exact dotTab_self_nonneg _ _) (Ne.symm hc.1)
    have hq' : par prm .minReduc * s.1.norm a ≤ q := (le_div_iff₀ hpos).mp hc.2
    have htot := total_step (t := u) ha h2
    rw [h3, ← hq] at htot
    have hp := mul_pos hm hpos
    refine ⟨⟨fun r hr j => h1.comb r hr j, fun r hr => h1.norm r hr⟩, ?_, fun e => ?_, fun _ hs => ?_⟩
    · change total sel.length u ≤ _
      linarith
    · simp at e
    · change total sel.length u ≤ _
      have := mul_lt_mul_of_pos_left (hz hs) hm
      linarith
  · rw [if_neg hc] at ht
    cases ht
    refine ⟨⟨fun r hr j => h.comb r hr j, fun r hr => h.norm r hr⟩, le_refl _, fun e => ⟨by simpa using e, rfl⟩,
      fun e hs => ?_⟩
    simp [hs] at e

theorem pairStep_step {prm : Prm} {P : Prob} {lp : Lp} {cont sel : List Nat} {iter : ℤ} {i j : Nat} {s t : St × Bool}
    (hm : 0 < par prm .minReduc) (h : Inv P lp cont sel s.1) (hi : i < sel.length) (hj : j < sel.length)
    (hz : s.2 = true → par prm .normIsZero < s.1.norm i) (ht : pairStep prm cont sel.length iter i j s = some t) :
    Step P lp cont sel (par prm .minReduc * par prm .normIsZero) s t := by
  unfold pairStep at ht
  split at ht
  · rename_i hc
    rcases hu : tryPair prm cont sel.length iter i j s with _ | u
    · rw [hu] at ht; cases ht
    rw [hu] at ht
    dsimp only at ht
    have h1 := tryPair_step hm h hi hj hz hu
    split at ht
    · refine h1.trans (tryPair_step hm h1.inv hj hi (fun e => ?_) ht)
      rw [(h1.same e).2]; exact hc.1
    · cases ht; exact h1
  · cases ht; exact Step.refl h

theorem innerLoop_step {prm : Prm} {P : Prob} {lp : Lp} {cont sel : List Nat} {iter : ℤ} {i : Nat}
    (hm : 0 < par prm .minReduc) (hi : i < sel.length) :
    ∀ (l : List Nat) (s t : St × Bool), (∀ j ∈ l, j < sel.length) → Inv P lp cont sel s.1 →
      (s.2 = true → par prm .normIsZero < s.1.norm i) → innerLoop prm cont sel.length iter i l s = some t →
      Step P lp cont sel (par prm .minReduc * par prm .normIsZero) s t
  | [], s, t, _, h, _, ht => by cases ht; exact Step.refl h
  | j :: l, s, t, hl, h, hz, ht => by
    unfold innerLoop at ht
    rcases hu : pairStep prm cont sel.length iter i j s with _ | u
    · rw [hu] at ht; cases ht
    rw [hu] at ht
    have h1 := pairStep_step hm h hi (hl j (by simp)) hz hu
    refine h1.trans (innerLoop_step hm hi l u t (fun j hj => hl j (by simp [hj])) h1.inv (fun e => ?_) ht)
    obtain ⟨hs, e'⟩ := h1.same e
    rw [e']; exact hz hs

theorem outerLoop_step {prm : Prm} {P : Prob} {lp : Lp} {cont sel : List Nat} {iter : ℤ}
    (hm : 0 < par prm .minReduc) :
    ∀ (l : List Nat) (s t : St × Bool), (∀ i ∈ l, i < sel.length) → Inv P lp cont sel s.1 →
      outerLoop prm cont sel.length iter l s = some t →
      Step P lp cont sel (par prm .minReduc * par prm .normIsZero) s t
  | [], s, t, _, h, ht => by cases ht; exact Step.refl h
  | i :: l, s, t, hl, h, ht => by
    unfold outerLoop at ht
    split at ht
    · rename_i hz
      rcases hu : innerLoop prm cont sel.length iter i ((List.range sel.length).filter fun j => decide (i < j)) s with _ | u
      · rw [hu] at ht; cases ht
      rw [hu] at ht
      have h1 := innerLoop_step hm (hl i (by simp)) _ s u
        (fun j hj => List.mem_range.mp (List.mem_filter.mp hj).1) h (fun _ => hz) hu
      exact h1.trans (outerLoop_step hm l u t (fun j hj => hl j (by simp [hj])) h1.inv ht)
    · exact outerLoop_step hm l s t (fun j hj => hl j (by simp [hj])) h ht

/-- The reduction keeps the invariant. -/
theorem reduceLoop_inv {prm : Prm} {P : Prob} {lp : Lp} {cont sel : List Nat} (hm : 0 < par prm .minReduc) :
    ∀ (fuel : Nat) (iter : ℤ) (s t : St), Inv P lp cont sel s → reduceLoop prm cont sel.length fuel iter s = .ok t →
      Inv P lp cont sel t ∧ total sel.length t ≤ total sel.length s
  | 0, _, _, _, _, ht => by cases ht
  | fuel + 1, iter, s, t, h, ht => by
    unfold reduceLoop at ht
    rcases hu : outerLoop prm cont sel.length iter (List.range sel.length) (s, true) with _ | ⟨u, b⟩
    · rw [hu] at ht; cases ht
    rw [hu] at ht
    have h1 := outerLoop_step hm _ _ _ (fun i hi => List.mem_range.mp hi) h hu
    cases b with
    | true => cases ht; exact ⟨h1.inv, h1.le⟩
    | false =>
      have := reduceLoop_inv hm fuel (iter + 1) u t h1.inv ht
      exact ⟨this.1, le_trans this.2 h1.le⟩

/-- With enough rounds the reduction comes to an end. -/
theorem reduceLoop_ends {prm : Prm} {P : Prob} {lp : Lp} {cont sel : List Nat} (hm : 0 < par prm .minReduc)
    (hz : 0 < par prm .normIsZero) :
    ∀ (fuel : Nat) (iter : ℤ) (s : St), Inv P lp cont sel s →
      total sel.length s < fuel * (par prm .minReduc * par prm .normIsZero) →
      reduceLoop prm cont sel.length fuel iter s ≠ .error .fuel ∧
        ∀ more ≥ fuel, reduceLoop prm cont sel.length more iter s = reduceLoop prm cont sel.length fuel iter s
  | 0, _, s, h, hlt => by
    have := total_nonneg h
    push_cast at hlt; linarith
  | fuel + 1, iter, s, h, hlt => by
    have hcase : ∀ more, reduceLoop prm cont sel.length (more + 1) iter s =
        match outerLoop prm cont sel.length iter (List.range sel.length) (s, true) with
        | none => .error .undef
        | some (t, true) => .ok t
        | some (t, false) => reduceLoop prm cont sel.length more (iter + 1) t := fun _ => rfl
    rcases hu : outerLoop prm cont sel.length iter (List.range sel.length) (s, true) with _ | ⟨u, b⟩
    · refine ⟨by rw [hcase, hu]; simp, fun more hmore => ?_⟩
      obtain ⟨k, rfl⟩ : ∃ k, more = k + 1 := ⟨more - 1, by omega⟩
      rw [hcase, hcase, hu]
    · have h1 := outerLoop_step hm _ _ _ (fun i hi => List.mem_range.mp hi) h hu
      cases b with
      | true =>
        refine ⟨by rw [hcase, hu]; simp, fun more hmore => ?_⟩
        obtain ⟨k, rfl⟩ : ∃ k, more = k + 1 := ⟨more - 1, by omega⟩
        rw [hcase, hcase, hu]
      | false =>
        have h2 := h1.first rfl rfl
        have ih := reduceLoop_ends hm hz fuel (iter + 1) u h1.inv (by push_cast at hlt; dsimp only at h2; linarith)
        refine ⟨by rw [hcase, hu]; exact ih.1, fun more hmore => ?_⟩
        obtain ⟨k, rfl⟩ : ∃ k, more = k + 1 := ⟨more - 1, by omega⟩
        rw [hcase, hcase, hu]
        exact ih.2 k (by omega)

/-! ### The rows picked -/

theorem pickRows_picked {prm : Prm} {P : Prob} {lp : Lp} {start : Nat} (hs : start ≤ P.rows.length) :
    ∀ (l : List Nat) (m : Nat) (sel : List Nat), (∀ i ∈ l, i < P.rows.length) →
      pickRows prm P lp start l m = some sel →
      sel.length ≤ m ∧ ∀ r ∈ sel, r < P.rows.length ∧ lp.basis r < P.nCols ∧ isFrac prm P lp (lp.basis r) = true
  | [], m, sel, _, h => by simp [pickRows] at h; subst h; simp
  | _ :: _, 0, sel, _, h => by simp [pickRows] at h; subst h; simp
  | i :: l, m + 1, sel, hl, h => by
    have hl' : ∀ i ∈ l, i < P.rows.length := fun i hi => hl i (by simp [hi])
    have hi := hl i (by simp)
    unfold pickRows at h
    dsimp only at h
    set r := (if P.rows.length < start + i then start + i - P.rows.length else start + i) with hr
    have hlt : r ≤ P.rows.length := by rw [hr]; split <;> omega
    by_cases h1 : r = P.rows.length
    · rw [if_pos h1] at h; cases h
    rw [if_neg h1] at h
    by_cases h2 : P.nCols ≤ lp.basis r
    · rw [if_pos h2] at h; exact pickRows_picked hs l _ sel hl' h
    rw [if_neg h2] at h
    by_cases h3 : isFrac prm P lp (lp.basis r) = true
    · rw [if_pos h3] at h
      rcases hu : pickRows prm P lp start l m with _ | rs
      · rw [hu] at h; cases h
      rw [hu] at h
      cases h
      have ih := pickRows_picked hs l m rs hl' hu
      refine ⟨by simp; exact ih.1, fun q hq => ?_⟩
      rcases List.mem_cons.mp hq with rfl | hq
      · exact ⟨by omega, by omega, h3⟩
      · exact ih.2 q hq
    · rw [if_neg h3] at h; exact pickRows_picked hs l _ sel hl' h

end Cgl.RedSplit
