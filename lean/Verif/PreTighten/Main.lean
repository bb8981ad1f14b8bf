import Verif.PreTighten.First

/-!
# The main loop
-/

namespace Cgl.PreTighten

theorem large_eq : large = 10 ^ 100 := by unfold large; norm_num

/-- Upper estimate of the term of an entry. -/
def tU (s : LState) (p : Nat × ℚ) : ℚ := (if 0 < p.2 then s.up p.1 else s.lo p.1) * p.2
/-- The estimate is infinite. -/
def JU (s : LState) (p : Nat × ℚ) : Prop := if 0 < p.2 then large < s.up p.1 else s.lo p.1 < -large
/-- Lower estimate of the term of an entry, negated. -/
def tL (s : LState) (p : Nat × ℚ) : ℚ := -((if 0 < p.2 then s.lo p.1 else s.up p.1) * p.2)
/-- The estimate is infinite. -/
def JL (s : LState) (p : Nat × ℚ) : Prop := if 0 < p.2 then s.lo p.1 < -large else large < s.up p.1

/-- The counters and the sums cover the terms of the row. -/
structure Sums (es : SVec) (s : LState) : Prop where
  upper : Cov es s.infU s.maxU (tU s) (JU s)
  lower : Cov es s.infL (-s.maxD) (tL s) (JL s)

theorem card_filter_le (es : SVec) (f : Nat × ℚ → Option ℚ) :
    (es.toFinset.filter fun p => (f p).isNone = true).card ≤ flags (es.map f) := by
  unfold flags
  rw [List.countP_map, List.countP_eq_length_filter]
  calc (es.toFinset.filter fun p => (f p).isNone = true).card
      ≤ (es.filter ((fun o => o.isNone) ∘ f)).toFinset.card := by
        apply Finset.card_le_card
        intro p hp
        rw [Finset.mem_filter, List.mem_toFinset] at hp
        rw [List.mem_toFinset, List.mem_filter]
        exact hp
    _ ≤ _ := List.toFinset_card_le _

theorem start_sums {s : MState} {es : SVec} (h0 : ∀ p ∈ es, p.2 ≠ 0) : Sums es (start s es) := by
  constructor
  · refine ⟨es.toFinset.filter fun p => (hiTerm s.lo s.up p).isNone = true, fun p => (hiTerm s.lo s.up p).getD 0,
      ?_, ?_, fun p hp => ⟨?_, ?_⟩⟩
    · simp only [start]; exact_mod_cast card_filter_le es (hiTerm s.lo s.up)
    · have h1 : (es.map fun p => (hiTerm s.lo s.up p).getD 0).sum = total (es.map (hiTerm s.lo s.up)) := by
        simp [total, Function.comp_def]
      rw [h1]
      simp only [start, maxUp0]
      have := abs_nonneg (total (es.map (hiTerm s.lo s.up)))
      linarith
    · intro hn
      rw [Finset.mem_filter, List.mem_toFinset] at hn
      have h := h0 p hp
      simp only [hp, true_and] at hn
      simp only [tU, start, hiTerm, atUp, atLo] at hn ⊢
      rcases lt_or_gt_of_ne h with h | h
      · have h' : ¬ 0 < p.2 := by linarith
        simp only [if_neg h', if_pos h] at hn ⊢
        split at hn <;> simp_all
      · simp only [if_pos h] at hn ⊢
        split at hn <;> simp_all
    · intro hj
      rw [Finset.mem_filter, List.mem_toFinset]
      have h := h0 p hp
      simp only [JU, start, hiTerm, atUp, atLo] at hj ⊢
      rcases lt_or_gt_of_ne h with h | h
      · rw [if_neg (by linarith)] at hj
        rw [if_neg (by linarith), if_pos h, if_neg (by linarith)]
        exact ⟨⟨hp, rfl⟩, rfl⟩
      · rw [if_pos h] at hj
        rw [if_pos h, if_neg (by linarith)]
        exact ⟨⟨hp, rfl⟩, rfl⟩
  · refine ⟨es.toFinset.filter fun p => (loTerm s.lo s.up p).isNone = true, fun p => -(loTerm s.lo s.up p).getD 0,
      ?_, ?_, fun p hp => ⟨?_, ?_⟩⟩
    · simp only [start]; exact_mod_cast card_filter_le es (loTerm s.lo s.up)
    · have h1 : (es.map fun p => -(loTerm s.lo s.up p).getD 0).sum = -total (es.map (loTerm s.lo s.up)) := by
        have := sum_sub es (fun _ => 0) fun p => (loTerm s.lo s.up p).getD 0
        simp only [zero_sub, List.map_const', List.sum_replicate, smul_zero] at this
        rw [this]
        simp [total, Function.comp_def]
      rw [h1]
      simp only [start, maxDown0]
      have := abs_nonneg (total (es.map (loTerm s.lo s.up)))
      linarith
    · intro hn
      rw [Finset.mem_filter, List.mem_toFinset] at hn
      have h := h0 p hp
      simp only [hp, true_and] at hn
      simp only [tL, start, loTerm, atUp, atLo] at hn ⊢
      rcases lt_or_gt_of_ne h with h | h
      · have h' : ¬ 0 < p.2 := by linarith
        simp only [if_neg h', if_pos h] at hn ⊢
        split at hn <;> simp_all
      · simp only [if_pos h] at hn ⊢
        split at hn <;> simp_all
    · intro hj
      rw [Finset.mem_filter, List.mem_toFinset]
      have h := h0 p hp
      simp only [JL, start, loTerm, atUp, atLo] at hj ⊢
      rcases lt_or_gt_of_ne h with h | h
      · rw [if_neg (by linarith)] at hj
        rw [if_neg (by linarith), if_pos h, if_neg (by linarith)]
        exact ⟨⟨hp, rfl⟩, by simp⟩
      · rw [if_pos h] at hj
        rw [if_pos h, if_neg (by linarith)]
        exact ⟨⟨hp, rfl⟩, by simp⟩

theorem col_ne {es : SVec} (hn : (es.map Prod.fst).Nodup) {p q : Nat × ℚ} (hp : p ∈ es) (hq : q ∈ es) (h : q ≠ p) :
    q.1 ≠ p.1 := fun e => h (List.inj_on_of_nodup_map hn hq hp e)

theorem raise_sums {es : SVec} (hn : (es.map Prod.fst).Nodup) {s : LState} (hs : Sums es s) {p : Nat × ℚ}
    (hp : p ∈ es) (tol b : ℚ) : Sums es (s.raise tol p.1 p.2 b) := by
  unfold LState.raise
  split
  · rename_i hb
    split
    · rename_i hv
      constructor
      · refine hs.upper.congr (fun q hq => ?_) (fun q hq => ?_)
        · simp only [tU]
          by_cases hqp : q = p
          · subst hqp; rw [if_pos hv, if_pos hv]
          · rw [Function.update_of_ne (col_ne hn hp hq hqp)]
        · simp only [JU]
          by_cases hqp : q = p
          · subst hqp; rw [if_pos hv, if_pos hv]; exact id
          · rw [Function.update_of_ne (col_ne hn hp hq hqp)]; exact id
      · refine hs.lower.change hn.of_map hp (fun q hq hqp => ?_) (fun q hq hqp => ?_) ?_ ?_
        · simp only [tL]; rw [Function.update_of_ne (col_ne hn hp hq hqp)]
        · simp only [JL]; rw [Function.update_of_ne (col_ne hn hp hq hqp)]; exact id
        · simp only [JL]; rw [if_pos hv, Function.update_self]; linarith [hb.2]
        · by_cases hl : s.lo p.1 < -large
          · left
            refine ⟨by simp only [JL]; rw [if_pos hv]; exact hl, by simp only [if_pos hl], ?_⟩
            simp only [tL, if_pos hl, if_pos hv, Function.update_self]; ring
          · right
            refine ⟨by simp only [if_neg hl], ?_⟩
            simp only [tL, if_neg hl, if_pos hv, Function.update_self]; ring
    · rename_i hv
      constructor
      · refine hs.upper.change hn.of_map hp (fun q hq hqp => ?_) (fun q hq hqp => ?_) ?_ ?_
        · simp only [tU]; rw [Function.update_of_ne (col_ne hn hp hq hqp)]
        · simp only [JU]; rw [Function.update_of_ne (col_ne hn hp hq hqp)]; exact id
        · simp only [JU]; rw [if_neg hv, Function.update_self]; linarith [hb.2]
        · by_cases hl : s.lo p.1 < -large
          · left
            refine ⟨by simp only [JU]; rw [if_neg hv]; exact hl, by simp only [if_pos hl], ?_⟩
            simp only [tU, if_pos hl, if_neg hv, Function.update_self]; ring
          · right
            refine ⟨by simp only [if_neg hl], ?_⟩
            simp only [tU, if_neg hl, if_neg hv, Function.update_self]; ring
      · refine hs.lower.congr (fun q hq => ?_) (fun q hq => ?_)
        · simp only [tL]
          by_cases hqp : q = p
          · subst hqp; rw [if_neg hv, if_neg hv]
          · rw [Function.update_of_ne (col_ne hn hp hq hqp)]
        · simp only [JL]
          by_cases hqp : q = p
          · subst hqp; rw [if_neg hv, if_neg hv]; exact id
          · rw [Function.update_of_ne (col_ne hn hp hq hqp)]; exact id
  · exact hs

theorem cut_sums {es : SVec} (hn : (es.map Prod.fst).Nodup) {s : LState} (hs : Sums es s) {p : Nat × ℚ}
    (hp : p ∈ es) (tol b : ℚ) : Sums es (s.cut tol p.1 p.2 b) := by
  unfold LState.cut
  split
  · rename_i hb
    split
    · rename_i hv
      constructor
      · refine hs.upper.change hn.of_map hp (fun q hq hqp => ?_) (fun q hq hqp => ?_) ?_ ?_
        · simp only [tU]; rw [Function.update_of_ne (col_ne hn hp hq hqp)]
        · simp only [JU]; rw [Function.update_of_ne (col_ne hn hp hq hqp)]; exact id
        · simp only [JU]; rw [if_pos hv, Function.update_self]; linarith [hb.2]
        · by_cases hl : large < s.up p.1
          · left
            refine ⟨by simp only [JU]; rw [if_pos hv]; exact hl, by simp only [if_pos hl], ?_⟩
            simp only [tU, if_pos hl, if_pos hv, Function.update_self]; ring
          · right
            refine ⟨by simp only [if_neg hl], ?_⟩
            simp only [tU, if_neg hl, if_pos hv, Function.update_self]; ring
      · refine hs.lower.congr (fun q hq => ?_) (fun q hq => ?_)
        · simp only [tL]
          by_cases hqp : q = p
          · subst hqp; rw [if_pos hv, if_pos hv]
          · rw [Function.update_of_ne (col_ne hn hp hq hqp)]
        · simp only [JL]
          by_cases hqp : q = p
          · subst hqp; rw [if_pos hv, if_pos hv]; exact id
          · rw [Function.update_of_ne (col_ne hn hp hq hqp)]; exact id
    · rename_i hv
      constructor
      · refine hs.upper.congr (fun q hq => ?_) (fun q hq => ?_)
        · simp only [tU]
          by_cases hqp : q = p
          · subst hqp; rw [if_neg hv, if_neg hv]
          · rw [Function.update_of_ne (col_ne hn hp hq hqp)]
        · simp only [JU]
          by_cases hqp : q = p
          · subst hqp; rw [if_neg hv, if_neg hv]; exact id
          · rw [Function.update_of_ne (col_ne hn hp hq hqp)]; exact id
      · refine hs.lower.change hn.of_map hp (fun q hq hqp => ?_) (fun q hq hqp => ?_) ?_ ?_
        · simp only [tL]; rw [Function.update_of_ne (col_ne hn hp hq hqp)]
        · simp only [JL]; rw [Function.update_of_ne (col_ne hn hp hq hqp)]; exact id
        · simp only [JL]; rw [if_neg hv, Function.update_self]; linarith [hb.2]
        · by_cases hl : large < s.up p.1
          · left
            refine ⟨by simp only [JL]; rw [if_neg hv]; exact hl, by simp only [if_pos hl], ?_⟩
            simp only [tL, if_pos hl, if_neg hv, Function.update_self]; ring
          · right
            refine ⟨by simp only [if_neg hl], ?_⟩
            simp only [tL, if_neg hl, if_neg hv, Function.update_self]; ring
  · exact hs

/-! ### The new bounds hold at points that satisfy the row -/

theorem relaxDown_le (m b : ℚ) : relaxDown m b ≤ b := by
  unfold relaxDown; split
  · have := abs_nonneg m; linarith
  · exact le_refl _

theorem le_relaxUp (m b : ℚ) : b ≤ relaxUp m b := by
  unfold relaxUp; split
  · have := abs_nonneg m; linarith
  · exact le_refl _

theorem from_lower_pos {v x u m rl : ℚ} (hv : 0 < v) (h : rl ≤ m + (v * x - u * v)) : u + (rl - m) / v ≤ x := by
  rw [← sub_nonneg, show x - (u + (rl - m) / v) = (m + (v * x - u * v) - rl) / v by field_simp; ring]
  exact div_nonneg (by linarith) hv.le

theorem from_lower_neg {v x l m rl : ℚ} (hv : v < 0) (h : rl ≤ m + (v * x - l * v)) : x ≤ l + (rl - m) / v := by
  rw [← sub_nonneg, show l + (rl - m) / v - x = (m + (v * x - l * v) - rl) / (-v) by
    have := hv.ne; field_simp; ring]
  exact div_nonneg (by linarith) (by linarith)

theorem from_upper_pos {v x l m ru : ℚ} (hv : 0 < v) (h : m + (v * x - l * v) ≤ ru) : x ≤ l + (ru - m) / v := by
  rw [← sub_nonneg, show l + (ru - m) / v - x = (ru - (m + (v * x - l * v))) / v by field_simp; ring]
  exact div_nonneg (by linarith) hv.le

theorem from_upper_neg {v x u m ru : ℚ} (hv : v < 0) (h : m + (v * x - u * v) ≤ ru) : u + (ru - m) / v ≤ x := by
  rw [← sub_nonneg, show x - (u + (ru - m) / v) = (ru - (m + (v * x - u * v))) / (-v) by
    have := hv.ne; field_simp; ring]
  exact div_nonneg (by linarith) (by linarith)

theorem tU_ge {n : Nat} {s : LState} {x : Nat → ℚ} (hx : Box n s.lo s.up x) {p : Nat × ℚ} (hp : p.1 < n) :
    p.2 * x p.1 ≤ tU s p := by
  obtain ⟨h1, h2⟩ := hx p.1 hp
  unfold tU; split <;> nlinarith

theorem tL_ge {n : Nat} {s : LState} {x : Nat → ℚ} (hx : Box n s.lo s.up x) {p : Nat × ℚ} (hp : p.1 < n) :
    -(p.2 * x p.1) ≤ tL s p := by
  obtain ⟨h1, h2⟩ := hx p.1 hp
  unfold tL; split <;> nlinarith

/-- What the sums say about a point, from above. -/
theorem use_upper {n : Nat} {es : SVec} (hc : ∀ p ∈ es, p.1 < n) (hn : (es.map Prod.fst).Nodup) {s : LState}
    (hs : Sums es s) {x : Nat → ℚ} (hx : Box n s.lo s.up x) {p : Nat × ℚ} (hp : p ∈ es) :
    (s.infU = 0 → SVec.dot es x ≤ s.maxU + (p.2 * x p.1 - tU s p)) ∧
    (s.infU = 1 → JU s p → SVec.dot es x ≤ s.maxU + p.2 * x p.1) := by
  constructor
  · intro h0
    have h := hs.upper
    rw [h0] at h
    exact h.le_zero (f := fun p => p.2 * x p.1) (fun q hq => tU_ge hx (hc q hq)) hp
  · intro h1 hj
    have h := hs.upper
    rw [h1] at h
    exact h.le_one (f := fun p => p.2 * x p.1) (fun q hq => tU_ge hx (hc q hq)) hp hn.of_map hj

/-- What the sums say about a point, from below. -/
theorem use_lower {n : Nat} {es : SVec} (hc : ∀ p ∈ es, p.1 < n) (hn : (es.map Prod.fst).Nodup) {s : LState}
    (hs : Sums es s) {x : Nat → ℚ} (hx : Box n s.lo s.up x) {p : Nat × ℚ} (hp : p ∈ es) :
    (s.infL = 0 → s.maxD + (p.2 * x p.1 + tL s p) ≤ SVec.dot es x) ∧
    (s.infL = 1 → JL s p → s.maxD + p.2 * x p.1 ≤ SVec.dot es x) := by
  have hd : (es.map fun q => -(q.2 * x q.1)).sum = - SVec.dot es x := by
    have := sum_sub es (fun _ => 0) fun q => q.2 * x q.1
    simp only [zero_sub, List.map_const', List.sum_replicate, smul_zero] at this
    rw [this]; rfl
  constructor
  · intro h0
    have h := hs.lower
    rw [h0] at h
    have := h.le_zero (f := fun p => -(p.2 * x p.1)) (fun q hq => tL_ge hx (hc q hq)) hp
    rw [hd] at this
    linarith
  · intro h1 hj
    have h := hs.lower
    rw [h1] at h
    have := h.le_one (f := fun p => -(p.2 * x p.1)) (fun q hq => tL_ge hx (hc q hq)) hp hn.of_map hj
    rw [hd] at this
    linarith

section
variable {n : Nat} {es : SVec} {s : LState} {x : Nat → ℚ}

theorem lo_from_lower (hd : large ≤ dblMax) (hc : ∀ p ∈ es, p.1 < n) (hn : (es.map Prod.fst).Nodup)
    (hs : Sums es s) (hx : Box n s.lo s.up x) {p : Nat × ℚ} (hp : p ∈ es) (hv : 0 < p.2) {rl : ℚ}
    (h : rl ≤ SVec.dot es x) (hb : -large < newLoBound s.infU s.maxU rl p.2 (s.up p.1)) :
    newLoBound s.infU s.maxU rl p.2 (s.up p.1) ≤ x p.1 := by
  obtain ⟨h0, h1⟩ := use_upper hc hn hs hx hp
  unfold newLoBound at hb ⊢
  split at hb
  · rename_i h'
    rw [if_pos h']
    refine le_trans (relaxDown_le _ _) (from_lower_pos hv ?_)
    have := h0 h'
    simp only [tU, if_pos hv] at this
    linarith
  · rename_i h0'
    split at hb
    · rename_i h'
      rw [if_neg h0', if_pos h']
      refine le_trans (relaxDown_le _ _) ?_
      have := h1 h'.1 (by simp only [JU, if_pos hv]; exact h'.2)
      have := from_lower_pos (u := 0) (m := s.maxU) (rl := rl) (x := x p.1) hv (by linarith)
      linarith
    · exact absurd hb (by linarith)

theorem up_from_lower (hd : large ≤ dblMax) (hc : ∀ p ∈ es, p.1 < n) (hn : (es.map Prod.fst).Nodup)
    (hs : Sums es s) (hx : Box n s.lo s.up x) {p : Nat × ℚ} (hp : p ∈ es) (hv : p.2 < 0) {rl : ℚ}
    (h : rl ≤ SVec.dot es x) (hb : newUpBound s.infU s.maxU rl p.2 (s.lo p.1) < large) :
    x p.1 ≤ newUpBound s.infU s.maxU rl p.2 (s.lo p.1) := by
  obtain ⟨h0, h1⟩ := use_upper hc hn hs hx hp
  have hv' : ¬ 0 < p.2 := by linarith
  unfold newUpBound at hb ⊢
  split at hb
  · rename_i h'
    rw [if_pos h']
    refine le_trans (from_lower_neg hv ?_) (le_relaxUp _ _)
    have := h0 h'
    simp only [tU, if_neg hv'] at this
    linarith
  · rename_i h0'
    split at hb
    · rename_i h'
      rw [if_neg h0', if_pos h']
      refine le_trans ?_ (le_relaxUp _ _)
      have := h1 h'.1 (by simp only [JU, if_neg hv']; exact h'.2)
      have := from_lower_neg (l := 0) (m := s.maxU) (rl := rl) (x := x p.1) hv (by linarith)
      linarith
    · exact absurd hb (by linarith)

theorem up_from_upper (hd : large ≤ dblMax) (hc : ∀ p ∈ es, p.1 < n) (hn : (es.map Prod.fst).Nodup)
    (hs : Sums es s) (hx : Box n s.lo s.up x) {p : Nat × ℚ} (hp : p ∈ es) (hv : 0 < p.2) {ru : ℚ}
    (h : SVec.dot es x ≤ ru) (hb : newUpBound s.infL s.maxD ru p.2 (s.lo p.1) < large) :
    x p.1 ≤ newUpBound s.infL s.maxD ru p.2 (s.lo p.1) := by
  obtain ⟨h0, h1⟩ := use_lower hc hn hs hx hp
  unfold newUpBound at hb ⊢
  split at hb
  · rename_i h'
    rw [if_pos h']
    refine le_trans (from_upper_pos hv ?_) (le_relaxUp _ _)
    have := h0 h'
    simp only [tL, if_pos hv] at this
    linarith
  · rename_i h0'
    split at hb
    · rename_i h'
      rw [if_neg h0', if_pos h']
      refine le_trans ?_ (le_relaxUp _ _)
      have := h1 h'.1 (by simp only [JL, if_pos hv]; exact h'.2)
      have := from_upper_pos (l := 0) (m := s.maxD) (ru := ru) (x := x p.1) hv (by linarith)
      linarith
    · exact absurd hb (by linarith)

theorem lo_from_upper (hd : large ≤ dblMax) (hc : ∀ p ∈ es, p.1 < n) (hn : (es.map Prod.fst).Nodup)
    (hs : Sums es s) (hx : Box n s.lo s.up x) {p : Nat × ℚ} (hp : p ∈ es) (hv : p.2 < 0) {ru : ℚ}
    (h : SVec.dot es x ≤ ru) (hb : -large < newLoBound s.infL s.maxD ru p.2 (s.up p.1)) :
    newLoBound s.infL s.maxD ru p.2 (s.up p.1) ≤ x p.1 := by
  obtain ⟨h0, h1⟩ := use_lower hc hn hs hx hp
  have hv' : ¬ 0 < p.2 := by linarith
  unfold newLoBound at hb ⊢
  split at hb
  · rename_i h'
    rw [if_pos h']
    refine le_trans (relaxDown_le _ _) (from_upper_neg hv ?_)
    have := h0 h'
    simp only [tL, if_neg hv'] at this
    linarith
  · rename_i h0'
    split at hb
    · rename_i h'
      rw [if_neg h0', if_pos h']
      refine le_trans (relaxDown_le _ _) ?_
      have := h1 h'.1 (by simp only [JL, if_neg hv']; exact h'.2)
      have := from_upper_neg (u := 0) (m := s.maxD) (ru := ru) (x := x p.1) hv (by linarith)
      linarith
    · exact absurd hb (by linarith)

end

/-! ### Changes of the bounds -/

theorem raise_spec (tol : ℚ) (s : LState) (j : Nat) (v b : ℚ) :
    (s.raise tol j v b = s) ∨
    (s.lo j + 1/1000000000000 < b ∧ -large < b ∧ (s.raise tol j v b).lo = Function.update s.lo j b ∧
      (s.raise tol j v b).up = s.up ∧
      (s.raise tol j v b).infeas = s.infeas + (if s.up j - b < -100 * tol then 1 else 0)) := by
  unfold LState.raise
  split
  · rename_i h
    right
    split <;> exact ⟨h.1, h.2, rfl, rfl, rfl⟩
  · left; rfl

theorem cut_spec (tol : ℚ) (s : LState) (j : Nat) (v b : ℚ) :
    (s.cut tol j v b = s) ∨
    (b < s.up j - 1/1000000000000 ∧ b < large ∧ (s.cut tol j v b).up = Function.update s.up j b ∧
      (s.cut tol j v b).lo = s.lo ∧
      (s.cut tol j v b).infeas = s.infeas + (if b - s.lo j < -100 * tol then 1 else 0)) := by
  unfold LState.cut
  split
  · rename_i h
    right
    split <;> exact ⟨h.1, h.2, rfl, rfl, rfl⟩
  · left; rfl

theorem raise_tighter (tol : ℚ) (s : LState) (j : Nat) (v b : ℚ) :
    Tighter s.lo s.up (s.raise tol j v b).lo (s.raise tol j v b).up := by
  rcases raise_spec tol s j v b with h | ⟨h1, _, h2, h3, _⟩
  · rw [h]; exact .refl _ _
  · rw [h2, h3]
    intro k
    refine ⟨?_, le_refl _⟩
    by_cases hk : k = j
    · subst hk; rw [Function.update_self]; linarith
    · rw [Function.update_of_ne hk]

theorem cut_tighter (tol : ℚ) (s : LState) (j : Nat) (v b : ℚ) :
    Tighter s.lo s.up (s.cut tol j v b).lo (s.cut tol j v b).up := by
  rcases cut_spec tol s j v b with h | ⟨h1, _, h2, h3, _⟩
  · rw [h]; exact .refl _ _
  · rw [h2, h3]
    intro k
    refine ⟨le_refl _, ?_⟩
    by_cases hk : k = j
    · subst hk; rw [Function.update_self]; linarith
    · rw [Function.update_of_ne hk]

/-- No infeasibility was counted, and the point is within the bounds. -/
def Good (n : Nat) (x : Nat → ℚ) (lo up : Nat → ℚ) (infeas : Nat) : Prop := Box n lo up x ∧ infeas = 0

theorem raise_good {n : Nat} {x : Nat → ℚ} {tol : ℚ} (ht : 0 ≤ tol) {s : LState}
    (hs : Good n x s.lo s.up s.infeas) {j : Nat} (hj : j < n) {v b : ℚ} (hb : -large < b → b ≤ x j) :
    Good n x (s.raise tol j v b).lo (s.raise tol j v b).up (s.raise tol j v b).infeas := by
  rcases raise_spec tol s j v b with h | ⟨h1, h2, h3, h4, h5⟩
  · rw [h]; exact hs
  · rw [h3, h4, h5]
    refine ⟨fun k hk => ⟨?_, (hs.1 k hk).2⟩, ?_⟩
    · by_cases hkj : k = j
      · subst hkj; rw [Function.update_self]; exact hb h2
      · rw [Function.update_of_ne hkj]; exact (hs.1 k hk).1
    · rw [hs.2, if_neg]
      have := hb h2
      have := (hs.1 j hj).2
      linarith

theorem cut_good {n : Nat} {x : Nat → ℚ} {tol : ℚ} (ht : 0 ≤ tol) {s : LState}
    (hs : Good n x s.lo s.up s.infeas) {j : Nat} (hj : j < n) {v b : ℚ} (hb : b < large → x j ≤ b) :
    Good n x (s.cut tol j v b).lo (s.cut tol j v b).up (s.cut tol j v b).infeas := by
  rcases cut_spec tol s j v b with h | ⟨h1, h2, h3, h4, h5⟩
  · rw [h]; exact hs
  · rw [h3, h4, h5]
    refine ⟨fun k hk => ⟨(hs.1 k hk).1, ?_⟩, ?_⟩
    · by_cases hkj : k = j
      · subst hkj; rw [Function.update_self]; exact hb h2
      · rw [Function.update_of_ne hkj]; exact (hs.1 k hk).2
    · rw [hs.2, if_neg]
      have := hb h2
      have := (hs.1 j hj).1
      linarith

theorem lowerMove_sums {es : SVec} (hn : (es.map Prod.fst).Nodup) {s : LState} (hs : Sums es s) {p : Nat × ℚ}
    (hp : p ∈ es) (tol rl : ℚ) : Sums es (lowerMove tol rl s p) := by
  unfold lowerMove
  split
  · split
    · exact raise_sums hn hs hp _ _
    · exact cut_sums hn hs hp _ _
  · exact hs

theorem upperMove_sums {es : SVec} (hn : (es.map Prod.fst).Nodup) {s : LState} (hs : Sums es s) {p : Nat × ℚ}
    (hp : p ∈ es) (tol rl : ℚ) : Sums es (upperMove tol rl s p) := by
  unfold upperMove
  split
  · split
    · exact cut_sums hn hs hp _ _
    · exact raise_sums hn hs hp _ _
  · exact hs

theorem lowerMove_tighter (tol rl : ℚ) (s : LState) (p : Nat × ℚ) :
    Tighter s.lo s.up (lowerMove tol rl s p).lo (lowerMove tol rl s p).up := by
  unfold lowerMove
  split
  · split
    · exact raise_tighter _ _ _ _ _
    · exact cut_tighter _ _ _ _ _
  · exact .refl _ _

theorem upperMove_tighter (tol rl : ℚ) (s : LState) (p : Nat × ℚ) :
    Tighter s.lo s.up (upperMove tol rl s p).lo (upperMove tol rl s p).up := by
  unfold upperMove
  split
  · split
    · exact cut_tighter _ _ _ _ _
    · exact raise_tighter _ _ _ _ _
  · exact .refl _ _

section
variable {n : Nat} {inf : ℚ} {x : Nat → ℚ} {tol : ℚ} {r : Row}

theorem lowerMove_good (hd : large ≤ dblMax) (hinf : large ≤ inf) (ht : 0 ≤ tol) (hr : RowOk n r)
    (hsat : r.Sat inf x) {s : LState} (hs : Sums r.coefs s) (hg : Good n x s.lo s.up s.infeas) {p : Nat × ℚ}
    (hp : p ∈ r.coefs) : Good n x (lowerMove tol r.lb s p).lo (lowerMove tol r.lb s p).up
      (lowerMove tol r.lb s p).infeas := by
  unfold lowerMove
  split
  · rename_i hl
    have h : r.lb ≤ SVec.dot r.coefs x := hsat.1 (by linarith)
    split
    · rename_i hv
      exact raise_good ht hg (hr.cols p hp) (lo_from_lower hd hr.cols hr.nodup hs hg.1 hp hv h)
    · rename_i hv
      exact cut_good ht hg (hr.cols p hp) (up_from_lower hd hr.cols hr.nodup hs hg.1 hp
        (lt_of_le_of_ne (not_lt.mp hv) (hr.nonzero p hp)) h)
  · exact hg

theorem upperMove_good (hd : large ≤ dblMax) (hinf : large ≤ inf) (ht : 0 ≤ tol) (hr : RowOk n r)
    (hsat : r.Sat inf x) {s : LState} (hs : Sums r.coefs s) (hg : Good n x s.lo s.up s.infeas) {p : Nat × ℚ}
    (hp : p ∈ r.coefs) : Good n x (upperMove tol r.ub s p).lo (upperMove tol r.ub s p).up
      (upperMove tol r.ub s p).infeas := by
  unfold upperMove
  split
  · rename_i hl
    have h : SVec.dot r.coefs x ≤ r.ub := hsat.2 (by linarith)
    split
    · rename_i hv
      exact cut_good ht hg (hr.cols p hp) (up_from_upper hd hr.cols hr.nodup hs hg.1 hp hv h)
    · rename_i hv
      exact raise_good ht hg (hr.cols p hp) (lo_from_upper hd hr.cols hr.nodup hs hg.1 hp
        (lt_of_le_of_ne (not_lt.mp hv) (hr.nonzero p hp)) h)
  · exact hg

theorem entries_fold (hd : large ≤ dblMax) (hinf : large ≤ inf) (ht : 0 ≤ tol) (hr : RowOk n r)
    (hsat : r.Sat inf x) {es : SVec} (hes : ∀ p ∈ es, p ∈ r.coefs) {s : LState} (hs : Sums r.coefs s)
    (hg : Good n x s.lo s.up s.infeas) :
    Good n x (es.foldl (entry tol r.lb r.ub) s).lo (es.foldl (entry tol r.lb r.ub) s).up
      (es.foldl (entry tol r.lb r.ub) s).infeas := by
  induction es generalizing s with
  | nil => exact hg
  | cons p es ih =>
    have hp := hes p List.mem_cons_self
    have hs' : Sums r.coefs { s with any := false } := ⟨hs.1, hs.2⟩
    have h1 := lowerMove_sums hr.nodup hs' hp tol r.lb
    have h2 := upperMove_sums hr.nodup h1 hp tol r.ub
    have g1 := lowerMove_good hd hinf ht hr hsat hs' hg hp
    have g2 := upperMove_good hd hinf ht hr hsat h1 g1 hp
    exact ih (fun q hq => hes q (List.mem_cons_of_mem _ hq)) (s := entry tol r.lb r.ub s p) ⟨h2.1, h2.2⟩ g2

/-- The loop over the entries of a row keeps a point that satisfies the row. -/
theorem entries_good (hd : large ≤ dblMax) (hinf : large ≤ inf) (ht : 0 ≤ tol) (hr : RowOk n r)
    (hsat : r.Sat inf x) {s : MState} (hg : Good n x s.lo s.up s.infeas) :
    Good n x (entriesState tol r s).lo (entriesState tol r s).up (entriesState tol r s).infeas :=
  entries_fold hd hinf ht hr hsat (fun _ h => h) (start_sums hr.nonzero) hg

end

theorem entry_tighter (tol rl ru : ℚ) (s : LState) (p : Nat × ℚ) :
    Tighter s.lo s.up (entry tol rl ru s p).lo (entry tol rl ru s p).up :=
  (lowerMove_tighter tol rl { s with any := false } p).trans (upperMove_tighter tol ru _ p)

theorem entries_tighter (tol : ℚ) (r : Row) (s : MState) :
    Tighter s.lo s.up (entriesState tol r s).lo (entriesState tol r s).up := by
  have : ∀ (es : SVec) (s : LState), Tighter s.lo s.up (es.foldl (entry tol r.lb r.ub) s).lo
      (es.foldl (entry tol r.lb r.ub) s).up := by
    intro es
    induction es with
    | nil => intro s; exact .refl _ _
    | cons p es ih => intro s; exact (entry_tighter tol r.lb r.ub s p).trans (ih _)
  exact this r.coefs (start s r.coefs)

theorem mainRows_tighter (tol : ℚ) (rs : List Row) (s : MState) :
    Tighter s.lo s.up (mainRows tol rs s).2.lo (mainRows tol rs s).2.up := by
  induction rs generalizing s with
  | nil => exact .refl _ _
  | cons r rs ih =>
    unfold mainRows
    split
    · split
      · exact ih s
      · split
        · exact .refl _ _
        · exact (entries_tighter tol r s).trans (ih _)
    · exact ih s

theorem mainRows_rows (tol : ℚ) (rs : List Row) (s : MState) : List.Forall₂ Rel rs (mainRows tol rs s).1 := by
  induction rs generalizing s with
  | nil => exact .nil
  | cons r rs ih =>
    unfold mainRows
    split
    · split
      · exact .cons (.inr rfl) (ih _)
      · split
        · exact .cons (.inl rfl) (List.forall₂_same.mpr fun _ _ => .inl rfl)
        · exact .cons (.inl rfl) (ih _)
    · exact .cons (.inl rfl) (ih _)

theorem hiTerm_eq {lo up : Nat → ℚ} {es : SVec} (h0 : ∀ p ∈ es, p.2 ≠ 0) :
    es.map (hiTerm lo up) = es.map (hiB large lo up) := by
  apply List.map_congr_left
  intro p hp
  unfold hiTerm hiB
  rcases lt_or_gt_of_ne (h0 p hp) with h | h
  · rw [if_neg (by linarith), if_pos h, if_neg (by linarith)]
  · rw [if_pos h, if_pos h]

theorem loTerm_eq {lo up : Nat → ℚ} {es : SVec} (h0 : ∀ p ∈ es, p.2 ≠ 0) :
    es.map (loTerm lo up) = es.map (loB large lo up) := by
  apply List.map_congr_left
  intro p hp
  unfold loTerm loB
  rcases lt_or_gt_of_ne (h0 p hp) with h | h
  · rw [if_neg (by linarith), if_pos h, if_neg (by linarith)]
  · rw [if_pos h, if_pos h]

/-- A row that holds at a point within the bounds is not found to be infeasible. -/
theorem not_hopeless2 {n : Nat} {inf tol : ℚ} (hinf : 10 ^ 100 ≤ inf) (hd : inf ≤ dblMax) (ht : 0 ≤ tol)
    {lo up x : Nat → ℚ} (hx : Box n lo up x) {r : Row} (hr : RowOk n r) (hb : RowBounds inf r) (hsat : r.Sat inf x)
    (hm : |SVec.dot r.coefs x| ≤ 10 ^ 19) : hopeless2 tol lo up r = false := by
  obtain ⟨m1, m2⟩ := abs_le.mp hm
  have hlb : r.lb ≤ SVec.dot r.coefs x := by
    rcases hb.1 with hl | hl
    · linarith
    · exact hsat.1 (by have := (abs_le.mp hl).1; linarith)
  have hub : SVec.dot r.coefs x ≤ r.ub := by
    rcases hb.2 with hl | hl
    · linarith
    · exact hsat.2 (by have := (abs_le.mp hl).2; linarith)
  by_contra hc
  rw [Bool.not_eq_false] at hc
  simp only [hopeless2, Bool.or_eq_true, decide_eq_true_eq] at hc
  rcases hc with h | h
  · unfold maxUp at h
    split at h
    · rename_i h0
      rw [hiTerm_eq hr.nonzero] at h0
      have h1 := (dot_le_total h0 fun q hq w hw => hiB_ge hx (hr.cols q hq) hw).1
      unfold maxUp0 at h
      rw [hiTerm_eq hr.nonzero] at h
      have h2 := abs_nonneg (total (r.coefs.map (hiB large lo up)))
      linarith
    · linarith
  · unfold maxDown at h
    split at h
    · rename_i h0
      rw [loTerm_eq hr.nonzero] at h0
      have h1 := (total_le_dot h0 fun q hq w hw => loB_le hx (hr.cols q hq) hw).1
      unfold maxDown0 at h
      rw [loTerm_eq hr.nonzero] at h
      have h2 := abs_nonneg (total (r.coefs.map (loB large lo up)))
      linarith
    · linarith

/-- What is assumed of a row and a point. -/
structure Fit (n : Nat) (inf : ℚ) (x : Nat → ℚ) (r : Row) : Prop where
  ok : RowOk n r
  bounds : RowBounds inf r
  moderate : (r.coefs.map fun p => |p.2| * (|x p.1| + 1)).sum ≤ 10 ^ 19

theorem Fit.freed {n : Nat} {inf : ℚ} (hd : inf ≤ dblMax) {x : Nat → ℚ} {r : Row} (h : Fit n inf x r) :
    Fit n inf x (freed r) :=
  ⟨h.ok.freed, ⟨.inl (by simp only [PreTighten.freed]; linarith), .inl (by simp only [PreTighten.freed]; linarith)⟩,
    h.moderate⟩

theorem rel_fit {n : Nat} {inf : ℚ} (hd : inf ≤ dblMax) {x : Nat → ℚ} {l1 l2 : List Row} (h : List.Forall₂ Rel l1 l2)
    (hr : ∀ r ∈ l1, Fit n inf x r) : ∀ t ∈ l2, Fit n inf x t := by
  intro t ht
  obtain ⟨r, hr', h | h⟩ := rel_mem h ht
  · rw [h]; exact hr r hr'
  · rw [h]; exact (hr r hr').freed hd

theorem dot_abs_le (es : SVec) (x : Nat → ℚ) :
    |SVec.dot es x| ≤ (es.map fun p => |p.2| * (|x p.1| + 1)).sum := by
  induction es with
  | nil => simp
  | cons p es ih =>
    rw [SVec.dot_cons, List.map_cons, List.sum_cons]
    have h1 := abs_add_le (p.2 * x p.1) (SVec.dot es x)
    have h2 := abs_mul p.2 (x p.1)
    have h3 := abs_nonneg p.2
    nlinarith

/-- The loop over the rows keeps the points that satisfy the rows. -/
theorem mainRows_keeps {n : Nat} {inf : ℚ} (hinf : 10 ^ 100 ≤ inf) (hd : inf ≤ dblMax) {x : Nat → ℚ} {tol : ℚ}
    (ht : 0 ≤ tol) {rs : List Row} (hr : ∀ r ∈ rs, Fit n inf x r) {s : MState} (hs : Good n x s.lo s.up s.infeas)
    (hsat : ∀ r ∈ rs, r.Sat inf x) :
    Good n x (mainRows tol rs s).2.lo (mainRows tol rs s).2.up (mainRows tol rs s).2.infeas := by
  have hl1 : large ≤ inf := by rw [large_eq]; exact hinf
  induction rs generalizing s with
  | nil => exact hs
  | cons r rs ih =>
    have ih := fun {s} => ih (s := s) (fun r' h => hr r' (List.mem_cons_of_mem _ h))
    have hsat' := fun r' h => hsat r' (List.mem_cons_of_mem _ h)
    have hf := hr r List.mem_cons_self
    have hs0 := hsat r List.mem_cons_self
    unfold mainRows
    split
    · split
      · exact ih hs hsat'
      · rw [not_hopeless2 hinf hd ht hs.1 hf.ok hf.bounds hs0 (le_trans (dot_abs_le _ _) hf.moderate)]
        exact ih (entries_good (by linarith) hl1 ht hf.ok hs0 hs) hsat'
    · exact ih hs hsat'

theorem mainPasses_rows (tol : ℚ) (k : Nat) (check : Option Nat) (rs : List Row) (lo up : Nat → ℚ) (tot : Nat) :
    List.Forall₂ Rel rs (mainPasses tol k check rs lo up tot).rows := by
  induction k generalizing check rs lo up tot with
  | zero => exact List.forall₂_same.mpr fun _ _ => .inl rfl
  | succ k ih =>
    unfold mainPasses
    split
    · exact mainRows_rows ..
    · exact rel_trans (mainRows_rows ..) (ih ..)

theorem mainPasses_tighter (tol : ℚ) (k : Nat) (check : Option Nat) (rs : List Row) (lo up : Nat → ℚ) (tot : Nat) :
    Tighter lo up (mainPasses tol k check rs lo up tot).lo (mainPasses tol k check rs lo up tot).up := by
  induction k generalizing check rs lo up tot with
  | zero => exact .refl _ _
  | succ k ih =>
    unfold mainPasses
    split
    · exact mainRows_tighter tol rs ⟨lo, up, 0, 0⟩
    · exact (mainRows_tighter tol rs ⟨lo, up, 0, 0⟩).trans (ih _ _ _ _ _)

/-- The passes keep the points that satisfy the rows, and find no infeasibility if there is such a point. -/
theorem mainPasses_keeps {n : Nat} {inf : ℚ} (hinf : 10 ^ 100 ≤ inf) (hd : inf ≤ dblMax) {x : Nat → ℚ} {tol : ℚ}
    (ht : 0 ≤ tol) {k : Nat} {check : Option Nat} {rs : List Row} (hr : ∀ r ∈ rs, Fit n inf x r) {lo up : Nat → ℚ}
    {tot : Nat} (hs : Box n lo up x) (hsat : ∀ r ∈ rs, r.Sat inf x) :
    Good n x (mainPasses tol k check rs lo up tot).lo (mainPasses tol k check rs lo up tot).up
      (mainPasses tol k check rs lo up tot).infeas := by
  induction k generalizing check rs lo up tot with
  | zero => exact ⟨hs, rfl⟩
  | succ k ih =>
    have h := mainRows_keeps hinf hd ht hr (s := ⟨lo, up, 0, 0⟩) ⟨hs, rfl⟩ hsat
    unfold mainPasses
    split
    · exact h
    · have hrel := mainRows_rows tol rs ⟨lo, up, 0, 0⟩
      exact ih (rel_fit hd hrel hr) h.1 (rel_sat hd hrel hsat)

/-! ### Rows made free hold near the final bounds -/

/-- The columns are within `d` of their finite bounds. -/
def Near (n : Nat) (d : ℚ) (lo up x : Nat → ℚ) : Prop :=
  ∀ j < n, (-large < lo j → lo j - d ≤ x j) ∧ (up j < large → x j ≤ up j + d)

theorem Near.of_tighter {n : Nat} {d : ℚ} {lo up lo' up' x : Nat → ℚ} (h : Near n d lo' up' x)
    (ht : Tighter lo up lo' up') : Near n d lo up x := by
  intro j hj
  obtain ⟨h1, h2⟩ := h j hj
  obtain ⟨t1, t2⟩ := ht j
  exact ⟨fun hl => by linarith [h1 (by linarith)], fun hu => by linarith [h2 (by linarith)]⟩

/-- Sum of the absolute values of the coefficients. -/
def absSum (es : SVec) : ℚ := (es.map fun p => |p.2|).sum

theorem dot_le_near {es : SVec} {x : Nat → ℚ} {f : Nat × ℚ → Option ℚ} {d : ℚ} (h0 : flags (es.map f) = 0)
    (h : ∀ p ∈ es, ∀ v, f p = some v → p.2 * x p.1 ≤ v + d * |p.2|) :
    SVec.dot es x ≤ total (es.map f) + d * absSum es := by
  have hs : ∀ q ∈ es, q.2 * x q.1 - ((f q).getD 0 + d * |q.2|) ≤ 0 := by
    intro q hq
    obtain ⟨v, hv⟩ := flags_eq_zero h0 (List.mem_map.mpr ⟨q, hq, rfl⟩)
    have := h q hq v hv
    rw [hv]; simp only [Option.getD_some]; linarith
  have h1 := sum_nonpos' hs
  rw [sum_sub] at h1
  have h2 : (es.map fun q => (f q).getD 0 + d * |q.2|).sum = total (es.map f) + d * absSum es := by
    clear h h0 hs h1
    unfold total absSum
    induction es with
    | nil => simp
    | cons p es ih => simp only [List.map_cons, List.sum_cons] at ih ⊢; rw [ih]; ring
  rw [h2] at h1
  unfold SVec.dot
  linarith

theorem near_le_dot {es : SVec} {x : Nat → ℚ} {f : Nat × ℚ → Option ℚ} {d : ℚ} (h0 : flags (es.map f) = 0)
    (h : ∀ p ∈ es, ∀ v, f p = some v → v - d * |p.2| ≤ p.2 * x p.1) :
    total (es.map f) - d * absSum es ≤ SVec.dot es x := by
  have hs : ∀ q ∈ es, ((f q).getD 0 - d * |q.2|) - q.2 * x q.1 ≤ 0 := by
    intro q hq
    obtain ⟨v, hv⟩ := flags_eq_zero h0 (List.mem_map.mpr ⟨q, hq, rfl⟩)
    have := h q hq v hv
    rw [hv]; simp only [Option.getD_some]; linarith
  have h1 := sum_nonpos' hs
  rw [sum_sub] at h1
  have h2 : (es.map fun q => (f q).getD 0 - d * |q.2|).sum = total (es.map f) - d * absSum es := by
    clear h h0 hs h1
    unfold total absSum
    induction es with
    | nil => simp
    | cons p es ih => simp only [List.map_cons, List.sum_cons] at ih ⊢; rw [ih]; ring
  rw [h2] at h1
  unfold SVec.dot
  linarith

theorem hiB_near {n : Nat} {d : ℚ} {lo up x : Nat → ℚ} (hx : Near n d lo up x) {p : Nat × ℚ}
    (hp : p.1 < n) {v : ℚ} (h : hiB large lo up p = some v) : p.2 * x p.1 ≤ v + d * |p.2| := by
  obtain ⟨hl, hu⟩ := hx p.1 hp
  rcases hiB_some h with ⟨h0, h1, rfl⟩ | ⟨h0, h1, rfl⟩
  · have := hu h1
    rw [abs_of_pos h0]; nlinarith
  · have := hl h1
    rw [abs_of_nonpos h0]; nlinarith

theorem loB_near {n : Nat} {d : ℚ} {lo up x : Nat → ℚ} (hx : Near n d lo up x) {p : Nat × ℚ}
    (hp : p.1 < n) {v : ℚ} (h : loB large lo up p = some v) : v - d * |p.2| ≤ p.2 * x p.1 := by
  obtain ⟨hl, hu⟩ := hx p.1 hp
  rcases loB_some h with ⟨h0, h1, rfl⟩ | ⟨h0, h1, rfl⟩
  · have := hl h1
    rw [abs_of_pos h0]; nlinarith
  · have := hu h1
    rw [abs_of_nonpos h0]; nlinarith

theorem redundant2_sat {n : Nat} {inf tol d : ℚ} (hinf : 10 ^ 100 ≤ inf) (hd : inf ≤ dblMax)
    {lo up x : Nat → ℚ} (hx : Near n d lo up x) {r : Row} (hr : RowOk n r) (hi : IntRow inf x r) (ht1 : tol < 1)
    (ht : tol + d * absSum r.coefs < 1) (h : redundant2 tol lo up r = true) : r.Sat inf x := by
  simp only [redundant2, Bool.and_eq_true, decide_eq_true_eq] at h
  obtain ⟨h1, h2⟩ := h
  constructor
  · intro hl
    have hb : |r.lb| ≤ 10 ^ 19 := hi.bounds.1.resolve_left (by linarith)
    unfold maxDown at h2
    split at h2
    · rename_i h0
      unfold maxDown0 at h2
      rw [loTerm_eq hr.nonzero] at h0 h2
      have h3 := near_le_dot h0 fun q hq w hw => loB_near hx (hr.cols q hq) hw
      have h4 := abs_nonneg (total (r.coefs.map (loB large lo up)))
      exact int_le (hi.lb hl) hi.dot (t := tol + d * absSum r.coefs) (by linarith) ht
    · have := (abs_le.mp hb).1; linarith
  · intro hl
    have hb : |r.ub| ≤ 10 ^ 19 := hi.bounds.2.resolve_left (by linarith)
    unfold maxUp at h1
    split at h1
    · rename_i h0
      unfold maxUp0 at h1
      rw [hiTerm_eq hr.nonzero] at h0 h1
      have h3 := dot_le_near h0 fun q hq w hw => hiB_near hx (hr.cols q hq) hw
      have h4 := abs_nonneg (total (r.coefs.map (hiB large lo up)))
      exact int_le hi.dot (hi.ub hl) (t := tol + d * absSum r.coefs) (by linarith) ht
    · have := (abs_le.mp hb).2; linarith

theorem mainRows_back {n : Nat} {inf : ℚ} (hinf : 10 ^ 100 ≤ inf) (hd : inf ≤ dblMax) {x : Nat → ℚ} {tol d : ℚ}
    (ht1 : tol < 1) {rs : List Row} (hr : ∀ r ∈ rs, RowOk n r) (hi : ∀ r ∈ rs, IntRow inf x r)
    (ht : ∀ r ∈ rs, tol + d * absSum r.coefs < 1) {s : MState}
    (hx : Near n d (mainRows tol rs s).2.lo (mainRows tol rs s).2.up x)
    (hsat : ∀ r ∈ (mainRows tol rs s).1, r.Sat inf x) : ∀ r ∈ rs, r.Sat inf x := by
  induction rs generalizing s with
  | nil => simp
  | cons r rs ih =>
    have ih := fun {s} => ih (s := s) (fun r' h => hr r' (List.mem_cons_of_mem _ h))
      (fun r' h => hi r' (List.mem_cons_of_mem _ h)) (fun r' h => ht r' (List.mem_cons_of_mem _ h))
    have hx0 := hx.of_tighter (mainRows_tighter tol (r :: rs) s)
    unfold mainRows at hsat hx
    split at hsat
    · rename_i ha
      rw [if_pos ha] at hx
      split at hsat
      · rename_i h
        rw [if_pos h] at hx
        intro r' hr'
        rcases List.mem_cons.mp hr' with rfl | hr'
        · exact redundant2_sat hinf hd hx0 (hr _ List.mem_cons_self) (hi _ List.mem_cons_self) ht1
            (ht _ List.mem_cons_self) h
        · exact ih hx (fun t h => hsat t (List.mem_cons_of_mem _ h)) r' hr'
      · rename_i h
        rw [if_neg h] at hx
        split at hsat
        · exact hsat
        · rename_i h'
          rw [if_neg h'] at hx
          intro r' hr'
          rcases List.mem_cons.mp hr' with rfl | hr'
          · exact hsat _ List.mem_cons_self
          · exact ih hx (fun t h => hsat t (List.mem_cons_of_mem _ h)) r' hr'
    · rename_i ha
      rw [if_neg ha] at hx
      intro r' hr'
      rcases List.mem_cons.mp hr' with rfl | hr'
      · exact hsat _ List.mem_cons_self
      · exact ih hx (fun t h => hsat t (List.mem_cons_of_mem _ h)) r' hr'

theorem rel_small {tol d : ℚ} {l1 l2 : List Row} (h : List.Forall₂ Rel l1 l2)
    (ht : ∀ r ∈ l1, tol + d * absSum r.coefs < 1) : ∀ r ∈ l2, tol + d * absSum r.coefs < 1 := by
  intro t htm
  obtain ⟨r, hr', h | h⟩ := rel_mem h htm
  · rw [h]; exact ht r hr'
  · rw [h]; exact ht r hr'

theorem mainPasses_back {n : Nat} {inf : ℚ} (hinf : 10 ^ 100 ≤ inf) (hd : inf ≤ dblMax) {x : Nat → ℚ} {tol d : ℚ}
    (ht1 : tol < 1) {k : Nat} {check : Option Nat} {rs : List Row} (hr : ∀ r ∈ rs, RowOk n r)
    (hi : ∀ r ∈ rs, IntRow inf x r) (ht : ∀ r ∈ rs, tol + d * absSum r.coefs < 1) {lo up : Nat → ℚ} {tot : Nat}
    (hx : Near n d (mainPasses tol k check rs lo up tot).lo (mainPasses tol k check rs lo up tot).up x)
    (hsat : ∀ r ∈ (mainPasses tol k check rs lo up tot).rows, r.Sat inf x) : ∀ r ∈ rs, r.Sat inf x := by
  induction k generalizing check rs lo up tot with
  | zero => exact hsat
  | succ k ih =>
    have hrel := mainRows_rows tol rs ⟨lo, up, 0, 0⟩
    unfold mainPasses at hx hsat
    split at hsat
    · rename_i h
      rw [if_pos h] at hx
      exact mainRows_back hinf hd ht1 hr hi ht hx hsat
    · rename_i h
      rw [if_neg h] at hx
      have h1 := ih (rel_rowOk hrel hr) (rel_intRow hd hrel hi) (rel_small hrel ht) hx hsat
      exact mainRows_back hinf hd ht1 hr hi ht (hx.of_tighter (mainPasses_tighter _ _ _ _ _ _ _)) h1

/-! ### Bounds do not cross by more than the tolerance -/

/-- Unless an infeasibility was counted, a column has its original bounds or bounds that cross by at most 100 times the
tolerance. -/
def Uncrossed (tol : ℚ) (lo0 up0 lo up : Nat → ℚ) (infeas : Nat) : Prop :=
  infeas = 0 → ∀ j, (lo j = lo0 j ∧ up j = up0 j) ∨ lo j ≤ up j + 100 * tol

theorem raise_uncrossed {tol : ℚ} {lo0 up0 : Nat → ℚ} {s : LState} (h : Uncrossed tol lo0 up0 s.lo s.up s.infeas)
    (j : Nat) (v b : ℚ) : Uncrossed tol lo0 up0 (s.raise tol j v b).lo (s.raise tol j v b).up
      (s.raise tol j v b).infeas := by
  rcases raise_spec tol s j v b with e | ⟨_, _, h3, h4, h5⟩
  · rw [e]; exact h
  · rw [h3, h4, h5]
    intro h0 k
    by_cases hk : k = j
    · subst hk
      right
      rw [Function.update_self]
      by_contra hc
      rw [if_pos (by linarith)] at h0
      omega
    · rw [Function.update_of_ne hk]
      exact h (by omega) k

theorem cut_uncrossed {tol : ℚ} {lo0 up0 : Nat → ℚ} {s : LState} (h : Uncrossed tol lo0 up0 s.lo s.up s.infeas)
    (j : Nat) (v b : ℚ) : Uncrossed tol lo0 up0 (s.cut tol j v b).lo (s.cut tol j v b).up
      (s.cut tol j v b).infeas := by
  rcases cut_spec tol s j v b with e | ⟨_, _, h3, h4, h5⟩
  · rw [e]; exact h
  · rw [h3, h4, h5]
    intro h0 k
    by_cases hk : k = j
    · subst hk
      right
      rw [Function.update_self]
      by_contra hc
      rw [if_pos (by linarith)] at h0
      omega
    · rw [Function.update_of_ne hk]
      exact h (by omega) k

theorem entry_uncrossed {tol : ℚ} {lo0 up0 : Nat → ℚ} {s : LState} (h : Uncrossed tol lo0 up0 s.lo s.up s.infeas)
    (rl ru : ℚ) (p : Nat × ℚ) : Uncrossed tol lo0 up0 (entry tol rl ru s p).lo (entry tol rl ru s p).up
      (entry tol rl ru s p).infeas := by
  have h1 : Uncrossed tol lo0 up0 (lowerMove tol rl { s with any := false } p).lo
      (lowerMove tol rl { s with any := false } p).up (lowerMove tol rl { s with any := false } p).infeas := by
    unfold lowerMove
    split
    · split
      · exact raise_uncrossed (s := { s with any := false }) h _ _ _
      · exact cut_uncrossed (s := { s with any := false }) h _ _ _
    · exact h
  change Uncrossed tol lo0 up0 (upperMove tol ru (lowerMove tol rl { s with any := false } p) p).lo
    (upperMove tol ru (lowerMove tol rl { s with any := false } p) p).up
    (upperMove tol ru (lowerMove tol rl { s with any := false } p) p).infeas
  unfold upperMove
  split
  · split
    · exact cut_uncrossed h1 _ _ _
    · exact raise_uncrossed h1 _ _ _
  · exact h1

theorem entries_uncrossed {tol : ℚ} {lo0 up0 : Nat → ℚ} {s : MState} (h : Uncrossed tol lo0 up0 s.lo s.up s.infeas)
    (r : Row) : Uncrossed tol lo0 up0 (entriesState tol r s).lo (entriesState tol r s).up
      (entriesState tol r s).infeas := by
  have : ∀ (es : SVec) (s : LState), Uncrossed tol lo0 up0 s.lo s.up s.infeas →
      Uncrossed tol lo0 up0 (es.foldl (entry tol r.lb r.ub) s).lo (es.foldl (entry tol r.lb r.ub) s).up
        (es.foldl (entry tol r.lb r.ub) s).infeas := by
    intro es
    induction es with
    | nil => intro s h; exact h
    | cons p es ih => intro s h; exact ih _ (entry_uncrossed h _ _ _)
  exact this r.coefs (start s r.coefs) h

theorem mainRows_uncrossed {tol : ℚ} {lo0 up0 : Nat → ℚ} (rs : List Row) {s : MState}
    (h : Uncrossed tol lo0 up0 s.lo s.up s.infeas) : Uncrossed tol lo0 up0 (mainRows tol rs s).2.lo
      (mainRows tol rs s).2.up (mainRows tol rs s).2.infeas := by
  induction rs generalizing s with
  | nil => exact h
  | cons r rs ih =>
    unfold mainRows
    split
    · split
      · exact ih h
      · split
        · intro h0; simp at h0
        · exact ih (entries_uncrossed h r)
    · exact ih h

theorem mainPasses_uncrossed {tol : ℚ} {lo0 up0 : Nat → ℚ} (k : Nat) (check : Option Nat) (rs : List Row)
    {lo up : Nat → ℚ} (tot : Nat) (h : Uncrossed tol lo0 up0 lo up 0) :
    Uncrossed tol lo0 up0 (mainPasses tol k check rs lo up tot).lo (mainPasses tol k check rs lo up tot).up
      (mainPasses tol k check rs lo up tot).infeas := by
  induction k generalizing check rs lo up tot with
  | zero => exact h
  | succ k ih =>
    have h1 := mainRows_uncrossed rs (s := ⟨lo, up, 0, 0⟩) h
    unfold mainPasses
    split
    · exact h1
    · rename_i hn
      rw [not_or, not_not] at hn
      rw [hn.1] at h1
      exact ih _ _ _ h1

end Cgl.PreTighten
