import Verif.Knapsack.Exact

/-!
# `exactSolveKnapsack` without assumptions on the profits

The search ends and its answer is the value of the choice it returns, which fits.
-/

namespace Cgl.Knapsack

theorem weight_rev : ∀ (l : List (ℚ × ℚ)) (b : List Bool), l.length = b.length → weight l.reverse b.reverse = weight l b := by
  have wapp : ∀ (l : List (ℚ × ℚ)) (b : List Bool) (i : ℚ × ℚ) (c : Bool), l.length = b.length →
      weight (l ++ [i]) (b ++ [c]) = weight l b + (if c then i.2 else 0) := by
    intro l
    induction l with
    | nil => intro b i c h; cases b <;> simp_all [weight]
    | cons j l ih =>
      intro b i c h
      cases b with
      | nil => simp at h
      | cons d b => simp only [List.cons_append, weight]; rw [ih b i c (by simpa using h)]; ring
  intro l
  induction l with
  | nil => intro b h; cases b <;> simp_all
  | cons i l ih =>
    intro b h
    cases b with
    | nil => simp at h
    | cons c b =>
      simp only [List.reverse_cons]
      rw [wapp _ _ _ _ (by simpa using h), ih b (by simpa using h)]
      simp only [weight]; ring

theorem value_rev : ∀ (l : List (ℚ × ℚ)) (b : List Bool), l.length = b.length → value l.reverse b.reverse = value l b := by
  have wapp : ∀ (l : List (ℚ × ℚ)) (b : List Bool) (i : ℚ × ℚ) (c : Bool), l.length = b.length →
      value (l ++ [i]) (b ++ [c]) = value l b + (if c then i.1 else 0) := by
    intro l
    induction l with
    | nil => intro b i c h; cases b <;> simp_all [value]
    | cons j l ih =>
      intro b i c h
      cases b with
      | nil => simp at h
      | cons d b => simp only [List.cons_append, value]; rw [ih b i c (by simpa using h)]; ring
  intro l
  induction l with
  | nil => intro b h; cases b <;> simp_all
  | cons i l ih =>
    intro b h
    cases b with
    | nil => simp at h
    | cons c b =>
      simp only [List.reverse_cons]
      rw [wapp _ _ _ _ (by simpa using h), ih b (by simpa using h)]
      simp only [value]; ring

theorem value_allFalse : ∀ (l m : List (ℚ × ℚ)), value l (m.map fun _ => false) = 0
  | [], _ => by simp [value]
  | _ :: _, [] => by simp [value]
  | i :: t, j :: m => by
    have := value_allFalse t m
    simp only [List.map_cons, value, Bool.false_eq_true, if_false, zero_add]
    exact this

/-- Invariant of the search. -/
structure Lite (items : List (ℚ × ℚ)) (C : ℚ) (s : KS) : Prop where
  all : (itemsOf s.done).reverse ++ s.rest = items
  chat : s.chat = C - weight (itemsOf s.done) (flags s.done)
  zhat : s.zhat = value (itemsOf s.done) (flags s.done)
  blen : s.best.length = items.length
  bfit : weight items s.best ≤ C
  bval : value items s.best = s.z
  fit : 0 ≤ s.chat

theorem Lite.back {items : List (ℚ × ℚ)} {C : ℚ} (hi : ∀ i ∈ items, 0 ≤ i.2) : ∀ (d0 : List (ℚ × ℚ × Bool)) (s : KS)
    (r0 : List (ℚ × ℚ)), s.done = d0 → s.rest = r0 → Lite items C s → ∀ d r c v, Knapsack.back d0 r0 s.chat s.zhat = some (d, r, c, v) →
      Lite items C { s with done := d, rest := r, chat := c, zhat := v } ∧
      2 ^ r.length + alts d r.length = alts s.done s.rest.length := by
  intro d0
  induction d0 with
  | nil => intro s r0 _ _ _ d r c v h; simp [Knapsack.back] at h
  | cons x d0 ih =>
    obtain ⟨p, w, f⟩ := x
    intro s r0 hd hr inv d r c v h
    cases f with
    | true =>
      simp only [Knapsack.back, Option.some.injEq, Prod.mk.injEq] at h
      obtain ⟨rfl, rfl, rfl, rfl⟩ := h
      have hwpos : 0 ≤ w := by
        have : (p, w) ∈ items := by rw [← inv.all, hd]; simp [itemsOf]
        exact hi _ this
      refine ⟨⟨?_, ?_, ?_, inv.blen, inv.bfit, inv.bval, ?_⟩, ?_⟩
      · have := inv.all
        rw [hd, hr] at this
        simpa [itemsOf] using this
      · have := inv.chat
        rw [hd] at this
        simp [itemsOf, flags, weight] at this ⊢
        rw [this]; ring
      · have := inv.zhat
        rw [hd] at this
        simp [itemsOf, flags, value] at this ⊢
        rw [this]; ring
      · have := inv.fit
        show 0 ≤ s.chat + w
        linarith
      · rw [hd, hr]; simp [alts]
    | false =>
      have step : Lite items C { s with done := d0, rest := (p, w) :: r0 } := by
        refine ⟨?_, ?_, ?_, inv.blen, inv.bfit, inv.bval, inv.fit⟩
        · have := inv.all
          rw [hd, hr] at this
          simpa [itemsOf] using this
        · have := inv.chat
          rw [hd] at this
          simpa [itemsOf, flags, weight] using this
        · have := inv.zhat
          rw [hd] at this
          simpa [itemsOf, flags, value] using this
      simp only [Knapsack.back] at h
      obtain ⟨g1, g3⟩ := ih _ _ rfl rfl step d r c v h
      refine ⟨g1, ?_⟩
      rw [g3, hd, hr]
      simp [alts]

theorem Lite.forward {items : List (ℚ × ℚ)} {C : ℚ} : ∀ (r0 : List (ℚ × ℚ)) (s : KS),
    s.rest = r0 → Lite items C s → ∀ d r c v, Knapsack.forward s.done r0 s.chat s.zhat = (d, r, c, v) →
    Lite items C { s with done := d, rest := r, chat := c, zhat := v } ∧
    2 ^ r.length + alts d r.length ≤ meas s ∧
    (r ≠ [] → 2 ^ r.length + alts d r.length < meas s ∧ 2 ≤ r.length) := by
  intro r0
  induction r0 with
  | nil =>
    intro s hr inv d r c v h
    simp only [Knapsack.forward, Prod.mk.injEq] at h
    obtain ⟨rfl, rfl, rfl, rfl⟩ := h
    have e : { s with done := s.done, rest := [], chat := s.chat, zhat := s.zhat } = s := by cases s; simp_all
    rw [e]
    refine ⟨inv, ?_, fun h => absurd rfl h⟩
    unfold meas; rw [hr]
  | cons x t ih =>
    obtain ⟨p, w⟩ := x
    intro s hr inv d r c v h
    unfold Knapsack.forward at h
    split at h
    · rename_i hc
      have step : Lite items C { s with done := (p, w, true) :: s.done, rest := t, chat := s.chat - w, zhat := s.zhat + p } := by
        refine ⟨?_, ?_, ?_, inv.blen, inv.bfit, inv.bval, ?_⟩
        · have := inv.all
          rw [hr] at this
          simpa [itemsOf] using this
        · show s.chat - w = _
          rw [inv.chat]; simp [itemsOf, flags, weight]; ring
        · show s.zhat + p = _
          rw [inv.zhat]; simp [itemsOf, flags, value]; ring
        · show 0 ≤ s.chat - w
          linarith
      have := ih _ rfl step d r c v h
      refine ⟨this.1, ?_, ?_⟩
      · refine le_trans this.2.1 (le_of_eq ?_)
        simp only [meas, alts, hr, List.length_cons, if_true, pow_succ]
        ring
      · intro hne
        refine ⟨lt_of_lt_of_eq (this.2.2 hne).1 ?_, (this.2.2 hne).2⟩
        simp only [meas, alts, hr, List.length_cons, if_true, pow_succ]
        ring
    · have step : Lite items C { s with done := (p, w, false) :: s.done, rest := t } := by
        refine ⟨?_, ?_, ?_, inv.blen, inv.bfit, inv.bval, inv.fit⟩
        · have := inv.all
          rw [hr] at this
          simpa [itemsOf] using this
        · show s.chat = _
          rw [inv.chat]; simp [itemsOf, flags, weight]
        · show s.zhat = _
          rw [inv.zhat]; simp [itemsOf, flags, value]
      have hm : 2 ^ t.length + alts ((p, w, false) :: s.done) t.length < meas s := by
        simp only [meas, alts, hr, List.length_cons, Bool.false_eq_true, if_false, pow_succ, zero_add]
        have : 0 < 2 ^ t.length := Nat.pow_pos (by norm_num)
        omega
      split at h
      · have := ih _ rfl step d r c v h
        refine ⟨this.1, le_trans this.2.1 hm.le, fun hne => ⟨lt_trans (this.2.2 hne).1 hm, (this.2.2 hne).2⟩⟩
      · rename_i hl
        simp only [Prod.mk.injEq] at h
        obtain ⟨rfl, rfl, rfl, rfl⟩ := h
        refine ⟨step, hm.le, fun hne => ⟨hm, ?_⟩⟩
        have : t.length ≠ 0 := fun h => hne (List.length_eq_zero_iff.mp h)
        omega

theorem Lite.record {items : List (ℚ × ℚ)} {C : ℚ} (hi : ∀ i ∈ items, 0 ≤ i.2) (s : KS) (hr : s.rest = []) (inv : Lite items C s) :
    Lite items C (Knapsack.record s) ∧ alts (Knapsack.record s).done (Knapsack.record s).rest.length < meas s := by
  have hlen : items.length = s.done.length := by
    rw [← inv.all, hr]; simp [itemsOf]
  have hrev : items = (itemsOf s.done).reverse := by rw [← inv.all, hr]; simp
  set s1 : KS := if s.z < s.zhat then { s with z := s.zhat, best := (s.done.map fun i => i.2.2).reverse } else s with hs1
  have hd1 : s1.done = s.done := by rw [hs1]; split <;> rfl
  have hr1 : s1.rest = [] := by rw [hs1]; split <;> exact hr
  have hc1 : s1.chat = s.chat := by rw [hs1]; split <;> rfl
  have hv1 : s1.zhat = s.zhat := by rw [hs1]; split <;> rfl
  have inv1 : Lite items C s1 := by
    refine ⟨by rw [hd1, hr1, ← hr]; exact inv.all, by rw [hc1, hd1]; exact inv.chat, by rw [hv1, hd1]; exact inv.zhat, ?_, ?_, ?_,
      by rw [hc1]; exact inv.fit⟩
    · rw [hs1]; split
      · simp [hlen]
      · exact inv.blen
    · rw [hs1]; split
      · show weight items (flags s.done).reverse ≤ C
        rw [hrev, weight_rev _ _ (by simp [itemsOf, flags])]
        have h1 := inv.chat
        have h2 := inv.fit
        linarith
      · exact inv.bfit
    · rw [hs1]; split
      · show value items (flags s.done).reverse = s.zhat
        rw [hrev, value_rev _ _ (by simp [itemsOf, flags]), inv.zhat]
      · exact inv.bval
  have hrec : Knapsack.record s = (match s1.done with
    | [] => s1
    | (p, w, true) :: d => { s1 with done := d, rest := (p, w) :: s1.rest, chat := s1.chat + w, zhat := s1.zhat - p }
    | (p, w, false) :: d => { s1 with done := d, rest := (p, w) :: s1.rest }) := rfl
  rw [hrec]
  match hd : s.done with
  | [] =>
    rw [hd] at hd1
    rw [hd1]
    simp only
    refine ⟨inv1, ?_⟩
    rw [hd1, hr1]
    unfold meas
    rw [hd, hr]; simp [alts]
  | (p, w, true) :: d =>
    rw [hd] at hd1
    rw [hd1]
    simp only
    have hip : (p, w) ∈ items := by rw [hrev, hd]; simp [itemsOf]
    refine ⟨⟨?_, ?_, ?_, inv1.blen, inv1.bfit, inv1.bval, ?_⟩, ?_⟩
    · have := inv1.all
      rw [hd1, hr1] at this
      simpa [itemsOf, hr1] using this
    · show s1.chat + w = _
      have := inv1.chat
      rw [hd1] at this
      simp [itemsOf, flags, weight] at this ⊢
      rw [this]; ring
    · show s1.zhat - p = _
      have := inv1.zhat
      rw [hd1] at this
      simp [itemsOf, flags, value] at this ⊢
      rw [this]; ring
    · show 0 ≤ s1.chat + w
      have := inv1.fit
      have := hi _ hip
      simp only at this
      linarith
    · unfold meas
      rw [hd, hr]
      simp only [hr1, alts, List.length_cons, List.length_nil, if_true]
      omega
  | (p, w, false) :: d =>
    rw [hd] at hd1
    rw [hd1]
    simp only
    refine ⟨⟨?_, ?_, ?_, inv1.blen, inv1.bfit, inv1.bval, inv1.fit⟩, ?_⟩
    · have := inv1.all
      rw [hd1, hr1] at this
      simpa [itemsOf, hr1] using this
    · have := inv1.chat
      rw [hd1] at this
      simpa [itemsOf, flags, weight] using this
    · have := inv1.zhat
      rw [hd1] at this
      simpa [itemsOf, flags, value] using this
    · unfold meas
      rw [hd, hr]
      simp [hr1, alts]

theorem Lite.step {items : List (ℚ × ℚ)} {C : ℚ} (hi : ∀ i ∈ items, 0 ≤ i.2) (s : KS) (inv : Lite items C s) :
    (∀ s', ksStep s = .inl s' → Lite items C s' ∧ meas s' < meas s) ∧ (∀ s', ksStep s = .inr s' → Lite items C s') := by
  -- the backtracking part
  have bt : ∀ t : KS, Lite items C t → alts t.done t.rest.length < meas s →
      (∀ s', (match Knapsack.back t.done t.rest t.chat t.zhat with
        | none => (.inr t : KS ⊕ KS)
        | some (d, r, c, v) => .inl { t with done := d, rest := r, chat := c, zhat := v }) = .inl s' → Lite items C s' ∧ meas s' < meas s) ∧
      (∀ s', (match Knapsack.back t.done t.rest t.chat t.zhat with
        | none => (.inr t : KS ⊕ KS)
        | some (d, r, c, v) => .inl { t with done := d, rest := r, chat := c, zhat := v }) = .inr s' → Lite items C s') := by
    intro t ht hm
    cases hb : Knapsack.back t.done t.rest t.chat t.zhat with
    | none =>
      constructor
      · intro s' h; simp at h
      · intro s' h; simp at h; subst h; exact ht
    | some q =>
      obtain ⟨d, r, c, v⟩ := q
      constructor
      · intro s' h
        simp only [Sum.inl.injEq] at h
        subst h
        obtain ⟨g1, g2⟩ := Lite.back hi _ t _ rfl rfl ht d r c v hb
        refine ⟨g1, ?_⟩
        show 2 ^ r.length + alts d r.length < meas s
        rw [g2]; exact hm
      · intro s' h; simp at h
  unfold ksStep
  simp only
  split
  · refine bt s inv ?_
    unfold meas
    have : 0 < 2 ^ s.rest.length := Nat.pow_pos (by norm_num)
    omega
  · generalize hf : Knapsack.forward s.done s.rest s.chat s.zhat = q
    obtain ⟨d, r, c, v⟩ := q
    obtain ⟨g1, g2, g3⟩ := Lite.forward _ s rfl inv d r c v hf
    simp only
    split
    · rename_i hl
      constructor
      · intro s' h
        simp only [Sum.inl.injEq] at h
        subst h
        refine ⟨g1, ?_⟩
        have : r ≠ [] := by rintro rfl; simp at hl
        exact (g3 this).1
      · intro s' h; simp at h
    · rename_i hl
      have hr : r = [] := by
        by_contra hne
        exact hl (g3 hne).2
      subst hr
      obtain ⟨k1, k2⟩ := Lite.record hi _ rfl g1
      exact bt _ k1 (lt_of_lt_of_le k2 g2)

theorem Lite.loop {items : List (ℚ × ℚ)} {C : ℚ} (hi : ∀ i ∈ items, 0 ≤ i.2) : ∀ (n : Nat) (s : KS), meas s ≤ n → Lite items C s →
    ∃ s', ksLoop n s = some s' ∧ Lite items C s' := by
  intro n
  induction n with
  | zero =>
    intro s hm
    exfalso
    unfold meas at hm
    have : 0 < 2 ^ s.rest.length := Nat.pow_pos (by norm_num)
    omega
  | succ n ih =>
    intro s hm inv
    obtain ⟨h1, h2⟩ := Lite.step hi s inv
    unfold ksLoop
    cases hs : ksStep s with
    | inl s' =>
      obtain ⟨g1, g2⟩ := h1 s' hs
      exact ih s' (by omega) g1
    | inr s' => exact ⟨s', rfl, h2 s' hs⟩

/-- `exactSolveKnapsack` terminates for all profits, and its value is that of a choice within the capacity. -/
theorem exactSolve_fit {items : List (ℚ × ℚ)} (hi : ∀ i ∈ items, 0 ≤ i.2) {c : ℚ} (hc : 0 ≤ c + eps2) :
    ∃ z best, exactSolve items c = some (z, best) ∧ best.length = items.length ∧ weight items best ≤ c + eps2 ∧
      value items best = z := by
  obtain ⟨s', e, g⟩ := Lite.loop (C := c + eps2) hi (2 ^ items.length) ⟨[], items, c + eps2, 0, 0, items.map fun _ => false⟩
    (by simp [meas, alts])
    ⟨by simp [itemsOf], by simp [itemsOf, flags, weight], by simp [itemsOf, flags, value], by simp,
      by rw [weight_allFalse]; exact hc, by rw [value_allFalse], hc⟩
  exact ⟨s'.z, s'.best, by unfold exactSolve; rw [e], g.blen, g.bfit, g.bval⟩

end Cgl.Knapsack
