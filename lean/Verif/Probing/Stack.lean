import Verif.Probing.Step

/-!
# The stacks of one way of probing

What is on the stacks is what is needed to restore the state, whatever the way finds.
-/

namespace Cgl.Probing

variable {g : Cfg} {n : Nat} {x : Nat → ℚ} {live : Nat → Bool} {s s0 t : St}

/-- The bits 4 and 8 of `markC` tell the truth. -/
def Bits (s : St) (c : Nat) : Prop :=
  ((s.mark c).upInf = false → s.up c ≤ 10 ^ 10) ∧ ((s.mark c).lowInf = false → -10 ^ 10 ≤ s.lo c)

/-- The column is on the stack. -/
def OnStack (s : St) (c : Nat) : Prop := ∃ v ∈ s.sC, v.col = c

/-- The state between two columns that are probed. -/
structure L0 (g : Cfg) (n : Nat) (live : Nat → Bool) (s : St) : Prop where
  marks : ∀ c, (s.mark c).any = true → (s.mark c).fixed = true
  markR : ∀ i, s.markR i = false
  bits : ∀ c, (s.mark c).fixed = false → Bits s c
  int : ∀ c < n, g.isInt c = true → IsInteger (s.lo c) ∧ IsInteger (s.up c)
  dead : ∀ c < n, live c = false → (s.mark c).fixed = true

/-- The stack of columns. -/
structure KC (g : Cfg) (n : Nat) (s0 s : St) : Prop where
  off : ∀ c, ¬ OnStack s c → s.lo c = s0.lo c ∧ s.up c = s0.up c ∧ s.gap c = s0.gap c ∧ s.mark c = s0.mark c
  on : ∀ v ∈ s.sC, v.lo = s0.lo v.col ∧ v.up = s0.up v.col ∧ (s0.mark v.col).fixed = false ∧ v.col < n
  any : ∀ c, OnStack s c → (s.mark c).any = true
  int : ∀ c < n, g.isInt c = true → IsInteger (s.lo c) ∧ IsInteger (s.up c)

/-- The stack of rows. -/
structure KR (g : Cfg) (s0 s : St) : Prop where
  off : ∀ i, s.markR i = false → s.minR i = s0.minR i ∧ s.maxR i = s0.maxR i
  on : ∀ i, s.markR i = true → ∃ v ∈ s.sR, v.row = i
  saved : ∀ v ∈ s.sR, v.min = s0.minR v.row ∧ v.max = s0.maxR v.row ∧ ∃ r, g.rows[v.row]? = some r

/-- The bits of the columns other than `c`. -/
def BX (c : Nat) (s : St) : Prop := ∀ k, k ≠ c → ((s.mark k).fixed = false ∨ OnStack s k) → Bits s k

/-- The bits of all columns. -/
def B (s : St) : Prop := ∀ k, ((s.mark k).fixed = false ∨ OnStack s k) → Bits s k

theorem KC.same (h : KC g n s0 s) (hs : SameCols s t) : KC g n s0 t := by
  have ho : ∀ c, OnStack t c ↔ OnStack s c := fun c => by unfold OnStack; rw [hs.sC]
  refine ⟨?_, ?_, ?_, ?_⟩
  · intro c hc; rw [ho] at hc; rw [hs.lo, hs.up, hs.gap, hs.mark]; exact h.off c hc
  · rw [hs.sC]; exact h.on
  · intro c hc; rw [ho] at hc; rw [hs.mark]; exact h.any c hc
  · rw [hs.lo, hs.up]; exact h.int

theorem B.same (h : B s) (hs : SameCols s t) : B t := by
  intro k hk
  unfold OnStack at hk
  rw [hs.mark, hs.sC] at hk
  have := h k hk
  unfold Bits at this ⊢
  rw [hs.mark, hs.lo, hs.up]; exact this

theorem BX.same {c : Nat} (h : BX c s) (hs : SameCols s t) : BX c t := by
  intro k hkc hk
  unfold OnStack at hk
  rw [hs.mark, hs.sC] at hk
  have := h k hkc hk
  unfold Bits at this ⊢
  rw [hs.mark, hs.lo, hs.up]; exact this

theorem Bits.same {c : Nat} (h : Bits s c) (hs : SameCols s t) : Bits t c := by
  unfold Bits at h ⊢
  rw [hs.mark, hs.lo, hs.up]; exact h

/-! ### Rows -/

/-- Nothing about rows has changed. -/
structure SameRows (s t : St) : Prop where
  minR : t.minR = s.minR
  maxR : t.maxR = s.maxR
  markR : t.markR = s.markR
  sR : t.sR = s.sR

theorem KR.same (h : KR g s0 s) (hs : SameRows s t) : KR g s0 t := by
  refine ⟨?_, ?_, ?_⟩
  · rw [hs.minR, hs.maxR, hs.markR]; exact h.off
  · rw [hs.markR, hs.sR]; exact h.on
  · rw [hs.sR]; exact h.saved

theorem touch_kr (h : KR g s0 s) {i : Nat} (hi : ∃ r, g.rows[i]? = some r) :
    KR g s0 (touch i s) ∧ (touch i s).markR i = true := by
  unfold touch
  split
  · rename_i hm; exact ⟨h, hm⟩
  · rename_i hm
    have hm : s.markR i = false := by simpa using hm
    refine ⟨⟨?_, ?_, ?_⟩, by simp⟩
    · intro k hk
      by_cases hki : k = i
      · subst hki; simp at hk
      · dsimp only at hk; rw [Function.update_of_ne hki] at hk; exact h.off k hk
    · intro k hk
      by_cases hki : k = i
      · subst hki; exact ⟨_, List.mem_append_right _ (List.mem_singleton.mpr rfl), rfl⟩
      · dsimp only at hk; rw [Function.update_of_ne hki] at hk
        obtain ⟨v, hv, rfl⟩ := h.on k hk
        exact ⟨v, List.mem_append_left _ hv, rfl⟩
    · intro v hv
      rcases List.mem_append.mp hv with hv | hv
      · exact h.saved v hv
      · rw [List.mem_singleton.mp hv]
        exact ⟨(h.off i hm).1, (h.off i hm).2, hi⟩

theorem shiftRow_kr (h : KR g s0 s) {raised : Bool} {mv : ℚ} {e : Nat × ℚ} (hi : ∃ r, g.rows[e.1]? = some r) :
    KR g s0 (shiftRow g raised mv e s).1 := by
  obtain ⟨h1, h2⟩ := touch_kr h hi
  have ne : ∀ k, (touch e.1 s).markR k = false → k ≠ e.1 := by rintro k hk rfl; rw [h2] at hk; cases hk
  unfold shiftRow
  dsimp only
  split
  · split
    · refine ⟨?_, h1.on, h1.saved⟩
      intro k hk
      dsimp only at hk ⊢
      rw [Function.update_of_ne (ne k hk)]; exact h1.off k hk
    · exact h1
  · split
    · refine ⟨?_, h1.on, h1.saved⟩
      intro k hk
      dsimp only at hk ⊢
      rw [Function.update_of_ne (ne k hk)]; exact h1.off k hk
    · exact h1

theorem shiftRows_kr {raised : Bool} {mv : ℚ} : ∀ (es : List (Nat × ℚ)) (s : St),
    (∀ e ∈ es, ∃ r, g.rows[e.1]? = some r) → KR g s0 s → KR g s0 (shiftRows g raised mv es s).1
  | [], _, _, h => h
  | e :: es, s, hes, h => by
    have h1 := shiftRow_kr h (raised := raised) (mv := mv) (hes e List.mem_cons_self)
    unfold shiftRows
    rcases hh : shiftRow g raised mv e s with ⟨t, b⟩
    rw [hh] at h1
    cases b
    · exact shiftRows_kr es t (fun e' h' => hes e' (List.mem_cons_of_mem _ h')) h1
    · exact h1

theorem col_rows (g : Cfg) (c : Nat) : ∀ e ∈ g.col c, ∃ r, g.rows[e.1]? = some r :=
  fun e hh => (colEls_row e hh).imp fun _ hr => hr.1

/-! ### Columns -/

/-- Only column `c` has changed. -/
structure OnlyCol (c : Nat) (s t : St) : Prop where
  lo : ∀ k, k ≠ c → t.lo k = s.lo k
  up : ∀ k, k ≠ c → t.up k = s.up k
  gap : ∀ k, k ≠ c → t.gap k = s.gap k
  mark : ∀ k, k ≠ c → t.mark k = s.mark k
  sC : t.sC = s.sC

theorem KC.update (h : KC g n s0 s) {c : Nat} (hon : OnStack s c) (ho : OnlyCol c s t)
    (hany : (t.mark c).any = true) (hint : c < n → g.isInt c = true → IsInteger (t.lo c) ∧ IsInteger (t.up c)) :
    KC g n s0 t := by
  have hs : ∀ k, OnStack t k ↔ OnStack s k := fun k => by unfold OnStack; rw [ho.sC]
  refine ⟨?_, ?_, ?_, ?_⟩
  · intro k hk
    rw [hs] at hk
    have hkc : k ≠ c := by rintro rfl; exact hk hon
    rw [ho.lo k hkc, ho.up k hkc, ho.gap k hkc, ho.mark k hkc]; exact h.off k hk
  · rw [ho.sC]; exact h.on
  · intro k hk
    by_cases hkc : k = c
    · subst hkc; exact hany
    · rw [hs] at hk; rw [ho.mark k hkc]; exact h.any k hk
  · intro k hk hi
    by_cases hkc : k = c
    · subst hkc; exact hint hk hi
    · rw [ho.lo k hkc, ho.up k hkc]; exact h.int k hk hi

theorem BX.update {c : Nat} (h : BX c s) (ho : OnlyCol c s t) : BX c t := by
  intro k hkc hk
  unfold OnStack at hk
  rw [ho.mark k hkc, ho.sC] at hk
  have := h k hkc hk
  unfold Bits at this ⊢
  rw [ho.mark k hkc, ho.lo k hkc, ho.up k hkc]; exact this

theorem BX.all {c : Nat} (h : BX c s) (hc : Bits s c) : B s := by
  intro k hk
  by_cases hkc : k = c
  · subst hkc; exact hc
  · exact h k hkc hk

theorem moved_any {m : Mark} (h : m.any = true) (lo up : ℚ) : (m.moved lo up).any = true := by
  unfold Mark.any at h ⊢
  unfold Mark.moved
  rcases Bool.or_eq_true _ _ |>.mp h with h | h <;> simp [h]

theorem moved_bits (m : Mark) (lo up : ℚ) :
    ((m.moved lo up).upInf = false → up ≤ 10 ^ 10) ∧ ((m.moved lo up).lowInf = false → -10 ^ 10 ≤ lo) := by
  unfold Mark.moved
  simp only [decide_eq_false_iff_not, not_lt]
  exact ⟨id, id⟩

/-- What a move leaves of the stacks. -/
theorem spoil_k {c : Nat} {s1 : St} {r : St × Bool} (hc : KC g n s0 s1) (hr : KR g s0 r.1) (hs : SameCols s1 r.1)
    (hon : OnStack s1 c) (hb : BX c s1) (hbc : Bits s1 c) :
    KC g n s0 (spoil c r) ∧ KR g s0 (spoil c r) ∧ B (spoil c r) ∧ (spoil c r).sC = s1.sC := by
  have hc' := hc.same hs
  have hon' : OnStack r.1 c := by unfold OnStack at hon ⊢; rw [hs.sC]; exact hon
  unfold spoil
  split
  · have ho : OnlyCol c r.1 { r.1 with
        up := Function.update r.1.up c (-10 ^ 50)
        gap := Function.update r.1.gap c (-10 ^ 50) } :=
      ⟨fun _ _ => rfl, fun k hk => by simp [Function.update_of_ne hk], fun k hk => by simp [Function.update_of_ne hk],
        fun _ _ => rfl, rfl⟩
    refine ⟨hc'.update hon' ho (hc'.any c hon') ?_, hr.same ⟨rfl, rfl, rfl, rfl⟩, ?_, hs.sC⟩
    · intro hcn hi
      refine ⟨(hc'.int c hcn hi).1, ?_⟩
      dsimp only
      rw [Function.update_self]
      exact ⟨-10 ^ 50, by norm_num⟩
    · refine ((hb.same hs).update ho).all ?_
      have := hbc.same hs
      refine ⟨fun _ => ?_, this.2⟩
      dsimp only
      rw [Function.update_self]; norm_num
  · exact ⟨hc', hr, (hb.same hs).all (hbc.same hs), hs.sC⟩

theorem moveUp_k (hc : KC g n s0 s) (hr : KR g s0 s) {c : Nat} {b : ℚ} (hon : OnStack s c) (hb : BX c s) :
    KC g n s0 (moveUp g c b s) ∧ KR g s0 (moveUp g c b s) ∧ B (moveUp g c b s) ∧ (moveUp g c b s).sC = s.sC := by
  unfold moveUp
  dsimp only
  obtain ⟨b', hb'⟩ : ∃ b' : ℚ, b' = if g.isInt c then max (s.lo c) ⌈b - 1 / 10 ^ 4⌉ else b := ⟨_, rfl⟩
  rw [← hb']
  obtain ⟨s1, hs1⟩ : ∃ s1 : St, s1 = { s with
      obj := if g.sol c < b ∧ ¬ g.dj c < 0 then s.obj + (b - s.lo c) * g.dj c else s.obj
      lo := Function.update s.lo c b'
      gap := Function.update s.gap c (s.up c - b' - tol)
      mark := Function.update s.mark c ((s.mark c).moved b' (s.up c)) } := ⟨_, rfl⟩
  rw [← hs1]
  have ho : OnlyCol c s s1 := by
    rw [hs1]
    exact ⟨fun k hk => by simp [Function.update_of_ne hk], fun _ _ => rfl, fun k hk => by simp [Function.update_of_ne hk],
      fun k hk => by simp [Function.update_of_ne hk], rfl⟩
  have hm : s1.mark c = (s.mark c).moved b' (s.up c) := by rw [hs1]; simp
  have hl : s1.lo c = b' := by rw [hs1]; simp
  have hu : s1.up c = s.up c := by rw [hs1]
  have hrow : SameRows s s1 := by rw [hs1]; exact ⟨rfl, rfl, rfl, rfl⟩
  have hc1 : KC g n s0 s1 := by
    refine hc.update hon ho (by rw [hm]; exact moved_any (hc.any c hon) _ _) ?_
    intro hcn hi
    rw [hl, hu, hb', if_pos hi]
    refine ⟨?_, (hc.int c hcn hi).2⟩
    rcases max_choice (s.lo c) ((⌈b - 1 / 10 ^ 4⌉ : ℤ) : ℚ) with h | h <;> rw [h]
    · exact (hc.int c hcn hi).1
    · exact isInteger_cast _
  have hon1 : OnStack s1 c := by unfold OnStack at hon ⊢; rw [ho.sC]; exact hon
  have hbc : Bits s1 c := by unfold Bits; rw [hm, hl, hu]; exact moved_bits _ _ _
  have := spoil_k hc1 (shiftRows_kr (raised := true) (mv := b - s.lo c) _ s1 (col_rows g c) (hr.same hrow))
    (shiftRows_same g true (b - s.lo c) (g.col c) s1) hon1 (hb.update ho) hbc
  rw [ho.sC] at this
  exact this

theorem moveDown_k (hc : KC g n s0 s) (hr : KR g s0 s) {c : Nat} {b mv : ℚ} (hon : OnStack s c) (hb : BX c s) :
    KC g n s0 (moveDown g c b mv s) ∧ KR g s0 (moveDown g c b mv s) ∧ B (moveDown g c b mv s) ∧
      (moveDown g c b mv s).sC = s.sC := by
  unfold moveDown
  dsimp only
  obtain ⟨b', hb'⟩ : ∃ b' : ℚ, b' = if g.isInt c then min (s.up c) ⌊b + 1 / 10 ^ 4⌋ else b := ⟨_, rfl⟩
  rw [← hb']
  obtain ⟨s1, hs1⟩ : ∃ s1 : St, s1 = { s with
      obj := if b < g.sol c ∧ ¬ 0 < g.dj c then s.obj + mv * g.dj c else s.obj
      up := Function.update s.up c b'
      gap := Function.update s.gap c (b' - s.lo c - tol)
      mark := Function.update s.mark c ((s.mark c).moved (s.lo c) b') } := ⟨_, rfl⟩
  rw [← hs1]
  have ho : OnlyCol c s s1 := by
    rw [hs1]
    exact ⟨fun _ _ => rfl, fun k hk => by simp [Function.update_of_ne hk], fun k hk => by simp [Function.update_of_ne hk],
      fun k hk => by simp [Function.update_of_ne hk], rfl⟩
  have hm : s1.mark c = (s.mark c).moved (s.lo c) b' := by rw [hs1]; simp
  have hl : s1.lo c = s.lo c := by rw [hs1]
  have hu : s1.up c = b' := by rw [hs1]; simp
  have hrow : SameRows s s1 := by rw [hs1]; exact ⟨rfl, rfl, rfl, rfl⟩
  have hc1 : KC g n s0 s1 := by
    refine hc.update hon ho (by rw [hm]; exact moved_any (hc.any c hon) _ _) ?_
    intro hcn hi
    rw [hl, hu, hb', if_pos hi]
    refine ⟨(hc.int c hcn hi).1, ?_⟩
    rcases min_choice (s.up c) ((⌊b + 1 / 10 ^ 4⌋ : ℤ) : ℚ) with h | h <;> rw [h]
    · exact (hc.int c hcn hi).2
    · exact isInteger_cast _
  have hon1 : OnStack s1 c := by unfold OnStack at hon ⊢; rw [ho.sC]; exact hon
  have hbc : Bits s1 c := by unfold Bits; rw [hm, hl, hu]; exact moved_bits _ _ _
  have := spoil_k hc1 (shiftRows_kr (raised := false) (mv := mv) _ s1 (col_rows g c) (hr.same hrow))
    (shiftRows_same g false mv (g.col c) s1) hon1 (hb.update ho) hbc
  rw [ho.sC] at this
  exact this

/-- The invariants of a way, whatever the point. -/
structure K (g : Cfg) (n : Nat) (s0 s : St) : Prop where
  c : KC g n s0 s
  r : KR g s0 s
  b : B s

/-- Column `c` is marked with `m` and put on the stack. -/
theorem push_k (hL : L0 g n live s0) (hK : K g n s0 s) {c : Nat} (hcn : c < n) (hf : (s.mark c).fixed = false) {m : Mark}
    (hm : m.any = true) {ex : Bool} :
    KC g n s0 (push (s.mark c).any c { s with
      mark := Function.update s.mark c m
      exact := ex }) ∧
    KR g s0 (push (s.mark c).any c { s with
      mark := Function.update s.mark c m
      exact := ex }) ∧
    BX c (push (s.mark c).any c { s with
      mark := Function.update s.mark c m
      exact := ex }) ∧
    OnStack (push (s.mark c).any c { s with
      mark := Function.update s.mark c m
      exact := ex }) c := by
  have hon : (s.mark c).any = true → OnStack s c := by
    intro ha
    by_contra hno
    have := (hK.c.off c hno).2.2.2
    rw [this] at ha hf
    rw [hL.marks c ha] at hf; cases hf
  have hoff : (s.mark c).any = false → ¬ OnStack s c := by
    intro ha hs
    rw [hK.c.any c hs] at ha; cases ha
  unfold push
  split
  · rename_i ha
    have ho : OnlyCol c s { s with
        mark := Function.update s.mark c m
        exact := ex } :=
      ⟨fun _ _ => rfl, fun _ _ => rfl, fun _ _ => rfl, fun k hk => by simp [Function.update_of_ne hk], rfl⟩
    refine ⟨hK.c.update (hon ha) ho (by simpa using hm) (fun h1 h2 => hK.c.int c h1 h2), hK.r.same ⟨rfl, rfl, rfl, rfl⟩,
      BX.update (fun k _ hk => hK.b k hk) ho, hon ha⟩
  · rename_i ha
    have ha : (s.mark c).any = false := by simpa using ha
    have hno := hoff ha
    obtain ⟨o1, o2, o3, o4⟩ := hK.c.off c hno
    refine ⟨⟨?_, ?_, ?_, ?_⟩, hK.r.same ⟨rfl, rfl, rfl, rfl⟩, ?_, ?_⟩
    · intro k hk
      have hkc : k ≠ c := by
        rintro rfl; exact hk ⟨_, List.mem_append_right _ (List.mem_singleton.mpr rfl), rfl⟩
      have hks : ¬ OnStack s k := fun ⟨v, hv, hvk⟩ => hk ⟨v, List.mem_append_left _ hv, hvk⟩
      dsimp only
      rw [Function.update_of_ne hkc]; exact hK.c.off k hks
    · intro v hv
      rcases List.mem_append.mp hv with hv | hv
      · exact hK.c.on v hv
      · rw [List.mem_singleton.mp hv]
        exact ⟨o1, o2, by rw [← o4]; exact hf, hcn⟩
    · intro k hk
      by_cases hkc : k = c
      · subst hkc; simpa using hm
      · dsimp only
        rw [Function.update_of_ne hkc]
        obtain ⟨v, hv, hvk⟩ := hk
        rcases List.mem_append.mp hv with hv | hv
        · exact hK.c.any k ⟨v, hv, hvk⟩
        · rw [List.mem_singleton.mp hv] at hvk; exact absurd hvk.symm hkc
    · exact hK.c.int
    · intro k hkc hk
      dsimp only at hk
      rw [Function.update_of_ne hkc] at hk
      have : Bits s k := by
        refine hK.b k (hk.imp_right ?_)
        rintro ⟨v, hv, hvk⟩
        rcases List.mem_append.mp hv with hv | hv
        · exact ⟨v, hv, hvk⟩
        · rw [List.mem_singleton.mp hv] at hvk; exact absurd hvk.symm hkc
      unfold Bits at this ⊢
      dsimp only
      rw [Function.update_of_ne hkc]; exact this
    · exact ⟨_, List.mem_append_right _ (List.mem_singleton.mpr rfl), rfl⟩

theorem K.setBad (h : K g n s0 s) (b : Bool) : K g n s0 { s with bad := b } :=
  ⟨⟨h.c.off, h.c.on, h.c.any, h.c.int⟩, ⟨h.r.off, h.r.on, h.r.saved⟩, h.b⟩

/-- The state before the last test of `applyMoves`. -/
def movesCore (g : Cfg) (c : Nat) (nl nu : ℚ) (m : Mark) (ex : Bool) (s : St) : St :=
  let s1 := { s with
    mark := Function.update s.mark c m
    exact := s.exact && ex }
  let s2 := if nl - s.lo c ≠ 0 then moveUp g c nl (push (s.mark c).any c s1) else s1
  if nu - s.up c ≠ 0 ∧ s2.sC.length < 2 * maxStack then
    moveDown g c nu (nu - s.up c) (push ((s.mark c).any || decide (nl - s.lo c ≠ 0)) c s2)
  else s2

/-- `applyMoves` does nothing, or what `movesCore` says. -/
theorem applyMoves_cases (g : Cfg) (c : Nat) (nl nu : ℚ) (m : Mark) (ex : Bool) (s : St) :
    (applyMoves g c nl nu m ex s = (s, false)) ∨
    (¬ (nl - s.lo c = 0 ∧ nu - s.up c = 0) ∧ applyMoves g c nl nu m ex s =
      if s.up c + tol < s.lo c then ({ s with bad := true }, true) else (s, false)) ∨
    (¬ (nl - s.lo c = 0 ∧ nu - s.up c = 0) ∧ s.sC.length < 2 * maxStack ∧ applyMoves g c nl nu m ex s =
      if (movesCore g c nl nu m ex s).up c + tol < (movesCore g c nl nu m ex s).lo c then
        ({ movesCore g c nl nu m ex s with bad := true }, true)
      else (movesCore g c nl nu m ex s, false)) := by
  unfold applyMoves
  dsimp only
  by_cases h0 : nl - s.lo c = 0 ∧ nu - s.up c = 0
  · rw [if_pos h0]; exact Or.inl rfl
  · rw [if_neg h0]
    right
    by_cases hl : s.sC.length < 2 * maxStack
    · right
      refine ⟨h0, hl, ?_⟩
      rw [if_pos hl]
      unfold movesCore
      dsimp only
      by_cases h1 : nl - s.lo c ≠ 0
      · simp only [h1, hl, decide_true, Bool.and_true, if_true, Bool.and_eq_true, decide_eq_true_eq, ne_eq,
          not_false_eq_true]
      · have h1 : nl - s.lo c = 0 := not_not.mp h1
        simp only [h1, hl, decide_true, Bool.and_true, decide_eq_true_eq, ne_eq, not_true,
          decide_false, Bool.false_eq_true, if_false, Bool.or_false, and_true]
    · left
      refine ⟨h0, ?_⟩
      simp only [hl, decide_false, Bool.and_false, Bool.false_eq_true, if_false]

theorem movesCore_k (hL : L0 g n live s0) (hK : K g n s0 s) {c : Nat} (hcn : c < n) (hf : (s.mark c).fixed = false)
    {nl nu : ℚ} {m : Mark} (hm : m.any = true) {ex : Bool} (h0 : ¬ (nl - s.lo c = 0 ∧ nu - s.up c = 0))
    (hlen : s.sC.length < 2 * maxStack) : K g n s0 (movesCore g c nl nu m ex s) := by
  obtain ⟨p1, p2, p3, p4⟩ := push_k hL hK hcn hf hm (ex := s.exact && ex)
  unfold movesCore
  dsimp only
  by_cases h1 : nl - s.lo c ≠ 0
  · rw [if_pos h1]
    obtain ⟨q1, q2, q3, q4⟩ := moveUp_k p1 p2 (b := nl) p4 p3
    have hq : OnStack (moveUp g c nl (push (s.mark c).any c { s with
      mark := Function.update s.mark c m
      exact := s.exact && ex })) c := by
      unfold OnStack at p4 ⊢; rw [q4]; exact p4
    split
    · have hp : ∀ t : St, push ((s.mark c).any || decide (nl - s.lo c ≠ 0)) c t = t := by
        intro t; simp [push, h1]
      rw [hp]
      obtain ⟨r1, r2, r3, -⟩ := moveDown_k q1 q2 (b := nu) (mv := nu - s.up c) hq (fun k _ hk => q3 k hk)
      exact ⟨r1, r2, r3⟩
    · exact ⟨q1, q2, q3⟩
  · rw [if_neg h1]
    have h1 : nl - s.lo c = 0 := not_not.mp h1
    have h2 : nu - s.up c ≠ 0 := fun h => h0 ⟨h1, h⟩
    rw [if_pos ⟨h2, hlen⟩]
    have : ((s.mark c).any || decide (nl - s.lo c ≠ 0)) = (s.mark c).any := by simp [h1]
    rw [this]
    obtain ⟨r1, r2, r3, -⟩ := moveDown_k p1 p2 (b := nu) (mv := nu - s.up c) p4 p3
    exact ⟨r1, r2, r3⟩

theorem applyMoves_k (hL : L0 g n live s0) (hK : K g n s0 s) {c : Nat} (hcn : c < n) (hf : (s.mark c).fixed = false)
    {nl nu : ℚ} {m : Mark} (hm : ¬ (nl - s.lo c = 0 ∧ nu - s.up c = 0) → m.any = true) {ex : Bool} :
    K g n s0 (applyMoves g c nl nu m ex s).1 := by
  rcases applyMoves_cases g c nl nu m ex s with h | ⟨-, h⟩ | ⟨h0, hl, h⟩
  · rw [h]; exact hK
  · rw [h]; split
    · exact hK.setBad true
    · exact hK
  · rw [h]
    have := movesCore_k hL hK hcn hf (hm h0) (ex := ex) h0 hl
    split
    · exact this.setBad true
    · exact this

theorem newLower_up (isInt : Bool) (d u : ℚ) (m : Mark) : (newLower isInt d u m).2.1.up = true := by
  unfold newLower
  split
  · rfl
  · split <;> rfl

theorem newUpper_dn (isInt : Bool) (d l : ℚ) (m : Mark) : (newUpper isInt d l m).2.1.dn = true := by
  unfold newUpper
  split
  · rfl
  · split <;> rfl

theorem planUp_any {want : Bool} {ru rl : ℚ} {e : Nat × ℚ} {m : Mark} (h : (planUp g want ru rl e s m).1 ≠ s.lo e.1) :
    (planUp g want ru rl e s m).2.1.up = true := by
  unfold planUp at h ⊢
  split
  · exact newLower_up _ _ _ _
  · rename_i hh; rw [if_neg hh] at h; exact absurd rfl h

theorem planDown_any {want : Bool} {ru rl : ℚ} {e : Nat × ℚ} {m : Mark}
    (h : m.up = true ∨ (planDown g want ru rl e s m).1 ≠ s.up e.1) :
    (planDown g want ru rl e s m).2.1.any = true := by
  unfold planDown at h ⊢
  split
  · simp [Mark.any, newUpper_dn]
  · rename_i hh
    rw [if_neg hh] at h
    rcases h with h | h
    · simp [Mark.any, h]
    · exact absurd rfl h

theorem elStep_k (hL : L0 g n live s0) (hK : K g n s0 s) {i : Nat} {useUp useLo : Bool} {e : Nat × ℚ} (hc : e.1 < n) :
    K g n s0 (elStep g i useUp useLo e s).1 := by
  unfold elStep
  dsimp only
  split
  · exact hK
  · rename_i hf
    refine applyMoves_k hL hK hc (by simpa using hf) ?_
    intro h0
    refine planDown_any ?_
    by_contra hcon
    push Not at hcon
    refine h0 ⟨?_, by rw [hcon.2]; ring⟩
    by_contra h1
    have := planUp_any (g := g) (s := s) (e := e) (m := s.mark e.1) fun h => h1 (by rw [h]; ring)
    exact hcon.1 this

theorem elLoop_k (hL : L0 g n live s0) {i : Nat} {useUp useLo : Bool} : ∀ (es : List (Nat × ℚ)) (s : St),
    (∀ e ∈ es, e.1 < n) → K g n s0 s → K g n s0 (elLoop g i useUp useLo es s)
  | [], _, _, h => h
  | e :: es, s, hes, h => by
    have h1 := elStep_k hL h (i := i) (useUp := useUp) (useLo := useLo) (hes e List.mem_cons_self)
    unfold elLoop
    rcases hh : elStep g i useUp useLo e s with ⟨t, b⟩
    rw [hh] at h1
    cases b
    · exact elLoop_k hL es t (fun e' h' => hes e' (List.mem_cons_of_mem _ h')) h1
    · exact h1

/-- The columns of the rows are columns. -/
def ColsOk (g : Cfg) (n : Nat) : Prop := ∀ r ∈ g.rows, ∀ p ∈ r.els, p.1 < n

theorem rowStep_k (hcols : ColsOk g n) (hL : L0 g n live s0) (hK : K g n s0 s) (i : Nat) : K g n s0 (rowStep g i s) := by
  unfold rowStep
  rcases hr : g.rows[i]? with _ | r
  · exact hK
  · have hm := hcols r (List.mem_of_getElem? hr)
    dsimp only
    split
    · exact hK.setBad true
    · split
      · exact hK.setBad true
      · exact elLoop_k hL _ _ (fun e he => hm e (List.mem_append_right _ he))
          (elLoop_k hL _ _ (fun e he => hm e (List.mem_append_left _ he)) hK)

theorem colLoop_k (hcols : ColsOk g n) (hL : L0 g n live s0) : ∀ (es : List (Nat × ℚ)) (s : St),
    K g n s0 s → K g n s0 (colLoop g es s)
  | [], _, h => h
  | e :: es, s, h => by
    unfold colLoop
    split
    · exact h
    · exact colLoop_k hcols hL es _ (rowStep_k hcols hL h e.1)

theorem queue_k (hcols : ColsOk g n) (hL : L0 g n live s0) : ∀ (m k : Nat) (s : St), K g n s0 s → K g n s0 (queue g m k s)
  | 0, _, _, h => h
  | m + 1, k, s, h => by
    unfold queue
    split
    · exact h
    · split
      · exact h
      · exact queue_k hcols hL m (k + 1) _ (colLoop_k hcols hL _ _ h)

/-- The state in which the loop over the stack starts. -/
def branchStart (g : Cfg) (way : Bool) (j : Nat) (d : ℚ) (s : St) : St :=
  let n : ℚ := ⌊d + 1 / 2⌋
  let lo := if way then Function.update s.lo j n else s.lo
  let up := if way then s.up else Function.update s.up j n
  { s with
    obj := if 0 < (d - g.sol j) * g.dj j then g.current + (d - g.sol j) * g.dj j else g.current
    lo := lo
    up := up
    gap := Function.update s.gap j (up j - lo j - tol)
    mark := Function.update s.mark j ((⟨!way, way, false, false⟩ : Mark).moved (lo j) (up j))
    sC := [⟨j, s.lo j, s.up j⟩]
    sR := []
    bad := false }

theorem branch_eq (g : Cfg) (way : Bool) (j : Nat) (d : ℚ) (s : St) :
    branch g way j d s =
      if (shiftRows g way (if way then d - s.lo j else d - s.up j) (g.col j) (branchStart g way j d s)).2 then
        { (shiftRows g way (if way then d - s.lo j else d - s.up j) (g.col j) (branchStart g way j d s)).1 with bad := true }
      else queue g maxStack 0
        (shiftRows g way (if way then d - s.lo j else d - s.up j) (g.col j) (branchStart g way j d s)).1 := rfl

theorem branchStart_k (hL : L0 g n live s0) {way : Bool} {j : Nat} {d : ℚ} (hj : j < n) (hf : (s0.mark j).fixed = false) :
    K g n s0 (branchStart g way j d s0) := by
  have hon : ∀ k, OnStack (branchStart g way j d s0) k ↔ k = j := by
    intro k; unfold OnStack branchStart; simp [eq_comm]
  refine ⟨⟨?_, ?_, ?_, ?_⟩, ⟨?_, ?_, ?_⟩, ?_⟩
  · intro k hk
    rw [hon] at hk
    unfold branchStart
    dsimp only
    rw [Function.update_of_ne hk, Function.update_of_ne hk]
    cases way <;> simp [Function.update_of_ne hk]
  · intro v hv
    unfold branchStart at hv
    dsimp only at hv
    rw [List.mem_singleton.mp hv]
    exact ⟨rfl, rfl, hf, hj⟩
  · intro k hk
    rw [hon] at hk
    subst hk
    unfold branchStart
    dsimp only
    rw [Function.update_self]
    exact moved_any (by cases way <;> rfl) _ _
  · intro k hk hi
    have := hL.int k hk hi
    unfold branchStart
    dsimp only
    cases way
    · simp only [Bool.false_eq_true, if_false]
      refine ⟨this.1, ?_⟩
      by_cases hkj : k = j
      · subst hkj; rw [Function.update_self]; exact isInteger_cast _
      · rw [Function.update_of_ne hkj]; exact this.2
    · simp only [if_true]
      refine ⟨?_, this.2⟩
      by_cases hkj : k = j
      · subst hkj; rw [Function.update_self]; exact isInteger_cast _
      · rw [Function.update_of_ne hkj]; exact this.1
  · intro i _; exact ⟨rfl, rfl⟩
  · intro i hi
    have : s0.markR i = true := hi
    rw [hL.markR i] at this; cases this
  · intro v hv; cases hv
  · intro k hk
    by_cases hkj : k = j
    · subst hkj
      unfold Bits branchStart
      dsimp only
      rw [Function.update_self]
      exact moved_bits _ _ _
    · have h1 : (branchStart g way j d s0).mark k = s0.mark k := by
        unfold branchStart; dsimp only; rw [Function.update_of_ne hkj]
      have h2 : (branchStart g way j d s0).lo k = s0.lo k := by
        unfold branchStart; dsimp only; cases way <;> simp [Function.update_of_ne hkj]
      have h3 : (branchStart g way j d s0).up k = s0.up k := by
        unfold branchStart; dsimp only; cases way <;> simp [Function.update_of_ne hkj]
      rw [h1, hon] at hk
      have := hL.bits k (hk.resolve_right hkj)
      unfold Bits at this ⊢
      rw [h1, h2, h3]; exact this

theorem branch_k (hcols : ColsOk g n) (hL : L0 g n live s0) {way : Bool} {j : Nat} {d : ℚ} (hj : j < n)
    (hf : (s0.mark j).fixed = false) : K g n s0 (branch g way j d s0) := by
  have h := branchStart_k hL (way := way) (d := d) hj hf
  rw [branch_eq]
  obtain ⟨mv, hmv⟩ : ∃ mv : ℚ, mv = if way then d - s0.lo j else d - s0.up j := ⟨_, rfl⟩
  rw [← hmv]
  have h1 : K g n s0 (shiftRows g way mv (g.col j) (branchStart g way j d s0)).1 :=
    ⟨h.c.same (shiftRows_same _ _ _ _ _), shiftRows_kr _ _ (col_rows g j) h.r, h.b.same (shiftRows_same _ _ _ _ _)⟩
  split
  · exact h1.setBad true
  · exact queue_k hcols hL _ _ _ h1

end Cgl.Probing
