import Verif.Setup.Props

/-! # The start of `preProcessNonDefault` returns -/

namespace Cgl.Setup

theorem prod_pos (rat : ℚ → ℤ × ℕ) (l : List ℚ) (hp : ∀ v ∈ l, 0 < (rat v).2) : 0 < (l.map fun v => (rat v).2).prod := by
  induction l with
  | nil => simp
  | cons w l ih =>
    rw [List.map_cons, List.prod_cons]
    exact Nat.mul_pos (hp w List.mem_cons_self) (ih fun v hv => hp v (List.mem_cons_of_mem _ hv))

theorem ratLoop_returns (rat : ℚ → ℤ × ℕ) (l : List ℚ) (hp : ∀ v ∈ l, 0 < (rat v).2) (s : ℕ × ℕ)
    (hs : s.2 * (l.map fun v => (rat v).2).prod < 2 ^ 63) : ∃ o, ratLoop rat l s = .ok o := by
  induction l generalizing s with
  | nil => exact ⟨_, rfl⟩
  | cons w l ih =>
    have hw := hp w List.mem_cons_self
    have hp' : ∀ v ∈ l, 0 < (rat v).2 := fun v hv => hp v (List.mem_cons_of_mem _ hv)
    have hpos := prod_pos rat l hp'
    rw [List.map_cons, List.prod_cons] at hs
    unfold ratLoop
    by_cases h1 : w = 0
    · rw [if_pos h1]
      refine ih hp' s (lt_of_le_of_lt ?_ hs)
      exact Nat.mul_le_mul_left _ (Nat.le_mul_of_pos_left _ hw)
    rw [if_neg h1]
    by_cases h2 : (rat w).1 = 0
    · rw [if_pos h2]; exact ⟨_, rfl⟩
    rw [if_neg h2]
    have hle : s.2 * ((rat w).2 / Nat.gcd s.2 (rat w).2) ≤ s.2 * (rat w).2 := Nat.mul_le_mul_left _ (Nat.div_le_self _ _)
    have hb : s.2 * ((rat w).2 / Nat.gcd s.2 (rat w).2) * (l.map fun v => (rat v).2).prod < 2 ^ 63 := by
      refine lt_of_le_of_lt (Nat.mul_le_mul_right _ hle) ?_
      rwa [Nat.mul_assoc]
    rw [if_neg (by
      have := Nat.le_mul_of_pos_right (s.2 * ((rat w).2 / Nat.gcd s.2 (rat w).2)) hpos
      omega)]
    exact ih hp' _ hb

theorem scaling_returns (rat : ℚ → ℤ × ℕ) (l : List ℚ) (hp : ∀ v ∈ l, 0 < (rat v).2)
    (hs : (l.map fun v => (rat v).2).prod < 2 ^ 63) : ∃ o, scaling rat l = .ok o := by
  cases l with
  | nil => exact ⟨_, rfl⟩
  | cons w l =>
    simp only [scaling]
    by_cases h : (rat w).1 = 0
    · rw [if_pos h]; exact ⟨_, rfl⟩
    · rw [if_neg h]
      rw [List.map_cons, List.prod_cons] at hs
      obtain ⟨o, ho⟩ := ratLoop_returns rat l (fun v hv => hp v (List.mem_cons_of_mem _ hv)) ((rat w).1.natAbs, (rat w).2) hs
      rw [ho]; exact ⟨_, rfl⟩

theorem multiplier_returns (rat : ℚ → ℤ × ℕ) (r : Row) (hp : ∀ v ∈ numbers r, 0 < (rat v).2)
    (hs : ((numbers r).map fun v => (rat v).2).prod < 2 ^ 63) : ∃ t, multiplier rat r = .ok t := by
  unfold multiplier
  by_cases h : smallest r.coefs ≠ 1
  · rw [if_pos h]
    obtain ⟨o, ho⟩ := scaling_returns rat (numbers r) hp hs
    unfold scaleRowIntegral
    rw [ho]; exact ⟨_, rfl⟩
  · rw [if_neg h]; exact ⟨_, rfl⟩

theorem newElements_returns (m : ℚ) (hm : m ≠ 0) (v : SVec) (h0 : ∀ p ∈ v, p.2 ≠ 0) (h : |m| = 1 ∨ ∀ p ∈ v, IsInteger (m * p.2)) :
    ∃ w, newElements m v = .ok w := by
  induction v with
  | nil => exact ⟨_, rfl⟩
  | cons p v ih =>
    obtain ⟨w, hw⟩ := ih (fun q hq => h0 q (List.mem_cons_of_mem _ hq)) (h.imp id fun h q hq => h q (List.mem_cons_of_mem _ hq))
    have he : ∃ e, newElement m p.2 = .ok e := by
      unfold newElement
      by_cases h1 : |m| ≠ 1
      · rw [if_pos h1]
        have hi := h.resolve_left h1 p List.mem_cons_self
        rw [floor_of_int hi (by norm_num) (by norm_num), sub_self, abs_zero]
        have hne : m * p.2 ≠ 0 := mul_ne_zero hm (h0 p List.mem_cons_self)
        obtain ⟨z, hz⟩ := hi
        have hz0 : z ≠ 0 := fun e => hne (by rw [hz, e]; simp)
        have h1z : (1 : ℚ) ≤ |(z : ℚ)| := by
          have := Int.one_le_abs hz0
          exact_mod_cast this
        rw [hz, if_pos ⟨by norm_num, by linarith⟩]
        exact ⟨_, rfl⟩
      · rw [if_neg h1]
        split
        · exact ⟨_, rfl⟩
        · exact ⟨_, rfl⟩
    obtain ⟨e, he⟩ := he
    unfold newElements
    rw [he, hw]
    exact ⟨_, rfl⟩

theorem scaleRow_returns (rat : ℚ → ℤ × ℕ) (r : Row) (hk : ∀ v ∈ numbers r, Known rat v) (hp : ∀ v ∈ numbers r, 0 < (rat v).2)
    (hs : ((numbers r).map fun v => (rat v).2).prod < 2 ^ 63) (h0 : ∀ p ∈ r.coefs, p.2 ≠ 0) : ∃ a, scaleRow rat r = .ok a := by
  unfold scaleRow
  by_cases hne : r.coefs = []
  · rw [if_pos hne]; exact ⟨_, rfl⟩
  rw [if_neg hne]
  obtain ⟨t, ht⟩ := multiplier_returns rat r hp hs
  have hg := multiplier_ok rat r hne hk t ht
  rw [ht]
  simp only [Except.bind]
  unfold changeRow
  by_cases h1 : t.1 = 1
  · rw [if_pos h1]; exact ⟨_, rfl⟩
  · rw [if_neg h1]
    obtain ⟨w, hw⟩ := newElements_returns t.1 hg.ne r.coefs h0 hg.int
    rw [hw]; exact ⟨_, rfl⟩

theorem scaleRows_returns (rat : ℚ → ℤ × ℕ) (l : List Row) (h : ∀ r ∈ l, ∃ a, scaleRow rat r = .ok a) :
    ∃ out, scaleRows rat l = .ok out := by
  induction l with
  | nil => exact ⟨_, rfl⟩
  | cons r l ih =>
    obtain ⟨a, ha⟩ := h r List.mem_cons_self
    obtain ⟨b, hb⟩ := ih fun q hq => h q (List.mem_cons_of_mem _ hq)
    unfold scaleRows
    rw [ha, hb]; exact ⟨_, rfl⟩

/-- Right hand sides that are not passed over can be converted to `int`. -/
theorem look_fits (P : Prob) (hF : Fine P) (a : Row × SVec) (hR : RowFine P a)
    (hsk : ¬ (10 ^ 6 ≤ (look P a).up ∨ (look P a).lo ≤ -10 ^ 6)) : fits (look P a) ≠ false := by
  obtain ⟨A, -, h1, h2, -⟩ := look_ok P hF a hR.copy hR.cols hR.sized
  have ho := hR.ordered
  rw [not_or, not_le, not_le] at hsk
  have hle : (look P a).lo ≤ (look P a).up := by rw [h1, h2]; linarith
  generalize look P a = k at hsk hle
  unfold fits
  rw [ne_eq, Bool.not_eq_false, Bool.and_eq_true, decide_eq_true_eq, decide_eq_true_eq, abs_lt, abs_lt]
  refine ⟨⟨?_, ?_⟩, ?_, ?_⟩
  · have : -10 ^ 6 - 1 ≤ ⌊k.up + 1 / 10 ^ 5⌋ := Int.le_floor.mpr (by push_cast; linarith [hsk.1, hsk.2])
    omega
  · have : ⌊k.up + 1 / 10 ^ 5⌋ < 10 ^ 6 + 1 := Int.floor_lt.mpr (by push_cast; linarith [hsk.1, hsk.2])
    omega
  · have : -10 ^ 6 - 1 < ⌈k.lo - 1 / 10 ^ 5⌉ := Int.lt_ceil.mpr (by push_cast; linarith [hsk.1, hsk.2])
    omega
  · have : ⌈k.lo - 1 / 10 ^ 5⌉ ≤ 10 ^ 6 := Int.ceil_le.mpr (by push_cast; linarith [hsk.1, hsk.2])
    omega

theorem cliques_returns (m : ℤ) (l : List (Row × SVec)) (i : ℕ) (P : Prob) (hF : Fine P) (hR : ∀ a ∈ l, RowFine P a) :
    ∃ o, cliques m l i P = .ok o := by
  induction l generalizing i P with
  | nil => exact ⟨_, rfl⟩
  | cons a l ih =>
    have hRa := hR a List.mem_cons_self
    have hRl := fun b hb => hR b (List.mem_cons_of_mem _ hb)
    unfold cliques
    by_cases hsk : 10 ^ 6 ≤ (look P a).up ∨ (look P a).lo ≤ -10 ^ 6
    · rw [if_pos hsk]; exact ih (i + 1) P hF hRl
    rw [if_neg hsk, if_neg (look_fits P hF a hRa hsk)]
    cases hk : kind (look P a) with
    | nothing => exact ih (i + 1) P hF hRl
    | infeasible => exact ⟨_, rfl⟩
    | fix =>
      obtain ⟨hg, -⟩ := kind_near (k := look P a) (by rw [hk]; simp)
      obtain ⟨A, -, -, -, hlook⟩ := look_ok P hF a hRa.copy hRa.cols hRa.sized
      obtain ⟨hp, hm, -⟩ := hlook hg
      exact ih (i + 1) _ (fixAll_fine P hF (look P a) hm hp)
        (fun b hb => ⟨(hRl b hb).copy, (hRl b hb).cols, (hRl b hb).sized, (hRl b hb).ordered⟩)
    | clique =>
      obtain ⟨o, ho⟩ := ih (i + 1) P hF hRl
      dsimp only
      rw [ho]; exact ⟨_, rfl⟩

/-- If the numbers in the rows are known, their denominators are small and no stored coefficient is zero, then no assertion fails
and nothing overflows. -/
theorem setup_returns_partial (rat : ℚ → ℤ × ℕ) (types : Bool) (makeEquality : ℤ) (P : Prob) (hN : Neat P) (ht : Tidy rat P)
    (hd : Denoms rat P) (h0 : NoZero P) : ∃ o, setup rat types makeEquality P = .ok o := by
  have hsc : ∃ rows, scaled rat types P = .ok rows := by
    unfold scaled
    split
    · exact ⟨_, rfl⟩
    · exact scaleRows_returns rat P.rows fun r hr => scaleRow_returns rat r (ht r hr) (hd r hr).1 (hd r hr).2 (h0 r hr)
  obtain ⟨rows, hrows⟩ := hsc
  have hs := scaled_ok rat types P (fun _ => ht) rows hrows
  obtain ⟨o, ho⟩ := cliques_returns (mode (clean (withRows P rows)) rows makeEquality) rows 0 (clean (withRows P rows))
    (fine_clean P hN rows) (rowFine_of P hN rows hs _ rfl)
  unfold setup
  rw [hrows]
  simp only [Except.bind, fromScaled]
  rw [ho]
  exact ⟨_, rfl⟩

end Cgl.Setup
