import Verif.Triple.Steps

/-! # Rows that are made free -/

namespace Cgl.Triple

/-- The inequality holds. -/
def Holds (i j1 j2 : Nat) (q : Ineq) (x : Nat → ℚ) : Prop := q.e0 * x i + q.e1 * x j1 + q.e2 * x j2 ≤ q.rhs

/-- Numbers of a row up to sign. -/
def Num (r : Row) (v : ℚ) : Prop := v ∈ 0 :: numbers r ∨ -v ∈ 0 :: numbers r

/-- Closer than the tolerance means equal. -/
def Sep (a b : ℚ) : Prop := |a - b| ≤ 1 / 10 ^ 7 → a = b

theorem Sep.le {a b : ℚ} (h : Sep a b) (h1 : a ≤ b + 1 / 10 ^ 7) : a ≤ b := by
  by_contra hc
  have hc := not_le.mp hc
  have := h (abs_le.mpr ⟨by have : (0 : ℚ) < 1 / 10 ^ 7 := by norm_num
                            linarith, by linarith⟩)
  linarith

theorem sep_of {root : ℚ → ℚ} {P : Prob} (h : Separated root P) {s t : ℚ} (hs : s ∈ scales root P) (ht : t ∈ scales root P)
    {r1 r2 : Row} (h1 : r1 ∈ P.rows) (h2 : r2 ∈ P.rows) (l1 : short r1 = true) (l2 : short r2 = true) {u v : ℚ}
    (hu : Num r1 u) (hv : Num r2 v) : Sep (s * u) (t * v) := by
  have m1 := List.mem_filter.mpr ⟨h1, l1⟩
  have m2 := List.mem_filter.mpr ⟨h2, l2⟩
  intro ha
  rcases hu with hu | hu <;> rcases hv with hv | hv
  · exact (h s hs t ht r1 m1 r2 m2 u hu v hv).1 ha
  · have := (h s hs t ht r1 m1 r2 m2 u hu _ hv).2 (by rw [show s * u + t * -v = s * u - t * v by ring]; exact ha)
    linarith
  · have := (h s hs t ht r1 m1 r2 m2 _ hu v hv).2 (by
      rw [show s * -u + t * v = -(s * u - t * v) by ring, abs_neg]; exact ha)
    linarith
  · have := (h s hs t ht r1 m1 r2 m2 _ hu _ hv).1 (by
      rw [show s * -u - t * -v = -(s * u - t * v) by ring, abs_neg]; exact ha)
    linarith

/-! ### What the states say -/

structure Stronger (nBits : Nat) (b s1 s2 : ℚ) (q1 q2 : Ineq) : Prop where
  rhs : s1 * (q1.rhs - b * q1.e0) ≤ s2 * (q2.rhs - b * q2.e0)
  e1 : s2 * q2.e1 ≤ s1 * q1.e1
  e2 : nBits ≠ 2 → s2 * q2.e2 ≤ s1 * q1.e2

/-- All comparisons of two rows are sharp. -/
structure Sharp (s1 s2 : ℚ) (q1 q2 : Ineq) : Prop where
  rhs0 : Sep (s1 * q1.rhs) (s2 * q2.rhs)
  rhs1 : Sep (s1 * (q1.rhs - q1.e0)) (s2 * (q2.rhs - q2.e0))
  e1 : Sep (s1 * q1.e1) (s2 * q2.e1)
  e2 : Sep (s1 * q1.e2) (s2 * q2.e2)

theorem small_tol {a b : ℚ} (h1 : a ≤ b + 1 / 10 ^ 9) (h2 : b ≤ a + 1 / 10 ^ 9) : |a - b| ≤ 1 / 10 ^ 7 := by
  have : (1 : ℚ) / 10 ^ 9 ≤ 1 / 10 ^ 7 := by norm_num
  exact abs_le.mpr ⟨by linarith, by linarith⟩

theorem Sep.symm {a b : ℚ} (h : Sep a b) : Sep b a := fun k => (h (by rwa [abs_sub_comm])).symm

theorem stronger_spec {nBits : Nat} {b s1 s2 : ℚ} {q1 q2 : Ineq} (hs : Sharp s1 s2 q1 q2) (hb : b = 0 ∨ b = 1)
    (h : stronger nBits b s1 s2 q1 q2 ≠ 0) :
    Stronger nBits b s1 s2 q1 q2 ∧ (stronger nBits b s1 s2 q1 q2 = 5 →
      s1 * (q1.rhs - b * q1.e0) = s2 * (q2.rhs - b * q2.e0) ∧
      (s1 * q1.e1 = s2 * q2.e1 ∨ (nBits ≠ 2 ∧ s1 * q1.e2 = s2 * q2.e2))) := by
  have hrhs : Sep (s1 * (q1.rhs - b * q1.e0)) (s2 * (q2.rhs - b * q2.e0)) := by
    rcases hb with rfl | rfl
    · simpa using hs.rhs0
    · simpa using hs.rhs1
  have tol : (1 : ℚ) / 10 ^ 9 ≤ 1 / 10 ^ 7 := by norm_num
  unfold stronger at h ⊢
  by_cases h1 : modifiedRhs s2 b q2 + 1 / 10 ^ 7 < modifiedRhs s1 b q1
  · rw [if_pos h1] at h; exact absurd rfl h
  · rw [if_neg h1] at h ⊢
    by_cases h2 : (((els nBits q1).zip (els nBits q2)).any fun p => decide (s1 * p.1 < s2 * p.2 - 1 / 10 ^ 9)) = true
    · rw [if_pos h2] at h; exact absurd rfl h
    · rw [if_neg h2]
      rw [Bool.not_eq_true, List.any_eq_false] at h2
      have h1 := not_lt.mp h1
      unfold modifiedRhs at h1
      have he1 : s2 * q2.e1 - 1 / 10 ^ 9 ≤ s1 * q1.e1 := by
        have := h2 (q1.e1, q2.e1) (by unfold els; split <;> simp)
        rw [decide_eq_true_iff] at this
        exact not_lt.mp this
      have he2 : nBits ≠ 2 → s2 * q2.e2 - 1 / 10 ^ 9 ≤ s1 * q1.e2 := by
        intro hn
        have := h2 (q1.e2, q2.e2) (by unfold els; rw [if_neg hn, if_neg hn]; simp)
        rw [decide_eq_true_iff] at this
        exact not_lt.mp this
      refine ⟨⟨hrhs.le h1, hs.e1.symm.le (by linarith), fun hn => hs.e2.symm.le (by have := he2 hn; linarith)⟩, ?_⟩
      intro h5
      by_cases h3 : modifiedRhs s2 b q2 - 1 / 10 ^ 7 < modifiedRhs s1 b q1
      · rw [if_pos h3] at h5
        unfold modifiedRhs at h3
        refine ⟨hrhs (abs_le.mpr ⟨by linarith, by linarith⟩), ?_⟩
        by_cases h4 : (((els nBits q1).zip (els nBits q2)).any fun p => decide (s1 * p.1 < s2 * p.2 + 1 / 10 ^ 9)) = true
        · obtain ⟨p, hp, hlt⟩ := List.any_eq_true.mp h4
          rw [decide_eq_true_iff] at hlt
          unfold els at hp
          by_cases hn : nBits = 2
          · rw [if_pos hn, if_pos hn] at hp
            simp only [List.zip_cons_cons, List.zip_nil_right, List.mem_cons, List.not_mem_nil, or_false] at hp
            rw [hp] at hlt
            exact Or.inl (hs.e1 (small_tol (by linarith) (by linarith)))
          · rw [if_neg hn, if_neg hn] at hp
            simp only [List.zip_cons_cons, List.zip_nil_right, List.mem_cons, List.not_mem_nil, or_false] at hp
            rcases hp with hp | hp
            · rw [hp] at hlt
              exact Or.inl (hs.e1 (small_tol (by linarith) (by linarith)))
            · rw [hp] at hlt
              exact Or.inr ⟨hn, hs.e2 (small_tol (by linarith) (by have := he2 hn; linarith))⟩
        · rw [if_neg h4] at h5; exact absurd h5 (by decide)
      · rw [if_neg h3] at h5
        split at h5 <;> exact absurd h5 (by decide)

/-- The stronger row implies the other one. -/
theorem dominates {nBits i j1 j2 : Nat} {s1 s2 : ℚ} {q1 q2 : Ineq} {x : Nat → ℚ} (h1 : 0 ≤ s1) (h2 : 0 < s2)
    (h : Stronger nBits (x i) s1 s2 q1 q2) (hx1 : 0 ≤ x j1) (hx2 : nBits ≠ 2 → 0 ≤ x j2)
    (hz : nBits = 2 → q1.e2 = 0 ∧ q2.e2 = 0) (hq : Holds i j1 j2 q1 x) : Holds i j1 j2 q2 x := by
  unfold Holds at hq ⊢
  have a := h.rhs
  have b := mul_le_mul_of_nonneg_right h.e1 hx1
  have c : s2 * q2.e2 * x j2 ≤ s1 * q1.e2 * x j2 := by
    by_cases hn : nBits = 2
    · rw [(hz hn).1, (hz hn).2]; simp
    · exact mul_le_mul_of_nonneg_right (h.e2 hn) (hx2 hn)
  have d := mul_le_mul_of_nonneg_left hq h1
  have e : s2 * (q2.e0 * x i + q2.e1 * x j1 + q2.e2 * x j2) ≤ s2 * q2.rhs := by nlinarith
  exact le_of_mul_le_mul_left e h2

/-! ### The inequalities of a row -/

/-- An inequality that comes from a row. -/
structure From (l : Line) (q : Ineq) : Prop where
  row : q.row = l.row
  sign : ∃ σ : ℚ, (σ = 1 ∨ σ = -1) ∧ q.e0 = σ * l.e0 ∧ q.e1 = σ * l.e1 ∧ q.e2 = σ * l.e2 ∧
    ((σ = 1 ∧ q.rhs = l.up) ∨ (σ = -1 ∧ q.rhs = -l.up ∧ ¬ l.lo < -10 ^ 20) ∨ (σ = -1 ∧ q.rhs = -l.lo ∧ ¬ l.lo < -10 ^ 20))
  holds : ∀ y, l.lo ≤ y → y ≤ l.up → ∀ a b c : ℚ, y = l.e0 * a + l.e1 * b + l.e2 * c →
    q.e0 * a + q.e1 * b + q.e2 * c ≤ q.rhs

theorem primary_from (l : Line) : From l (primary l) := by
  unfold primary
  split
  · refine ⟨rfl, ⟨1, Or.inl rfl, by simp, by simp, by simp, Or.inl ⟨rfl, rfl⟩⟩, ?_⟩
    intro y h1 h2 a b c e; dsimp only; linarith
  · rename_i hlo
    split
    · refine ⟨rfl, ⟨-1, Or.inr rfl, by simp, by simp, by simp, Or.inr (Or.inr ⟨rfl, rfl, hlo⟩)⟩, ?_⟩
      intro y h1 h2 a b c e; dsimp only; linarith
    · split
      · refine ⟨rfl, ⟨1, Or.inl rfl, by simp, by simp, by simp, Or.inl ⟨rfl, rfl⟩⟩, ?_⟩
        intro y h1 h2 a b c e; dsimp only; linarith
      · refine ⟨rfl, ⟨1, Or.inl rfl, by simp, by simp, by simp, Or.inl ⟨rfl, rfl⟩⟩, ?_⟩
        intro y h1 h2 a b c e; dsimp only; linarith

theorem twin_from {l : Line} {q : Ineq} (h : twin l = some q) :
    From l q ∧ |q.type| ≠ 1 ∧ -10 ^ 20 ≤ l.lo ∧ l.up ≤ 10 ^ 20 := by
  unfold twin at h
  split at h
  · cases h
  · rename_i hlo
    split at h
    · cases h
    · rename_i hup
      split at h
      · rename_i he
        rw [← Option.some.inj h]
        refine ⟨⟨rfl, ⟨-1, Or.inr rfl, by simp, by simp, by simp, Or.inr (Or.inl ⟨rfl, rfl, hlo⟩)⟩, ?_⟩, (by show |(-2 : ℤ)| ≠ 1; decide),
          not_lt.mp hlo, not_lt.mp hup⟩
        intro y h1 h2 a b c e; dsimp only; linarith
      · rw [← Option.some.inj h]
        refine ⟨⟨rfl, ⟨-1, Or.inr rfl, by simp, by simp, by simp, Or.inr (Or.inr ⟨rfl, rfl, hlo⟩)⟩, ?_⟩, (by show |(-3 : ℤ)| ≠ 1; decide),
          not_lt.mp hlo, not_lt.mp hup⟩
        intro y h1 h2 a b c e; dsimp only; linarith

/-- A row with one bound follows from its inequality. -/
theorem primary_back {l : Line} (hf : l.lo < -10 ^ 30 ∨ 10 ^ 30 < l.up) {inf : ℚ} (h1 : l.lo < -10 ^ 20 → l.lo ≤ -inf)
    (h2 : 10 ^ 20 < l.up → inf ≤ l.up) {a b c : ℚ} (h : (primary l).e0 * a + (primary l).e1 * b + (primary l).e2 * c ≤ (primary l).rhs) :
    lbOk inf l.lo (l.e0 * a + l.e1 * b + l.e2 * c) ∧ ubOk inf l.up (l.e0 * a + l.e1 * b + l.e2 * c) := by
  unfold primary at h
  by_cases hlo : l.lo < -10 ^ 20
  · rw [if_pos hlo] at h
    refine ⟨fun hh => ?_, fun _ => h⟩
    have := h1 hlo
    linarith
  · rw [if_neg hlo] at h
    have hlo' := not_lt.mp hlo
    by_cases hup : 10 ^ 20 < l.up
    · rw [if_pos hup] at h
      dsimp only at h
      refine ⟨fun _ => by linarith, fun hh => ?_⟩
      have := h2 hup
      linarith
    · exfalso
      have hup' := not_lt.mp hup
      have : (10 : ℚ) ^ 20 < 10 ^ 30 := by norm_num
      rcases hf with hf | hf <;> linarith

theorem ineqs_get {ls : List Line} {k : Nat} {q : Ineq} (h : (ineqs ls)[k]? = some q) :
    (k < ls.length ∧ ∃ l ∈ ls, q = primary l) ∨ (ls.length ≤ k ∧ ∃ l ∈ ls, twin l = some q) := by
  unfold ineqs at h
  by_cases hk : k < ls.length
  · left
    rw [List.getElem?_append_left (by rw [List.length_map]; exact hk), List.getElem?_map] at h
    obtain ⟨l, hl, e⟩ := Option.map_eq_some_iff.mp h
    exact ⟨hk, l, List.mem_of_getElem? hl, e.symm⟩
  · right
    rw [List.getElem?_append_right (by rw [List.length_map]; omega)] at h
    obtain ⟨l, hl, e⟩ := List.mem_filterMap.mp (List.mem_of_getElem? h)
    exact ⟨by omega, l, hl, e⟩

theorem twins_length (ls : List Line) : (ineqs ls).length ≤ 2 * ls.length := by
  unfold ineqs
  rw [List.length_append, List.length_map]
  have := List.length_filterMap_le twin ls
  omega

/-! ### The pair that decides -/

theorem dropped_spec {nBits : Nat} {sc : Nat → ℚ} {qs : List Ineq} {d : Nat} (h : dropped nBits sc qs = some d) :
    ∃ k1 k2 q1 q2, qs[k1]? = some q1 ∧ qs[k2]? = some q2 ∧ q1.row ≠ q2.row ∧
      stronger nBits 0 (sc k1) (sc k2) q1 q2 ≠ 0 ∧ stronger nBits 1 (sc k1) (sc k2) q1 q2 ≠ 0 ∧
      (d = q2.row ∨ (d = q1.row ∧ |q1.type| = 1 ∧ stronger nBits 0 (sc k1) (sc k2) q1 q2 = 5 ∧
        stronger nBits 1 (sc k1) (sc k2) q1 q2 = 5)) := by
  unfold dropped at h
  obtain ⟨k1, -, h⟩ := List.exists_of_findSome?_eq_some h
  obtain ⟨k2, -, h⟩ := List.exists_of_findSome?_eq_some h
  unfold dropPair at h
  split at h
  · rename_i q1 q2 e1 e2
    by_cases hk : k1 ≠ k2 ∧ q1.row ≠ q2.row
    · rw [if_pos hk] at h
      obtain ⟨first, hv, hd⟩ := Option.map_eq_some_iff.mp h
      refine ⟨k1, k2, q1, q2, e1, e2, hk.2, ?_⟩
      unfold verdict at hv
      by_cases h0 : stronger nBits 0 (sc k1) (sc k2) q1 q2 = 0 ∨ stronger nBits 1 (sc k1) (sc k2) q1 q2 = 0
      · rw [if_pos h0] at hv; cases hv
      · rw [if_neg h0] at hv
        refine ⟨fun e => h0 (Or.inl e), fun e => h0 (Or.inr e), ?_⟩
        by_cases h5 : stronger nBits 0 (sc k1) (sc k2) q1 q2 = 5
        · rw [if_pos h5] at hv
          by_cases h6 : stronger nBits 1 (sc k1) (sc k2) q1 q2 = 5
          · rw [if_pos h6] at hv
            have hv := Option.some.inj hv
            cases first with
            | false => exact Or.inl (by rw [← hd]; rfl)
            | true => exact Or.inr ⟨by rw [← hd]; rfl, of_decide_eq_true hv, h5, h6⟩
          · rw [if_neg h6] at hv
            by_cases h7 : stronger nBits 1 (sc k1) (sc k2) q1 q2 = 9
            · rw [if_pos h7] at hv
              left; rw [← hd, ← Option.some.inj hv]; rfl
            · rw [if_neg h7] at hv; cases hv
        · rw [if_neg h5] at hv
          by_cases h7 : stronger nBits 0 (sc k1) (sc k2) q1 q2 = 9
          · rw [if_pos h7] at hv
            left; rw [← hd, ← Option.some.inj hv]; rfl
          · rw [if_neg h7] at hv; cases hv
    · rw [if_neg hk] at h; cases h
  · cases h

end Cgl.Triple
