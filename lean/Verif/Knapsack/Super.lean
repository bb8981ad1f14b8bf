import Verif.Knapsack.Exact
import Mathlib.Algebra.BigOperators.Group.Finset.Basic
import Mathlib.Algebra.BigOperators.Intervals
import Mathlib.Algebra.Order.BigOperators.Group.Finset
import Mathlib.Order.Monotone.Basic
import Mathlib.Tactic.WLOG

/-!
# Sequence-independent lifting of cover inequalities

The superadditivity argument of Gu, Nemhauser and Savelsbergh, stated for a decreasing sequence `a 0 ≥ a 1 ≥ …` (the cover
coefficients followed by zeros).
-/

namespace Cgl.Knapsack.Super

open Finset

/-- Partial sums. -/
def mu (a : ℕ → ℚ) (h : ℕ) : ℚ := ∑ k ∈ range h, a k

/-- `ρ_h`. -/
def rh (a : ℕ → ℚ) (lam : ℚ) (h : ℕ) : ℚ := max 0 (a h - (a 0 - lam))

/-- `v` is a lifted coefficient that the lifting function allows for weight `z`. -/
def R (a : ℕ → ℚ) (lam : ℚ) (z v : ℚ) : Prop :=
  v ≤ 0 ∨ ∃ h : ℕ, 1 ≤ h ∧ ∃ t : ℚ, 0 ≤ t ∧ (t < rh a lam h ∨ t = 0) ∧ mu a h - lam + rh a lam h - t ≤ z ∧
    mu a h - lam < z ∧ v ≤ h - t / rh a lam 1

variable {a : ℕ → ℚ} {lam : ℚ}

theorem rh_nonneg (h : ℕ) : 0 ≤ rh a lam h := le_max_left _ _

theorem rh_ge (h : ℕ) : a h - (a 0 - lam) ≤ rh a lam h := le_max_right _ _

theorem rh_anti (ha : Antitone a) {h k : ℕ} (hk : h ≤ k) : rh a lam k ≤ rh a lam h :=
  max_le_max (le_refl _) (by have := ha hk; linarith)

theorem rh_diff {h m : ℕ} (hm : 1 ≤ m) (ha : Antitone a) (hhm : h ≤ m) : rh a lam 1 - rh a lam h ≤ a 1 - a m := by
  have h1 := rh_ge (a := a) (lam := lam) h
  have h2 := rh_nonneg (a := a) (lam := lam) h
  have h3 := ha hm
  have h4 := ha hhm
  unfold rh at h1 h2 ⊢
  rcases le_total (a 1 - (a 0 - lam)) 0 with h | h
  · rw [max_eq_left h]; linarith
  · rw [max_eq_right h]; linarith

/-- Rewriting `mu h1 + mu h2 - mu (h1 + h2)`. -/
theorem mu_split (h1 h2 : ℕ) : mu a h1 + mu a h2 - mu a (h1 + h2) = ∑ k ∈ range h1, (a k - a (h2 + k)) := by
  unfold mu
  rw [add_comm h1 h2, Finset.sum_range_add, Finset.sum_sub_distrib]
  ring

theorem sum_ge_two (ha : Antitone a) (m : ℕ) : ∀ h, 2 ≤ h →
    (a 0 - a (m + 0)) + (a 1 - a (m + 1)) ≤ ∑ k ∈ range h, (a k - a (m + k)) := by
  intro h hh
  induction h with
  | zero => omega
  | succ h ih =>
    rw [Finset.sum_range_succ]
    rcases Nat.lt_or_ge h 2 with h1 | h1
    · have : h = 1 := by omega
      subst this
      simp
    · have := ih h1
      have := ha (Nat.le_add_left h m)
      linarith

/-- Inequality (B). -/
theorem keyB (ha : Antitone a) {h1 h2 : ℕ} (p1 : 1 ≤ h1) (h12 : h1 ≤ h2) :
    rh a lam 1 ≤ mu a h1 + mu a h2 - mu a (h1 + h2) - lam + rh a lam h1 + rh a lam h2 := by
  rw [mu_split]
  have g2 := rh_ge (a := a) (lam := lam) h2
  rcases Nat.eq_or_lt_of_le p1 with e | p1
  · rw [← e]
    simp
    linarith
  · have s := sum_ge_two ha h2 h1 p1
    have d := rh_diff (lam := lam) (h := h1) (m := h2 + 1) (by omega) ha (by omega)
    simp only [add_zero] at s
    linarith

/-- Rewriting `mu h1 + mu h2 - mu (h1 + h2 - 1)`. -/
theorem mu_split' {h1 h2 : ℕ} (p1 : 1 ≤ h1) :
    mu a h1 + mu a h2 - mu a (h1 + h2 - 1) = a 0 + ∑ k ∈ range (h1 - 1), (a (k + 1) - a (h2 + k)) := by
  obtain ⟨m, rfl⟩ : ∃ m, h1 = m + 1 := ⟨h1 - 1, by omega⟩
  have : m + 1 + h2 - 1 = h2 + m := by omega
  rw [this]
  have e1 := Finset.sum_range_succ' a m
  have e2 := Finset.sum_range_add a h2 m
  unfold mu
  rw [e1, e2, Finset.sum_sub_distrib]
  simp
  ring

/-- Inequality (C). -/
theorem keyC (ha : Antitone a) (hl : lam ≤ a 0) {h1 h2 : ℕ} (p1 : 1 ≤ h1) (h12 : h1 ≤ h2) :
    rh a lam (h1 + h2 - 1) + rh a lam 1 ≤ mu a h1 + mu a h2 - mu a (h1 + h2 - 1) - lam + rh a lam h1 + rh a lam h2 := by
  rw [mu_split' p1]
  rcases Nat.eq_or_lt_of_le p1 with e1 | p1
  · rw [← e1]
    simp
    linarith
  · have s : a 1 - a (h2 + 0) ≤ ∑ k ∈ range (h1 - 1), (a (k + 1) - a (h2 + k)) := by
      have hm : 0 < h1 - 1 := by omega
      have : ∀ m, 0 < m → a 1 - a (h2 + 0) ≤ ∑ k ∈ range m, (a (k + 1) - a (h2 + k)) := by
        intro m hm
        induction m with
        | zero => omega
        | succ m ih =>
          rw [Finset.sum_range_succ]
          rcases Nat.eq_zero_or_pos m with h | h
          · subst h; simp
          · have := ih h
            have h3 : a (h2 + m) ≤ a (m + 1) := ha (by omega)
            linarith
      exact this _ hm
    have d := rh_diff (lam := lam) (h := h2) (m := h2) (by omega) ha (le_refl _)
    have q : rh a lam (h1 + h2 - 1) ≤ rh a lam h1 := rh_anti ha (by omega)
    simp only [add_zero] at s
    linarith

/-- From an `h` with the two inequalities to `R`. -/
theorem R_of {z v T : ℚ} {h : ℕ} (hh : 1 ≤ h) (hT : 0 ≤ T) (h1 : mu a h - lam + rh a lam h - T ≤ z) (h2 : mu a h - lam < z)
    (hv : v ≤ h - T / rh a lam 1) : R a lam z v := by
  right
  refine ⟨h, hh, max 0 (mu a h - lam + rh a lam h - z), le_max_left _ _, ?_, ?_, h2, ?_⟩
  · rcases le_total (mu a h - lam + rh a lam h - z) 0 with g | g
    · right; exact max_eq_left g
    · left; rw [max_eq_right g]; linarith
  · have := le_max_right 0 (mu a h - lam + rh a lam h - z)
    linarith
  · have h3 : max 0 (mu a h - lam + rh a lam h - z) ≤ T := max_le hT (by linarith)
    have h4 := div_le_div_of_nonneg_right h3 (rh_nonneg (a := a) (lam := lam) 1)
    linarith

theorem R_mono {z z' v : ℚ} (h : R a lam z v) (hz : z ≤ z') : R a lam z' v := by
  rcases h with h | ⟨k, k1, t, t0, t1, t2, t3, t4⟩
  · exact Or.inl h
  · exact Or.inr ⟨k, k1, t, t0, t1, le_trans t2 hz, lt_of_lt_of_le t3 hz, t4⟩

theorem R_less {z v v' : ℚ} (h : R a lam z v) (hv : v' ≤ v) : R a lam z v' := by
  rcases h with h | ⟨k, k1, t, t0, t1, t2, t3, t4⟩
  · exact Or.inl (le_trans hv h)
  · exact Or.inr ⟨k, k1, t, t0, t1, t2, t3, le_trans hv t4⟩

/-- Superadditivity. -/
theorem R_add (ha : Antitone a) (hl : lam ≤ a 0) {z1 z2 v1 v2 : ℚ} (p1 : 0 ≤ z1) (p2 : 0 ≤ z2)
    (r1 : R a lam z1 v1) (r2 : R a lam z2 v2) : R a lam (z1 + z2) (v1 + v2) := by
  rcases r1 with r1 | r1
  · exact R_less (R_mono r2 (by linarith)) (by linarith)
  rcases r2 with r2 | r2
  · exact R_less (R_mono (Or.inr r1) (by linarith)) (by linarith)
  obtain ⟨h1, k1, t1, t10, t1a, t1b, t1c, t1d⟩ := r1
  obtain ⟨h2, k2, t2, t20, t2a, t2b, t2c, t2d⟩ := r2
  wlog h12 : h1 ≤ h2 generalizing z1 z2 v1 v2 h1 h2 t1 t2
  · rw [add_comm z1, add_comm v1]
    exact this p2 p1 h2 k2 t2 t20 t2a t2b t2c t2d h1 k1 t1 t10 t1a t1b t1c t1d (by omega)
  have B := keyB (lam := lam) ha k1 h12
  have C := keyC ha hl k1 h12
  set s := z1 + z2 with hs
  have cast : ((h1 + h2 : ℕ) : ℚ) = h1 + h2 := by push_cast; ring
  have ρ0 := rh_nonneg (a := a) (lam := lam) 1
  have hsum : v1 + v2 ≤ ((h1 + h2 : ℕ) : ℚ) - (t1 + t2) / rh a lam 1 := by
    rw [cast, add_div]; linarith
  by_cases hc : mu a (h1 + h2) - lam < s
  · refine R_of (h := h1 + h2) (T := t1 + t2) (by omega) (by linarith) ?_ hc hsum
    have := rh_anti (lam := lam) ha (show 1 ≤ h1 + h2 by omega)
    linarith
  · push Not at hc
    -- the slopes leave one unit
    have hT : rh a lam 1 ≤ t1 + t2 := by linarith
    rcases eq_or_lt_of_le ρ0 with hz | hpos
    · -- no slope at all
      exfalso
      have e1 : rh a lam h1 = 0 := le_antisymm (by rw [hz]; exact rh_anti ha k1) (rh_nonneg _)
      have e2 : rh a lam h2 = 0 := le_antisymm (by rw [hz]; exact rh_anti ha k2) (rh_nonneg _)
      rw [e1, e2, ← hz] at B
      linarith
    · refine R_of (h := h1 + h2 - 1) (T := t1 + t2 - rh a lam 1) (by omega) (by linarith) ?_ ?_ ?_
      · linarith
      · have hmu : mu a (h1 + h2 - 1) + a 0 ≤ mu a h1 + mu a h2 := by
          have e := mu_split' (a := a) (h2 := h2) k1
          have : 0 ≤ ∑ k ∈ range (h1 - 1), (a (k + 1) - a (h2 + k)) := by
            refine Finset.sum_nonneg fun k hk => ?_
            have := Finset.mem_range.mp hk
            have := ha (show k + 1 ≤ h2 + k by omega)
            linarith
          linarith
        linarith
      · have e : ((h1 + h2 - 1 : ℕ) : ℚ) = ((h1 + h2 : ℕ) : ℚ) - 1 := by
          rw [Nat.cast_sub (by omega)]; simp
        rw [e, sub_div, div_self hpos.ne']
        linarith

theorem R_zero : R a lam 0 0 := Or.inl (le_refl _)

/-- The largest sum of `n` elements of a decreasing list with selection `y`. -/
theorem sum_sel_le : ∀ (c : List ℚ) (y : List Bool), y.length = c.length → c.Pairwise (fun p q => q ≤ p) → (∀ p ∈ c, 0 ≤ p) →
    ((c.zip y).map fun q => if q.2 then q.1 else 0).sum ≤ (c.take (y.count true)).sum := by
  intro c
  induction c with
  | nil => intro y h _ _; cases y <;> simp_all
  | cons p c ih =>
    intro y hy hs hp
    obtain ⟨b, bs, rfl, hbs⟩ := length_cons_eq hy
    have ih' := ih bs hbs (List.pairwise_cons.mp hs).2 (fun q hq => hp q (List.mem_cons_of_mem _ hq))
    have hp0 := hp p List.mem_cons_self
    cases b with
    | true => simp; linarith
    | false =>
      simp only [List.zip_cons_cons, List.map_cons, List.sum_cons, Bool.false_eq_true, if_false, zero_add]
      refine le_trans ih' ?_
      have hcount : List.count true (false :: bs) = List.count true bs := by simp
      rw [hcount]
      -- shifting the window left does not decrease the sum
      have shift : ∀ (n : Nat) (q : ℚ) (l : List ℚ), (q :: l).Pairwise (fun p q => q ≤ p) → (∀ p ∈ q :: l, 0 ≤ p) →
          (l.take n).sum ≤ ((q :: l).take n).sum := by
        intro n
        induction n with
        | zero => intro q l _ _; simp
        | succ n ihn =>
          intro q l hl hq
          cases l with
          | nil => simpa using hq q List.mem_cons_self
          | cons r l =>
            simp only [List.take_succ_cons, List.sum_cons]
            have h1 := List.pairwise_cons.mp hl
            have hr : r ≤ q := h1.1 r List.mem_cons_self
            have := ihn r l h1.2 (fun p h => hq p (List.mem_cons_of_mem _ h))
            linarith
      exact shift _ p c hs hp

end Cgl.Knapsack.Super
