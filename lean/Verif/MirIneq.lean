import Verif.Spec
import Mathlib.Tactic.FieldSimp
import Mathlib.Tactic.Positivity

/-!
# The mixed-integer rounding inequality

The textbook inequality, in the form needed by the generators that are based on it.
-/

namespace Cgl

/-- The fractional part is below one: `b - ⌊b⌋`. -/
theorem frac_lt_one (b : ℚ) : b - ⌊b⌋ < 1 := by have := Int.lt_floor_add_one b; linarith
theorem frac_nonneg (b : ℚ) : 0 ≤ b - ⌊b⌋ := by have := Int.floor_le b; linarith

/-- An integer at most `b + t` is at most `⌊b⌋ + t / (1 - frac b)`. -/
theorem mir_basic (K : ℤ) (b t : ℚ) (ht : 0 ≤ t) (h : (K : ℚ) ≤ b + t) :
    (K : ℚ) ≤ ⌊b⌋ + t / (1 - (b - ⌊b⌋)) := by
  have h1 : 0 < 1 - (b - ⌊b⌋) := by have := frac_lt_one b; linarith
  have h0 := frac_nonneg b
  by_cases hK : K ≤ ⌊b⌋
  · have : (K : ℚ) ≤ ⌊b⌋ := by exact_mod_cast hK
    have := div_nonneg ht h1.le
    linarith
  · have hK' : (⌊b⌋ : ℚ) + 1 ≤ K := by exact_mod_cast (not_le.mp hK)
    have : (K : ℚ) - ⌊b⌋ ≤ t / (1 - (b - ⌊b⌋)) := by
      rw [le_div_iff₀ h1]
      nlinarith
    linarith

/-- The mixed-integer rounding inequality with a choice, for each variable, of an integer `k` and a `w ≥ 0` with
`k - w ≤ a`: the coefficient may be anything up to `k - w / (1 - f)`. -/
theorem mir_list {ι : Type} (l : List ι) (a g x w : ι → ℚ) (k : ι → ℤ) (b s : ℚ) (hs : 0 ≤ s)
    (hx : ∀ i ∈ l, IsInteger (x i)) (hx0 : ∀ i ∈ l, 0 ≤ x i) (hw : ∀ i ∈ l, 0 ≤ w i)
    (ha : ∀ i ∈ l, (k i : ℚ) - w i ≤ a i) (hg : ∀ i ∈ l, g i ≤ k i - w i / (1 - (b - ⌊b⌋)))
    (h : (l.map fun i => a i * x i).sum ≤ b + s) :
    (l.map fun i => g i * x i).sum ≤ ⌊b⌋ + s / (1 - (b - ⌊b⌋)) := by
  have h1 : 0 < 1 - (b - ⌊b⌋) := by have := frac_lt_one b; linarith
  have key : ∃ (K : ℤ) (W : ℚ), 0 ≤ W ∧ (K : ℚ) - W ≤ (l.map fun i => a i * x i).sum ∧
      (l.map fun i => g i * x i).sum ≤ K - W / (1 - (b - ⌊b⌋)) := by
    clear h
    induction l with
    | nil => exact ⟨0, 0, le_refl _, by simp, by simp⟩
    | cons i l ih =>
      obtain ⟨K, W, hW, h2, h3⟩ := ih (fun j hj => hx j (List.mem_cons_of_mem _ hj))
        (fun j hj => hx0 j (List.mem_cons_of_mem _ hj)) (fun j hj => hw j (List.mem_cons_of_mem _ hj))
        (fun j hj => ha j (List.mem_cons_of_mem _ hj)) (fun j hj => hg j (List.mem_cons_of_mem _ hj))
      obtain ⟨z, hz⟩ := hx i List.mem_cons_self
      have hx0' := hx0 i List.mem_cons_self
      have hw' := hw i List.mem_cons_self
      have ha' := ha i List.mem_cons_self
      have hg' := hg i List.mem_cons_self
      refine ⟨K + k i * z, W + w i * x i, by positivity, ?_, ?_⟩
      · push_cast
        rw [List.map_cons, List.sum_cons, ← hz]
        nlinarith
      · push_cast
        rw [List.map_cons, List.sum_cons, ← hz, add_div]
        have e : w i * x i / (1 - (b - ⌊b⌋)) = w i / (1 - (b - ⌊b⌋)) * x i := by ring
        rw [e]
        nlinarith
  obtain ⟨K, W, hW, h2, h3⟩ := key
  have h4 := mir_basic K b (s + W) (by linarith) (by linarith)
  rw [add_div] at h4
  linarith

end Cgl
