import Verif.Twomir.Model

/-!
# The mixed-integer rounding and the two-step inequality

For any constraint `Σ v t ≥ b` over nonnegative variables, some of them integers.
-/

namespace Cgl.Twomir

theorem frac_nonneg (v : ℚ) : 0 ≤ frac v := by unfold frac; have := Int.floor_le v; linarith
theorem frac_lt_one (v : ℚ) : frac v < 1 := by unfold frac; have := Int.lt_floor_add_one v; linarith
theorem floor_add_frac (v : ℚ) : (⌊v⌋ : ℚ) + frac v = v := by unfold frac; ring
theorem frac_frac (v : ℚ) : frac (frac v) = frac v := by
  have : ⌊frac v⌋ = 0 := Int.floor_eq_zero_iff.mpr ⟨frac_nonneg v, frac_lt_one v⟩
  change frac v - (⌊frac v⌋ : ℚ) = frac v
  rw [this]; simp

theorem ceil_eq (b : ℚ) (h : 0 < frac b) : (⌈b⌉ : ℚ) = ⌊b⌋ + 1 := by
  have : ⌈b⌉ = ⌊b⌋ + 1 := by
    rw [Int.ceil_eq_iff]
    have := floor_add_frac b
    have := frac_lt_one b
    push_cast
    constructor <;> linarith
  rw [this]; push_cast; ring

/-- Two integers and a nonnegative number: the core of the two-step inequality. -/
theorem two_step_core (z w tau : ℤ) (s b α ρ : ℚ) (hw : 0 ≤ w) (hs : 0 ≤ s) (hb : 0 < frac b)
    (hα : 0 < α) (hτ : frac b = α * (tau - 1) + ρ) (hρ : 0 ≤ ρ) (hρα : ρ ≤ α) (hτα : tau * α ≤ 1)
    (h : b ≤ z + α * w + s) : (⌈b⌉ : ℚ) * tau * ρ ≤ tau * ρ * z + ρ * w + s := by
  rw [ceil_eq b hb]
  have hfl := floor_add_frac b
  set n : ℤ := ⌊b⌋ + 1 - z with hn
  have hz : (z : ℚ) = ⌊b⌋ + 1 - n := by rw [hn]; push_cast; ring
  set m : ℤ := tau * n - w with hm
  have hwq : (w : ℚ) = tau * n - m := by rw [hm]; push_cast; ring
  have goal : ρ * m ≤ s := by
    by_cases hm0 : m ≤ 0
    · have : (m : ℚ) ≤ 0 := by exact_mod_cast hm0
      nlinarith
    · have hm1 : (1 : ℚ) ≤ m := by have : 1 ≤ m := by omega
                                   exact_mod_cast this
      have ht : 0 ≤ tau := by
        by_contra hc
        have : (tau : ℚ) ≤ -1 := by have : tau ≤ -1 := by omega
                                    exact_mod_cast this
        nlinarith
      have hn1 : 1 ≤ n := by
        by_contra hc
        have hn0 : n ≤ 0 := by omega
        have : tau * n ≤ 0 := mul_nonpos_of_nonneg_of_nonpos ht hn0
        omega
      have hn1q : (1 : ℚ) ≤ n := by exact_mod_cast hn1
      have e1 : s ≥ ρ + (n - 1) * (1 - tau * α) + α * (m - 1) := by
        rw [hz, hwq] at h
        have : b = ⌊b⌋ + (α * (tau - 1) + ρ) := by rw [← hτ]; linarith
        have e : (⌊b⌋ : ℚ) + 1 - n + α * (tau * n - m) + s - (⌊b⌋ + (α * (tau - 1) + ρ))
            = s - (ρ + (n - 1) * (1 - tau * α) + α * (m - 1)) := by ring
        linarith
      have e2 : 0 ≤ ((n : ℚ) - 1) * (1 - tau * α) := mul_nonneg (by linarith) (by linarith)
      have e3 : ρ * (m - 1) ≤ α * ((m : ℚ) - 1) := mul_le_mul_of_nonneg_right hρα (by linarith)
      linarith
  rw [hz, hwq]
  have e : (⌊b⌋ + 1 : ℚ) * tau * ρ = tau * ρ * (⌊b⌋ + 1 - n) + ρ * (tau * n - m) + ρ * m := by ring
  rw [e]; linarith

theorem stepK_nonneg (tau : ℤ) (α v : ℚ) (hα : 0 < α) (ht : 1 ≤ tau) : 0 ≤ stepK tau α (frac v) := by
  unfold stepK
  have : 0 ≤ ⌊frac v / α⌋ := Int.floor_nonneg.mpr (div_nonneg (frac_nonneg v) hα.le)
  omega

theorem stepK_le (tau : ℤ) (α v : ℚ) (hα : 0 < α) : (stepK tau α (frac v) : ℚ) * α ≤ frac v := by
  have h1 : (stepK tau α (frac v) : ℚ) ≤ ⌊frac v / α⌋ := by
    exact_mod_cast min_le_right (tau - 1) ⌊frac v / α⌋
  have h2 := Int.floor_le (frac v / α)
  have h3 : (stepK tau α (frac v) : ℚ) ≤ frac v / α := le_trans h1 h2
  exact (le_div_iff₀ hα).mp h3

/-- The terms of the two-step inequality, split into two integers and a nonnegative rest. -/
theorem step_split (P : Prob) (tau : ℤ) (α ρ : ℚ) (hα : 0 < α) (ht : 1 ≤ tau)
    (l : SVec) (t : Nat → ℚ) (h0 : ∀ p ∈ l, 0 ≤ t p.1)
    (hi : ∀ p ∈ l, isIntD P p.1 = true → IsInteger (t p.1)) :
    ∃ (z w : ℤ) (s : ℚ), 0 ≤ w ∧ 0 ≤ s ∧ SVec.dot l t ≤ z + α * w + s ∧
      SVec.dot (l.map fun p => (p.1, stepCoef tau ρ α (isIntD P p.1) p.2)) t = tau * ρ * z + ρ * w + s := by
  induction l with
  | nil => exact ⟨0, 0, 0, le_refl _, le_refl _, by simp, by simp⟩
  | cons p l ih =>
    obtain ⟨z, w, s, hw, hs, h1, h2⟩ := ih (fun q hq => h0 q (List.mem_cons_of_mem _ hq))
      (fun q hq => hi q (List.mem_cons_of_mem _ hq))
    have hp0 := h0 p List.mem_cons_self
    rw [List.map_cons]
    simp only [SVec.dot_cons, h2]
    by_cases hint : isIntD P p.1 = true
    · obtain ⟨c, hc⟩ := hi p List.mem_cons_self hint
      have hc0 : 0 ≤ c := by rw [hc] at hp0; exact_mod_cast hp0
      have hv := floor_add_frac p.2
      have hk0 := stepK_nonneg tau α p.2 hα ht
      have hk1 := stepK_le tau α p.2 hα
      set k := stepK tau α (frac p.2) with hk
      have ecoef : stepCoef tau ρ α (isIntD P p.1) p.2 =
          ⌊p.2⌋ * tau * ρ + k * ρ + min ρ (frac p.2 - k * α) := by
        unfold stepCoef; rw [if_pos hint]
      rw [ecoef]
      by_cases hr : frac p.2 - k * α < ρ
      · rw [min_eq_right hr.le]
        refine ⟨z + ⌊p.2⌋ * c, w + k * c, s + (frac p.2 - k * α) * t p.1, ?_, ?_, ?_, ?_⟩
        · have := mul_nonneg hk0 hc0; omega
        · have : 0 ≤ (frac p.2 - k * α) * t p.1 := mul_nonneg (by linarith) hp0
          linarith
        · push_cast
          rw [← hc]
          have : p.2 * t p.1 = (⌊p.2⌋ : ℚ) * t p.1 + α * (k * t p.1) + (frac p.2 - k * α) * t p.1 := by
            conv_lhs => rw [← hv]
            ring
          linarith
        · push_cast; rw [← hc]; ring
      · rw [min_eq_left (not_lt.mp hr)]
        by_cases hkt : k = tau - 1
        · refine ⟨z + (⌊p.2⌋ + 1) * c, w, s, hw, hs, ?_, ?_⟩
          · push_cast
            rw [← hc]
            have := frac_lt_one p.2
            have : p.2 * t p.1 ≤ ((⌊p.2⌋ : ℚ) + 1) * t p.1 := mul_le_mul_of_nonneg_right (by linarith) hp0
            linarith
          · have : (k : ℚ) = tau - 1 := by rw [hkt]; push_cast; ring
            push_cast; rw [← hc, this]; ring
        · refine ⟨z + ⌊p.2⌋ * c, w + (k + 1) * c, s, ?_, hs, ?_, ?_⟩
          · have : 0 ≤ (k + 1) * c := mul_nonneg (by omega) hc0
            omega
          · have hkf : k = ⌊frac p.2 / α⌋ := by
              have : k = min (tau - 1) ⌊frac p.2 / α⌋ := hk
              omega
            have : frac p.2 < (k + 1) * α := by
              have h3 := Int.lt_floor_add_one (frac p.2 / α)
              rw [← hkf] at h3
              exact (div_lt_iff₀ hα).mp h3
            push_cast
            rw [← hc]
            have : p.2 * t p.1 ≤ ((⌊p.2⌋ : ℚ) + (k + 1) * α) * t p.1 :=
              mul_le_mul_of_nonneg_right (by linarith) hp0
            have e : ((⌊p.2⌋ : ℚ) + (k + 1) * α) * t p.1 = ⌊p.2⌋ * t p.1 + α * ((k + 1) * t p.1) := by ring
            linarith
          · push_cast; rw [← hc]; ring
    · have ecoef : stepCoef tau ρ α (isIntD P p.1) p.2 = if 0 < p.2 then p.2 else 0 := by
        unfold stepCoef; rw [if_neg hint]
      rw [ecoef]
      by_cases hp : 0 < p.2
      · rw [if_pos hp]
        refine ⟨z, w, s + p.2 * t p.1, hw, ?_, ?_, ?_⟩
        · have := mul_nonneg hp.le hp0; linarith
        · linarith
        · ring
      · rw [if_neg hp]
        refine ⟨z, w, s, hw, hs, ?_, ?_⟩
        · have := mul_nonpos_of_nonpos_of_nonneg (not_lt.mp hp) hp0; linarith
        · ring

/-- The terms of the mixed-integer rounding inequality, split into an integer and a nonnegative rest. -/
theorem mir_split (P : Prob) (f : ℚ) (l : SVec) (t : Nat → ℚ) (h0 : ∀ p ∈ l, 0 ≤ t p.1)
    (hi : ∀ p ∈ l, isIntD P p.1 = true → IsInteger (t p.1)) :
    ∃ (z : ℤ) (s : ℚ), 0 ≤ s ∧ SVec.dot l t ≤ z + s ∧
      SVec.dot (l.map fun p => (p.1, mirCoef f (isIntD P p.1) p.2)) t = f * z + s := by
  induction l with
  | nil => exact ⟨0, 0, le_refl _, by simp, by simp⟩
  | cons p l ih =>
    obtain ⟨z, s, hs, h1, h2⟩ := ih (fun q hq => h0 q (List.mem_cons_of_mem _ hq))
      (fun q hq => hi q (List.mem_cons_of_mem _ hq))
    have hp0 := h0 p List.mem_cons_self
    rw [List.map_cons]
    simp only [SVec.dot_cons, h2]
    by_cases hint : isIntD P p.1 = true
    · obtain ⟨c, hc⟩ := hi p List.mem_cons_self hint
      have hv := floor_add_frac p.2
      have ecoef : mirCoef f (isIntD P p.1) p.2 = f * ⌊p.2⌋ + min f (frac p.2) := by
        unfold mirCoef; rw [if_pos hint]
      rw [ecoef]
      have hn := frac_nonneg p.2
      have hl := frac_lt_one p.2
      by_cases hr : frac p.2 < f
      · rw [min_eq_right hr.le]
        refine ⟨z + ⌊p.2⌋ * c, s + frac p.2 * t p.1, ?_, ?_, ?_⟩
        · have := mul_nonneg hn hp0; linarith
        · push_cast
          rw [← hc]
          have : p.2 * t p.1 = (⌊p.2⌋ : ℚ) * t p.1 + frac p.2 * t p.1 := by
            conv_lhs => rw [← hv]
            ring
          linarith
        · push_cast; rw [← hc]; ring
      · rw [min_eq_left (not_lt.mp hr)]
        refine ⟨z + (⌊p.2⌋ + 1) * c, s, hs, ?_, ?_⟩
        · push_cast
          rw [← hc]
          have : p.2 * t p.1 ≤ ((⌊p.2⌋ : ℚ) + 1) * t p.1 := mul_le_mul_of_nonneg_right (by linarith) hp0
          linarith
        · push_cast; rw [← hc]; ring
    · have ecoef : mirCoef f (isIntD P p.1) p.2 = if 0 < p.2 then p.2 else 0 := by
        unfold mirCoef; rw [if_neg hint]
      rw [ecoef]
      by_cases hp : 0 < p.2
      · rw [if_pos hp]
        refine ⟨z, s + p.2 * t p.1, ?_, ?_, ?_⟩
        · have := mul_nonneg hp.le hp0; linarith
        · linarith
        · ring
      · rw [if_neg hp]
        refine ⟨z, s, hs, ?_, ?_⟩
        · have := mul_nonpos_of_nonpos_of_nonneg (not_lt.mp hp) hp0; linarith
        · ring

/-- The mixed-integer rounding inequality of `DGG_buildMir`: whenever the constraint holds as `≥` at nonnegative values,
integers where they have to be, so does the cut. -/
theorem buildMir_holds (P : Prob) (c : Con) (t : Nat → ℚ) (h0 : ∀ p ∈ c.es, 0 ≤ t p.1)
    (hi : ∀ p ∈ c.es, isIntD P p.1 = true → IsInteger (t p.1)) (h : c.rhs ≤ SVec.dot c.es t) :
    (buildMir P c).rhs ≤ SVec.dot (buildMir P c).es t := by
  obtain ⟨z, s, hs, h1, h2⟩ := mir_split P (frac c.rhs) c.es t h0 hi
  change frac c.rhs * ⌈c.rhs⌉ ≤ SVec.dot (c.es.map fun p => (p.1, mirCoef (frac c.rhs) (isIntD P p.1) p.2)) t
  rw [h2]
  have hn := frac_nonneg c.rhs
  have hl := frac_lt_one c.rhs
  have hfl := floor_add_frac c.rhs
  by_cases hf : frac c.rhs = 0
  · rw [hf]; linarith
  · have hpos : 0 < frac c.rhs := lt_of_le_of_ne hn (Ne.symm hf)
    rw [ceil_eq _ hpos]
    by_cases hz : ⌊c.rhs⌋ + 1 ≤ z
    · have : ((⌊c.rhs⌋ : ℚ) + 1) ≤ z := by exact_mod_cast hz
      nlinarith
    · have : (z : ℚ) ≤ ⌊c.rhs⌋ := by have : z ≤ ⌊c.rhs⌋ := by omega
                                     exact_mod_cast this
      have : 0 ≤ ((⌊c.rhs⌋ : ℚ) - z) * (1 - frac c.rhs) := mul_nonneg (by linarith) (by linarith)
      have e : s ≥ (⌊c.rhs⌋ : ℚ) + frac c.rhs - z := by linarith
      nlinarith

/-- What `DGG_is2stepValid` accepts. -/
theorem is2stepValid_iff {α bht : ℚ} (h : is2stepValid α bht = true) :
    1 / 10 ^ 7 ≤ α ∧ 1 / 10 ^ 7 ≤ bht - α * ⌊bht / α⌋ ∧ α < bht ∧ (⌈bht / α⌉ : ℚ) ≤ 1 / α := by
  unfold is2stepValid at h
  split at h
  · cases h
  · rename_i h1
    split at h
    · cases h
    · rename_i h2
      have h3 := of_decide_eq_true h
      refine ⟨not_lt.mp h1, ?_, h3.1, h3.2.2⟩
      unfold isMultiple at h2
      simpa using h2

/-- `DGG_build2step` never returns an error for an `alpha` accepted by `DGG_is2stepValid`. -/
theorem build2step_ok (P : Prob) {α : ℚ} (c : Con) (h : is2stepValid α (frac c.rhs) = true) :
    build2step P α c = some {
      es := c.es.map fun p => (p.1, stepCoef ⌈frac c.rhs / α⌉ (frac c.rhs - α * ⌊frac c.rhs / α⌋) α (isIntD P p.1) p.2)
      rhs := ⌈c.rhs⌉ * ⌈frac c.rhs / α⌉ * (frac c.rhs - α * ⌊frac c.rhs / α⌋)
      sense := .G } := by
  obtain ⟨h1, h2, h3, h4⟩ := is2stepValid_iff h
  have hα : 0 < α := lt_of_lt_of_le (by norm_num) h1
  unfold build2step
  have e1 : ¬ (frac c.rhs ≤ α ∨ α ≤ 0) := by push Not; exact ⟨h3, hα⟩
  have e2 : isMultiple α (frac c.rhs) = false := by unfold isMultiple; simpa using h2
  simp only [e1, e2, if_false, not_lt.mpr h2, Bool.false_eq_true]

/-- The two-step inequality of `DGG_build2step`: for an `alpha` accepted by `DGG_is2stepValid`, whenever the constraint
holds as `≥` at nonnegative values, integers where they have to be, so does the cut. -/
theorem build2step_holds (P : Prob) {α : ℚ} (c cut : Con) (hv : is2stepValid α (frac c.rhs) = true)
    (hc : build2step P α c = some cut) (t : Nat → ℚ) (h0 : ∀ p ∈ c.es, 0 ≤ t p.1)
    (hi : ∀ p ∈ c.es, isIntD P p.1 = true → IsInteger (t p.1)) (h : c.rhs ≤ SVec.dot c.es t) :
    cut.rhs ≤ SVec.dot cut.es t := by
  rw [build2step_ok P c hv] at hc
  cases hc
  obtain ⟨h1, h2, h3, h4⟩ := is2stepValid_iff hv
  have hα : 0 < α := lt_of_lt_of_le (by norm_num) h1
  have hb : 0 < frac c.rhs := lt_trans hα h3
  have hρ : 0 < frac c.rhs - α * ⌊frac c.rhs / α⌋ := lt_of_lt_of_le (by norm_num) h2
  have hfq : 0 < frac (frac c.rhs / α) := by
    unfold frac at hρ ⊢
    set u := c.rhs - ⌊c.rhs⌋
    have : α * (u / α - ⌊u / α⌋) = u - α * ⌊u / α⌋ := by
      rw [mul_sub, mul_div_cancel₀ u hα.ne']
    rw [← this] at hρ
    exact (mul_pos_iff_of_pos_left hα).mp hρ
  have hτ := ceil_eq _ hfq
  have hτ1 : 1 ≤ ⌈frac c.rhs / α⌉ := Int.one_le_ceil_iff.mpr (div_pos hb hα)
  obtain ⟨z, w, s, hw, hs, h5, h6⟩ := step_split P ⌈frac c.rhs / α⌉ α (frac c.rhs - α * ⌊frac c.rhs / α⌋) hα hτ1
    c.es t h0 hi
  change _ ≤ SVec.dot (c.es.map _) t
  rw [h6]
  refine two_step_core z w _ s c.rhs α _ hw hs hb hα ?_ hρ.le ?_ ?_ (by linarith)
  · rw [hτ]; ring
  · have := Int.lt_floor_add_one (frac c.rhs / α)
    rw [div_lt_iff₀ hα] at this
    linarith
  · exact (le_div_iff₀ hα).mp h4

/-- Every `alpha` proposed is accepted by `DGG_is2stepValid`. -/
theorem proposeAlpha_valid {aMax : ℤ} {cutoff bht rc v α : ℚ} {int : Bool}
    (h : proposeAlpha aMax cutoff bht int rc v = some α) : is2stepValid α bht = true := by
  unfold proposeAlpha at h
  split at h; · cases h
  split at h; · cases h
  split at h; · cases h
  split at h; · cases h
  simp only at h
  split at h
  · rename_i hv; cases h; exact hv
  · cases h

theorem firstAlpha_valid {D : Data} {aMax : ℤ} {c : Con} {α : ℚ} (h : firstAlpha D aMax c = some α) :
    is2stepValid α (frac c.rhs) = true := by
  unfold firstAlpha at h
  obtain ⟨p, _, hp⟩ := List.exists_of_findSome?_eq_some h
  exact proposeAlpha_valid hp

/-- The cuts of `DGG_add2stepToList` hold wherever the constraint does. -/
theorem add2step_holds (D : Data) (aMax : ℤ) (c cut : Con) (hc : cut ∈ add2step D aMax c) (t : Nat → ℚ)
    (h0 : ∀ p ∈ c.es, 0 ≤ t p.1) (hi : ∀ p ∈ c.es, isIntD D.P p.1 = true → IsInteger (t p.1))
    (h : c.rhs ≤ SVec.dot c.es t) : cut.rhs ≤ SVec.dot cut.es t := by
  unfold add2step at hc
  split at hc
  · cases hc
  · rename_i α hα
    split at hc
    · cases hc
    · rename_i cut' hb
      split at hc
      · rw [List.mem_singleton] at hc
        subst hc
        exact build2step_holds D.P c cut (firstAlpha_valid hα) hb t h0 hi h
      · cases hc

end Cgl.Twomir
