import Verif.GMI.Clean
import Mathlib.Algebra.Order.Ring.Int

/-!
# What an accepted cut looks like: support, dynamism, violation, integrality
-/

namespace Cgl.GMI

theorem scale_length (k : ℚ) (c : Cut) : (c.scale k).elems.length = c.elems.length := List.length_map _
theorem divide_length (k : ℚ) (c : Cut) : (c.divide k).elems.length = c.elems.length := List.length_map _

/-- What every procedure has checked when it accepts: `c0` is a version of the cut that passed the test of the
support and has as many coefficients. -/
theorem clean_support {prm : Prm} {P : Prob} {sqrt : ℚ → ℚ} {rat : ℚ → ℤ × ℤ} {xbar : Nat → ℚ} {c c' : Cut}
    (h : cleanCut prm P sqrt rat xbar c = .ok c') : ∃ c0 : Cut, checkSupport prm P.nCols c0 = true ∧
      c'.elems.length = c0.elems.length := by
  unfold cleanCut at h
  split at h
  · split at h
    · dsimp only at h
      split at h
      · rename_i hs
        split at h
        · split at h
          · rw [← Res.ok.inj h]; exact ⟨_, hs, rfl⟩
          · cases h
        · cases h
      · cases h
    · cases h
  · split at h
    · dsimp only at h
      split at h
      · rcases andThen_ok h with ⟨_, _, h2⟩ | ⟨c1, h1, h2⟩ <;>
        · split at h2
          · rename_i hs
            split at h2
            · rw [← Res.ok.inj h2]; exact ⟨_, hs, rfl⟩
            · cases h2
          · cases h2
      · cases h
    · cases h
  · rcases andThen_ok h with ⟨_, _, h2⟩ | ⟨c1, h1, h2⟩ <;>
    · dsimp only at h2
      split at h2
      · split at h2
        · rename_i hs
          split at h2
          · rw [← Res.ok.inj h2]; exact ⟨_, hs, by rw [relaxRhs_elems]⟩
          · cases h2
        · cases h2
      · cases h2
  · dsimp only at h
    split at h
    · rename_i hs
      split at h
      · rcases andThen_ok h with ⟨_, _, h2⟩ | ⟨c1, h1, h2⟩
        · split at h2
          · rw [← Res.ok.inj h2]; exact ⟨_, hs, rfl⟩
          · cases h2
        · obtain ⟨k, k1, rfl⟩ := scaleIntegral_done h1
          split at h2
          · rw [← Res.ok.inj h2]; exact ⟨_, hs, scale_length _ _⟩
          · cases h2
      · cases h
    · cases h
  · split at h
    · dsimp only at h
      split at h
      · rename_i hs
        split at h
        · rcases andThen_ok h with ⟨_, _, h2⟩ | ⟨c1, h1, h2⟩
          · split at h2
            · rw [← Res.ok.inj h2]; exact ⟨_, hs, by rw [relaxRhs_elems]⟩
            · cases h2
          · obtain ⟨k, k1, rfl⟩ := scaleIntegral_done h1
            split at h2
            · rw [← Res.ok.inj h2]; exact ⟨_, hs, scale_length _ _⟩
            · cases h2
        · cases h
      · cases h
    · cases h
  all_goals
    split at h
    · rcases andThen_ok h with ⟨_, _, h2⟩ | ⟨c1, h1, h2⟩ <;>
      · dsimp only at h2
        split at h2
        · rename_i hs
          split at h2
          · split at h2
            · rw [← Res.ok.inj h2]; exact ⟨_, hs, rfl⟩
            · cases h2
          · cases h2
        · cases h2
    · cases h

/-! ### Dynamism -/

/-- No two coefficients differ by more than the factor `k`. -/
def Dyn (k : ℚ) (v : SVec) : Prop := ∀ p ∈ v, ∀ q ∈ v, |p.2| ≤ k * |q.2|

theorem minMax_spec (v : SVec) : ∀ m : ℚ × ℚ,
    (v.foldl (fun m p => if isZero p.2 then m else (min m.1 |p.2|, max m.2 |p.2|)) m).1 ≤ m.1 ∧
    m.2 ≤ (v.foldl (fun m p => if isZero p.2 then m else (min m.1 |p.2|, max m.2 |p.2|)) m).2 ∧
    ∀ p ∈ v, isZero p.2 = false →
      (v.foldl (fun m p => if isZero p.2 then m else (min m.1 |p.2|, max m.2 |p.2|)) m).1 ≤ |p.2| ∧
      |p.2| ≤ (v.foldl (fun m p => if isZero p.2 then m else (min m.1 |p.2|, max m.2 |p.2|)) m).2 := by
  induction v with
  | nil => intro m; exact ⟨le_refl _, le_refl _, fun p hp => by cases hp⟩
  | cons q v ih =>
    intro m
    rw [List.foldl_cons]
    by_cases hz : isZero q.2 = true
    · rw [if_pos hz]
      obtain ⟨h1, h2, h3⟩ := ih m
      refine ⟨h1, h2, fun p hp hpz => ?_⟩
      rcases List.mem_cons.1 hp with rfl | hp
      · rw [hz] at hpz; cases hpz
      · exact h3 p hp hpz
    · rw [if_neg hz]
      obtain ⟨h1, h2, h3⟩ := ih (min m.1 |q.2|, max m.2 |q.2|)
      refine ⟨h1.trans (min_le_left _ _), (le_max_left _ _).trans h2, fun p hp hpz => ?_⟩
      rcases List.mem_cons.1 hp with rfl | hp
      · exact ⟨h1.trans (min_le_right _ _), (le_max_right _ _).trans h2⟩
      · exact h3 p hp hpz

theorem checkDynamism_dyn {prm : Prm} (hm : 0 ≤ prm.maxDyn) {c : Cut} (h : checkDynamism prm c = true)
    (hz : ∀ p ∈ c.elems, isZero p.2 = false) : Dyn prm.maxDyn c.elems := by
  intro p hp q hq
  unfold checkDynamism at h
  rw [Bool.not_eq_true', decide_eq_false_iff_not, not_lt] at h
  obtain ⟨_, _, h3⟩ := minMax_spec c.elems (prm.infinit, 0)
  have hp' := (h3 p hp (hz p hp)).2
  have hq' := (h3 q hq (hz q hq)).1
  unfold minMax at h
  have := mul_le_mul_of_nonneg_right hq' hm
  linarith

theorem Dyn.filter {k : ℚ} {v : SVec} (h : Dyn k v) (f : Nat × ℚ → Bool) : Dyn k (v.filter f) :=
  fun p hp q hq => h p (List.mem_filter.1 hp).1 q (List.mem_filter.1 hq).1

theorem Dyn.map {k : ℚ} {v : SVec} (h : Dyn k v) (s : ℚ) : Dyn k (v.map fun p => (p.1, p.2 * s)) := by
  intro p hp q hq
  obtain ⟨p', hp', rfl⟩ := List.mem_map.1 hp
  obtain ⟨q', hq', rfl⟩ := List.mem_map.1 hq
  dsimp only
  rw [abs_mul, abs_mul, ← mul_assoc]
  exact mul_le_mul_of_nonneg_right (h p' hp' q' hq') (abs_nonneg s)

theorem Dyn.divide {k : ℚ} {c : Cut} (h : Dyn k c.elems) (s : ℚ) : Dyn k (c.divide s).elems := by
  have := h.map s⁻¹
  simpa only [Cut.divide, div_eq_mul_inv] using this

theorem removeSmall_nonzero {prm : Prm} {P : Prob} (h0 : 1 / 10 ^ 20 ≤ prm.epsCoeff) (c : Cut) :
    ∀ p ∈ (removeSmall prm P c).elems, isZero p.2 = false := by
  intro p hp
  rw [removeSmall_sub] at hp
  have h1 := of_decide_eq_true (List.mem_filter.1 hp).2
  unfold isZero
  exact decide_eq_false (not_le.mpr (lt_of_le_of_lt h0 h1))

/-- Every accepted cut respects the limit on the ratio of its coefficients. -/
theorem clean_dyn {prm : Prm} {P : Prob} {sqrt : ℚ → ℚ} {rat : ℚ → ℤ × ℤ} {xbar : Nat → ℚ} {c c' : Cut}
    (h0 : 1 / 10 ^ 20 ≤ prm.epsCoeff) (hm : 0 ≤ prm.maxDyn) (hz : ∀ p ∈ c.elems, isZero p.2 = false)
    (h : cleanCut prm P sqrt rat xbar c = .ok c') : Dyn prm.maxDyn c'.elems := by
  unfold cleanCut at h
  split at h
  · split at h
    · dsimp only at h
      split at h
      · split at h
        · rename_i hd
          split at h
          · rw [← Res.ok.inj h]; exact checkDynamism_dyn hm hd (removeSmall_nonzero h0 _)
          · cases h
        · cases h
      · cases h
    · cases h
  · split at h
    · dsimp only at h
      split at h
      · rename_i hd
        have hd' := checkDynamism_dyn hm hd (by rw [relaxRhs_elems]; exact hz)
        rcases andThen_ok h with ⟨_, _, h2⟩ | ⟨c1, h1, h2⟩
        · split at h2
          · split at h2
            · rw [← Res.ok.inj h2, removeSmall_sub]; exact hd'.filter _
            · cases h2
          · cases h2
        · obtain ⟨k, k1, k2, rfl⟩ := scaleBy_done (maxAbs_nonneg _) h1
          split at h2
          · split at h2
            · rw [← Res.ok.inj h2, removeSmall_sub]; exact (hd'.divide k).filter _
            · cases h2
          · cases h2
      · cases h
    · cases h
  · rcases andThen_ok h with ⟨_, _, h2⟩ | ⟨c1, h1, h2⟩ <;>
    · dsimp only at h2
      split at h2
      · rename_i hd
        split at h2
        · split at h2
          · rw [← Res.ok.inj h2, relaxRhs_elems]; exact checkDynamism_dyn hm hd (removeSmall_nonzero h0 _)
          · cases h2
        · cases h2
      · cases h2
  · dsimp only at h
    split at h
    · split at h
      · rename_i hd
        have hd' := checkDynamism_dyn hm hd (removeSmall_nonzero h0 _)
        rcases andThen_ok h with ⟨_, _, h2⟩ | ⟨c1, h1, h2⟩
        · split at h2
          · rw [← Res.ok.inj h2]; exact hd'
          · cases h2
        · obtain ⟨k, k1, rfl⟩ := scaleIntegral_done h1
          split at h2
          · rw [← Res.ok.inj h2]; exact hd'.map k
          · cases h2
      · cases h
    · cases h
  · split at h
    · dsimp only at h
      split at h
      · split at h
        · rename_i hd
          have hd' := checkDynamism_dyn hm hd (removeSmall_nonzero h0 _)
          rcases andThen_ok h with ⟨_, _, h2⟩ | ⟨c1, h1, h2⟩
          · split at h2
            · rw [← Res.ok.inj h2, relaxRhs_elems]; exact hd'
            · cases h2
          · obtain ⟨k, k1, rfl⟩ := scaleIntegral_done h1
            split at h2
            · rw [← Res.ok.inj h2]; exact hd'.map k
            · cases h2
        · cases h
      · cases h
    · cases h
  all_goals
    split at h
    · rcases andThen_ok h with ⟨_, _, h2⟩ | ⟨c1, h1, h2⟩ <;>
      · dsimp only at h2
        split at h2
        · split at h2
          · rename_i hd
            split at h2
            · rw [← Res.ok.inj h2]; exact checkDynamism_dyn hm hd (removeSmall_nonzero h0 _)
            · cases h2
          · cases h2
        · cases h2
    · cases h

/-! ### Violation -/

theorem checkViolation_spec {prm : Prm} {xbar : Nat → ℚ} {c : Cut} (h : checkViolation prm xbar c = true) :
    prm.minViol * max 1 |c.rhs| ≤ SVec.dot c.elems xbar - c.rhs := by
  unfold checkViolation at h
  have h := of_decide_eq_true h
  split at h
  · rename_i h1
    rw [max_eq_right h1.le, ← le_div_iff₀ (by linarith)]
    exact h
  · rename_i h1
    rw [max_eq_left (not_lt.1 h1), mul_one]
    exact h

/-- Every accepted cut is violated by the LP solution by at least the required amount; for the procedure that relaxes
the right-hand side last, before that relaxation. -/
theorem clean_violation {prm : Prm} {P : Prob} {sqrt : ℚ → ℚ} {rat : ℚ → ℤ × ℤ} {xbar : Nat → ℚ} {c c' : Cut}
    (h : cleanCut prm P sqrt rat xbar c = .ok c') :
    (prm.proc ≠ .redsplit ∧ checkViolation prm xbar c' = true) ∨
      (prm.proc = .redsplit ∧ ∃ c0, checkViolation prm xbar c0 = true ∧ c' = relaxRhs prm c0) := by
  unfold cleanCut at h
  split at h
  · rename_i hp
    left
    refine ⟨by rw [hp]; decide, ?_⟩
    split at h
    · dsimp only at h
      split at h
      · split at h
        · split at h
          · rename_i hv; rw [← Res.ok.inj h]; exact hv
          · cases h
        · cases h
      · cases h
    · cases h
  · rename_i hp
    left
    refine ⟨by rw [hp]; decide, ?_⟩
    split at h
    · dsimp only at h
      split at h
      · rcases andThen_ok h with ⟨_, _, h2⟩ | ⟨c1, h1, h2⟩ <;>
        · split at h2
          · split at h2
            · rename_i hv; rw [← Res.ok.inj h2]; exact hv
            · cases h2
          · cases h2
      · cases h
    · cases h
  · rename_i hp
    right
    refine ⟨hp, ?_⟩
    rcases andThen_ok h with ⟨_, _, h2⟩ | ⟨c1, h1, h2⟩ <;>
    · dsimp only at h2
      split at h2
      · split at h2
        · split at h2
          · rename_i hv; exact ⟨_, hv, (Res.ok.inj h2).symm⟩
          · cases h2
        · cases h2
      · cases h2
  · rename_i hp
    left
    refine ⟨by rw [hp]; decide, ?_⟩
    dsimp only at h
    split at h
    · split at h
      · rcases andThen_ok h with ⟨_, _, h2⟩ | ⟨c1, h1, h2⟩ <;>
        · split at h2
          · rename_i hv; rw [← Res.ok.inj h2]; exact hv
          · cases h2
      · cases h
    · cases h
  · rename_i hp
    left
    refine ⟨by rw [hp]; decide, ?_⟩
    split at h
    · dsimp only at h
      split at h
      · split at h
        · rcases andThen_ok h with ⟨_, _, h2⟩ | ⟨c1, h1, h2⟩ <;>
          · split at h2
            · rename_i hv; rw [← Res.ok.inj h2]; exact hv
            · cases h2
        · cases h
      · cases h
    · cases h
  all_goals
    rename_i hp
    left
    refine ⟨by rw [hp]; decide, ?_⟩
    split at h
    · rcases andThen_ok h with ⟨_, _, h2⟩ | ⟨c1, h1, h2⟩ <;>
      · dsimp only at h2
        split at h2
        · split at h2
          · split at h2
            · rename_i hv; rw [← Res.ok.inj h2]; exact hv
            · cases h2
          · cases h2
        · cases h2
    · cases h

/-! ### Integrality -/

theorem gcdLoop_natAbs : ∀ (n : Nat) (a b : ℤ), a ≠ 0 → a.natAbs ≤ n →
    (gcdLoop n a b).natAbs = Nat.gcd a.natAbs b.natAbs := by
  intro n
  induction n with
  | zero => intro a b ha hn; exact absurd (Int.natAbs_eq_zero.1 (Nat.le_zero.1 hn)) ha
  | succ n ih =>
    intro a b ha hn
    have hm : (Int.tmod b a).natAbs = b.natAbs % a.natAbs := Int.natAbs_tmod b a
    unfold gcdLoop
    split
    · rename_i h
      rw [h, Int.natAbs_zero] at hm
      rw [Nat.gcd_rec, ← hm, Nat.gcd_zero_left]
    · rename_i h
      have hlt : b.natAbs % a.natAbs < a.natAbs := Nat.mod_lt _ (Int.natAbs_pos.2 ha)
      rw [ih _ _ h (by omega), hm, ← Nat.gcd_rec]

/-- `computeGcd` returns the greatest common divisor up to sign. -/
theorem computeGcd_natAbs {a b g : ℤ} (h : computeGcd a b = some g) : g.natAbs = Int.gcd a b := by
  have key : ∀ lo hi : ℤ, (if lo = 0 then (if hi = 0 then none else some hi) else some (gcdLoop lo.natAbs lo hi)) = some g →
      g.natAbs = Int.gcd lo hi := by
    intro lo hi h
    split at h
    · rename_i h0
      split at h
      · cases h
      · rw [← Option.some.inj h, h0, Int.gcd_zero_left]
    · rename_i h0
      rw [← Option.some.inj h, gcdLoop_natAbs _ _ _ h0 (le_refl _)]
      rfl
  unfold computeGcd at h
  dsimp only at h
  by_cases hab : b < a
  · simp only [hab, if_true] at h
    rw [key _ _ h, Int.gcd_comm]
  · simp only [hab, if_false] at h
    exact key _ _ h

/-- `computeGcd` never calls `exit` unless both arguments are zero. -/
theorem computeGcd_none {a b : ℤ} (h : computeGcd a b = none) : a = 0 ∧ b = 0 := by
  have key : ∀ lo hi : ℤ, (if lo = 0 then (if hi = 0 then none else some hi) else some (gcdLoop lo.natAbs lo hi)) = none →
      lo = 0 ∧ hi = 0 := by
    intro lo hi h
    split at h
    · rename_i h0
      split at h
      · rename_i h1; exact ⟨h0, h1⟩
      · cases h
    · cases h
  unfold computeGcd at h
  dsimp only at h
  by_cases hab : b < a
  · simp only [hab, if_true] at h
    exact (key _ _ h).symm
  · simp only [hab, if_false] at h
    exact key _ _ h

/-- On positive arguments the result is positive. -/
theorem gcdLoop_pos : ∀ (n : Nat) (a b : ℤ), 0 < a → 0 ≤ b → 0 < gcdLoop n a b ∨ n < a.natAbs := by
  intro n
  induction n with
  | zero => intro a b ha _; right; exact Int.natAbs_pos.2 ha.ne'
  | succ n ih =>
    intro a b ha hb
    unfold gcdLoop
    split
    · exact Or.inl ha
    · rename_i h
      have h0 : 0 ≤ Int.tmod b a := Int.tmod_nonneg a hb
      rcases ih (Int.tmod b a) a (lt_of_le_of_ne h0 (Ne.symm h)) ha.le with h1 | h1
      · exact Or.inl h1
      · right
        have hlt : Int.tmod b a < a := Int.tmod_lt_of_pos b ha
        omega

theorem computeGcd_pos {a b g : ℤ} (ha : 0 < a) (hb : 0 < b) (h : computeGcd a b = some g) : 0 < g := by
  have key : ∀ lo hi : ℤ, 0 < lo → 0 < hi →
      (if lo = 0 then (if hi = 0 then none else some hi) else some (gcdLoop lo.natAbs lo hi)) = some g → 0 < g := by
    intro lo hi h1 h2 h
    rw [if_neg h1.ne'] at h
    rw [← Option.some.inj h]
    rcases gcdLoop_pos lo.natAbs lo hi h1 h2.le with h3 | h3
    · exact h3
    · exact absurd h3 (lt_irrefl _)
  unfold computeGcd at h
  dsimp only at h
  by_cases hab : b < a
  · simp only [hab, if_true] at h; exact key _ _ hb ha h
  · simp only [hab, if_false] at h; exact key _ _ ha hb h

/-- Does `scaleCutIntegral` look at this coefficient? -/
def Considered (prm : Prm) (P : Prob) (p : Nat × ℚ) : Prop := P.isInt p.1 = true ∨ prm.integralScaleCont = true

theorem gcdLcm_spec {prm : Prm} {P : Prob} {rat : ℚ → ℤ × ℤ} : ∀ (v : SVec) (g l g' l' : ℤ), g ≠ 0 →
    gcdLcm prm P rat v g l = .ok (g', l') → g' ≠ 0 ∧ g' ∣ g ∧ l ∣ l' ∧
      ∀ p ∈ v, Considered prm P p → g' ∣ (rat p.2).1 ∧ (rat p.2).2 ∣ l' := by
  intro v
  induction v with
  | nil =>
    intro g l g' l' hg h
    unfold gcdLcm at h
    cases h
    exact ⟨hg, dvd_refl _, dvd_refl _, fun p hp => by cases hp⟩
  | cons q v ih =>
    intro g l g' l' hg h
    obtain ⟨col, a⟩ := q
    unfold gcdLcm at h
    split at h
    · rename_i hs
      obtain ⟨h1, h2, h3, h4⟩ := ih g l g' l' hg h
      refine ⟨h1, h2, h3, fun p hp hc => ?_⟩
      rcases List.mem_cons.1 hp with rfl | hp
      · rcases hc with hc | hc
        · dsimp only at hc; rw [hs.1] at hc; cases hc
        · rw [hs.2] at hc; cases hc
      · exact h4 p hp hc
    · split at h
      · cases h
      · split at h
        · rename_i gg d hgg hd
          split at h
          · have e1 := computeGcd_natAbs hgg
            have e2 := computeGcd_natAbs hd
            have hgg0 : gg ≠ 0 := by
              intro h0
              rw [h0, Int.natAbs_zero] at e1
              exact hg (Int.gcd_eq_zero_iff.1 e1.symm).1
            obtain ⟨h1, h2, h3, h4⟩ := ih _ _ g' l' hgg0 h
            have d1 : gg ∣ g := by
              rw [← Int.natAbs_dvd, e1]; exact Int.gcd_dvd_left _ _
            have d2 : gg ∣ (rat a).1 := by
              rw [← Int.natAbs_dvd, e1]; exact Int.gcd_dvd_right _ _
            have d3 : d ∣ l := by
              rw [← Int.natAbs_dvd, e2]; exact Int.gcd_dvd_left _ _
            have d4 : d ∣ (rat a).2 := by
              rw [← Int.natAbs_dvd, e2]; exact Int.gcd_dvd_right _ _
            have d5 : (rat a).2 ∣ l * Int.tdiv (rat a).2 d := by
              obtain ⟨m, hm⟩ := d3
              have : (rat a).2 = d * Int.tdiv (rat a).2 d := (Int.mul_tdiv_cancel' d4).symm
              rw [hm]
              exact ⟨m, by rw [mul_assoc, mul_comm m, ← mul_assoc, ← this]⟩
            refine ⟨h1, h2.trans d1, (dvd_mul_right _ _).trans h3, fun p hp hc => ?_⟩
            rcases List.mem_cons.1 hp with rfl | hp
            · exact ⟨h2.trans d2, d5.trans h3⟩
            · exact h4 p hp hc
          · cases h
        · cases h

/-- A rational times a common denominator over a common divisor of the numerators is an integer. -/
theorem integral_of_dvd {v : ℚ} {n d g l : ℤ} (hv : v = n / d) (hg : g ≠ 0) (h1 : g ∣ n) (h2 : d ∣ l) :
    IsInteger (v * ((l : ℚ) / g)) := by
  obtain ⟨a, rfl⟩ := h1
  obtain ⟨b, rfl⟩ := h2
  by_cases hd : d = 0
  · subst hd; exact ⟨0, by rw [hv]; simp⟩
  refine ⟨a * b, ?_⟩
  rw [hv]
  have hg' : (g : ℚ) ≠ 0 := by exact_mod_cast hg
  have hd' : (d : ℚ) ≠ 0 := by exact_mod_cast hd
  push_cast
  field_simp

/-- After a successful scaling with exact rational approximations, the right-hand side and all considered
coefficients are integers. -/
theorem scaleIntegral_integral {prm : Prm} {P : Prob} {rat : ℚ → ℤ × ℤ} {c c' : Cut}
    (hr : (rat c.rhs).1 ≠ 0 → c.rhs = (rat c.rhs).1 / (rat c.rhs).2)
    (he : ∀ p ∈ c.elems, Considered prm P p → p.2 = (rat p.2).1 / (rat p.2).2)
    (h : scaleIntegral prm P rat c = .done c') :
    IsInteger c'.rhs ∧ ∀ p ∈ c'.elems, Considered prm P p → IsInteger p.2 := by
  unfold scaleIntegral at h
  split at h
  · cases h
  · rename_i h0
    split at h
    · rename_i e heq
      subst h
      exact absurd heq (by
        have : ∀ (v : SVec) (g l : ℤ) (c : Cut), gcdLcm prm P rat v g l ≠ .error (.done c) := by
          intro v
          induction v with
          | nil => intro g l c h; exact absurd h (by simp [gcdLcm])
          | cons p v ih =>
            intro g l c h
            obtain ⟨col, a⟩ := p
            unfold gcdLcm at h
            split at h
            · exact ih _ _ _ h
            · split at h
              · cases h
              · split at h
                · split at h
                  · exact ih _ _ _ h
                  · cases h
                · cases h
        exact this _ _ _ _)
    · rename_i g l heq
      split at h
      · cases h
      · obtain ⟨hg, h1, h2, h3⟩ := gcdLcm_spec _ _ _ _ _ (abs_ne_zero.2 h0) heq
        rw [← Scaled.done.inj h]
        constructor
        · exact integral_of_dvd (hr h0) hg ((dvd_abs _ _).1 h1) h2
        · intro p hp hc
          obtain ⟨q, hq, rfl⟩ := List.mem_map.1 hp
          have := h3 q hq hc
          exact integral_of_dvd (he q hq hc) hg this.1 this.2

end Cgl.GMI
