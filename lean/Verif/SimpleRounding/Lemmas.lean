import Verif.SimpleRounding.Model
import Mathlib.Tactic.FieldSimp
import Mathlib.Tactic.Positivity
import Mathlib.Data.Int.GCD

/-!
# Helper lemmas for `CglSimpleRounding`
-/

namespace Cgl.SimpleRounding

/-- Column `j` survives the netting-out: integer and not fixed. -/
def isFree (P : Prob) (j : Nat) : Bool := P.isInt j && !decide (P.colUpper j - P.colLower j < epsilon)

/-- Row entry after replacing each surviving signed coefficient `a` by `ψ a` and dropping tiny continuous ones. -/
def pert (P : Prob) (sign : ℚ) (ψ : ℚ → ℚ) (p : Nat × ℚ) : Nat × ℚ :=
  (p.1, if isFree P p.1 then sign * ψ (sign * p.2)
        else if P.isInt p.1 = false ∧ |p.2| ≤ epsilon then 0 else p.2)

/-- Fixed integer columns of the row are at finite bounds and either integral or exactly fixed. -/
def FixedOk (P : Prob) (j : Nat) : Prop :=
  P.isInt j = true → P.colUpper j - P.colLower j < epsilon →
    -P.inf < P.colLower j ∧ P.colUpper j < P.inf ∧ (IsInteger (P.colUpper j) ∨ P.colLower j = P.colUpper j)

theorem fixed_eq {P : Prob} {x : Nat → ℚ} {j : Nat} (hok : FixedOk P j) (hi : P.isInt j = true)
    (hf : P.colUpper j - P.colLower j < epsilon) (hl : lbOk P.inf (P.colLower j) (x j))
    (hu : ubOk P.inf (P.colUpper j) (x j)) (hx : IsInteger (x j)) : x j = P.colUpper j := by
  obtain ⟨h1, h2, h3⟩ := hok hi hf
  have hl' := hl h1
  have hu' := hu h2
  rcases h3 with ⟨z, hz⟩ | h3
  · obtain ⟨y, hy⟩ := hx
    rw [hz, hy] at hu'
    have h4 : (z : ℚ) - y < 1 := by
      rw [hz] at hf; rw [hy] at hl'
      have : epsilon < 1 := by norm_num [epsilon]
      linarith
    have h5 : y ≤ z := by exact_mod_cast hu'
    have h6 : z - y < 1 := by exact_mod_cast h4
    rw [hz, hy]
    have : y = z := by omega
    rw [this]
  · linarith

theorem netOutAll_spec (P : Prob) (sign : ℚ) (hs : sign = 1 ∨ sign = -1) :
    ∀ (coefs : SVec) (b0 : ℚ) (ir0 : SVec) (b : ℚ) (ir : SVec),
      netOutAll P sign coefs (b0, ir0) = some (b, ir) →
      ir = ir0 ++ (coefs.filter fun p => isFree P p.1).map (fun p => (p.1, sign * p.2)) ∧
      ∀ (ψ : ℚ → ℚ) (x : Nat → ℚ),
        (∀ p ∈ coefs, FixedOk P p.1) →
        (∀ p ∈ coefs, lbOk P.inf (P.colLower p.1) (x p.1) ∧ ubOk P.inf (P.colUpper p.1) (x p.1) ∧
          (P.isInt p.1 = true → IsInteger (x p.1))) →
        SVec.dot ((coefs.filter fun p => isFree P p.1).map (fun p => (p.1, ψ (sign * p.2)))) x
          ≤ (b - b0) + sign * SVec.dot (coefs.map (pert P sign ψ)) x := by
  have hss : sign * sign = 1 := by rcases hs with h | h <;> rw [h] <;> norm_num
  intro coefs
  induction coefs with
  | nil =>
    intro b0 ir0 b ir h
    simp only [netOutAll, Option.some.injEq, Prod.mk.injEq] at h
    obtain ⟨rfl, rfl⟩ := h
    simp
  | cons p ps ih =>
    intro b0 ir0 b ir h
    rw [netOutAll] at h
    cases hn : netOut P sign (b0, ir0) p with
    | none => rw [hn] at h; cases h
    | some st =>
      obtain ⟨b1, ir1⟩ := st
      rw [hn] at h
      obtain ⟨hir, hineq⟩ := ih b1 ir1 b ir h
      unfold netOut at hn
      simp only at hn
      by_cases hint : P.isInt p.1 = false
      · -- continuous column
        have hfree : isFree P p.1 = false := by simp [isFree, hint]
        rw [if_pos hint] at hn
        have key : ir1 = ir0 ∧ ∀ (x : Nat → ℚ),
            lbOk P.inf (P.colLower p.1) (x p.1) → ubOk P.inf (P.colUpper p.1) (x p.1) → ∀ ψ,
            0 ≤ (b1 - b0) + sign * ((pert P sign ψ p).2 * x p.1) := by
          by_cases h1 : sign * p.2 < -epsilon
          · rw [if_pos h1] at hn
            by_cases h2 : P.colUpper p.1 < P.inf
            · rw [if_pos h2] at hn
              simp only [Option.some.injEq, Prod.mk.injEq] at hn
              refine ⟨hn.2.symm, fun x _ hu ψ => ?_⟩
              have hu' := hu h2
              have hnt : ¬ |p.2| ≤ epsilon := by
                intro hc
                have := abs_le.mp hc
                rcases hs with h | h <;> rw [h] at h1 <;> linarith [this.1, this.2]
              have he : (pert P sign ψ p).2 = p.2 := by simp [pert, hfree, hnt]
              rw [he, ← hn.1]
              have hneg : sign * p.2 ≤ 0 := by
                have : (0:ℚ) < epsilon := by norm_num [epsilon]
                linarith
              nlinarith [mul_nonneg (neg_nonneg.mpr hneg) (sub_nonneg.mpr hu')]
            · rw [if_neg h2] at hn; cases hn
          · rw [if_neg h1] at hn
            by_cases h2 : sign * p.2 > epsilon
            · rw [if_pos h2] at hn
              by_cases h3 : P.colLower p.1 > -P.inf
              · rw [if_pos h3] at hn
                simp only [Option.some.injEq, Prod.mk.injEq] at hn
                refine ⟨hn.2.symm, fun x hl _ ψ => ?_⟩
                have hl' := hl h3
                have hnt : ¬ |p.2| ≤ epsilon := by
                  intro hc
                  have := abs_le.mp hc
                  rcases hs with h | h <;> rw [h] at h2 <;> linarith [this.1, this.2]
                have he : (pert P sign ψ p).2 = p.2 := by simp [pert, hfree, hnt]
                rw [he, ← hn.1]
                have hpos : 0 ≤ sign * p.2 := by
                  have : (0:ℚ) < epsilon := by norm_num [epsilon]
                  linarith
                nlinarith [mul_nonneg hpos (sub_nonneg.mpr hl')]
              · rw [if_neg h3] at hn; cases hn
            · rw [if_neg h2] at hn
              simp only [Option.some.injEq, Prod.mk.injEq] at hn
              refine ⟨hn.2.symm, fun x _ _ ψ => ?_⟩
              have ht : |p.2| ≤ epsilon := by
                rw [abs_le]
                rcases hs with h | h <;> rw [h] at h1 h2 <;> constructor <;> linarith
              have he : (pert P sign ψ p).2 = 0 := by simp [pert, hfree, ht, hint]
              rw [he, ← hn.1]; simp
        obtain ⟨hir1, hk⟩ := key
        subst hir1
        refine ⟨by simp [hir, hfree], fun ψ x hok hx => ?_⟩
        have h1 := hineq ψ x (fun q hq => hok q (List.mem_cons_of_mem _ hq))
          (fun q hq => hx q (List.mem_cons_of_mem _ hq))
        have hxp := hx p (List.mem_cons_self ..)
        have h2 := hk x hxp.1 hxp.2.1 ψ
        have hfst : (pert P sign ψ p).1 = p.1 := rfl
        simp only [List.filter_cons, hfree, List.map_cons, SVec.dot_cons, hfst, Bool.false_eq_true, if_false]
        linarith [mul_add sign ((pert P sign ψ p).2 * x p.1) (SVec.dot (ps.map (pert P sign ψ)) x)]
      · rw [if_neg hint] at hn
        have hint' : P.isInt p.1 = true := by simpa using hint
        by_cases hf : P.colUpper p.1 - P.colLower p.1 < epsilon
        · -- fixed integer column
          rw [if_pos hf] at hn
          have hfree : isFree P p.1 = false := by simp [isFree, hint', hf]
          simp only [Option.some.injEq, Prod.mk.injEq] at hn
          obtain ⟨hb1, hir1⟩ := hn
          subst hir1
          refine ⟨by simp [hir, hfree], fun ψ x hok hx => ?_⟩
          have h1 := hineq ψ x (fun q hq => hok q (List.mem_cons_of_mem _ hq))
            (fun q hq => hx q (List.mem_cons_of_mem _ hq))
          have hxp := hx p (List.mem_cons_self ..)
          have heq := fixed_eq (hok p (List.mem_cons_self ..)) hint' hf hxp.1 hxp.2.1 (hxp.2.2 hint')
          have he : pert P sign ψ p = p := by simp [pert, hfree, hint']
          simp only [List.filter_cons, hfree, List.map_cons, SVec.dot_cons, he, Bool.false_eq_true, if_false]
          rw [heq]
          linarith [mul_add sign (p.2 * P.colUpper p.1) (SVec.dot (ps.map (pert P sign ψ)) x),
            mul_assoc sign p.2 (P.colUpper p.1)]
        · rw [if_neg hf] at hn
          have hfree : isFree P p.1 = true := by simp [isFree, hint', hf]
          simp only [Option.some.injEq, Prod.mk.injEq] at hn
          obtain ⟨rfl, rfl⟩ := hn
          refine ⟨by simp [hir, hfree], fun ψ x hok hx => ?_⟩
          have h1 := hineq ψ x (fun q hq => hok q (List.mem_cons_of_mem _ hq))
            (fun q hq => hx q (List.mem_cons_of_mem _ hq))
          have he : pert P sign ψ p = (p.1, sign * ψ (sign * p.2)) := by simp [pert, hfree]
          simp only [List.filter_cons, hfree, List.map_cons, SVec.dot_cons, he, if_true]
          have : sign * (sign * ψ (sign * p.2) * x p.1) = ψ (sign * p.2) * x p.1 := by
            rw [← mul_assoc, ← mul_assoc, hss, one_mul]
          rw [mul_add, this]
          linarith

/-! ### splitSigns -/

theorem setFlag_same (f : Nat → Bool) (j : Nat) (v : Bool) : setFlag f j v j = v := by simp [setFlag]
theorem setFlag_ne (f : Nat → Bool) {j k : Nat} (v : Bool) (h : k ≠ j) : setFlag f j v k = f k := by
  simp [setFlag, h]

/-- Magnitude stored for a signed coefficient. -/
def mag (a : ℚ) : ℚ := if a < -epsilon then a * (-1) else a

theorem splitSigns_fst (v : SVec) (neg : Nat → Bool) :
    (splitSigns v neg).1 = v.map fun p => (p.1, mag p.2) := by
  induction v generalizing neg with
  | nil => simp [splitSigns]
  | cons p ps ih =>
    unfold splitSigns
    by_cases h : p.2 < -epsilon
    · rw [if_pos h]; simp [ih, mag, h]
    · rw [if_neg h]; simp [ih, mag, h]

theorem splitSigns_snd_notin (v : SVec) (neg : Nat → Bool) (j : Nat) (hj : j ∉ v.map Prod.fst) :
    (splitSigns v neg).2 j = neg j := by
  induction v generalizing neg with
  | nil => simp [splitSigns]
  | cons p ps ih =>
    simp only [List.map_cons, List.mem_cons, not_or] at hj
    unfold splitSigns
    by_cases h : p.2 < -epsilon
    · rw [if_pos h]; simp only; rw [ih _ hj.2, setFlag_ne _ _ hj.1]
    · rw [if_neg h]; simp only; rw [ih _ hj.2]

theorem splitSigns_snd (v : SVec) (neg : Nat → Bool) (hnd : (v.map Prod.fst).Nodup)
    (hneg : ∀ p ∈ v, neg p.1 = false) : ∀ p ∈ v, (splitSigns v neg).2 p.1 = decide (p.2 < -epsilon) := by
  induction v generalizing neg with
  | nil => simp
  | cons q qs ih =>
    simp only [List.map_cons, List.nodup_cons] at hnd
    intro p hp
    unfold splitSigns
    by_cases h : q.2 < -epsilon
    · rw [if_pos h]; simp only
      rcases List.mem_cons.mp hp with rfl | hp'
      · rw [splitSigns_snd_notin _ _ _ hnd.1, setFlag_same]; simp [h]
      · apply ih _ hnd.2 _ p hp'
        intro r hr
        have hne : r.1 ≠ q.1 := fun he => hnd.1 (he ▸ List.mem_map_of_mem hr)
        rw [setFlag_ne _ _ hne]; exact hneg r (List.mem_cons_of_mem _ hr)
    · rw [if_neg h]; simp only
      rcases List.mem_cons.mp hp with rfl | hp'
      · rw [splitSigns_snd_notin _ _ _ hnd.1, hneg _ (List.mem_cons_self ..)]; simp [h]
      · exact ih _ hnd.2 (fun r hr => hneg r (List.mem_cons_of_mem _ hr)) p hp'

theorem resetFlags_spec (v : SVec) (neg : Nat → Bool) (j : Nat) :
    resetFlags v neg j = if j ∈ v.map Prod.fst then false else neg j := by
  unfold resetFlags
  induction v generalizing neg with
  | nil => simp
  | cons p ps ih =>
    simp only [List.foldl_cons, ih, List.map_cons, List.mem_cons]
    by_cases h : j ∈ ps.map Prod.fst
    · simp [h]
    · by_cases h2 : j = p.1
      · simp [h2, setFlag]
      · simp [h, h2, setFlag]

/-! ### power10 and integer scaling -/

theorem findPower_spec (v tol : ℚ) (p : Nat) (h : findPower v tol p < 16) :
    ∃ m : ℤ, |v * 10 ^ (findPower v tol p) - m| < tol * 10 ^ (findPower v tol p) := by
  induction hk : 16 - p generalizing p with
  | zero =>
    rw [findPower] at h ⊢
    have hp : ¬ p < 16 := by omega
    rw [dif_neg hp] at h
    exact absurd h hp
  | succ k ih =>
    have hp : p < 16 := by omega
    rw [findPower, dif_pos hp] at h ⊢
    simp only at h ⊢
    split
    · rename_i hc
      rcases hc with hc | hc
      · refine ⟨⌊v * 10 ^ p⌋, ?_⟩
        rw [abs_of_nonneg (by linarith [Int.floor_le (v * 10 ^ p)])]; exact hc
      · refine ⟨⌊v * 10 ^ p⌋ + 1, ?_⟩
        push_cast
        rw [abs_of_nonpos (by linarith [Int.lt_floor_add_one (v * 10 ^ p)])]; linarith
    · rename_i hc
      rw [if_neg hc] at h
      exact ih (p + 1) h (by omega)

theorem findPower_le (v tol : ℚ) (p k : Nat) (hpk : p ≤ k) (hk : k < 16) (htol : 0 < tol)
    (hv : IsInteger (v * 10 ^ k)) : findPower v tol p ≤ k := by
  induction hd : 16 - p generalizing p with
  | zero => omega
  | succ d ih =>
    have hp : p < 16 := by omega
    rw [findPower, dif_pos hp]
    simp only
    split
    · exact hpk
    · rename_i hc
      by_cases he : p = k
      · exfalso; apply hc; left
        obtain ⟨z, hz⟩ := hv
        rw [he, hz]; simp; positivity
      · exact ih (p + 1) (by omega) (by omega)

theorem power10_spec (tol : ℚ) (vs : List ℚ) (p0 p : Nat) (h : power10 tol vs p0 = some p) :
    p0 ≤ p ∧ (p < 16 ∨ p = p0) ∧
      ∀ v ∈ vs, findPower |v| tol 0 < 16 ∧ findPower |v| tol 0 ≤ p := by
  induction vs generalizing p0 with
  | nil => simp only [power10, Option.some.injEq] at h; subst h; simp
  | cons v vs ih =>
    unfold power10 at h
    simp only at h
    split at h
    · cases h
    · rename_i hc
      have hle : findPower |v| tol 0 ≤ 16 := by
        have : ∀ (d p : Nat), 16 - p = d → p ≤ 16 → findPower |v| tol p ≤ 16 := by
          intro d
          induction d with
          | zero => intro p h1 h2; rw [findPower, dif_neg (by omega)]; exact h2
          | succ d ihd =>
            intro p h1 h2
            rw [findPower, dif_pos (by omega)]; simp only
            split
            · omega
            · exact ihd _ (by omega) (by omega)
        exact this 16 0 rfl (by omega)
      have hlt : findPower |v| tol 0 < 16 := by
        have : findPower |v| tol 0 ≠ 16 := fun he => hc (Or.inl he)
        omega
      obtain ⟨h1, h2, h3⟩ := ih _ h
      refine ⟨?_, ?_, ?_⟩
      · split at h1 <;> omega
      · rcases h2 with h2 | h2
        · exact Or.inl h2
        · split at h2
          · left; omega
          · right; exact h2
      · intro w hw
        rcases List.mem_cons.mp hw with rfl | hw
        · refine ⟨hlt, ?_⟩
          split at h1 <;> omega
        · exact h3 w hw

theorem round_nearest (q : ℚ) (m : ℤ) : |q - (⌊q + 1/2⌋ : ℤ)| ≤ |q - m| := by
  set z := ⌊q + 1/2⌋ with hz
  have h1 : (z : ℚ) ≤ q + 1/2 := Int.floor_le _
  have h2 : q + 1/2 < z + 1 := Int.lt_floor_add_one _
  have habs : |q - z| ≤ 1/2 := by rw [abs_le]; constructor <;> linarith
  by_cases h : m = z
  · rw [h]
  · have h3 : (1 : ℚ) ≤ |(m : ℚ) - z| := by
      have : 1 ≤ |m - z| := Int.one_le_abs (by omega)
      exact_mod_cast this
    have h4 : |(m : ℚ) - z| ≤ |q - m| + |q - z| := by
      calc |(m : ℚ) - z| = |(q - z) - (q - m)| := by ring_nf
        _ ≤ |q - z| + |q - m| := abs_sub _ _
        _ = _ := by ring
    linarith

/-- The integer the code scales the magnitude `v` to. -/
def scaleInt (p : Nat) (v : ℚ) : ℤ := ⌊v * 10 ^ p + 1/2⌋

theorem scaleInt_close (v : ℚ) (hv : 0 ≤ v) (p : Nat) (h1 : findPower |v| (epsilon * (1/10^4)) 0 < 16)
    (h2 : findPower |v| (epsilon * (1/10^4)) 0 ≤ p) :
    |v - scaleInt p v / 10 ^ p| < 1 / 10 ^ 12 := by
  set q := findPower |v| (epsilon * (1/10^4)) 0 with hq
  obtain ⟨m, hm⟩ := findPower_spec |v| (epsilon * (1/10^4)) 0 h1
  rw [← hq, abs_of_nonneg hv] at hm
  have h10 : (0:ℚ) < 10 ^ p := by positivity
  have hm2 : |v * 10 ^ p - ((m * 10 ^ (p - q) : ℤ) : ℚ)| < 1 / 10 ^ 12 * 10 ^ p := by
    have he : (10 : ℚ) ^ p = 10 ^ q * 10 ^ (p - q) := by rw [← pow_add]; congr 1; omega
    have : v * 10 ^ p - ((m * 10 ^ (p - q) : ℤ) : ℚ) = (v * 10 ^ q - m) * 10 ^ (p - q) := by
      push_cast; rw [he]; ring
    rw [this, abs_mul, abs_of_pos (by positivity : (0:ℚ) < 10 ^ (p - q)), he, ← mul_assoc]
    apply mul_lt_mul_of_pos_right _ (by positivity)
    have : epsilon * (1 / 10 ^ 4) = 1 / 10 ^ 12 := by norm_num [epsilon]
    rw [this] at hm; exact hm
  have hr := round_nearest (v * 10 ^ p) (m * 10 ^ (p - q))
  have : v - scaleInt p v / 10 ^ p = (v * 10 ^ p - (⌊v * 10 ^ p + 1/2⌋ : ℤ)) / 10 ^ p := by
    unfold scaleInt; field_simp
  rw [this, abs_div, abs_of_pos h10, div_lt_iff₀ h10]
  linarith

theorem scaleInt_exact (v : ℚ) (hv : 0 ≤ v) (p : Nat) (hp : p ≤ 12)
    (h1 : findPower |v| (epsilon * (1/10^4)) 0 < 16)
    (h2 : findPower |v| (epsilon * (1/10^4)) 0 ≤ p) (hd : IsInteger (v * 10 ^ 12)) :
    (scaleInt p v : ℚ) / 10 ^ p = v := by
  have hc := scaleInt_close v hv p h1 h2
  obtain ⟨z, hz⟩ := hd
  have he : (10 : ℚ) ^ 12 = 10 ^ p * 10 ^ (12 - p) := by rw [← pow_add]; congr 1; omega
  have h10 : (10 : ℚ) ^ p ≠ 0 := by positivity
  have h3 : |((z - scaleInt p v * 10 ^ (12 - p) : ℤ) : ℚ)| < 1 := by
    have : ((z - scaleInt p v * 10 ^ (12 - p) : ℤ) : ℚ) = (v - scaleInt p v / 10 ^ p) * 10 ^ 12 := by
      push_cast; rw [← hz, he]; field_simp
    rw [this, abs_mul, abs_of_pos (by positivity : (0:ℚ) < 10 ^ 12)]
    calc _ < 1 / 10 ^ 12 * 10 ^ 12 := mul_lt_mul_of_pos_right hc (by positivity)
      _ = 1 := by norm_num
  have h4 : |z - scaleInt p v * 10 ^ (12 - p)| < 1 := by exact_mod_cast h3
  have h5 : z = scaleInt p v * 10 ^ (12 - p) := by have := Int.abs_lt_one_iff.mp h4; omega
  have h6 : v * 10 ^ 12 = scaleInt p v * 10 ^ (12 - p) := by rw [hz, h5]; push_cast; rfl
  rw [he, ← mul_assoc] at h6
  have h7 := mul_right_cancel₀ (by positivity : (10 : ℚ) ^ (12 - p) ≠ 0) h6
  rw [div_eq_iff h10]; exact h7.symm

theorem scaleInt_pos (v : ℚ) (hv : epsilon < v) (p : Nat)
    (h1 : findPower |v| (epsilon * (1/10^4)) 0 < 16)
    (h2 : findPower |v| (epsilon * (1/10^4)) 0 ≤ p) : 0 < scaleInt p v := by
  have hv0 : 0 ≤ v := by have : (0:ℚ) < epsilon := by norm_num [epsilon]
                         linarith
  unfold scaleInt
  have : (1 : ℚ) ≤ v * 10 ^ p + 1/2 := by
    by_cases hp : 8 ≤ p
    · have : (1 : ℚ) ≤ v * 10 ^ p := by
        have h10 : (10:ℚ) ^ 8 ≤ 10 ^ p := pow_le_pow_right₀ (by norm_num) hp
        calc (1 : ℚ) = epsilon * 10 ^ 8 := by norm_num [epsilon]
          _ ≤ v * 10 ^ p := mul_le_mul hv.le h10 (by positivity) hv0
      linarith
    · obtain ⟨m, hm⟩ := findPower_spec |v| (epsilon * (1/10^4)) 0 h1
      set q := findPower |v| (epsilon * (1/10^4)) 0 with hq
      rw [abs_of_nonneg hv0] at hm
      have ht : epsilon * (1 / 10 ^ 4) = 1 / 10 ^ 12 := by norm_num [epsilon]
      rw [ht] at hm
      have hm1 : 1 ≤ m := by
        by_contra hcon
        have hm0 : m ≤ 0 := by omega
        have hm0' : (m : ℚ) ≤ 0 := by exact_mod_cast hm0
        have h10 : (0:ℚ) < 10 ^ q := by positivity
        have h3 := (abs_lt.mp hm).2
        have h4 : v * 10 ^ q < 1 / 10 ^ 12 * 10 ^ q := by linarith
        have h5 : v < 1 / 10 ^ 12 := lt_of_mul_lt_mul_right h4 h10.le
        have : (1 : ℚ) / 10 ^ 12 < epsilon := by norm_num [epsilon]
        linarith
      have hm1' : (1 : ℚ) ≤ m := by exact_mod_cast hm1
      have h3 := (abs_lt.mp hm).1
      have h10q : (10:ℚ) ^ q ≤ 10 ^ 8 := pow_le_pow_right₀ (by norm_num) (by omega)
      have h4 : (1:ℚ) / 10 ^ 12 * 10 ^ q ≤ 1 / 10 ^ 4 := by
        calc (1:ℚ) / 10 ^ 12 * 10 ^ q ≤ 1 / 10 ^ 12 * 10 ^ 8 := by
              apply mul_le_mul_of_nonneg_left h10q; positivity
          _ = 1 / 10 ^ 4 := by norm_num
      have h5 : (1:ℚ)/2 ≤ v * 10 ^ q := by norm_num at h4 h3 ⊢; linarith
      have h6 : v * 10 ^ q ≤ v * 10 ^ p :=
        mul_le_mul_of_nonneg_left (pow_le_pow_right₀ (by norm_num) h2) hv0
      linarith
  have h7 : (1 : ℤ) ≤ ⌊v * 10 ^ p + 1/2⌋ := Int.le_floor.mpr (by exact_mod_cast this)
  omega

theorem castInt_eq {q : ℚ} (hq : 0 ≤ q) {z : ℤ} (h : castInt q = some z) : z = ⌊q⌋ := by
  unfold castInt at h
  split at h
  · simp only [Option.some.injEq] at h; rw [← h, truncQ, if_pos hq]
  · cases h

theorem toInts_spec (p : Nat) (v : SVec) (hv : ∀ q ∈ v, 0 ≤ q.2) (xs : List (Nat × ℤ))
    (h : toInts p v = some xs) : xs = v.map fun q => (q.1, scaleInt p q.2) := by
  induction v generalizing xs with
  | nil => simp only [toInts, Option.some.injEq] at h; subst h; rfl
  | cons q qs ih =>
    unfold toInts at h
    have h0 : (0:ℚ) ≤ q.2 * 10 ^ p + 1/2 := by
      have := hv q (List.mem_cons_self ..); positivity
    cases hc : castInt (q.2 * 10 ^ p + 1/2) with
    | none => rw [hc] at h; cases h
    | some z =>
      cases ht : toInts p qs with
      | none => rw [hc, ht] at h; cases h
      | some r =>
        rw [hc, ht] at h
        simp only [Option.some.injEq] at h
        rw [← h, ih (fun q hq => hv q (List.mem_cons_of_mem _ hq)) r ht, castInt_eq h0 hc]
        rfl

/-! ### gcd -/

theorem gcd_spec (fuel : Nat) (a b : ℤ) (ha : 0 < a) (hb : 0 < b) (hf : (min a b).natAbs < fuel) :
    gcd fuel a b = some (Int.gcd a b : ℤ) := by
  induction fuel generalizing a b with
  | zero => omega
  | succ n ih =>
    have key : ∀ a b : ℤ, 0 < a → a ≤ b → a.natAbs < n + 1 →
        (if a = 0 then none else if b.tmod a = 0 then some a else gcd n (b.tmod a) a)
          = some (Int.gcd a b : ℤ) := by
      intro a b ha hab hfa
      rw [if_neg (by omega)]
      have hmod : b.tmod a = b % a := by rw [Int.tmod_eq_emod_of_nonneg (by omega)]
      rw [hmod]
      split
      · rename_i h0
        have : a ∣ b := Int.dvd_of_emod_eq_zero h0
        rw [Int.gcd_eq_left_iff_dvd (by omega) |>.mpr this]
      · rename_i h0
        have h1 : 0 ≤ b % a := Int.emod_nonneg _ (by omega)
        have h2 : b % a < a := Int.emod_lt_of_pos _ ha
        rw [ih _ _ (by omega) ha (by omega)]
        congr 2
        rw [Int.gcd_emod, Int.gcd_comm]
    unfold gcd
    simp only
    by_cases h : a > b
    · simp only [if_pos h]
      rw [key b a hb (by omega) (by omega), Int.gcd_comm]
    · simp only [if_neg h]
      exact key a b ha (by omega) (by omega)

theorem gcdFold_spec (g : ℤ) (vs : List ℤ) (hg : 0 < g) (hvs : ∀ v ∈ vs, 0 < v) :
    ∃ g', gcdFold g vs = some g' ∧ 0 < g' ∧ g' ∣ g ∧ (∀ v ∈ vs, g' ∣ v) ∧
      ∀ d : ℤ, d ∣ g → (∀ v ∈ vs, d ∣ v) → d ∣ g' := by
  induction vs generalizing g with
  | nil => exact ⟨g, rfl, hg, dvd_refl _, by simp, fun d hd _ => hd⟩
  | cons v vs ih =>
    have hv : 0 < v := hvs v (List.mem_cons_self ..)
    have h1 : gcd (gcdFuel g v) g v = some (Int.gcd g v : ℤ) :=
      gcd_spec _ _ _ hg hv (by unfold gcdFuel; omega)
    have hpos : (0 : ℤ) < Int.gcd g v := by
      have := Int.gcd_pos_of_ne_zero_left v (by omega : g ≠ 0)
      exact_mod_cast this
    obtain ⟨g', e1, e2, e3, e4, e5⟩ := ih (Int.gcd g v) hpos (fun w hw => hvs w (List.mem_cons_of_mem _ hw))
    refine ⟨g', ?_, e2, e3.trans (Int.gcd_dvd_left ..), ?_, ?_⟩
    · unfold gcdFold; rw [h1]; exact e1
    · intro w hw
      rcases List.mem_cons.mp hw with rfl | hw
      · exact e3.trans (Int.gcd_dvd_right ..)
      · exact e4 w hw
    · intro d hd hall
      exact e5 d (Int.dvd_coe_gcd hd (hall v (List.mem_cons_self ..)))
        (fun w hw => hall w (List.mem_cons_of_mem _ hw))

theorem gcdv_spec (vs : List ℤ) (hne : vs ≠ []) (hvs : ∀ v ∈ vs, 0 < v) :
    ∃ g, gcdv vs = some g ∧ 0 < g ∧ (∀ v ∈ vs, g ∣ v) ∧ ∀ d : ℤ, (∀ v ∈ vs, d ∣ v) → d ∣ g := by
  match vs, hne, hvs with
  | [v], _, hvs =>
    exact ⟨v, rfl, hvs v (by simp), by simp, fun d hd => hd v (by simp)⟩
  | v :: w :: vs, _, hvs =>
    have hv : 0 < v := hvs v (by simp)
    have hw : 0 < w := hvs w (by simp)
    obtain ⟨g, h1, h2, h3, h4, h5⟩ := gcdFold_spec v (w :: vs) hv (fun u hu => hvs u (List.mem_cons_of_mem _ hu))
    refine ⟨g, ?_, h2, ?_, fun d hd => h5 d (hd v (by simp)) (fun u hu => hd u (List.mem_cons_of_mem _ hu))⟩
    · unfold gcdv; unfold gcdFold at h1; exact h1
    · intro u hu
      rcases List.mem_cons.mp hu with rfl | hu
      · exact h3
      · exact h4 u hu

/-! ### The row derivation -/

theorem senseRhs_sound (inf : ℚ) (r : Row) (x : Nat → ℚ) (h : r.Sat inf x) :
    match r.senseRhs inf with
    | (.L, b) | (.R, b) => r.coefs.dot x ≤ b
    | (.G, b) => b ≤ r.coefs.dot x
    | (.E, b) => r.coefs.dot x = b
    | (.N, _) => True := by
  obtain ⟨h1, h2⟩ := h
  unfold Row.senseRhs
  by_cases hl : -inf < r.lb
  · by_cases hu : r.ub < inf
    · by_cases he : r.ub = r.lb
      · simp only [hl, he, if_true]
        have h1' := h1 hl
        have h2' := h2 hu
        rw [if_pos (by rw [← he]; exact hu)]
        simp only; linarith
      · simp only [hl, hu, he, if_true, if_false]; exact h2 hu
    · simp only [hl, hu, if_true, if_false]; exact h1 hl
  · by_cases hu : r.ub < inf
    · simp only [hl, hu, if_true, if_false]; exact h2 hu
    · simp only [hl, hu, if_false]

/-- The row with perturbed coefficients. -/
def pertRow (P : Prob) (sign : ℚ) (ψ : ℚ → ℚ) (r : Row) : Row :=
  { r with coefs := r.coefs.map (pert P sign ψ) }

theorem derive_spec (P : Prob) (r : Row) (hnd : (r.coefs.map Prod.fst).Nodup)
    (irow : SVec) (b : ℚ) (neg : Nat → Bool)
    (h : deriveAnIntegerRow P r (fun _ => false) = some (irow, b, neg)) :
    ∃ sign : ℚ, (sign = 1 ∨ sign = -1) ∧ ∃ fr : SVec,
      fr = (r.coefs.filter fun p => isFree P p.1).map (fun p => (p.1, sign * p.2)) ∧ fr ≠ [] ∧
      irow = fr.map (fun p => (p.1, mag p.2)) ∧
      (∀ p ∈ fr, neg p.1 = decide (p.2 < -epsilon)) ∧
      (∀ j, j ∉ fr.map Prod.fst → neg j = false) ∧
      ∀ (ψ : ℚ → ℚ) (x : Nat → ℚ), (∀ p ∈ r.coefs, FixedOk P p.1) →
        (∀ p ∈ r.coefs, lbOk P.inf (P.colLower p.1) (x p.1) ∧ ubOk P.inf (P.colUpper p.1) (x p.1) ∧
          (P.isInt p.1 = true → IsInteger (x p.1))) →
        (pertRow P sign ψ r).Sat P.inf x →
        SVec.dot (fr.map (fun p => (p.1, ψ p.2))) x ≤ b := by
  unfold deriveAnIntegerRow at h
  have hsr := fun x (ψ : ℚ → ℚ) (sign : ℚ) => senseRhs_sound P.inf (pertRow P sign ψ r) x
  have hsame : ∀ sign ψ, (pertRow P sign ψ r).senseRhs P.inf = r.senseRhs P.inf := fun _ _ => rfl
  cases hsen : r.senseRhs P.inf with
  | mk s rhs =>
    rw [hsen] at h
    simp only at h
    have main : ∀ (sign b0 : ℚ), (sign = 1 ∨ sign = -1) →
        (match netOutAll P sign r.coefs (b0, []) with
          | none => none
          | some (b, irow) =>
            if irow.length = 0 then none
            else some ((splitSigns irow (fun _ => false)).1, b, (splitSigns irow (fun _ => false)).2))
          = some (irow, b, neg) →
        (∀ ψ x, (pertRow P sign ψ r).Sat P.inf x → sign * (pertRow P sign ψ r).coefs.dot x ≤ b0) →
        ∃ sign : ℚ, (sign = 1 ∨ sign = -1) ∧ ∃ fr : SVec,
          fr = (r.coefs.filter fun p => isFree P p.1).map (fun p => (p.1, sign * p.2)) ∧ fr ≠ [] ∧
          irow = fr.map (fun p => (p.1, mag p.2)) ∧
          (∀ p ∈ fr, neg p.1 = decide (p.2 < -epsilon)) ∧
          (∀ j, j ∉ fr.map Prod.fst → neg j = false) ∧
          ∀ (ψ : ℚ → ℚ) (x : Nat → ℚ), (∀ p ∈ r.coefs, FixedOk P p.1) →
            (∀ p ∈ r.coefs, lbOk P.inf (P.colLower p.1) (x p.1) ∧ ubOk P.inf (P.colUpper p.1) (x p.1) ∧
              (P.isInt p.1 = true → IsInteger (x p.1))) →
            (pertRow P sign ψ r).Sat P.inf x →
            SVec.dot (fr.map (fun p => (p.1, ψ p.2))) x ≤ b := by
      intro sign b0 hs hm hrow
      cases hno : netOutAll P sign r.coefs (b0, []) with
      | none => rw [hno] at hm; cases hm
      | some st =>
        obtain ⟨b1, ir⟩ := st
        rw [hno] at hm
        simp only at hm
        split at hm
        · cases hm
        · rename_i hlen
          simp only [Option.some.injEq, Prod.mk.injEq] at hm
          obtain ⟨hm1, hm2, hm3⟩ := hm
          obtain ⟨e1, e2⟩ := netOutAll_spec P sign hs r.coefs b0 [] b1 ir hno
          simp only [List.nil_append] at e1
          have hndf : (ir.map Prod.fst).Nodup := by
            rw [e1]
            have : List.map Prod.fst (List.map (fun p : Nat × ℚ => (p.1, sign * p.2))
                (List.filter (fun p => isFree P p.1) r.coefs))
                = (List.filter (fun p => isFree P p.1) r.coefs).map Prod.fst := by
              simp [List.map_map, Function.comp_def]
            rw [this]
            exact hnd.sublist (List.Sublist.map _ List.filter_sublist)
          refine ⟨sign, hs, ir, e1, ?_, ?_, ?_, ?_, ?_⟩
          · intro hnil; apply hlen; rw [hnil]; rfl
          · rw [← hm1, splitSigns_fst]
          · intro p hp
            rw [← hm3]; exact splitSigns_snd ir _ hndf (fun _ _ => rfl) p hp
          · intro j hj
            rw [← hm3, splitSigns_snd_notin _ _ _ hj]
          · intro ψ x hok hx hsat
            have h3 := e2 ψ x hok hx
            have h4 := hrow ψ x hsat
            have h5 : SVec.dot (ir.map (fun p => (p.1, ψ p.2))) x =
                SVec.dot ((r.coefs.filter fun p => isFree P p.1).map (fun p => (p.1, ψ (sign * p.2)))) x := by
              rw [e1]; simp [List.map_map, Function.comp_def]
            rw [h5]
            have h6 : sign * SVec.dot (r.coefs.map (pert P sign ψ)) x ≤ b0 := h4
            linarith
    cases s with
    | E => cases h
    | N => cases h
    | L =>
      simp only [reduceCtorEq, if_false] at h
      refine main 1 rhs (Or.inl rfl) h (fun ψ x hsat => ?_)
      have := hsr x ψ 1 hsat
      rw [hsame, hsen] at this; simp only at this; linarith
    | R =>
      simp only [reduceCtorEq, if_false] at h
      refine main 1 rhs (Or.inl rfl) h (fun ψ x hsat => ?_)
      have := hsr x ψ 1 hsat
      rw [hsame, hsen] at this; simp only at this; linarith
    | G =>
      simp only [if_true] at h
      refine main (-1) (-rhs) (Or.inr rfl) h (fun ψ x hsat => ?_)
      have := hsr x ψ (-1) hsat
      rw [hsame, hsen] at this; simp only at this; linarith

end Cgl.SimpleRounding
