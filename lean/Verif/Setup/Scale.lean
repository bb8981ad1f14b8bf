import Verif.Setup.Spec

/-! # Scaling of rows -/

namespace Cgl.Setup

theorem floor_of_int {v e : ℚ} (h : IsInteger v) (he : 0 ≤ e) (he1 : e < 1) : (⌊v + e⌋ : ℚ) = v := by
  obtain ⟨z, rfl⟩ := h
  rw [Int.floor_intCast_add, Int.floor_eq_zero_iff.mpr ⟨he, he1⟩]; simp

/-- What the loop of `scaleRowIntegral` computes. -/
theorem ratLoop_ok (rat : ℚ → ℤ × ℕ) (l : List ℚ) (hk : ∀ v ∈ l, Known rat v) (s t : ℕ × ℕ) (h1 : 0 < s.1) (h2 : 0 < s.2)
    (h : ratLoop rat l s = .ok (some t)) :
    0 < t.1 ∧ 0 < t.2 ∧ t.1 ∣ s.1 ∧ s.2 ∣ t.2 ∧
      ∀ v ∈ l, v ≠ 0 → v = ((rat v).1 : ℚ) / (rat v).2 ∧ 0 < (rat v).2 ∧ (t.1 : ℤ) ∣ (rat v).1 ∧ (rat v).2 ∣ t.2 := by
  induction l generalizing s with
  | nil =>
    simp only [ratLoop, Except.ok.injEq, Option.some.injEq] at h
    subst h; exact ⟨h1, h2, dvd_refl _, dvd_refl _, fun v hv => absurd hv (List.not_mem_nil)⟩
  | cons w l ih =>
    have hk' : ∀ v ∈ l, Known rat v := fun v hv => hk v (List.mem_cons_of_mem _ hv)
    unfold ratLoop at h
    by_cases hw : w = 0
    · rw [if_pos hw] at h
      obtain ⟨a, b, c, d, e⟩ := ih hk' s h1 h2 h
      refine ⟨a, b, c, d, fun v hv hv0 => ?_⟩
      rcases List.mem_cons.mp hv with rfl | hv
      · exact absurd hw hv0
      · exact e v hv hv0
    · rw [if_neg hw] at h
      by_cases hn : (rat w).1 = 0
      · rw [if_pos hn] at h; cases h
      · rw [if_neg hn] at h
        by_cases ho : 2 ^ 63 ≤ s.2 * ((rat w).2 / Nat.gcd s.2 (rat w).2)
        · rw [if_pos ho] at h; cases h
        · rw [if_neg ho] at h
          obtain hz | ⟨hd, hv, -⟩ := hk w List.mem_cons_self
          · exact absurd hz hn
          have hg : 0 < Nat.gcd s.1 (rat w).1.natAbs := Nat.gcd_pos_of_pos_left _ h1
          have hgd : Nat.gcd s.2 (rat w).2 ∣ (rat w).2 := Nat.gcd_dvd_right _ _
          have hq : 0 < (rat w).2 / Nat.gcd s.2 (rat w).2 :=
            Nat.div_pos (Nat.le_of_dvd hd hgd) (Nat.gcd_pos_of_pos_left _ h2)
          obtain ⟨a, b, c, d, e⟩ := ih hk' _ hg (Nat.mul_pos h2 hq) h
          have hden : (rat w).2 ∣ s.2 * ((rat w).2 / Nat.gcd s.2 (rat w).2) := by
            obtain ⟨u, hu⟩ := Nat.gcd_dvd_left s.2 (rat w).2
            refine ⟨u, ?_⟩
            calc s.2 * ((rat w).2 / Nat.gcd s.2 (rat w).2)
                = (Nat.gcd s.2 (rat w).2 * u) * ((rat w).2 / Nat.gcd s.2 (rat w).2) := by rw [← hu]
              _ = (Nat.gcd s.2 (rat w).2 * ((rat w).2 / Nat.gcd s.2 (rat w).2)) * u := by ring
              _ = (rat w).2 * u := by rw [Nat.mul_div_cancel' hgd]
          refine ⟨a, b, c.trans (Nat.gcd_dvd_left _ _), (Dvd.intro _ rfl).trans d, fun v hv' hv0 => ?_⟩
          rcases List.mem_cons.mp hv' with rfl | hv'
          · exact ⟨hv, hd, Int.natCast_dvd.mpr (c.trans (Nat.gcd_dvd_right _ _)), hden.trans d⟩
          · exact e v hv' hv0

theorem fraction_int {n : ℤ} {d g m : ℕ} (hd : 0 < d) (hg : 0 < g) (h1 : (g : ℤ) ∣ n) (h2 : d ∣ m) :
    IsInteger ((n : ℚ) / d * ((m : ℚ) / g)) := by
  obtain ⟨a, rfl⟩ := h1
  obtain ⟨b, rfl⟩ := h2
  have hd' : (d : ℚ) ≠ 0 := by exact_mod_cast hd.ne'
  have hg' : (g : ℚ) ≠ 0 := by exact_mod_cast hg.ne'
  refine ⟨a * b, ?_⟩
  push_cast
  field_simp

/-- What `scaleRowIntegral` finds: a factor that makes all numbers integers. -/
theorem scaling_ok (rat : ℚ → ℤ × ℕ) (w : ℚ) (l : List ℚ) (hk : ∀ v ∈ w :: l, Known rat v) (s : ℚ)
    (h : scaling rat (w :: l) = .ok (some s)) :
    w ≠ 0 ∧ 0 < s ∧ s ≤ 1000 ∧ (∀ v ∈ w :: l, IsInteger (v * s)) ∧
      ∃ g m : ℕ, s = (m : ℚ) / g ∧ 0 < g ∧ g < 10 ^ 12 := by
  simp only [scaling] at h
  by_cases hn : (rat w).1 = 0
  · rw [if_pos hn] at h; cases h
  rw [if_neg hn] at h
  obtain hz | ⟨hd, hw, hb⟩ := hk w List.mem_cons_self
  · exact absurd hz hn
  have hw0 : w ≠ 0 := by
    intro h0
    rw [h0] at hw hn hd
    have : ((rat 0).1 : ℚ) = 0 := by
      have hd' : ((rat 0).2 : ℚ) ≠ 0 := by exact_mod_cast hd.ne'
      rcases div_eq_zero_iff.mp hw.symm with h | h
      · exact h
      · exact absurd h hd'
    exact hn (by exact_mod_cast this)
  cases hr : ratLoop rat l ((rat w).1.natAbs, (rat w).2) with
  | error e => rw [hr] at h; cases h
  | ok o =>
    rw [hr] at h
    cases o with
    | none => cases h
    | some t =>
      simp only [Except.map, factor, Except.ok.injEq] at h
      by_cases hs : 1000 < (t.2 : ℚ) / t.1
      · rw [if_pos hs] at h; cases h
      · rw [if_neg hs] at h
        simp only [Option.some.injEq] at h
        obtain ⟨a, b, c, d, e⟩ := ratLoop_ok rat l (fun v hv => hk v (List.mem_cons_of_mem _ hv)) _ t
          (Int.natAbs_pos.mpr hn) hd hr
        have ha : (0 : ℚ) < t.1 := by exact_mod_cast a
        have hb' : (0 : ℚ) < t.2 := by exact_mod_cast b
        have hg : t.1 < 10 ^ 12 := by
          refine lt_of_le_of_lt (Nat.le_of_dvd (Int.natAbs_pos.mpr hn) c) ?_
          have : ((rat w).1.natAbs : ℤ) < 10 ^ 12 := by rw [Int.natCast_natAbs]; exact hb
          exact_mod_cast this
        refine ⟨hw0, by rw [← h]; exact div_pos hb' ha, by rw [← h]; exact not_lt.mp hs, fun v hv => ?_, t.1, t.2, h.symm, a, hg⟩
        rcases List.mem_cons.mp hv with rfl | hv
        · rw [hw, ← h]
          exact fraction_int hd a (Int.natCast_dvd.mpr c) d
        · by_cases hv0 : v = 0
          · rw [hv0]; exact ⟨0, by simp⟩
          · obtain ⟨e1, e2, e3, e4⟩ := e v hv hv0
            rw [e1, ← h]
            exact fraction_int e2 a e3 e4

theorem scaleAll_ok (s : ℚ) (l : List ℚ) (h : ∀ v ∈ l, IsInteger (v * s)) : scaleAll s l = (l.map (· * s), true) := by
  induction l with
  | nil => rfl
  | cons v l ih =>
    have hv : (⌊v * s + 1 / 2⌋ : ℚ) = v * s := floor_of_int (h v List.mem_cons_self) (by norm_num) (by norm_num)
    unfold scaleAll
    rw [hv, sub_self, abs_zero, if_neg (by norm_num), ih fun w hw => h w (List.mem_cons_of_mem _ hw)]
    rfl

/-- A factor with a moderate denominator is not moved by the rounding. -/
theorem snap_eq (s q : ℚ) (hq : q = 1 ∨ q = -1) (g m : ℕ) (hs : s = (m : ℚ) / g) (hg : 0 < g) (hb : g < 10 ^ 12) :
    snap (q * s) = q * s := by
  unfold snap
  by_cases h : |q * s - (⌊q * s + 1 / 10⌋ : ℚ)| < 1 / 10 ^ 12
  · rw [if_pos h]
    generalize ⌊q * s + 1 / 10⌋ = z at h ⊢
    have hg' : (0 : ℚ) < g := by exact_mod_cast hg
    have hb' : (g : ℚ) < 10 ^ 12 := by exact_mod_cast hb
    obtain ⟨u, hu⟩ : ∃ u : ℤ, q * m = u := by
      rcases hq with rfl | rfl
      · exact ⟨m, by simp⟩
      · exact ⟨-m, by simp⟩
    have hqs : q * s * g = u := by rw [hs, ← hu]; field_simp
    have h1 : |((u - z * g : ℤ) : ℚ)| < 1 := by
      have : ((u - z * g : ℤ) : ℚ) = (q * s - z) * g := by push_cast; rw [sub_mul, hqs]
      rw [this, abs_mul, abs_of_pos hg']
      calc |q * s - z| * g ≤ 1 / 10 ^ 12 * g := mul_le_mul_of_nonneg_right h.le hg'.le
        _ < 1 / 10 ^ 12 * 10 ^ 12 := by
          apply mul_lt_mul_of_pos_left hb'; norm_num
        _ = 1 := by norm_num
    have h2 : u - z * g = 0 := by
      have : |u - z * g| < 1 := by exact_mod_cast h1
      exact Int.abs_lt_one_iff.mp this
    have h3 : (u : ℚ) = z * g := by
      have : u = z * g := by linarith
      exact_mod_cast this
    have : q * s * g = z * g := by rw [hqs, h3]
    exact (mul_right_cancel₀ hg'.ne' this).symm
  · rw [if_neg h]

theorem sign_cases (r : Row) : sign r = 1 ∨ sign r = -1 := by
  unfold sign; split
  · exact Or.inr rfl
  · exact Or.inl rfl

theorem sign_sq (r : Row) : sign r * sign r = 1 := by
  rcases sign_cases r with h | h <;> rw [h] <;> norm_num

/-- What the multiplier is like if all numbers are known. -/
structure GoodMult (r : Row) (t : ℚ × List ℚ) : Prop where
  ne : t.1 ≠ 0
  le : |t.1| ≤ 1000
  copy : t.2 = r.coefs.map fun p => t.1 * p.2
  int : |t.1| = 1 ∨ ∀ p ∈ r.coefs, IsInteger (t.1 * p.2)

theorem good_sign (r : Row) (l : List ℚ) (h : l = r.coefs.map fun p => sign r * p.2) : GoodMult r (sign r, l) := by
  rcases sign_cases r with hs | hs
  · exact ⟨by simp [hs], by simp [hs], h, Or.inl (by simp [hs])⟩
  · exact ⟨by simp [hs], by simp [hs], h, Or.inl (by simp [hs])⟩

theorem numbers_take (r : Row) : (numbers r).take r.coefs.length = r.coefs.map fun p => sign r * p.2 := by
  unfold numbers
  rw [List.take_left' (by simp)]

theorem afterScaling_false (r : Row) (l : List ℚ) : afterScaling r (l, false) = (sign r, l.take r.coefs.length) := by
  unfold afterScaling
  rw [if_neg fun h => Bool.noConfusion h.1]

theorem afterScaling_true (r : Row) (l : List ℚ) (m : ℚ) (hm : snap (l.headD 0 / (r.coefs.headD (0, 0)).2) = m)
    (h : checked m (numbers r) = true) : afterScaling r (l, true) = (m, l.take r.coefs.length) := by
  subst hm
  unfold afterScaling
  rw [if_pos ⟨rfl, h⟩]

theorem multiplier_ok (rat : ℚ → ℤ × ℕ) (r : Row) (hne : r.coefs ≠ []) (hk : ∀ v ∈ numbers r, Known rat v) (t : ℚ × List ℚ)
    (h : multiplier rat r = .ok t) : GoodMult r t := by
  unfold multiplier at h
  by_cases hs : smallest r.coefs ≠ 1
  · rw [if_pos hs] at h
    unfold scaleRowIntegral at h
    cases hc : scaling rat (numbers r) with
    | error e => rw [hc] at h; cases h
    | ok o =>
      rw [hc] at h
      simp only [Except.map, Except.ok.injEq] at h
      cases o with
      | none =>
        rw [applyFactor, afterScaling_false] at h
        rw [← h]
        exact good_sign r _ (numbers_take r)
      | some s =>
        rw [applyFactor] at h
        obtain ⟨p, v, hv⟩ : ∃ p v, r.coefs = p :: v := by
          cases hr : r.coefs with
          | nil => exact absurd hr hne
          | cons p v => exact ⟨p, v, rfl⟩
        obtain ⟨l, hl⟩ : ∃ l, numbers r = sign r * p.2 :: l := by
          unfold numbers; rw [hv]; exact ⟨_, rfl⟩
        rw [hl] at hc
        obtain ⟨h1, h2, h3, h4, g, m, h5, h6, h7⟩ := scaling_ok rat _ l (by rw [← hl]; exact hk) s hc
        rw [← hl] at h4
        rw [scaleAll_ok s _ h4] at h
        have hp : p.2 ≠ 0 := fun h0 => h1 (by rw [h0, mul_zero])
        have hm : ((numbers r).map (· * s)).headD 0 / (r.coefs.headD (0, 0)).2 = sign r * s := by
          rw [hl, hv]
          simp only [List.map_cons, List.headD_cons]
          field_simp
        have hch : checked (sign r * s) (numbers r) = true := by
          unfold checked
          rw [List.all_eq_true]
          intro v hv
          have hi : IsInteger (sign r * s * v) := by
            have := h4 v hv
            rcases sign_cases r with hq | hq
            · rw [hq, one_mul, mul_comm]; exact this
            · obtain ⟨z, hz⟩ := this
              exact ⟨-z, by rw [hq]; push_cast; rw [← hz]; ring⟩
          rw [decide_eq_true_eq]
          right
          rw [floor_of_int hi (by norm_num) (by norm_num), sub_self, abs_zero]
          norm_num
        rw [afterScaling_true r _ (sign r * s) (by rw [hm, snap_eq s (sign r) (sign_cases r) g m h5 h6 h7]) hch] at h
        rw [← h]
        have habs : |sign r * s| = s := by
          rcases sign_cases r with hq | hq <;> rw [hq]
          · rw [one_mul, abs_of_pos h2]
          · rw [neg_one_mul, abs_neg, abs_of_pos h2]
        refine ⟨?_, ?_, ?_, Or.inr fun q hq => ?_⟩
        · intro h0
          dsimp only at h0
          rw [h0, abs_zero] at habs; linarith
        · change |sign r * s| ≤ 1000
          rw [habs]; exact h3
        · change ((numbers r).map (· * s)).take r.coefs.length = _
          rw [← List.map_take, numbers_take, List.map_map]
          apply List.map_congr_left
          intro q _
          simp only [Function.comp]; ring
        · have hmem : sign r * q.2 ∈ numbers r := by
            unfold numbers
            exact List.mem_append_left _ (List.mem_map.mpr ⟨q, hq, rfl⟩)
          have := h4 _ hmem
          obtain ⟨z, hz⟩ := this
          exact ⟨z, by rw [← hz]; ring⟩
  · rw [if_neg hs] at h
    simp only [Except.ok.injEq] at h
    rw [← h]
    exact good_sign r _ rfl

/-- A new coefficient is the old one times the multiplier. -/
theorem newElement_ok (m e : ℚ) (hm : |m| = 1 ∨ IsInteger (m * e)) (w : ℚ) (h : newElement m e = .ok w) : w = m * e := by
  unfold newElement at h
  by_cases h1 : |m| ≠ 1
  · rw [if_pos h1] at h
    have hi := hm.resolve_left h1
    rw [floor_of_int hi (by norm_num) (by norm_num)] at h
    split at h
    · exact (Except.ok.inj h).symm
    · cases h
  · rw [if_neg h1] at h
    have h2 : |m| = 1 := not_not.mp h1
    by_cases h3 : m = -1
    · rw [if_pos h3] at h
      rw [← Except.ok.inj h, h3]; ring
    · rw [if_neg h3] at h
      have : m = 1 := by
        rcases (abs_eq (by norm_num : (0 : ℚ) ≤ 1)).mp h2 with h | h
        · exact h
        · exact absurd h h3
      rw [← Except.ok.inj h, this]; ring

theorem newElements_ok (m : ℚ) (v : SVec) (hm : |m| = 1 ∨ ∀ p ∈ v, IsInteger (m * p.2)) (w : SVec)
    (h : newElements m v = .ok w) : w = v.map fun p => (p.1, m * p.2) := by
  induction v generalizing w with
  | nil => exact (Except.ok.inj h).symm
  | cons p v ih =>
    unfold newElements at h
    cases he : newElement m p.2 with
    | error e => rw [he] at h; cases h
    | ok e =>
      rw [he] at h
      cases hv : newElements m v with
      | error e => rw [hv] at h; cases h
      | ok u =>
        rw [hv] at h
        simp only [Except.bind, Except.map, Except.ok.injEq] at h
        rw [← h, ih (hm.imp id fun h q hq => h q (List.mem_cons_of_mem _ hq)) u hv,
          newElement_ok m p.2 (hm.imp id fun h => h p List.mem_cons_self) e he]
        rfl

/-- What the scaling does to a row: everything is multiplied by a number that is not zero; the local copy of the row has the
same coefficients; they are integers unless the row only changed its sign. -/
structure Scaled (r : Row) (a : Row × SVec) : Prop where
  copy : a.2 = a.1.coefs
  mult : ∃ m : ℚ, m ≠ 0 ∧ |m| ≤ 1000 ∧ a.1.coefs = (r.coefs.map fun p => (p.1, m * p.2)) ∧
    a.1.lb = (newBounds m r).1 ∧ a.1.ub = (newBounds m r).2 ∧ (|m| = 1 ∨ ∀ p ∈ a.1.coefs, IsInteger p.2)

theorem newBounds_one (r : Row) : newBounds 1 r = (r.lb, r.ub) := by
  unfold newBounds
  simp

theorem scaled_refl (r : Row) : Scaled r (r, r.coefs) :=
  ⟨rfl, 1, one_ne_zero, by norm_num, by simp, by rw [newBounds_one], by rw [newBounds_one], Or.inl (by norm_num)⟩

theorem scaleRow_ok (rat : ℚ → ℤ × ℕ) (r : Row) (hk : ∀ v ∈ numbers r, Known rat v) (a : Row × SVec)
    (h : scaleRow rat r = .ok a) : Scaled r a := by
  unfold scaleRow at h
  by_cases hne : r.coefs = []
  · rw [if_pos hne] at h
    rw [← Except.ok.inj h]; exact scaled_refl r
  rw [if_neg hne] at h
  cases hm : multiplier rat r with
  | error e => rw [hm] at h; cases h
  | ok t =>
    rw [hm] at h
    simp only [Except.bind] at h
    have hg := multiplier_ok rat r hne hk t hm
    unfold changeRow at h
    by_cases h1 : t.1 = 1
    · rw [if_pos h1] at h
      rw [← Except.ok.inj h]; exact scaled_refl r
    · rw [if_neg h1] at h
      cases hn : newElements t.1 r.coefs with
      | error e => rw [hn] at h; cases h
      | ok w =>
        rw [hn] at h
        simp only [Except.map, Except.ok.injEq] at h
        have hw := newElements_ok t.1 r.coefs hg.int w hn
        rw [← h]
        refine ⟨?_, t.1, hg.ne, hg.le, hw, rfl, rfl, ?_⟩
        · change (r.coefs.map Prod.fst).zip t.2 = w
          rw [hg.copy, hw, List.zip_map', ]
        · refine hg.int.imp id fun hi p hp => ?_
          change p ∈ w at hp
          rw [hw] at hp
          obtain ⟨q, hq, rfl⟩ := List.mem_map.mp hp
          exact hi q hq

/-- The scaled row holds where the row holds. -/
theorem scaled_sat (inf : ℚ) (hinf : 10 ^ 30 ≤ inf) (r : Row) (hb : (r.lb ≤ -10 ^ 20 → r.lb ≤ -inf) ∧ (10 ^ 20 ≤ r.ub → inf ≤ r.ub))
    (a : Row × SVec) (h : Scaled r a) (x : Nat → ℚ) : a.1.Sat inf x ↔ r.Sat inf x := by
  obtain ⟨-, m, hm0, hm1, hc, hl, hu, -⟩ := h
  have hpos : 0 < |m| := abs_pos.mpr hm0
  have hdot : SVec.dot a.1.coefs x = m * SVec.dot r.coefs x := by rw [hc]; exact SVec.dot_smul m r.coefs x
  unfold Row.Sat
  rw [hdot, hl, hu]
  generalize SVec.dot r.coefs x = d
  unfold newBounds lbOk ubOk
  dsimp only
  by_cases hneg : m < 0
  · rw [if_pos hneg, if_pos hneg]
    have habs : |m| = -m := abs_of_neg hneg
    by_cases h1 : r.ub < 10 ^ 20
    · have hU : -inf < -r.ub * |m| := by
        have : -r.ub * |m| ≥ -(10 ^ 20 * 1000) := by
          by_cases h0 : r.ub ≤ 0
          · have : 0 ≤ -r.ub * |m| := mul_nonneg (by linarith) hpos.le
            linarith
          · have : r.ub * |m| ≤ 10 ^ 20 * 1000 := mul_le_mul h1.le hm1 hpos.le (by norm_num)
            linarith
        linarith
      rw [if_pos (by linarith : -10 ^ 20 < -r.ub)]
      by_cases h2 : -10 ^ 20 < r.lb
      · have hL : -r.lb * |m| < inf := by
          by_cases h0 : 0 ≤ r.lb
          · have : 0 ≤ r.lb * |m| := mul_nonneg h0 hpos.le
            linarith
          · have : -r.lb * |m| ≤ 10 ^ 20 * 1000 := mul_le_mul (by linarith) hm1 hpos.le (by norm_num)
            linarith
        rw [if_pos (by linarith : -r.lb < 10 ^ 20), habs]
        rw [habs] at hU hL
        constructor
        · rintro ⟨p, q⟩
          have p := p hU; have q := q hL
          exact ⟨fun _ => by nlinarith, fun _ => by nlinarith⟩
        · rintro ⟨p, q⟩
          have p := p (by linarith); have q := q (by linarith)
          exact ⟨fun _ => by nlinarith, fun _ => by nlinarith⟩
      · have hL := hb.1 (not_lt.mp h2)
        rw [if_neg (by linarith : ¬ -r.lb < 10 ^ 20), habs]
        rw [habs] at hU
        constructor
        · rintro ⟨p, -⟩
          have p := p hU
          exact ⟨fun hh => absurd hh (by linarith), fun _ => by nlinarith⟩
        · rintro ⟨-, q⟩
          have q := q (by linarith)
          exact ⟨fun _ => by nlinarith, fun hh => absurd hh (by linarith)⟩
    · have hU := hb.2 (not_lt.mp h1)
      rw [if_neg (by linarith : ¬ -10 ^ 20 < -r.ub)]
      by_cases h2 : -10 ^ 20 < r.lb
      · have hL : -r.lb * |m| < inf := by
          by_cases h0 : 0 ≤ r.lb
          · have : 0 ≤ r.lb * |m| := mul_nonneg h0 hpos.le
            linarith
          · have : -r.lb * |m| ≤ 10 ^ 20 * 1000 := mul_le_mul (by linarith) hm1 hpos.le (by norm_num)
            linarith
        rw [if_pos (by linarith : -r.lb < 10 ^ 20), habs]
        rw [habs] at hL
        constructor
        · rintro ⟨-, q⟩
          have q := q hL
          exact ⟨fun _ => by nlinarith, fun hh => absurd hh (by linarith)⟩
        · rintro ⟨p, -⟩
          have p := p (by linarith)
          exact ⟨fun hh => absurd hh (by linarith), fun _ => by nlinarith⟩
      · have hL := hb.1 (not_lt.mp h2)
        rw [if_neg (by linarith : ¬ -r.lb < 10 ^ 20)]
        constructor
        · rintro -
          exact ⟨fun hh => absurd hh (by linarith), fun hh => absurd hh (by linarith)⟩
        · rintro -
          exact ⟨fun hh => absurd hh (by linarith), fun hh => absurd hh (by linarith)⟩
  · rw [if_neg hneg, if_neg hneg]
    have hm' : 0 < m := lt_of_le_of_ne (not_lt.mp hneg) (Ne.symm hm0)
    have habs : |m| = m := abs_of_pos hm'
    rw [habs] at hm1 hpos ⊢
    have hlow : (-inf < (if -10 ^ 20 < r.lb then r.lb * m else r.lb) → (if -10 ^ 20 < r.lb then r.lb * m else r.lb) ≤ m * d) ↔
        (-inf < r.lb → r.lb ≤ d) := by
      by_cases h2 : -10 ^ 20 < r.lb
      · rw [if_pos h2]
        have hL : -inf < r.lb * m := by
          by_cases h0 : 0 ≤ r.lb
          · have : 0 ≤ r.lb * m := mul_nonneg h0 hpos.le
            linarith
          · have : -r.lb * m ≤ 10 ^ 20 * 1000 := mul_le_mul (by linarith) hm1 hpos.le (by norm_num)
            linarith
        constructor
        · intro p _; have := p hL; nlinarith
        · intro p _; have := p (by linarith); nlinarith
      · have hL := hb.1 (not_lt.mp h2)
        rw [if_neg h2]
        constructor
        · intro p hh; exact absurd hh (by linarith)
        · intro p hh; exact absurd hh (by linarith)
    have hup : ((if r.ub < 10 ^ 20 then r.ub * m else r.ub) < inf → m * d ≤ (if r.ub < 10 ^ 20 then r.ub * m else r.ub)) ↔
        (r.ub < inf → d ≤ r.ub) := by
      by_cases h2 : r.ub < 10 ^ 20
      · rw [if_pos h2]
        have hL : r.ub * m < inf := by
          by_cases h0 : r.ub ≤ 0
          · have : r.ub * m ≤ 0 := mul_nonpos_of_nonpos_of_nonneg h0 hpos.le
            linarith
          · have : r.ub * m ≤ 10 ^ 20 * 1000 := mul_le_mul h2.le hm1 hpos.le (by norm_num)
            linarith
        constructor
        · intro p _; have := p hL; nlinarith
        · intro p _; have := p (by linarith); nlinarith
      · have hL := hb.2 (not_lt.mp h2)
        rw [if_neg h2]
        constructor
        · intro p hh; exact absurd hh (by linarith)
        · intro p hh; exact absurd hh (by linarith)
    exact and_congr hlow hup

theorem bounded_far {inf c : ℚ} (hc : c < 10 ^ 20) {r : Row} (h : Bounded inf c r) :
    (r.lb ≤ -10 ^ 20 → r.lb ≤ -inf) ∧ (10 ^ 20 ≤ r.ub → inf ≤ r.ub) := by
  refine ⟨fun hl => h.1.elim id fun ha => ?_, fun hl => h.2.elim id fun ha => ?_⟩
  · have := (abs_le.mp ha).1; linarith
  · have := (abs_le.mp ha).2; linarith

/-- The bounds of the scaled row are infinite or moderate, too, and in order. -/
theorem scaled_bounded (inf : ℚ) (hinf : 10 ^ 30 ≤ inf) (r : Row) (hb : Bounded inf (10 ^ 15) r) (ho : r.lb ≤ r.ub)
    (a : Row × SVec) (h : Scaled r a) : Bounded inf (10 ^ 18) a.1 ∧ a.1.lb ≤ a.1.ub := by
  obtain ⟨-, m, hm0, hm1, -, hl, hu, -⟩ := h
  have hpos : 0 < |m| := abs_pos.mpr hm0
  have key : ∀ v : ℚ, |v| ≤ 10 ^ 15 → abs (v * |m|) ≤ 10 ^ 18 := by
    intro v hv
    rw [abs_mul, abs_abs]
    calc |v| * |m| ≤ 10 ^ 15 * 1000 := mul_le_mul hv hm1 hpos.le (by norm_num)
      _ = 10 ^ 18 := by norm_num
  have low : ∀ v : ℚ, (v ≤ -inf ∨ |v| ≤ 10 ^ 15) →
      ((if -10 ^ 20 < v then v * |m| else v) ≤ -inf ∨ abs (if -10 ^ 20 < v then v * |m| else v) ≤ 10 ^ 18) ∧
      ((if -10 ^ 20 < v then v * |m| else v) = v ∧ v ≤ -inf ∨ (if -10 ^ 20 < v then v * |m| else v) = v * |m| ∧ |v| ≤ 10 ^ 15) := by
    intro v hv
    rcases hv with hv | hv
    · rw [if_neg (by linarith)]; exact ⟨Or.inl hv, Or.inl ⟨rfl, hv⟩⟩
    · rw [if_pos (by have := (abs_le.mp hv).1; linarith)]; exact ⟨Or.inr (key v hv), Or.inr ⟨rfl, hv⟩⟩
  have upp : ∀ v : ℚ, (inf ≤ v ∨ |v| ≤ 10 ^ 15) →
      (inf ≤ (if v < 10 ^ 20 then v * |m| else v) ∨ abs (if v < 10 ^ 20 then v * |m| else v) ≤ 10 ^ 18) ∧
      ((if v < 10 ^ 20 then v * |m| else v) = v ∧ inf ≤ v ∨ (if v < 10 ^ 20 then v * |m| else v) = v * |m| ∧ |v| ≤ 10 ^ 15) := by
    intro v hv
    rcases hv with hv | hv
    · rw [if_neg (by linarith)]; exact ⟨Or.inl hv, Or.inl ⟨rfl, hv⟩⟩
    · rw [if_pos (by have := (abs_le.mp hv).2; linarith)]; exact ⟨Or.inr (key v hv), Or.inr ⟨rfl, hv⟩⟩
  have fin : ∀ l u : ℚ, l ≤ u → (l ≤ -inf ∨ |l| ≤ 10 ^ 15) → (inf ≤ u ∨ |u| ≤ 10 ^ 15) →
      Bounded inf (10 ^ 18) ⟨if -10 ^ 20 < l then l * |m| else l, if u < 10 ^ 20 then u * |m| else u, []⟩ ∧
      (if -10 ^ 20 < l then l * |m| else l) ≤ (if u < 10 ^ 20 then u * |m| else u) := by
    intro l u hlu h1 h2
    obtain ⟨a1, a2⟩ := low l h1
    obtain ⟨b1, b2⟩ := upp u h2
    refine ⟨⟨a1, b1⟩, ?_⟩
    rcases a2 with ⟨e1, f1⟩ | ⟨e1, f1⟩ <;> rcases b2 with ⟨e2, f2⟩ | ⟨e2, f2⟩ <;> rw [e1, e2]
    · exact hlu
    · have := (abs_le.mp (key u f2)).1; linarith
    · have := (abs_le.mp (key l f1)).2; linarith
    · exact mul_le_mul_of_nonneg_right hlu hpos.le
  have main : Bounded inf (10 ^ 18) ⟨(newBounds m r).1, (newBounds m r).2, []⟩ ∧ (newBounds m r).1 ≤ (newBounds m r).2 := by
    unfold newBounds
    dsimp only
    by_cases hneg : m < 0
    · rw [if_pos hneg, if_pos hneg]
      refine fin (-r.ub) (-r.lb) (by linarith) (hb.2.imp (fun h => by linarith) fun h => by rwa [abs_neg])
        (hb.1.imp (fun h => by linarith) fun h => by rwa [abs_neg])
    · rw [if_neg hneg, if_neg hneg]
      exact fin r.lb r.ub ho hb.1 hb.2
  rw [← hl, ← hu] at main
  exact main

theorem size_smul (m : ℚ) (v : SVec) : size (v.map fun p => (p.1, m * p.2)) = |m| * size v := by
  induction v with
  | nil => simp [size]
  | cons p v ih =>
    have h : ∀ (q : ℕ × ℚ) (w : SVec), size (q :: w) = |q.2| + size w := fun q w => by simp [size]
    rw [List.map_cons, h, h, ih, abs_mul]; ring

/-- All rows are scaled. -/
theorem scaleRows_ok (rat : ℚ → ℤ × ℕ) (l : List Row) (hk : ∀ r ∈ l, ∀ v ∈ numbers r, Known rat v) (out : List (Row × SVec))
    (h : scaleRows rat l = .ok out) : List.Forall₂ Scaled l out := by
  induction l generalizing out with
  | nil => rw [← Except.ok.inj h]; exact List.Forall₂.nil
  | cons r l ih =>
    unfold scaleRows at h
    cases ha : scaleRow rat r with
    | error e => rw [ha] at h; cases h
    | ok a =>
      rw [ha] at h
      cases hb : scaleRows rat l with
      | error e => rw [hb] at h; cases h
      | ok b =>
        rw [hb] at h
        simp only [Except.bind, Except.map, Except.ok.injEq] at h
        rw [← h]
        exact List.Forall₂.cons (scaleRow_ok rat r (hk r List.mem_cons_self) a ha)
          (ih (fun r hr => hk r (List.mem_cons_of_mem _ hr)) b hb)

theorem forall_refl (l : List Row) : List.Forall₂ Scaled l (l.map fun r => (r, r.coefs)) := by
  induction l with
  | nil => exact List.Forall₂.nil
  | cons r l ih => exact List.Forall₂.cons (scaled_refl r) ih

theorem scaled_ok (rat : ℚ → ℤ × ℕ) (types : Bool) (P : Prob) (ht : types = false → Tidy rat P) (out : List (Row × SVec))
    (h : scaled rat types P = .ok out) : List.Forall₂ Scaled P.rows out := by
  unfold scaled at h
  cases types with
  | true =>
    rw [if_pos rfl] at h
    rw [← Except.ok.inj h]; exact forall_refl _
  | false =>
    rw [if_neg (by decide)] at h
    exact scaleRows_ok rat _ (ht rfl) out h

end Cgl.Setup
