import Verif.Rebuild.Spec

/-! # A singleton coefficient is strengthened -/

namespace Cgl.Rebuild

/-- The part of a row in columns that are not fixed and have positive (scaled) coefficients. -/
def pos (P : Prob) (m : ℚ) (v : SVec) : SVec := v.filter fun p => isOpen P p.1 && decide (0 < m * p.2)

/-- What is known about the point. -/
structure At (P : Prob) (m : ℚ) (v : SVec) (x : Nat → ℚ) : Prop where
  shut : ∀ p ∈ v, isOpen P p.1 = false → x p.1 = P.colLower p.1
  int : ∀ p ∈ v, isOpen P p.1 = true → IsInteger (x p.1)
  crisp : ∀ p ∈ v, Crisp (-(m * p.2))

theorem At.tail {P : Prob} {m : ℚ} {p : Nat × ℚ} {v : SVec} {x : Nat → ℚ} (h : At P m (p :: v) x) : At P m v x :=
  ⟨fun q hq => h.shut q (List.mem_cons_of_mem _ hq), fun q hq => h.int q (List.mem_cons_of_mem _ hq),
    fun q hq => h.crisp q (List.mem_cons_of_mem _ hq)⟩

theorem scan_cons {P : Prob} {m : ℚ} {p : Nat × ℚ} {v : SVec} {s s' : Scan} (h : scan P m (p :: v) s = .ok (some s')) :
    ∃ s1, scanEntry P m s p = .ok (some s1) ∧ scan P m v s1 = .ok (some s') := by
  unfold scan at h
  cases e : scanEntry P m s p with
  | error _ => rw [e] at h; cases h
  | ok o =>
    rw [e] at h
    cases o with
    | none => cases h
    | some s1 => exact ⟨s1, rfl, h⟩

/-- The cases of an entry. -/
theorem scanEntry_cases {P : Prob} {m : ℚ} {p : Nat × ℚ} {s s' : Scan} (h : scanEntry P m s p = .ok (some s')) :
    (isOpen P p.1 = false ∧ s' = s) ∨
    (isOpen P p.1 = true ∧ 0 < m * p.2 ∧ P.colUpper p.1 - P.colLower p.1 = 1 ∧ s'.kInt = some p.1 ∧ s'.single = m * p.2 ∧
      s'.kGcd = s.kGcd) ∨
    (isOpen P p.1 = true ∧ ¬ 0 < m * p.2 ∧ |-(m * p.2) * 120 - (⌊-(m * p.2) * 120 + 1 / 2⌋ : ℤ)| ≤ 1 / 10 ^ 12 ∧
      s'.kInt = s.kInt ∧ s'.single = s.single ∧
      s'.kGcd = if 0 < s.kGcd then Nat.gcd s.kGcd (⌊-(m * p.2) * 120 + 1 / 2⌋).toNat else (⌊-(m * p.2) * 120 + 1 / 2⌋).toNat) := by
  unfold scanEntry at h
  have e : m * p.2 * -120 = -(m * p.2) * 120 := by ring
  rw [e] at h
  by_cases h1 : isOpen P p.1 = true
  · rw [if_pos h1] at h
    by_cases h2 : 0 < m * p.2
    · rw [if_pos h2] at h
      by_cases h3 : P.colUpper p.1 - P.colLower p.1 ≠ 1
      · rw [if_pos h3] at h; cases h
      · rw [if_neg h3] at h
        have h := Option.some.inj (Except.ok.inj h)
        subst h
        exact Or.inr (Or.inl ⟨h1, h2, not_not.mp h3, rfl, rfl, rfl⟩)
    · rw [if_neg h2] at h
      split at h
      · cases h
      · rename_i h3
        split at h
        · cases h
        · have h := Option.some.inj (Except.ok.inj h)
          subst h
          exact Or.inr (Or.inr ⟨h1, h2, not_lt.mp h3, rfl, rfl, rfl⟩)
  · rw [if_neg h1] at h
    exact Or.inl ⟨by simpa using h1, (Option.some.inj (Except.ok.inj h)).symm⟩

theorem adjust_cons (P : Prob) (p : Nat × ℚ) (v : SVec) :
    adjust P (p :: v) = (if isOpen P p.1 then 0 else P.colLower p.1 * p.2) + adjust P v := by
  unfold adjust
  cases h : isOpen P p.1 <;> simp [h]

theorem pos_cons (P : Prob) (m : ℚ) (p : Nat × ℚ) (v : SVec) :
    pos P m (p :: v) = if isOpen P p.1 = true ∧ 0 < m * p.2 then p :: pos P m v else pos P m v := by
  unfold pos
  by_cases h1 : isOpen P p.1 = true <;> by_cases h2 : 0 < m * p.2 <;> simp [h1, h2]

/-- The value of the row: fixed columns, positive coefficients, and a multiple of the greatest common divisor. -/
theorem scan_value {P : Prob} {m : ℚ} {x : Nat → ℚ} : ∀ (v : SVec) (s s' : Scan), At P m v x → scan P m v s = .ok (some s') →
    (s'.kGcd ∣ s.kGcd ∨ s.kGcd = 0) ∧
      ∃ z : ℤ, m * v.dot x = m * adjust P v + m * (pos P m v).dot x - (s'.kGcd : ℚ) / 120 * z := by
  intro v
  induction v with
  | nil =>
    intro s s' _ h
    have h := Option.some.inj (Except.ok.inj h)
    subst h
    exact ⟨Or.inl (dvd_refl _), 0, by simp [adjust, pos]⟩
  | cons p v ih =>
    intro s s' hA h
    obtain ⟨s1, e1, e2⟩ := scan_cons h
    obtain ⟨d, z, hz⟩ := ih s1 s' hA.tail e2
    rw [SVec.dot_cons, adjust_cons, pos_cons]
    rcases scanEntry_cases e1 with ⟨c, rfl⟩ | ⟨c, c1, -, -, -, c2⟩ | ⟨c, c1, c2, -, -, c3⟩
    · refine ⟨d, z, ?_⟩
      rw [if_neg (by rw [c]; decide), if_neg (by rw [c]; simp), hA.shut p List.mem_cons_self c]
      linarith
    · refine ⟨by rw [← c2]; exact d, z, ?_⟩
      rw [if_pos c, if_pos ⟨c, c1⟩, SVec.dot_cons]
      linarith
    · have hc := hA.crisp p List.mem_cons_self c2
      obtain ⟨y, hy⟩ := hA.int p List.mem_cons_self c
      have hn : 0 ≤ ⌊-(m * p.2) * 120 + 1 / 2⌋ := by
        apply Int.floor_nonneg.mpr
        linarith [not_lt.mp c1]
      obtain ⟨n, hn'⟩ : ∃ n : Nat, ⌊-(m * p.2) * 120 + 1 / 2⌋ = n := ⟨_, (Int.toNat_of_nonneg hn).symm⟩
      rw [hn', Int.toNat_natCast] at c3
      rw [hn'] at hc
      have key : (s'.kGcd ∣ s.kGcd ∨ s.kGcd = 0) ∧ ((s'.kGcd ∣ n) ∨ n = 0) := by
        by_cases hs : 0 < s.kGcd
        · rw [if_pos hs] at c3
          have : s1.kGcd ≠ 0 := by rw [c3]; exact (Nat.gcd_pos_of_pos_left _ hs).ne'
          have d := d.resolve_right this
          rw [c3] at d
          exact ⟨Or.inl (dvd_trans d (Nat.gcd_dvd_left _ _)), Or.inl (dvd_trans d (Nat.gcd_dvd_right _ _))⟩
        · rw [if_neg hs] at c3
          rw [c3] at d
          exact ⟨Or.inr (by omega), d⟩
      refine ⟨key.1, ?_⟩
      obtain ⟨w, hw⟩ : ∃ w : ℤ, (n : ℚ) = s'.kGcd * w := by
        rcases key.2 with ⟨w, hw⟩ | hw
        · exact ⟨w, by rw [hw]; push_cast; rfl⟩
        · exact ⟨0, by rw [hw]; simp⟩
      refine ⟨z + w * y, ?_⟩
      rw [if_pos c, if_neg (fun h => c1 h.2), hy]
      have e : m * p.2 = -(s'.kGcd * w) / 120 := by
        rw [← hw]
        have : -(m * p.2) * 120 = (n : ℚ) := by rw [hc]; simp
        linarith
      push_cast
      have : m * (p.2 * (y : ℚ) + SVec.dot v x) = m * p.2 * y + m * SVec.dot v x := by ring
      rw [this, hz, e]
      ring

/-- The singleton that the loop finds. -/
theorem scan_single {P : Prob} {m : ℚ} : ∀ (v : SVec) (s s' : Scan), scan P m v s = .ok (some s') →
    (pos P m v = [] → s'.kInt = s.kInt ∧ s'.single = s.single) ∧
    ∀ p, pos P m v = [p] → s'.kInt = some p.1 ∧ s'.single = m * p.2 ∧ P.colUpper p.1 - P.colLower p.1 = 1 := by
  intro v
  induction v with
  | nil =>
    intro s s' h
    have h := Option.some.inj (Except.ok.inj h)
    subst h
    exact ⟨fun _ => ⟨rfl, rfl⟩, fun p hp => by cases hp⟩
  | cons q v ih =>
    intro s s' h
    obtain ⟨s1, e1, e2⟩ := scan_cons h
    obtain ⟨i1, i2⟩ := ih s1 s' e2
    rw [pos_cons]
    rcases scanEntry_cases e1 with ⟨c, rfl⟩ | ⟨c, c1, c2, c3, c4, -⟩ | ⟨c, c1, -, c3, c4, -⟩
    · rw [if_neg (by rw [c]; simp)]
      exact ⟨i1, i2⟩
    · rw [if_pos ⟨c, c1⟩]
      refine ⟨fun hh => (by cases hh), fun p hp => ?_⟩
      rw [List.cons.injEq] at hp
      obtain ⟨a, b⟩ := i1 hp.2
      rw [← hp.1, a, b]
      exact ⟨c3, c4, c2⟩
    · rw [if_neg (fun hh => c1 hh.2)]
      exact ⟨fun hh => by rw [(i1 hh).1, (i1 hh).2]; exact ⟨c3, c4⟩, i2⟩

/-- There is exactly one positive coefficient after scaling. -/
theorem pos_one {P : Prob} {r : Row} (hnz : ∀ p ∈ r.coefs, p.2 ≠ 0)
    (h : (nPos P r.coefs = 1 ∧ 1 < nNeg P r.coefs) ∨ (nNeg P r.coefs = 1 ∧ 1 < nPos P r.coefs)) :
    ∃ p, pos P (if nNeg P r.coefs = 1 then -1 else 1) r.coefs = [p] := by
  rw [← List.length_eq_one_iff]
  unfold pos
  rw [← List.countP_eq_length_filter]
  rcases h with ⟨h1, h2⟩ | ⟨h1, -⟩
  · rw [if_neg (by omega)]
    rw [← h1]
    unfold nPos
    simp
  · rw [if_pos h1]
    refine Eq.trans ?_ h1
    unfold nNeg
    apply List.countP_congr
    intro p hp
    have := hnz p hp
    rcases lt_or_gt_of_ne this with hh | hh
    · simp [hh, not_lt.mpr hh.le]
    · simp [hh]
      intro; linarith

theorem dot_change (v : SVec) (k : Nat) (w : ℚ) (x : Nat → ℚ) (hn : (v.map Prod.fst).Nodup) {a : ℚ} (hm : (k, a) ∈ v) :
    SVec.dot (v.map fun p => if p.1 = k then (p.1, w) else p) x = v.dot x + (w - a) * x k ∧
    SVec.dot (v.filter fun p => decide (p.1 ≠ k)) x = v.dot x - a * x k := by
  induction v with
  | nil => cases hm
  | cons p v ih =>
    rw [List.map_cons, List.nodup_cons] at hn
    rcases List.mem_cons.mp hm with rfl | hm'
    · have hne : ∀ q ∈ v, q.1 ≠ k := fun q hq e => hn.1 (List.mem_map.mpr ⟨q, hq, e⟩)
      have e1 : (v.map fun p => if p.1 = k then (p.1, w) else p) = v := by
        conv_rhs => rw [← List.map_id v]
        apply List.map_congr_left
        intro q hq; rw [if_neg (hne q hq)]; rfl
      have e2 : (v.filter fun p => decide (p.1 ≠ k)) = v := List.filter_eq_self.mpr fun q hq => by simpa using hne q hq
      constructor
      · rw [List.map_cons, e1, if_pos rfl, SVec.dot_cons, SVec.dot_cons]; ring
      · rw [List.filter_cons_of_neg (by simp), e2, SVec.dot_cons]; ring
    · obtain ⟨i1, i2⟩ := ih hn.2 hm'
      have hne : p.1 ≠ k := fun e => hn.1 (List.mem_map.mpr ⟨_, hm', e.symm⟩)
      constructor
      · rw [List.map_cons, if_neg hne, SVec.dot_cons, SVec.dot_cons, i1]; ring
      · rw [List.filter_cons_of_pos (by simpa using hne), SVec.dot_cons, SVec.dot_cons, i2]; ring

/-- An integer of size at most 1 in [0, 1]. -/
theorem zero_or_one {v : ℚ} (h : IsInteger v) (h0 : 0 ≤ v) (h1 : v ≤ 1) : v = 0 ∨ v = 1 := by
  obtain ⟨z, rfl⟩ := h
  have a : 0 ≤ z := by exact_mod_cast h0
  have b : z ≤ 1 := by exact_mod_cast h1
  rcases (by omega : z = 0 ∨ z = 1) with rfl | rfl
  · exact Or.inl (by simp)
  · exact Or.inr (by simp)

/-- **The new coefficient changes no solution.** -/
theorem single_same {P : Prob} (hN : Neat P) {r : Row} (hr : r ∈ P.rows) {k : Nat} {v : ℚ} (h : single P r = .ok (some (k, v)))
    {x : Nat → ℚ} (hx : Box P x) : (change r k v).Sat P.inf x ↔ r.Sat P.inf x := by
  unfold single at h
  split at h
  swap
  · cases h
  rename_i hc
  obtain ⟨hint, hcount⟩ := hc
  obtain ⟨p, hp⟩ := pos_one (fun p hp => (hN.coefs r hr p hp).1) hcount
  generalize hm : (if nNeg P r.coefs = 1 then (-1 : ℚ) else 1) = m at h hp
  have hm' : m = 1 ∨ m = -1 := by rw [← hm]; split <;> simp
  have mm : m * m = 1 := by rcases hm' with rfl | rfl <;> norm_num
  dsimp only at h
  cases hs : scan P m r.coefs ⟨none, 0, 0, 0⟩ with
  | error e => rw [hs] at h; cases h
  | ok o =>
    cases o with
    | none => rw [hs] at h; cases h
    | some s =>
      rw [hs] at h
      dsimp only at h
      obtain ⟨k1, k2, k3⟩ := (scan_single r.coefs _ s hs).2 p hp
      unfold strengthen at h
      rw [k1] at h
      dsimp only at h
      split at h
      swap
      · cases h
      rename_i hcond
      obtain ⟨-, hI, hlo, hup⟩ := hcond
      have h := Option.some.inj (Except.ok.inj h)
      rw [Prod.mk.injEq] at h
      obtain ⟨rfl, hv⟩ := h
      -- the point
      have hpm : p ∈ r.coefs := by
        have : p ∈ pos P m r.coefs := by rw [hp]; exact List.mem_singleton.mpr rfl
        exact (List.mem_filter.mp this).1
      have hpo : isOpen P p.1 = true := by
        have : p ∈ pos P m r.coefs := by rw [hp]; exact List.mem_singleton.mpr rfl
        exact (Bool.and_eq_true_iff.mp (List.mem_filter.mp this).2).1
      have hcol := fun q hq => hN.wf.cols r hr q hq
      have hinf := hN.inf
      have hAt : At P m r.coefs x := by
        refine ⟨fun q hq hh => ?_, fun q hq hh => ?_, fun q hq => ?_⟩
        · have hh : P.colUpper q.1 ≤ P.colLower q.1 := by
            unfold isOpen at hh
            exact not_lt.mp (of_decide_eq_false hh)
          obtain ⟨f1, f2⟩ := hN.fixedCols q.1 (hcol q hq) hh
          have a := hx.lower q.1 (hcol q hq) f1
          have b := hx.upper q.1 (hcol q hq) f2
          linarith
        · have := List.all_eq_true.mp hint q hq
          rw [hh] at this
          exact hx.int q.1 (hcol q hq) (by simpa using this)
        · rcases hm' with rfl | rfl
          · rw [one_mul]; exact (hN.coefs r hr q hq).2.2
          · rw [neg_one_mul, neg_neg]; exact (hN.coefs r hr q hq).2.1
      obtain ⟨-, z, hz⟩ := scan_value r.coefs _ s hAt hs
      rw [hp] at hz
      simp only [SVec.dot_cons, SVec.dot_nil, add_zero] at hz
      unfold interesting at hI
      simp only [Bool.and_eq_true, decide_eq_true_eq, Bool.not_eq_true', decide_eq_false_iff_not] at hI
      have hcl := hI.1.2
      have hodd := hI.1.1.1.1.1.2
      have hcu : P.colUpper p.1 = 1 := by linarith
      have hx0 : 0 ≤ x p.1 := by
        have := hx.lower p.1 (hcol p hpm) (by rw [hcl]; linarith)
        linarith
      have hx1 : x p.1 ≤ 1 := by
        have := hx.upper p.1 (hcol p hpm) (by rw [hcu]; linarith)
        linarith
      have hxi := hAt.int p hpm hpo
      -- the divisor is positive
      have hg : (0 : ℚ) < (s.kGcd : ℚ) / 120 := by
        rcases Nat.eq_zero_or_pos s.kGcd with h0 | h0
        · exfalso
          rw [h0] at hodd
          unfold odd at hodd
          rw [decide_eq_true_iff] at hodd
          simp at hodd
          norm_num at hodd
        · have : (0 : ℚ) < s.kGcd := by exact_mod_cast h0
          positivity
      generalize hq : (s.kGcd : ℚ) / 120 = g at hg hz hv
      -- values
      have hdiff : (change r p.1 v).coefs.dot x = r.coefs.dot x + (v - p.2) * x p.1 := by
        obtain ⟨d1, d2⟩ := dot_change r.coefs p.1 v x (hN.wf.nodup r hr) (a := p.2) hpm
        unfold change
        split
        · exact d1
        · rename_i hh
          have hv0 : v = 0 := by
            by_contra hne
            apply hh
            have hf : (⌊s.single / g⌋ : ℤ) ≠ 0 := by
              intro h0
              rw [h0] at hv
              simp at hv
              exact hne hv.symm
            have hf1 : (1 : ℚ) ≤ |((⌊s.single / g⌋ : ℤ) : ℚ)| := by
              exact_mod_cast Int.one_le_abs hf
            have hg1 : 1 / 120 ≤ g := by
              rw [← hq]
              have hk : 0 < s.kGcd := by
                rcases Nat.eq_zero_or_pos s.kGcd with h0 | h0
                · rw [h0] at hq; simp at hq; rw [← hq] at hg; exact absurd hg (lt_irrefl _)
                · exact h0
              have : (1 : ℚ) ≤ s.kGcd := by exact_mod_cast hk
              linarith
            have : |v| = g * |((⌊s.single / g⌋ : ℤ) : ℚ)| := by
              rw [← hv, abs_mul, abs_mul, abs_of_pos hg]
              rcases hm' with rfl | rfl <;> simp
            rw [this]
            have : (1 : ℚ) / 120 ≤ g * |((⌊s.single / g⌋ : ℤ) : ℚ)| := by nlinarith
            have : (1 : ℚ) / 10 ^ 13 < 1 / 120 := by norm_num
            linarith
          rw [hv0]
          show SVec.dot (r.coefs.filter fun p' => decide (p'.1 ≠ p.1)) x = _
          rw [d2]; ring
      have hle : g * (⌊s.single / g⌋ : ℤ) ≤ s.single := by
        have := Int.floor_le (s.single / g)
        have := mul_le_mul_of_nonneg_left this hg.le
        rwa [mul_div_cancel₀ _ hg.ne'] at this
      have hmv : m * v = g * (⌊s.single / g⌋ : ℤ) := by
        rw [← hv, show m * (g * (⌊s.single / g⌋ : ℤ) * m) = m * m * (g * (⌊s.single / g⌋ : ℤ)) by ring, mm, one_mul]
      have core : (0 ≤ m * ((change r p.1 v).coefs.dot x - adjust P r.coefs)) ↔ (0 ≤ m * (r.coefs.dot x - adjust P r.coefs)) := by
        have e1 : m * (r.coefs.dot x - adjust P r.coefs) = s.single * x p.1 - g * z := by
          rw [mul_sub, hz, k2]; ring
        have e2 : m * ((change r p.1 v).coefs.dot x - adjust P r.coefs) = g * (⌊s.single / g⌋ : ℤ) * x p.1 - g * z := by
          rw [hdiff, show m * (r.coefs.dot x + (v - p.2) * x p.1 - adjust P r.coefs) =
            m * (r.coefs.dot x - adjust P r.coefs) + (m * v - m * p.2) * x p.1 by ring, e1, hmv, ← k2]
          ring
        rw [e1, e2]
        rcases zero_or_one hxi hx0 hx1 with h0 | h1
        · rw [h0]; simp
        · rw [h1, mul_one, mul_one]
          constructor
          · intro hh; linarith
          · intro hh
            have : (z : ℚ) ≤ s.single / g := by
              rw [le_div_iff₀ hg]; linarith
            have : z ≤ ⌊s.single / g⌋ := Int.le_floor.mpr this
            have : (z : ℚ) ≤ (⌊s.single / g⌋ : ℤ) := by exact_mod_cast this
            have := mul_le_mul_of_nonneg_left this hg.le
            linarith
      have hlb : (change r p.1 v).lb = r.lb := by unfold change; split <;> rfl
      have hub : (change r p.1 v).ub = r.ub := by unfold change; split <;> rfl
      have hd := dblMax_pos
      obtain ⟨b1, b2⟩ := hN.rowBounds r hr
      obtain ⟨b3, b4⟩ := hN.moved r hr
      unfold Row.Sat lbOk ubOk
      rw [hlb, hub]
      unfold limits at hlo hup
      have hi0 : (0 : ℚ) < P.inf := by linarith
      rcases hm' with rfl | rfl
      · rw [if_neg (by norm_num)] at hlo hup
        dsimp only at hlo hup
        have hl : -10 ^ 20 < r.lb := by
          by_contra hh
          rw [if_neg hh] at hlo
          linarith
        rw [if_pos hl] at hlo
        have hu : P.inf ≤ r.ub := by
          apply b2
          by_contra hh
          rw [if_pos (not_le.mp hh)] at hup
          exact absurd hup (not_lt.mpr (b4 (not_le.mp hh)))
        rw [one_mul, one_mul] at core
        have hla : r.lb = adjust P r.coefs := by linarith
        rw [hla]
        constructor
        · rintro ⟨a, -⟩
          refine ⟨fun hh => ?_, fun hh => absurd hh (not_lt.mpr hu)⟩
          have := core.mp (by linarith [a hh])
          linarith
        · rintro ⟨a, -⟩
          refine ⟨fun hh => ?_, fun hh => absurd hh (not_lt.mpr hu)⟩
          have := core.mpr (by linarith [a hh])
          linarith
      · rw [if_pos rfl] at hlo hup
        dsimp only at hlo hup
        have hu : r.ub < 10 ^ 20 := by
          by_contra hh
          rw [if_neg hh] at hlo
          linarith
        rw [if_pos hu] at hlo
        have hl : r.lb ≤ -P.inf := by
          apply b1
          by_contra hh
          rw [if_pos (not_le.mp hh)] at hup
          have := b3 (not_le.mp hh)
          linarith
        have hua : r.ub = adjust P r.coefs := by linarith
        rw [hua]
        constructor
        · rintro ⟨-, a⟩
          refine ⟨fun hh => absurd hh (not_lt.mpr hl), fun hh => ?_⟩
          have := core.mp (by linarith [a hh])
          linarith
        · rintro ⟨-, a⟩
          refine ⟨fun hh => absurd hh (not_lt.mpr hl), fun hh => ?_⟩
          have := core.mpr (by linarith [a hh])
          linarith

end Cgl.Rebuild
