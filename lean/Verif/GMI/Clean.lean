import Verif.GMI.Row

/-!
# Cleaning a cut
-/

namespace Cgl.GMI

/-- Largest factor by which a cut is divided. -/
def maxScale (prm : Prm) : ℚ := max 100 prm.maxDyn

/-- Coefficients that may be removed as small can be: they are zero, or not below `1e-20` (before or after scaling)
and on a column with a finite bound on the side that matters. -/
def Removable (prm : Prm) (P : Prob) (c : Cut) : Prop :=
  ∀ p ∈ c.elems, |p.2| ≤ prm.epsCoeff * maxScale prm → p.2 = 0 ∨ (1 / 10 ^ 20 * maxScale prm < |p.2| ∧
    (0 < p.2 → - prm.infinit < P.colLower p.1 ∧ - P.inf < P.colLower p.1) ∧
    (p.2 < 0 → P.colUpper p.1 < prm.infinit ∧ P.colUpper p.1 < P.inf))

instance (prm : Prm) (P : Prob) (c : Cut) : Decidable (Removable prm P c) := by unfold Removable; infer_instance

/-- As `Removable`, for the coefficients as they are. -/
def Removable1 (prm : Prm) (P : Prob) (v : SVec) : Prop :=
  ∀ p ∈ v, |p.2| ≤ prm.epsCoeff → p.2 = 0 ∨ (1 / 10 ^ 20 < |p.2| ∧
    (0 < p.2 → - prm.infinit < P.colLower p.1 ∧ - P.inf < P.colLower p.1) ∧
    (p.2 < 0 → P.colUpper p.1 < prm.infinit ∧ P.colUpper p.1 < P.inf))

/-- All columns of the cut are columns of the problem. -/
def Cols (P : Prob) (v : SVec) : Prop := ∀ p ∈ v, p.1 < P.nCols

theorem relaxRhs_elems (prm : Prm) (c : Cut) : (relaxRhs prm c).elems = c.elems := by unfold relaxRhs; split <;> rfl

theorem relaxRhs_le {prm : Prm} (h : 0 ≤ prm.epsRelaxAbs) (c : Cut) : c.rhs ≤ (relaxRhs prm c).rhs := by
  unfold relaxRhs
  split
  · rename_i h2
    have := mul_nonneg (abs_nonneg c.rhs) h2.le
    dsimp only; linarith
  · dsimp only; linarith

theorem relaxRhs_sat {prm : Prm} (h : 0 ≤ prm.epsRelaxAbs) {c : Cut} {x : Nat → ℚ} (hs : c.Sat x) :
    (relaxRhs prm c).Sat x := by
  unfold Cut.Sat at *
  rw [relaxRhs_elems]
  exact hs.trans (relaxRhs_le h c)

theorem one_le_maxScale (prm : Prm) : 1 ≤ maxScale prm := le_trans (by norm_num) (le_max_left _ _)

theorem Removable.one {prm : Prm} {P : Prob} {c : Cut} (h0 : 0 ≤ prm.epsCoeff) (h : Removable prm P c) :
    Removable1 prm P c.elems := by
  intro p hp hs
  have h1 := one_le_maxScale prm
  rcases h p hp (hs.trans (le_mul_of_one_le_right h0 h1)) with h2 | h2
  · exact Or.inl h2
  · exact Or.inr ⟨lt_of_le_of_lt (le_mul_of_one_le_right (by norm_num) h1) h2.1, h2.2⟩

theorem removeSmallLoop_sat {prm : Prm} {P : Prob} {x : Nat → ℚ} (hx : InBounds P x) :
    ∀ (v : SVec) (rhs : ℚ), Cols P v → Removable1 prm P v →
      SVec.dot (removeSmallLoop prm P v rhs).elems x - (removeSmallLoop prm P v rhs).rhs ≤ SVec.dot v x - rhs := by
  intro v
  induction v with
  | nil => intro rhs _ _; exact le_refl _
  | cons p v ih =>
    obtain ⟨col, a⟩ := p
    intro rhs hc hr
    have ih' := fun r => ih r (fun q hq => hc q (List.mem_cons_of_mem _ hq)) (fun q hq => hr q (List.mem_cons_of_mem _ hq))
    have hcol : col < P.nCols := hc (col, a) List.mem_cons_self
    have hb := hx col hcol
    have hr' := hr (col, a) List.mem_cons_self
    rw [SVec.dot_cons]
    dsimp only at hr' ⊢
    unfold removeSmallLoop
    split
    · rename_i hz
      have hne : a ≠ 0 := isZero_false_ne (by rw [hz.1]; simp)
      rcases hr' hz.2 with h | h
      · exact absurd h hne
      · rcases lt_or_gt_of_ne hne with hlt | hgt
        · have h2 := h.2.2 hlt
          rw [if_neg (by rintro ⟨h3, _⟩; linarith), if_pos ⟨hlt, h2.1⟩]
          have h4 := ih' (rhs - a * P.colUpper col)
          have h5 := mul_le_mul_of_nonpos_left (hb.2 h2.2) hlt.le
          linarith
        · have h2 := h.2.1 hgt
          rw [if_pos ⟨hgt, h2.1⟩]
          have h4 := ih' (rhs - a * P.colLower col)
          have h5 := mul_le_mul_of_nonneg_left (hb.1 h2.2) hgt.le
          linarith
    · rename_i hz
      split
      · dsimp only
        rw [SVec.dot_cons]
        have := ih' rhs
        dsimp only; linarith
      · rename_i hs
        have hs := not_lt.1 hs
        have hz' : isZero a = true := by
          by_contra hn
          exact hz ⟨by simpa using hn, hs⟩
        have h0 : a = 0 := by
          rcases hr' hs with h | h
          · exact h
          · unfold isZero at hz'
            exact absurd h.1 (not_lt.mpr (of_decide_eq_true hz'))
        rw [h0, zero_mul, zero_add]
        exact ih' rhs

theorem removeSmallLoop_sub (prm : Prm) (P : Prob) : ∀ (v : SVec) (rhs : ℚ),
    (removeSmallLoop prm P v rhs).elems = v.filter fun p => decide (prm.epsCoeff < |p.2|) := by
  intro v
  induction v with
  | nil => intro _; rfl
  | cons p v ih =>
    obtain ⟨col, a⟩ := p
    intro rhs
    unfold removeSmallLoop
    split
    · rename_i h
      rw [List.filter_cons_of_neg (by simpa using h.2)]
      split
      · exact ih _
      · split
        · exact ih _
        · exact ih _
    · split
      · rename_i h
        rw [List.filter_cons_of_pos (by simpa using h)]
        dsimp only; rw [ih]
      · rename_i h
        rw [List.filter_cons_of_neg (by simpa using h)]
        exact ih _

theorem removeSmall_sub (prm : Prm) (P : Prob) (c : Cut) :
    (removeSmall prm P c).elems = c.elems.filter fun p => decide (prm.epsCoeff < |p.2|) := removeSmallLoop_sub prm P _ _

theorem removeSmall_sat {prm : Prm} {P : Prob} {x : Nat → ℚ} (hx : InBounds P x) {c : Cut} (hc : Cols P c.elems)
    (hr : Removable1 prm P c.elems) (hs : c.Sat x) : (removeSmall prm P c).Sat x := by
  have := removeSmallLoop_sat hx c.elems c.rhs hc hr
  unfold Cut.Sat removeSmall at *
  linarith

theorem Removable1.relax {prm : Prm} {P : Prob} {c : Cut} (h : Removable1 prm P c.elems) :
    Removable1 prm P (relaxRhs prm c).elems := by rwa [relaxRhs_elems]

/-! ### Scaling -/

theorem divide_dot (k : ℚ) (v : SVec) (x : Nat → ℚ) :
    SVec.dot (v.map fun p => (p.1, p.2 / k)) x = SVec.dot v x / k := by
  induction v with
  | nil => simp
  | cons p v ih => simp only [List.map_cons, SVec.dot_cons, ih]; ring

theorem scale_dot (k : ℚ) (v : SVec) (x : Nat → ℚ) :
    SVec.dot (v.map fun p => (p.1, p.2 * k)) x = SVec.dot v x * k := by
  induction v with
  | nil => simp
  | cons p v ih => simp only [List.map_cons, SVec.dot_cons, ih]; ring

theorem divide_sat {k : ℚ} (hk : 0 < k) {c : Cut} {x : Nat → ℚ} (h : c.Sat x) : (c.divide k).Sat x := by
  unfold Cut.Sat Cut.divide at *
  dsimp only
  rw [divide_dot]
  exact div_le_div_of_nonneg_right h hk.le

theorem scale_sat {k : ℚ} (hk : 0 ≤ k) {c : Cut} {x : Nat → ℚ} (h : c.Sat x) : (c.scale k).Sat x := by
  unfold Cut.Sat Cut.scale at *
  dsimp only
  rw [scale_dot]
  exact mul_le_mul_of_nonneg_right h hk

theorem Cols.divide {P : Prob} {c : Cut} (h : Cols P c.elems) (k : ℚ) : Cols P (c.divide k).elems := by
  intro p hp
  obtain ⟨q, hq, rfl⟩ := List.mem_map.1 hp
  exact h q hq

theorem Removable.divide {prm : Prm} {P : Prob} {c : Cut} (h0 : 0 ≤ prm.epsCoeff) (h : Removable prm P c) {k : ℚ}
    (hk : 0 < k) (hk2 : k ≤ maxScale prm) : Removable1 prm P (c.divide k).elems := by
  intro p hp hs
  obtain ⟨q, hq, rfl⟩ := List.mem_map.1 hp
  dsimp only at hs ⊢
  rw [abs_div, abs_of_pos hk] at hs ⊢
  rw [div_le_iff₀ hk] at hs
  rcases h q hq (hs.trans (mul_le_mul_of_nonneg_left hk2 h0)) with h2 | h2
  · left; rw [h2, zero_div]
  · right
    refine ⟨?_, ?_, ?_⟩
    · rw [lt_div_iff₀ hk]
      exact lt_of_le_of_lt (mul_le_mul_of_nonneg_left hk2 (by norm_num)) h2.1
    · intro h3; exact h2.2.1 ((div_pos_iff_of_pos_right hk).1 h3)
    · intro h3; exact h2.2.2 ((div_neg_iff.1 h3).elim (fun h => absurd h.2 (not_lt.mpr hk.le)) (fun h => h.1))

theorem scaleBy_done {prm : Prm} {m : ℚ} (hm : 0 ≤ m) {c c' : Cut} (h : scaleBy prm m c = .done c') :
    ∃ k, 0 < k ∧ k ≤ maxScale prm ∧ c' = c.divide k := by
  unfold scaleBy at h
  split at h
  · exact absurd h (by simp)
  · rename_i h1
    push Not at h1
    split at h
    · exact absurd h (by simp)
    · rename_i h2
      refine ⟨m, lt_of_le_of_ne hm (Ne.symm h2), h1.2.trans (le_max_right _ _), ?_⟩
      exact (Scaled.done.inj h).symm

theorem scaleNorm_done {prm : Prm} {sqrt : ℚ → ℚ} {c c' : Cut} (h : scaleNorm sqrt c = .done c') :
    ∃ k, 0 < k ∧ k ≤ maxScale prm ∧ c' = c.divide k := by
  unfold scaleNorm at h
  split at h
  · exact absurd h (by simp)
  · dsimp only at h
    split at h
    · exact absurd h (by simp)
    · rename_i h1
      push Not at h1
      refine ⟨_, lt_of_lt_of_le (by norm_num) h1.1, h1.2.trans (le_max_left _ _), ?_⟩
      exact (Scaled.done.inj h).symm

theorem maxAbs_nonneg (c : Cut) : 0 ≤ maxAbs c := by
  unfold maxAbs
  have : ∀ (v : SVec) (m : ℚ), 0 ≤ m → 0 ≤ v.foldl (fun m p => if isZero p.2 then m else max m |p.2|) m := by
    intro v
    induction v with
    | nil => intro m h; exact h
    | cons p v ih =>
      intro m h
      rw [List.foldl_cons]
      apply ih
      split
      · exact h
      · exact le_max_of_le_left h
  exact this _ _ (abs_nonneg _)

theorem scaleIntegral_done {prm : Prm} {P : Prob} {rat : ℚ → ℤ × ℤ} {c c' : Cut}
    (h : scaleIntegral prm P rat c = .done c') : ∃ k, |k| ≤ 1000 ∧ c' = c.scale k := by
  unfold scaleIntegral at h
  split at h
  · exact absurd h (by simp)
  · split at h
    · rename_i e heq
      subst h
      exact absurd heq (by
        have : ∀ (v : SVec) (g l : ℤ) (c : Cut), gcdLcm prm P rat v g l ≠ .error (.done c) := by
          intro v
          induction v with
          | nil => intro g l c h; exact absurd h (by simp [gcdLcm])
          | cons p v ih =>
            intro g l c h
            obtain ⟨col, a⟩ := p
            unfold gcdLcm at h
            split at h
            · exact ih _ _ _ h
            · split at h
              · exact absurd h (by simp)
              · split at h
                · split at h
                  · exact ih _ _ _ h
                  · exact absurd h (by simp)
                · exact absurd h (by simp)
        exact this _ _ _ _)
    · split at h
      · exact absurd h (by simp)
      · rename_i h1
        exact ⟨_, not_lt.1 h1, (Scaled.done.inj h).symm⟩

/-- What `andThen` does. -/
theorem andThen_ok {prm : Prm} {s : Scaled} {f c' : Cut} {k : Cut → Res} (h : andThen prm s f k = .ok c') :
    (s = .fail ∧ prm.enforceScaling = false ∧ k f = .ok c') ∨ ∃ c, s = .done c ∧ k c = .ok c' := by
  unfold andThen at h
  split at h
  · split at h
    · exact absurd h (by simp)
    · rename_i h2; exact Or.inl ⟨rfl, by simpa using h2, h⟩
  · exact Or.inr ⟨_, rfl, h⟩
  · exact absurd h (by simp)
  · exact absurd h (by simp)

/-- The two procedures that scale to integral coefficients. -/
def Proc.isIntegral : Proc → Bool
  | .integral => true
  | .landp1Int => true
  | _ => false

theorem Cols.relax {prm : Prm} {P : Prob} {c : Cut} (h : Cols P c.elems) : Cols P (relaxRhs prm c).elems := by
  rwa [relaxRhs_elems]

theorem Removable.relax {prm : Prm} {P : Prob} {c : Cut} (h : Removable prm P c) : Removable prm P (relaxRhs prm c) := by
  unfold Removable at *; rwa [relaxRhs_elems]

theorem divide_relax_comm {k : ℚ} {c : Cut} : ((c.divide k).elems : SVec) = c.elems.map fun p => (p.1, p.2 / k) := rfl

/-- Cleaning by one of the five other procedures: what was satisfied stays satisfied. -/
theorem clean_sat {prm : Prm} {P : Prob} {sqrt : ℚ → ℚ} {rat : ℚ → ℤ × ℤ} {xbar x : Nat → ℚ} {c c' : Cut}
    (hproc : prm.proc.isIntegral = false) (h0 : 0 ≤ prm.epsCoeff) (ha : 0 ≤ prm.epsRelaxAbs) (hc : Cols P c.elems)
    (hr : Removable prm P c) (hx : InBounds P x) (h : cleanCut prm P sqrt rat xbar c = .ok c') (hs : c.Sat x) :
    c'.Sat x := by
  unfold cleanCut at h
  split at h
  · split at h
    · dsimp only at h
      split at h
      · split at h
        · split at h
          · rw [← Res.ok.inj h]
            exact removeSmall_sat hx hc.relax (hr.one h0).relax (relaxRhs_sat ha hs)
          · cases h
        · cases h
      · cases h
    · cases h
  · split at h
    · dsimp only at h
      split at h
      · rcases andThen_ok h with ⟨_, _, h2⟩ | ⟨c1, h1, h2⟩
        · split at h2
          · split at h2
            · rw [← Res.ok.inj h2]
              exact removeSmall_sat hx hc.relax (hr.one h0).relax (relaxRhs_sat ha hs)
            · cases h2
          · cases h2
        · obtain ⟨k, k1, k2, rfl⟩ := scaleBy_done (maxAbs_nonneg _) h1
          split at h2
          · split at h2
            · rw [← Res.ok.inj h2]
              exact removeSmall_sat hx (hc.relax.divide k) (hr.relax.divide h0 k1 k2)
                (divide_sat k1 (relaxRhs_sat ha hs))
            · cases h2
          · cases h2
      · cases h
    · cases h
  · rcases andThen_ok h with ⟨_, _, h2⟩ | ⟨c1, h1, h2⟩
    · dsimp only at h2
      split at h2
      · split at h2
        · split at h2
          · rw [← Res.ok.inj h2]
            exact relaxRhs_sat ha (removeSmall_sat hx hc (hr.one h0) hs)
          · cases h2
        · cases h2
      · cases h2
    · obtain ⟨k, k1, k2, rfl⟩ := scaleNorm_done (prm := prm) h1
      dsimp only at h2
      split at h2
      · split at h2
        · split at h2
          · rw [← Res.ok.inj h2]
            exact relaxRhs_sat ha (removeSmall_sat hx (hc.divide k) (hr.divide h0 k1 k2) (divide_sat k1 hs))
          · cases h2
        · cases h2
      · cases h2
  · rename_i hp; rw [hp] at hproc; cases hproc
  · rename_i hp; rw [hp] at hproc; cases hproc
  · split at h
    · rcases andThen_ok h with ⟨_, _, h2⟩ | ⟨c1, h1, h2⟩
      · dsimp only at h2
        split at h2
        · split at h2
          · split at h2
            · rw [← Res.ok.inj h2]
              exact removeSmall_sat hx hc.relax (hr.one h0).relax (relaxRhs_sat ha hs)
            · cases h2
          · cases h2
        · cases h2
      · obtain ⟨k, k1, k2, rfl⟩ := scaleBy_done (maxAbs_nonneg _) h1
        dsimp only at h2
        split at h2
        · split at h2
          · split at h2
            · rw [← Res.ok.inj h2]
              exact removeSmall_sat hx (hc.divide k).relax (hr.divide h0 k1 k2).relax
                (relaxRhs_sat ha (divide_sat k1 hs))
            · cases h2
          · cases h2
        · cases h2
    · cases h
  · split at h
    · rcases andThen_ok h with ⟨_, _, h2⟩ | ⟨c1, h1, h2⟩
      · dsimp only at h2
        split at h2
        · split at h2
          · split at h2
            · rw [← Res.ok.inj h2]
              exact removeSmall_sat hx hc.relax (hr.one h0).relax (relaxRhs_sat ha hs)
            · cases h2
          · cases h2
        · cases h2
      · obtain ⟨k, k1, k2, rfl⟩ := scaleBy_done (abs_nonneg _) h1
        dsimp only at h2
        split at h2
        · split at h2
          · split at h2
            · rw [← Res.ok.inj h2]
              exact removeSmall_sat hx (hc.divide k).relax (hr.divide h0 k1 k2).relax
                (relaxRhs_sat ha (divide_sat k1 hs))
            · cases h2
          · cases h2
        · cases h2
    · cases h

/-! ### The integral procedures -/

theorem removeSmallLoop_id {prm : Prm} {P : Prob} : ∀ (v : SVec) (rhs : ℚ), (∀ p ∈ v, prm.epsCoeff < |p.2|) →
    removeSmallLoop prm P v rhs = ⟨v, rhs⟩ := by
  intro v
  induction v with
  | nil => intro rhs _; rfl
  | cons p v ih =>
    obtain ⟨col, a⟩ := p
    intro rhs h
    have h1 := h (col, a) List.mem_cons_self
    dsimp only at h1
    unfold removeSmallLoop
    rw [if_neg (by rintro ⟨_, h2⟩; exact absurd h1 (not_lt.mpr h2)), if_pos h1,
      ih rhs fun q hq => h q (List.mem_cons_of_mem _ hq)]

theorem removeSmall_id {prm : Prm} {P : Prob} {c : Cut} (h : ∀ p ∈ c.elems, prm.epsCoeff < |p.2|) :
    removeSmall prm P c = c := removeSmallLoop_id _ _ h

theorem viol_pos {prm : Prm} (hm : 0 ≤ prm.minViol) {xbar : Nat → ℚ} {c : Cut} (h : checkViolation prm xbar c = true) :
    c.rhs ≤ SVec.dot c.elems xbar := by
  unfold checkViolation at h
  have h := of_decide_eq_true h
  split at h
  · rename_i h1
    have h3 : 0 < |c.rhs| := by linarith
    have h2 : 0 ≤ (SVec.dot c.elems xbar - c.rhs) / |c.rhs| := hm.trans h
    rw [le_div_iff₀ h3, zero_mul] at h2
    linarith
  · linarith

/-- Scaling by any factor: if the cut is violated before and at least tight after, the factor is not negative. -/
theorem scale_sign {k : ℚ} {c : Cut} {xbar : Nat → ℚ} (hv : c.rhs < SVec.dot c.elems xbar)
    (h : (c.scale k).rhs ≤ SVec.dot (c.scale k).elems xbar) : 0 ≤ k := by
  unfold Cut.scale at h
  dsimp only at h
  rw [scale_dot] at h
  by_contra hk
  push Not at hk
  have := mul_lt_mul_of_neg_right hv hk
  linarith

/-- Cleaning with scaling to integral coefficients of a cut that is violated by the LP solution and has no small
coefficients: what was satisfied stays satisfied. -/
theorem clean_sat_integral {prm : Prm} {P : Prob} {sqrt : ℚ → ℚ} {rat : ℚ → ℤ × ℤ} {xbar x : Nat → ℚ} {c c' : Cut}
    (hproc : prm.proc.isIntegral = true) (ha : 0 ≤ prm.epsRelaxAbs) (hm : 0 ≤ prm.minViol)
    (hsm : ∀ p ∈ c.elems, prm.epsCoeff < |p.2|) (hv : c.rhs < SVec.dot c.elems xbar)
    (h : cleanCut prm P sqrt rat xbar c = .ok c') (hs : c.Sat x) : c'.Sat x := by
  unfold cleanCut at h
  split at h
  · rename_i hp; rw [hp] at hproc; cases hproc
  · rename_i hp; rw [hp] at hproc; cases hproc
  · rename_i hp; rw [hp] at hproc; cases hproc
  · dsimp only at h
    rw [removeSmall_id hsm] at h
    split at h
    · split at h
      · rcases andThen_ok h with ⟨_, _, h2⟩ | ⟨c1, h1, h2⟩
        · split at h2
          · rwa [← Res.ok.inj h2]
          · cases h2
        · obtain ⟨k, k1, rfl⟩ := scaleIntegral_done h1
          split at h2
          · rename_i hviol
            rw [← Res.ok.inj h2]
            exact scale_sat (scale_sign hv (viol_pos hm hviol)) hs
          · cases h2
      · cases h
    · cases h
  · split at h
    · dsimp only at h
      rw [removeSmall_id hsm] at h
      split at h
      · split at h
        · rcases andThen_ok h with ⟨_, _, h2⟩ | ⟨c1, h1, h2⟩
          · split at h2
            · rw [← Res.ok.inj h2]; exact relaxRhs_sat ha hs
            · cases h2
          · obtain ⟨k, k1, rfl⟩ := scaleIntegral_done h1
            split at h2
            · rename_i hviol
              rw [← Res.ok.inj h2]
              exact scale_sat (scale_sign hv (viol_pos hm hviol)) hs
            · cases h2
        · cases h
      · cases h
    · cases h
  · rename_i hp; rw [hp] at hproc; cases hproc
  · rename_i hp; rw [hp] at hproc; cases hproc

end Cgl.GMI
