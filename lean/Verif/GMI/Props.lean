import Verif.GMI.Limits

/-!
# C24 (CglGMI), C25, C46: the Gomory mixed-integer cut generator
-/

namespace Cgl.GMI

/-- The dense cut of the row of the basic column `b`, packed, before cleaning. -/
def rawCut (prm : Prm) (P : Prob) (lp : Lp) (ρ : SVec) (b : Nat) : Cut :=
  packRow P.nCols (denseCut prm P lp ρ (aboveInteger (lp.xlp b)))

/-- Settings with which CglGMI does not strengthen a cut by its own tolerances. -/
structure SafeParams (prm : Prm) : Prop where
  elim : prm.epsElim = 0
  coeff : 0 ≤ prm.epsCoeff
  relax : 0 ≤ prm.epsRelaxAbs
  away : 0 ≤ prm.away
  viol : 0 ≤ prm.minViol
  infinit : dblMax ≤ prm.infinit

/-- The row of the inverse of the basis that belongs to `b` is right, and neither it nor its cut brings a tolerance
of the generator into play. -/
structure GoodRow (prm : Prm) (P : Prob) (lp : Lp) (ρ : SVec) (b : Nat) : Prop where
  tableau : TableauRow P lp b ρ
  free : NoFree P lp ρ
  tiny : NoTiny prm P lp ρ (aboveInteger (lp.xlp b))
  small : prm.proc.isIntegral = false → Removable prm P (rawCut prm P lp ρ b)
  none_small : prm.proc.isIntegral = true → ∀ p ∈ (rawCut prm P lp ρ b).elems, prm.epsCoeff < |p.2|

theorem fracBasics_spec {prm : Prm} {P : Prob} {lp : Lp} {b : Nat} (h : b ∈ fracBasics prm P lp) :
    b < P.nCols ∧ lp.cstat b = 1 ∧ isInteger prm P b = true ∧ prm.away < aboveInteger (lp.xlp b) := by
  unfold fracBasics at h
  obtain ⟨h1, h2⟩ := List.mem_filter.1 h
  simp only [Bool.and_eq_true, decide_eq_true_eq] at h2
  exact ⟨List.mem_range.1 h1, h2.1.1, h2.1.2, lt_of_lt_of_le h2.2 (min_le_left _ _)⟩

theorem relaxRange_le (prm : Prm) (P : Prob) : ∀ (v : SVec) (rhs : ℚ), rhs ≤ relaxRange prm P v rhs := by
  intro v
  induction v with
  | nil => intro rhs; exact le_refl _
  | cons p v ih =>
    intro rhs
    have : relaxRange prm P (p :: v) rhs = relaxRange prm P v (if isInteger prm P p.1 ∧ 10 < P.colUpper p.1 - P.colLower p.1 then
      rhs + 1 / 10 ^ 8 * (P.colUpper p.1 - P.colLower p.1) else rhs) := rfl
    rw [this]
    refine le_trans ?_ (ih _)
    split
    · rename_i h
      have : (0 : ℚ) ≤ 1 / 10 ^ 8 * (P.colUpper p.1 - P.colLower p.1) := mul_nonneg (by norm_num) (by linarith [h.2])
      linarith
    · exact le_refl _

theorem rawCut_cols (prm : Prm) (P : Prob) (lp : Lp) (ρ : SVec) (b : Nat) : Cols P (rawCut prm P lp ρ b).elems := by
  intro p hp
  obtain ⟨j, hj, rfl⟩ := List.mem_map.1 hp
  exact List.mem_range.1 (List.mem_filter.1 hj).1

theorem rawCut_nonzero (prm : Prm) (P : Prob) (lp : Lp) (ρ : SVec) (b : Nat) :
    ∀ p ∈ (rawCut prm P lp ρ b).elems, isZero p.2 = false := by
  intro p hp
  obtain ⟨j, hj, rfl⟩ := List.mem_map.1 hp
  simpa using (List.mem_filter.1 hj).2

theorem rawCut_nodup (prm : Prm) (P : Prob) (lp : Lp) (ρ : SVec) (b : Nat) :
    ((rawCut prm P lp ρ b).elems.map Prod.fst).Nodup := by
  unfold rawCut packRow
  dsimp only
  rw [List.map_map]
  have : (Prod.fst ∘ fun j => (j, (denseCut prm P lp ρ (aboveInteger (lp.xlp b))).cut j)) = id := rfl
  rw [this, List.map_id]
  exact List.nodup_range.filter _

/-- One pass of the main loop: the cuts stay, and a new one comes from an accepted cleaned cut of the row. -/
theorem oneRow_new {prm : Prm} {P : Prob} {lp : Lp} {sqrt : ℚ → ℚ} {rat : ℚ → ℤ × ℤ} {binv : Nat → SVec} {b : Nat}
    {cs cs' : List RowCut} (h : oneRow prm P lp sqrt rat binv b cs = some cs') {r : RowCut} (hr : r ∈ cs') :
    r ∈ cs ∨ ∃ c, cleanCut prm P sqrt rat lp.xlp (rawCut prm P lp (binv b) b) = .ok c ∧ c.elems ≠ [] ∧
      r = ⟨- prm.infinit, relaxRange prm P c.elems c.rhs, c.elems⟩ := by
  unfold oneRow at h
  split at h
  · cases h; exact Or.inl hr
  · rename_i f0 hf0
    unfold cutFractionality at hf0
    dsimp only at hf0
    split at hf0
    · cases hf0
    · cases hf0
      dsimp only at h
      split at h
      · cases h; exact Or.inl hr
      · split at h
        · cases h
        · cases h; exact Or.inl hr
        · rename_i c hc
          split at h
          · cases h; exact Or.inl hr
          · rename_i hne
            cases h
            rcases mem_insertIfNotDuplicate.1 hr with h | h
            · exact Or.inl h
            · exact Or.inr ⟨c, hc, hne, h⟩

theorem rowLoop_new {prm : Prm} {P : Prob} {lp : Lp} {sqrt : ℚ → ℚ} {rat : ℚ → ℤ × ℤ} {binv : Nat → SVec} {r : RowCut} :
    ∀ (l : List Nat) (cs cs' : List RowCut), rowLoop prm P lp sqrt rat binv l cs = some cs' → r ∈ cs' →
    r ∈ cs ∨ ∃ b ∈ l, ∃ c, cleanCut prm P sqrt rat lp.xlp (rawCut prm P lp (binv b) b) = .ok c ∧ c.elems ≠ [] ∧
      r = ⟨- prm.infinit, relaxRange prm P c.elems c.rhs, c.elems⟩ := by
  intro l
  induction l with
  | nil => intro cs cs' h hr; unfold rowLoop at h; cases h; exact Or.inl hr
  | cons b l ih =>
    intro cs cs' h hr
    unfold rowLoop at h
    split at h
    · cases h
    · rename_i cs1 h1
      rcases ih cs1 cs' h hr with h2 | ⟨b', hb', h3⟩
      · rcases oneRow_new h1 h2 with h4 | h4
        · exact Or.inl h4
        · exact Or.inr ⟨b, List.mem_cons_self, h4⟩
      · exact Or.inr ⟨b', List.mem_cons_of_mem _ hb', h3⟩

theorem generateCuts_new {prm : Prm} {P : Prob} {lp : Lp} {sqrt : ℚ → ℚ} {rat : ℚ → ℤ × ℤ} {cs cs' : List RowCut}
    {r : RowCut} (h : generateCuts prm P lp sqrt rat cs = some cs') (hr : r ∈ cs') :
    r ∈ cs ∨ ∃ binv, lp.binv = some binv ∧ ∃ b ∈ fracBasics prm P lp, ∃ c,
      cleanCut prm P sqrt rat lp.xlp (rawCut prm P lp (binv b) b) = .ok c ∧ c.elems ≠ [] ∧
      r = ⟨- prm.infinit, relaxRange prm P c.elems c.rhs, c.elems⟩ := by
  unfold generateCuts at h
  split at h
  · cases h; exact Or.inl hr
  · split at h
    · cases h; exact Or.inl hr
    · rename_i binv hb
      rcases rowLoop_new _ cs cs' h hr with h1 | h1
      · exact Or.inl h1
      · exact Or.inr ⟨binv, hb, h1⟩

theorem Feasible.inBounds {P : Prob} {x : Nat → ℚ} (h : P.Feasible x) : InBounds P x :=
  fun j hj => ⟨h.lower j hj, h.upper j hj⟩

/-- **C24 for CglGMI.**  Every cut a call adds is satisfied by every feasible point, whatever `std::sqrt` and
`CoinRational` return, provided the solver reports a basic solution and the right rows of the basis inverse, and no
tolerance of the generator comes into play.

Partial because of these provisos; `Witness.lean` shows that the claim is false without them. -/
theorem generateCuts_valid_partial {prm : Prm} {P : Prob} {lp : Lp} (sqrt : ℚ → ℚ) (rat : ℚ → ℤ × ℤ)
    (cs cs' : List RowCut) (hp : SafeParams prm) (hwf : P.WF) (hx : ExactData prm.eps P) (hb : BasicSolution P lp)
    (hrow : ∀ binv, lp.binv = some binv → ∀ b ∈ fracBasics prm P lp, GoodRow prm P lp (binv b) b)
    (h : generateCuts prm P lp sqrt rat cs = some cs') : ∀ r ∈ cs', r ∈ cs ∨ r.Valid P := by
  intro r hr
  rcases generateCuts_new h hr with h1 | ⟨binv, hbi, b, hbl, c, hc, hne, rfl⟩
  · exact Or.inl h1
  · right
    intro x hfx
    obtain ⟨b1, b2, b3, b4⟩ := fracBasics_spec hbl
    have hg := hrow binv hbi b hbl
    have hraw : (rawCut prm P lp (binv b) b).Sat x :=
      row_valid hp.elim hwf hx hb b1 b2 b3 hg.tableau hg.free hg.tiny hfx
    have hsat : c.Sat x := by
      by_cases hproc : prm.proc.isIntegral = true
      · refine clean_sat_integral hproc hp.relax hp.viol (hg.none_small hproc) ?_ hc hraw
        have := row_violated hp.elim hwf hx hb hg.tableau hg.free (frac_nonneg _) hg.tiny
        have h0 := hp.away
        unfold rawCut
        unfold aboveInteger at this b4 ⊢
        rw [this]
        linarith
      · have hproc : prm.proc.isIntegral = false := by simpa using hproc
        exact clean_sat hproc hp.coeff hp.relax (rawCut_cols _ _ _ _ _) (hg.small hproc) (Feasible.inBounds hfx) hc hraw
    refine ⟨fun hlt => ?_, fun _ => ?_⟩
    · dsimp only at hlt
      have := hp.infinit
      linarith
    · exact le_trans hsat (relaxRange_le prm P c.elems c.rhs)

/-- **C25.**  The five procedures that do not scale to integral coefficients: every point within the column bounds
that satisfies the cut still satisfies it after cleaning, whatever `std::sqrt` returns.  Partial: small coefficients
must be on columns with a finite bound on the right side (`Witness.lean`). -/
theorem cleanCut_relaxes_partial {prm : Prm} {P : Prob} (sqrt : ℚ → ℚ) (rat : ℚ → ℤ × ℤ) (xbar : Nat → ℚ) {c c' : Cut}
    (hproc : prm.proc.isIntegral = false) (h0 : 0 ≤ prm.epsCoeff) (ha : 0 ≤ prm.epsRelaxAbs) (hc : Cols P c.elems)
    (hr : Removable prm P c) (h : cleanCut prm P sqrt rat xbar c = .ok c') :
    ∀ x, InBounds P x → c.Sat x → c'.Sat x :=
  fun _ hx hs => clean_sat hproc h0 ha hc hr hx h hs

/-- **C25.**  The two procedures that scale to integral coefficients: the same, whatever `CoinRational` returns, for a
cut that the LP solution violates and that has no small coefficients.  Partial: without that the scaling factor can be
negative and the cut is turned round (`Witness.lean`). -/
theorem cleanCut_integral_relaxes_partial {prm : Prm} {P : Prob} (sqrt : ℚ → ℚ) (rat : ℚ → ℤ × ℤ) (xbar : Nat → ℚ)
    {c c' : Cut} (hproc : prm.proc.isIntegral = true) (ha : 0 ≤ prm.epsRelaxAbs) (hm : 0 ≤ prm.minViol)
    (hsm : ∀ p ∈ c.elems, prm.epsCoeff < |p.2|) (hv : c.rhs < SVec.dot c.elems xbar)
    (h : cleanCut prm P sqrt rat xbar c = .ok c') : ∀ x, c.Sat x → c'.Sat x :=
  fun _ hs => clean_sat_integral hproc ha hm hsm hv h hs

/-- **C25.**  Removing small coefficients by itself. -/
theorem removeSmall_relaxes_partial {prm : Prm} {P : Prob} {c : Cut} (hc : Cols P c.elems)
    (hr : Removable1 prm P c.elems) : ∀ x, InBounds P x → c.Sat x → (removeSmall prm P c).Sat x :=
  fun _ hx hs => removeSmall_sat hx hc hr hs

/-- **C47.**  Scaling to integral coefficients succeeds only with integral coefficients on the integer columns (on all
columns if continuous columns are scaled too) and an integral right-hand side, if `CoinRational` is exact on them. -/
theorem scaleIntegral_gives_integers {prm : Prm} {P : Prob} {rat : ℚ → ℤ × ℤ} {c c' : Cut}
    (hr : c.rhs = (rat c.rhs).1 / (rat c.rhs).2) (he : ∀ p ∈ c.elems, p.2 = (rat p.2).1 / (rat p.2).2)
    (h : scaleIntegral prm P rat c = .done c') :
    IsInteger c'.rhs ∧ ∀ p ∈ c'.elems, P.isInt p.1 = true ∨ prm.integralScaleCont = true → IsInteger p.2 :=
  scaleIntegral_integral (fun _ => hr) (fun p hp _ => he p hp) h

/-- Cleaning drops coefficients and scales, nothing else. -/
theorem clean_cols {prm : Prm} {P : Prob} {sqrt : ℚ → ℚ} {rat : ℚ → ℤ × ℤ} {xbar : Nat → ℚ} {c c' : Cut}
    (h : cleanCut prm P sqrt rat xbar c = .ok c') : (c'.elems.map Prod.fst).Sublist (c.elems.map Prod.fst) := by
  have hrem : ∀ d : Cut, ((removeSmall prm P d).elems.map Prod.fst).Sublist (d.elems.map Prod.fst) := by
    intro d; rw [removeSmall_sub]; exact List.filter_sublist.map _
  have hdiv : ∀ (d : Cut) (k : ℚ), (d.divide k).elems.map Prod.fst = d.elems.map Prod.fst := by
    intro d k; unfold Cut.divide; rw [List.map_map]; rfl
  have hsc : ∀ (d : Cut) (k : ℚ), (d.scale k).elems.map Prod.fst = d.elems.map Prod.fst := by
    intro d k; unfold Cut.scale; rw [List.map_map]; rfl
  unfold cleanCut at h
  split at h
  · split at h
    · dsimp only at h
      split at h
      · split at h
        · split at h
          · rw [← Res.ok.inj h]
            have := hrem (relaxRhs prm c); rwa [relaxRhs_elems] at this
          · cases h
        · cases h
      · cases h
    · cases h
  · split at h
    · dsimp only at h
      split at h
      · rcases andThen_ok h with ⟨_, _, h2⟩ | ⟨c1, h1, h2⟩
        · split at h2
          · split at h2
            · rw [← Res.ok.inj h2]
              have := hrem (relaxRhs prm c); rwa [relaxRhs_elems] at this
            · cases h2
          · cases h2
        · obtain ⟨k, k1, k2, rfl⟩ := scaleBy_done (maxAbs_nonneg _) h1
          split at h2
          · split at h2
            · rw [← Res.ok.inj h2]
              have := hrem ((relaxRhs prm c).divide k); rwa [hdiv, relaxRhs_elems] at this
            · cases h2
          · cases h2
      · cases h
    · cases h
  · rcases andThen_ok h with ⟨_, _, h2⟩ | ⟨c1, h1, h2⟩
    · dsimp only at h2
      split at h2
      · split at h2
        · split at h2
          · rw [← Res.ok.inj h2, relaxRhs_elems]; exact hrem c
          · cases h2
        · cases h2
      · cases h2
    · obtain ⟨k, k1, k2, rfl⟩ := scaleNorm_done (prm := prm) h1
      dsimp only at h2
      split at h2
      · split at h2
        · split at h2
          · rw [← Res.ok.inj h2, relaxRhs_elems]
            have := hrem (c.divide k); rwa [hdiv] at this
          · cases h2
        · cases h2
      · cases h2
  · dsimp only at h
    split at h
    · split at h
      · rcases andThen_ok h with ⟨_, _, h2⟩ | ⟨c1, h1, h2⟩
        · split at h2
          · rw [← Res.ok.inj h2]; exact hrem c
          · cases h2
        · obtain ⟨k, k1, rfl⟩ := scaleIntegral_done h1
          split at h2
          · rw [← Res.ok.inj h2, hsc]; exact hrem c
          · cases h2
      · cases h
    · cases h
  · split at h
    · dsimp only at h
      split at h
      · split at h
        · rcases andThen_ok h with ⟨_, _, h2⟩ | ⟨c1, h1, h2⟩
          · split at h2
            · rw [← Res.ok.inj h2, relaxRhs_elems]; exact hrem c
            · cases h2
          · obtain ⟨k, k1, rfl⟩ := scaleIntegral_done h1
            split at h2
            · rw [← Res.ok.inj h2, hsc]; exact hrem c
            · cases h2
        · cases h
      · cases h
    · cases h
  all_goals
    split at h
    · rcases andThen_ok h with ⟨_, _, h2⟩ | ⟨c1, h1, h2⟩
      · dsimp only at h2
        split at h2
        · split at h2
          · split at h2
            · rw [← Res.ok.inj h2]
              have := hrem (relaxRhs prm c); rwa [relaxRhs_elems] at this
            · cases h2
          · cases h2
        · cases h2
      · obtain ⟨k, k1, k2, rfl⟩ := scaleBy_done (by first | exact abs_nonneg _ | exact maxAbs_nonneg _) h1
        dsimp only at h2
        split at h2
        · split at h2
          · split at h2
            · rw [← Res.ok.inj h2]
              have := hrem (relaxRhs prm (c.divide k)); rwa [relaxRhs_elems, hdiv] at this
            · cases h2
          · cases h2
        · cases h2
    · cases h

/-- **C46.**  Every cut a call adds has at least one and at most `MAX_SUPPORT_ABS + MAX_SUPPORT_REL * columns`
coefficients, on different columns of the problem. -/
theorem generateCuts_support {prm : Prm} {P : Prob} {lp : Lp} (sqrt : ℚ → ℚ) (rat : ℚ → ℤ × ℤ) (cs cs' : List RowCut)
    (h : generateCuts prm P lp sqrt rat cs = some cs') :
    ∀ r ∈ cs', r ∈ cs ∨ (r.row ≠ [] ∧ (r.row.length : ℚ) ≤ prm.maxSupportAbs + prm.maxSupportRel * P.nCols ∧
      (r.row.map Prod.fst).Nodup ∧ ∀ p ∈ r.row, p.1 < P.nCols) := by
  intro r hr
  rcases generateCuts_new h hr with h1 | ⟨binv, hbi, b, hbl, c, hc, hne, rfl⟩
  · exact Or.inl h1
  · right
    have hsub := clean_cols hc
    refine ⟨hne, ?_, hsub.nodup (rawCut_nodup _ _ _ _ _), ?_⟩
    · obtain ⟨c0, h2, h3⟩ := clean_support hc
      unfold checkSupport at h2
      rw [Bool.not_eq_true', decide_eq_false_iff_not, not_lt] at h2
      dsimp only
      rw [h3]; exact h2
    · intro p hp
      have := hsub.subset (List.mem_map_of_mem hp)
      obtain ⟨q, hq, hqp⟩ := List.mem_map.1 this
      rw [← hqp]
      exact rawCut_cols _ _ _ _ _ q hq

/-- **C46.**  No two coefficients of a cut a call adds differ by more than the factor `MAXDYN`. -/
theorem generateCuts_dynamism {prm : Prm} {P : Prob} {lp : Lp} (sqrt : ℚ → ℚ) (rat : ℚ → ℤ × ℤ) (cs cs' : List RowCut)
    (h0 : 1 / 10 ^ 20 ≤ prm.epsCoeff) (hm : 0 ≤ prm.maxDyn)
    (h : generateCuts prm P lp sqrt rat cs = some cs') :
    ∀ r ∈ cs', r ∈ cs ∨ ∀ p ∈ r.row, ∀ q ∈ r.row, |p.2| ≤ prm.maxDyn * |q.2| := by
  intro r hr
  rcases generateCuts_new h hr with h1 | ⟨binv, hbi, b, hbl, c, hc, hne, rfl⟩
  · exact Or.inl h1
  · exact Or.inr (clean_dyn h0 hm (rawCut_nonzero _ _ _ _ _) hc)

/-- **C46.**  Every cut a call adds is violated by the LP solution by at least `MINVIOL` (relative to a right-hand side
above one), except for the final relaxations: the one for integer columns with a range above 10, and that of the
reduce-and-split cleaning procedure. -/
theorem generateCuts_violation {prm : Prm} {P : Prob} {lp : Lp} (sqrt : ℚ → ℚ) (rat : ℚ → ℤ × ℤ) (cs cs' : List RowCut)
    (hproc : prm.proc ≠ .redsplit)
    (hint : ∀ j < P.nCols, P.colUpper j - P.colLower j ≤ 10)
    (h : generateCuts prm P lp sqrt rat cs = some cs') :
    ∀ r ∈ cs', r ∈ cs ∨ prm.minViol * max 1 |r.ub| ≤ SVec.dot r.row lp.xlp - r.ub := by
  intro r hr
  rcases generateCuts_new h hr with h1 | ⟨binv, hbi, b, hbl, c, hc, hne, rfl⟩
  · exact Or.inl h1
  · right
    have hsub := clean_cols hc
    have hcol : ∀ p ∈ c.elems, p.1 < P.nCols := by
      intro p hp
      obtain ⟨q, hq, hqp⟩ := List.mem_map.1 (hsub.subset (List.mem_map_of_mem hp))
      rw [← hqp]
      exact rawCut_cols _ _ _ _ _ q hq
    have hrr : ∀ (v : SVec) (rhs : ℚ), (∀ p ∈ v, p.1 < P.nCols) → relaxRange prm P v rhs = rhs := by
      intro v
      induction v with
      | nil => intro rhs _; rfl
      | cons p v ih =>
        intro rhs hv
        have e : relaxRange prm P (p :: v) rhs = relaxRange prm P v (if isInteger prm P p.1 ∧ 10 < P.colUpper p.1 - P.colLower p.1 then
          rhs + 1 / 10 ^ 8 * (P.colUpper p.1 - P.colLower p.1) else rhs) := rfl
        rw [e, if_neg (by rintro ⟨_, h2⟩; exact absurd h2 (not_lt.mpr (hint _ (hv p List.mem_cons_self)))),
          ih rhs fun q hq => hv q (List.mem_cons_of_mem _ hq)]
    dsimp only
    rw [hrr _ _ hcol]
    rcases clean_violation hc with ⟨_, h2⟩ | ⟨h2, _⟩
    · exact checkViolation_spec h2
    · exact absurd h2 hproc

/-- The call never leaves the rationals (no division by zero) if `EPS` is positive and the cleaning procedure is not
one of the two that use 64-bit integers. -/
theorem cleanCut_defined {prm : Prm} {P : Prob} (sqrt : ℚ → ℚ) (rat : ℚ → ℤ × ℤ) (xbar : Nat → ℚ) {c : Cut}
    (hproc : prm.proc.isIntegral = false) (he : 0 < prm.eps) (hne : c.elems ≠ [])
    (hz : ∀ p ∈ c.elems, isZero p.2 = false) : cleanCut prm P sqrt rat xbar c ≠ .undef := by
  have hby : ∀ m d, scaleBy prm m d ≠ .nan ∧ scaleBy prm m d ≠ .undef := by
    intro m d
    unfold scaleBy
    split
    · exact ⟨by simp, by simp⟩
    · rename_i h
      push Not at h
      rw [if_neg (by rintro rfl; linarith)]
      exact ⟨by simp, by simp⟩
  have hnorm : scaleNorm sqrt c ≠ .nan ∧ scaleNorm sqrt c ≠ .undef := by
    have hpos : ∀ (v : SVec) (s : Nat × ℚ), (∀ p ∈ v, isZero p.2 = false) →
        (v.foldl (fun s p => if isZero p.2 then s else (s.1 + 1, s.2 + p.2 * p.2)) s).1 = s.1 + v.length := by
      intro v
      induction v with
      | nil => intro s _; rfl
      | cons p v ih =>
        intro s hv
        rw [List.foldl_cons, hv p List.mem_cons_self, if_neg (by simp), ih _ fun q hq => hv q (List.mem_cons_of_mem _ hq),
          List.length_cons]
        dsimp only; omega
    have h1 : (normSq c).1 ≠ 0 := by
      unfold normSq
      rw [hpos _ _ hz]
      have := List.length_pos_iff.2 hne
      omega
    unfold scaleNorm
    rw [if_neg h1]
    dsimp only
    split
    · exact ⟨by simp, by simp⟩
    · exact ⟨by simp, by simp⟩
  have hthen : ∀ (s : Scaled) (f : Cut) (k : Cut → Res), s ≠ .nan → s ≠ .undef → (∀ d, k d ≠ .undef) →
      andThen prm s f k ≠ .undef := by
    intro s f k h1 h2 h3
    unfold andThen
    split
    · split
      · simp
      · exact h3 _
    · exact h3 _
    · exact absurd rfl h1
    · exact absurd rfl h2
  unfold cleanCut
  split
  · dsimp only
    repeat' split
    all_goals simp
  · dsimp only
    split
    · split
      · apply hthen _ _ _ (hby _ _).1 (hby _ _).2
        intro d
        try dsimp only
        repeat' split
        all_goals simp
      · simp
    · simp
  · apply hthen _ _ _ hnorm.1 hnorm.2
    intro d
    dsimp only
    repeat' split
    all_goals simp
  · rename_i hp; rw [hp] at hproc; cases hproc
  · rename_i hp; rw [hp] at hproc; cases hproc
  all_goals
    split
    · apply hthen _ _ _ (hby _ _).1 (hby _ _).2
      intro d
      dsimp only
      repeat' split
      all_goals simp
    · simp

/-- **C46.**  A call with positive `EPS` and a cleaning procedure without 64-bit integers always returns. -/
theorem generateCuts_returns {prm : Prm} {P : Prob} {lp : Lp} (sqrt : ℚ → ℚ) (rat : ℚ → ℤ × ℤ) (cs : List RowCut)
    (hproc : prm.proc.isIntegral = false) (he : 0 < prm.eps) :
    ∃ cs', generateCuts prm P lp sqrt rat cs = some cs' ∧ ∀ r ∈ cs, r ∈ cs' := by
  have hone : ∀ (binv : Nat → SVec) b cs, ∃ cs', oneRow prm P lp sqrt rat binv b cs = some cs' ∧ ∀ r ∈ cs, r ∈ cs' := by
    intro binv b cs
    unfold oneRow
    split
    · exact ⟨cs, rfl, fun _ h => h⟩
    · rename_i f0 hf0
      unfold cutFractionality at hf0
      dsimp only at hf0
      split at hf0
      · cases hf0
      · cases hf0
        dsimp only
        split
        · exact ⟨cs, rfl, fun _ h => h⟩
        · rename_i hne
          split
          · rename_i hu
            exact absurd hu (cleanCut_defined sqrt rat lp.xlp hproc he hne (rawCut_nonzero prm P lp (binv b) b))
          · exact ⟨cs, rfl, fun _ h => h⟩
          · split
            · exact ⟨cs, rfl, fun _ h => h⟩
            · exact ⟨_, rfl, fun r h => mem_insertIfNotDuplicate.2 (Or.inl h)⟩
  have hloop : ∀ (binv : Nat → SVec) l cs, ∃ cs', rowLoop prm P lp sqrt rat binv l cs = some cs' ∧ ∀ r ∈ cs, r ∈ cs' := by
    intro binv l
    induction l with
    | nil => intro cs; exact ⟨cs, rfl, fun _ h => h⟩
    | cons b l ih =>
      intro cs
      obtain ⟨cs1, h1, h2⟩ := hone binv b cs
      obtain ⟨cs2, h3, h4⟩ := ih cs1
      refine ⟨cs2, ?_, fun r h => h4 r (h2 r h)⟩
      unfold rowLoop
      rw [h1]; exact h3
  unfold generateCuts
  split
  · exact ⟨cs, rfl, fun _ h => h⟩
  · split
    · exact ⟨cs, rfl, fun _ h => h⟩
    · exact hloop _ _ _

end Cgl.GMI
