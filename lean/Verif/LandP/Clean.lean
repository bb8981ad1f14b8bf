import Verif.LandP.Cut

/-!
# The validator
-/

namespace Cgl.LandP

/-- What the loop of `cleanCut` keeps: with `done` the entries seen so far. -/
structure CleanOK (V : Validator) (eps : ℚ) (lb : ℚ) (x : Nat → ℚ) (done : SVec) (c : Clean) : Prop where
  sub : c.kept.Sublist done
  val : SVec.dot done x - lb + 1/10^7 - 1/10^20 * (done.map fun p => |x p.1|).sum ≤ SVec.dot c.kept x - c.rhs
  big : ∀ p ∈ c.kept, eps < |p.2| ∧ c.smallest ≤ |p.2| ∧ |p.2| ≤ c.biggest
  ratio : c.kept ≠ [] → c.biggest ≤ V.maxRatio * c.smallest

/-- The bounds the validator uses hold at `x`. -/
def BoundsOK (nB : Nat) (lo up : Nat → ℚ) (x : Nat → ℚ) : Prop :=
  ∀ j < nB, (up j < 10000 → x j ≤ up j) ∧ (-10000 < lo j → lo j ≤ x j)

theorem cleanStep_ok {V : Validator} {eps : ℚ} {nB : Nat} {lo up : Nat → ℚ} {lb : ℚ} {x : Nat → ℚ}
    (hb : BoundsOK nB lo up x) {done : SVec} {c c' : Clean} (hc : CleanOK V eps lb x done c) {p : Nat × ℚ}
    (h : cleanStep V eps nB lo up c p = .ok (.inl c')) : CleanOK V eps lb x (done ++ [p]) c' := by
  have hx0 : 0 ≤ 1/10^20 * |x p.1| := mul_nonneg (by norm_num) (abs_nonneg _)
  have hsum : ((done ++ [p]).map fun q => |x q.1|).sum = (done.map fun q => |x q.1|).sum + |x p.1| := by
    simp
  have hdot : SVec.dot (done ++ [p]) x = SVec.dot done x + p.2 * x p.1 := by simp
  have hdrop : ∀ rhs, p.2 * x p.1 - 1/10^20 * |x p.1| ≤ c.rhs - rhs →
      CleanOK V eps lb x (done ++ [p]) { c with rhs := rhs } := by
    intro rhs hr
    refine ⟨hc.sub.trans (List.sublist_append_left _ _), ?_, hc.big, hc.ratio⟩
    rw [hsum, hdot]
    have := hc.val
    dsimp only
    linarith
  unfold cleanStep at h
  split at h
  · split at h
    · rename_i ht
      simp only [Except.ok.injEq, Sum.inl.injEq] at h
      subst h
      refine hdrop c.rhs ?_
      have : p.2 * x p.1 ≤ 1/10^20 * |x p.1| := by
        calc p.2 * x p.1 ≤ |p.2 * x p.1| := le_abs_self _
          _ = |p.2| * |x p.1| := abs_mul _ _
          _ ≤ _ := mul_le_mul_of_nonneg_right ht.le (abs_nonneg _)
      linarith
    · split at h
      · exact absurd h (by simp)
      · rename_i hn
        have hbj := hb p.1 (by omega)
        split at h
        · rename_i hp
          simp only [Except.ok.injEq, Sum.inl.injEq] at h
          subst h
          refine hdrop _ ?_
          have := mul_le_mul_of_nonneg_left (hbj.1 hp.2) hp.1.le
          linarith
        · split at h
          · rename_i hp
            simp only [Except.ok.injEq, Sum.inl.injEq] at h
            subst h
            refine hdrop _ ?_
            have := mul_le_mul_of_nonpos_left (hbj.2 hp.2) hp.1.le
            linarith
          · exact absurd h (by simp)
  · rename_i he
    split at h
    · exact absurd h (by simp)
    · rename_i hr
      simp only [Except.ok.injEq, Sum.inl.injEq] at h
      subst h
      refine ⟨List.Sublist.append_right hc.sub _, ?_, ?_, fun _ => not_lt.1 hr⟩
      · rw [hsum, hdot]
        have := hc.val
        dsimp only
        rw [SVec.dot_append, SVec.dot_cons, SVec.dot_nil]
        linarith
      · intro q hq
        rcases List.mem_append.1 hq with hq | hq
        · obtain ⟨h1, h2, h3⟩ := hc.big q hq
          exact ⟨h1, (min_le_right _ _).trans h2, h3.trans (le_max_right _ _)⟩
        · rw [List.mem_singleton] at hq
          subst hq
          exact ⟨not_le.1 he, min_le_left _ _, le_max_left _ _⟩

theorem cleanLoop_ok {V : Validator} {eps : ℚ} {nB : Nat} {lo up : Nat → ℚ} {lb : ℚ} {x : Nat → ℚ}
    (hb : BoundsOK nB lo up x) : ∀ (l : SVec) {done : SVec} {c c' : Clean}, CleanOK V eps lb x done c →
      cleanLoop V eps nB lo up c l = .ok (.inl c') → CleanOK V eps lb x (done ++ l) c' := by
  intro l
  induction l with
  | nil =>
    intro done c c' hc h
    simp only [cleanLoop, Except.ok.injEq, Sum.inl.injEq] at h
    subst h; simpa using hc
  | cons p l ih =>
    intro done c c' hc h
    rcases h1 : cleanStep V eps nB lo up c p with f | (c1 | code)
    · simp only [cleanLoop, h1] at h; exact absurd h (by simp)
    · simp only [cleanLoop, h1] at h
      have := ih (cleanStep_ok hb hc h1) h
      simpa using this
    · simp only [cleanLoop, h1] at h; exact absurd h (by simp)

/-- What an accepted cut looks like. -/
structure Accepted (V : Validator) (eps : ℚ) (numcols : Nat) (xlp : Nat → ℚ) (c c' : RowCut) : Prop where
  ub : c'.ub = c.ub
  sub : c'.row.Sublist c.row
  nonempty : c'.row ≠ []
  dense : (c'.row.length : ℚ) ≤ V.maxFillIn * numcols
  violation : V.minViolation ≤ violated c' xlp
  small : ∀ p ∈ c'.row, eps < |p.2|
  ratio : ∀ p ∈ c'.row, ∀ q ∈ c'.row, 0 ≤ V.maxRatio → |p.2| ≤ V.maxRatio * |q.2|

theorem castInt_le {q : ℚ} {z : ℤ} (h : castInt q = some z) (n : Nat) (hn : ¬ z < (n : ℤ)) (h0 : n ≠ 0) :
    (n : ℚ) ≤ q := by
  unfold castInt at h
  split at h
  · simp only [Option.some.injEq] at h
    subst h
    push Not at hn
    unfold truncQ at hn
    split at hn
    · have : ((n : ℤ) : ℚ) ≤ q := Int.le_floor.1 hn
      exact_mod_cast this
    · rename_i hneg
      push Not at hneg
      have : ⌈q⌉ ≤ 0 := Int.ceil_le.2 (by exact_mod_cast hneg.le)
      omega
  · exact absurd h (by simp)

/-- Splits a successful validation. -/
theorem validate_inv {V : Validator} {eps : ℚ} {numcols nB : Nat} {lo up xlp : Nat → ℚ} {c c' : RowCut}
    (h : validate V eps numcols nB lo up xlp c = .ok (.inl c')) :
    ∃ (z : ℤ) (d : Clean), castInt (V.maxFillIn * numcols) = some z ∧
      cleanLoop V eps nB lo up ⟨[], c.lb - 1/10^7, 10^100, 0⟩ c.row = .ok (.inl d) ∧
      ¬ z < (d.kept.length : ℤ) ∧ d.kept.length ≠ 0 ∧ ¬ violated ⟨d.rhs, c.ub, d.kept⟩ xlp < V.minViolation ∧
      c' = ⟨d.rhs, c.ub, d.kept⟩ := by
  unfold validate at h
  rcases hz : castInt (V.maxFillIn * numcols) with _ | z
  · rw [hz] at h; exact absurd h (by simp)
  · rw [hz] at h
    dsimp only at h
    split at h
    · exact absurd h (by simp)
    · split at h
      · exact absurd h (by simp)
      · rcases hl : cleanLoop V eps nB lo up ⟨[], c.lb - 1/10^7, 10^100, 0⟩ c.row with f | (d | code)
        · rw [hl] at h; exact absurd h (by simp)
        · rw [hl] at h
          dsimp only at h
          split at h
          · exact absurd h (by simp)
          · rename_i h1
            split at h
            · exact absurd h (by simp)
            · rename_i h2
              split at h
              · exact absurd h (by simp)
              · rename_i h3
                simp only [Except.ok.injEq, Sum.inl.injEq] at h
                exact ⟨z, d, rfl, rfl, h1, h2, h3, h.symm⟩
        · rw [hl] at h; exact absurd h (by simp)

theorem validate_accepted {V : Validator} {eps : ℚ} {numcols nB : Nat} {lo up xlp : Nat → ℚ} {c c' : RowCut}
    (h : validate V eps numcols nB lo up xlp c = .ok (.inl c')) : Accepted V eps numcols xlp c c' := by
  obtain ⟨z, d, hz, hl, h1, h2, h3, rfl⟩ := validate_inv h
  -- a point that is within all bounds need not exist; only the parts of the invariant without a point are used
  have hinv : ∀ (l : SVec) {done : SVec} {c c' : Clean},
      (c.kept.Sublist done ∧ (∀ p ∈ c.kept, eps < |p.2| ∧ c.smallest ≤ |p.2| ∧ |p.2| ≤ c.biggest) ∧
        (c.kept ≠ [] → c.biggest ≤ V.maxRatio * c.smallest)) →
      cleanLoop V eps nB lo up c l = .ok (.inl c') →
      c'.kept.Sublist (done ++ l) ∧ (∀ p ∈ c'.kept, eps < |p.2| ∧ c'.smallest ≤ |p.2| ∧ |p.2| ≤ c'.biggest) ∧
        (c'.kept ≠ [] → c'.biggest ≤ V.maxRatio * c'.smallest) := by
    intro l
    induction l with
    | nil =>
      intro done c c' hc h
      simp only [cleanLoop, Except.ok.injEq, Sum.inl.injEq] at h
      subst h; simpa using hc
    | cons p l ih =>
      intro done c c' hc h
      rcases hs : cleanStep V eps nB lo up c p with f | (c1 | code)
      · simp only [cleanLoop, hs] at h; exact absurd h (by simp)
      · simp only [cleanLoop, hs] at h
        have hstep : c1.kept.Sublist (done ++ [p]) ∧
            (∀ p ∈ c1.kept, eps < |p.2| ∧ c1.smallest ≤ |p.2| ∧ |p.2| ≤ c1.biggest) ∧
            (c1.kept ≠ [] → c1.biggest ≤ V.maxRatio * c1.smallest) := by
          have hsub := hc.1.trans (List.sublist_append_left done [p])
          unfold cleanStep at hs
          split at hs
          · split at hs
            · simp only [Except.ok.injEq, Sum.inl.injEq] at hs; subst hs; exact ⟨hsub, hc.2⟩
            · split at hs
              · exact absurd hs (by simp)
              · split at hs
                · simp only [Except.ok.injEq, Sum.inl.injEq] at hs; subst hs; exact ⟨hsub, hc.2⟩
                · split at hs
                  · simp only [Except.ok.injEq, Sum.inl.injEq] at hs; subst hs; exact ⟨hsub, hc.2⟩
                  · exact absurd hs (by simp)
          · rename_i he
            split at hs
            · exact absurd hs (by simp)
            · rename_i hr
              simp only [Except.ok.injEq, Sum.inl.injEq] at hs
              subst hs
              refine ⟨List.Sublist.append_right hc.1 _, ?_, fun _ => not_lt.1 hr⟩
              intro q hq
              rcases List.mem_append.1 hq with hq | hq
              · obtain ⟨h1, h2, h3⟩ := hc.2.1 q hq
                exact ⟨h1, (min_le_right _ _).trans h2, h3.trans (le_max_right _ _)⟩
              · rw [List.mem_singleton] at hq
                subst hq
                exact ⟨not_le.1 he, min_le_left _ _, le_max_left _ _⟩
        have := ih hstep h
        simpa using this
      · simp only [cleanLoop, hs] at h; exact absurd h (by simp)
  obtain ⟨hsub, hbig, hratio⟩ := hinv c.row (done := []) (c := ⟨[], c.lb - 1/10^7, 10^100, 0⟩)
    ⟨List.Sublist.refl _, by simp, fun h => absurd rfl h⟩ hl
  have hne : d.kept ≠ [] := fun h => h2 (by rw [h]; rfl)
  exact
    { ub := rfl
      sub := by simpa using hsub
      nonempty := hne
      dense := castInt_le hz _ h1 h2
      violation := not_lt.1 h3
      small := fun p hp => (hbig p hp).1
      ratio := fun p hp q hq h0 => by
        calc |p.2| ≤ d.biggest := (hbig p hp).2.2
          _ ≤ V.maxRatio * d.smallest := hratio hne
          _ ≤ V.maxRatio * |q.2| := mul_le_mul_of_nonneg_left (hbig q hq).2.1 h0 }

/-- An accepted cut is weaker than the one given, apart from entries below `1e-20`. -/
theorem validate_weaker {V : Validator} {eps : ℚ} {numcols nB : Nat} {lo up xlp : Nat → ℚ} {c c' : RowCut}
    (h : validate V eps numcols nB lo up xlp c = .ok (.inl c')) {x : Nat → ℚ} (hb : BoundsOK nB lo up x) :
    SVec.dot c.row x - c.lb + 1/10^7 - 1/10^20 * (c.row.map fun p => |x p.1|).sum ≤ SVec.dot c'.row x - c'.lb := by
  obtain ⟨z, d, hz, hl, h1, h2, h3, rfl⟩ := validate_inv h
  have h0 : CleanOK V eps c.lb x [] ⟨[], c.lb - 1/10^7, 10^100, 0⟩ :=
    ⟨List.Sublist.refl _, by simp, by simp, fun h => absurd rfl h⟩
  have := (cleanLoop_ok hb c.row h0 hl).val
  simpa using this

end Cgl.LandP
