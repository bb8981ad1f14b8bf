import Verif.ZHSearch.Spec
import Verif.ZeroHalf.Core

/-!
# Every edge offered comes from a row or a bound
-/

namespace Cgl.ZHSearch

open ZeroHalf

/-! ### Options -/

/-- The column can be made even on side `t` with a change of parity `p` at the price `l`. -/
def Opt : Weak → Side → Bool → ℚ → Prop
  | .none, _, _, _ => False
  | .even t l, s, p, m => s = t ∧ p = false ∧ m = l
  | .odd t l, s, p, m => s = t ∧ p = true ∧ m = l
  | .both te le to' lo, s, p, m => s = te ∧ p = false ∧ m = le ∨ s = to' ∧ p = true ∧ m = lo

/-- A choice for a list of columns: sides, parity and price. -/
inductive Choice : List Weak → List Side → Bool → ℚ → Prop
  | nil : Choice [] [] false 0
  | cons {w : Weak} {t : Side} {p : Bool} {l : ℚ} {ws : List Weak} {ts : List Side} {q : Bool} {m : ℚ} :
      Opt w t p l → Choice ws ts q m → Choice (w :: ws) (t :: ts) (Bool.xor p q) (l + m)

theorem wstep_exact {w : Weak} {b b' : ℚ × ℚ} {s : Step} (h : wstep w b = some (s, b')) (f : Bool) :
    ∃ t p l, Opt w t p l ∧ sel f b' = sel (Bool.xor f p) b + l := by
  cases w with
  | none => cases h
  | even t l =>
    simp only [wstep, Option.some.injEq, Prod.mk.injEq] at h
    obtain ⟨_, rfl⟩ := h
    exact ⟨t, false, l, ⟨rfl, rfl, rfl⟩, by cases f <;> rfl⟩
  | odd t l =>
    simp only [wstep, Option.some.injEq, Prod.mk.injEq] at h
    obtain ⟨_, rfl⟩ := h
    exact ⟨t, true, l, ⟨rfl, rfl, rfl⟩, by cases f <;> rfl⟩
  | both te le to' lo =>
    simp only [wstep, Option.some.injEq, Prod.mk.injEq] at h
    obtain ⟨_, rfl⟩ := h
    cases f
    · by_cases hc : b.1 + le ≤ b.2 + lo
      · exact ⟨te, false, le, Or.inl ⟨rfl, rfl, rfl⟩, by simp [sel, hc]⟩
      · exact ⟨to', true, lo, Or.inr ⟨rfl, rfl, rfl⟩, by simp [sel, hc]⟩
    · by_cases hc : b.2 + le ≤ b.1 + lo
      · exact ⟨te, false, le, Or.inl ⟨rfl, rfl, rfl⟩, by simp [sel, hc]⟩
      · exact ⟨to', true, lo, Or.inr ⟨rfl, rfl, rfl⟩, by simp [sel, hc]⟩

theorem wstep_best {w : Weak} {b : ℚ × ℚ} {t : Side} {p : Bool} {l : ℚ} (ho : Opt w t p l) :
    ∃ s b', wstep w b = some (s, b') ∧ ∀ f, sel (Bool.xor f p) b' ≤ sel f b + l := by
  cases w with
  | none => cases ho
  | even t' l' =>
    obtain ⟨rfl, rfl, rfl⟩ := ho
    exact ⟨_, _, rfl, fun f => by cases f <;> exact le_rfl⟩
  | odd t' l' =>
    obtain ⟨rfl, rfl, rfl⟩ := ho
    exact ⟨_, _, rfl, fun f => by cases f <;> exact le_rfl⟩
  | both te le to' lo =>
    refine ⟨_, _, rfl, fun f => ?_⟩
    rcases ho with ⟨rfl, rfl, rfl⟩ | ⟨rfl, rfl, rfl⟩ <;> cases f <;> simp only [sel, Bool.xor_false, Bool.xor_true, Bool.not_false, Bool.not_true, if_true, if_false, Bool.false_eq_true] <;> split <;> linarith

/-- The best slacks are those of a choice. -/
theorem forward_exact : ∀ (ws : List Weak) (b b' : ℚ × ℚ) (ss : List Step), forward ws b = some (ss, b') → ∀ f,
    ∃ ts p m, Choice ws ts p m ∧ sel f b' = sel (Bool.xor f p) b + m := by
  intro ws
  induction ws with
  | nil =>
    intro b b' ss h f
    simp only [forward, Option.some.injEq, Prod.mk.injEq] at h
    obtain ⟨_, rfl⟩ := h
    exact ⟨[], false, 0, Choice.nil, by simp⟩
  | cons w ws ih =>
    intro b b' ss h f
    rw [forward] at h
    rcases hs : wstep w b with _ | ⟨s, b1⟩
    · rw [hs] at h; cases h
    · rw [hs] at h
      dsimp only at h
      split at h
      · cases h
      · rcases hf : forward ws b1 with _ | ⟨ss1, b2⟩
        · rw [hf] at h; cases h
        · rw [hf] at h
          simp only [Option.some.injEq, Prod.mk.injEq] at h
          obtain ⟨_, rfl⟩ := h
          obtain ⟨ts, q, m, h1, h2⟩ := ih b1 b2 ss1 hf f
          obtain ⟨t, p, l, h3, h4⟩ := wstep_exact hs (Bool.xor f q)
          refine ⟨t :: ts, _, _, Choice.cons h3 h1, ?_⟩
          rw [h2, h4]
          have : Bool.xor (Bool.xor f q) p = Bool.xor f (Bool.xor p q) := by cases f <;> cases p <;> cases q <;> rfl
          rw [this]
          ring

theorem Choice.nonneg {ws : List Weak} {ts : List Side} {p : Bool} {m : ℚ} (h : Choice ws ts p m)
    (hw : ∀ w ∈ ws, ∀ t p l, Opt w t p l → 0 ≤ l) : 0 ≤ m := by
  induction h with
  | nil => exact le_rfl
  | @cons w t p l ws ts q m ho _ ih =>
    have h1 := hw w (List.mem_cons_self ..) t p l ho
    have h2 := ih (fun v hv => hw v (List.mem_cons_of_mem _ hv))
    linarith

/-- If some choice has a small enough slack, the first loop does not give up, and no choice is better than its result. -/
theorem forward_best {ws : List Weak} {ts : List Side} {p : Bool} {m : ℚ} (hc : Choice ws ts p m)
    (hw : ∀ w ∈ ws, ∀ t p l, Opt w t p l → 0 ≤ l) : ∀ (b : ℚ × ℚ) (f : Bool), sel f b + m ≤ maxSlack →
      ∃ ss b', forward ws b = some (ss, b') ∧ sel (Bool.xor f p) b' ≤ sel f b + m := by
  induction hc with
  | nil =>
    intro b f _
    exact ⟨[], b, rfl, by simp⟩
  | @cons w t p l ws ts q m ho hch ih =>
    intro b f hb
    obtain ⟨s, b1, h1, h2⟩ := wstep_best (b := b) ho
    have hw' := fun v hv => hw v (List.mem_cons_of_mem w hv)
    have hm := hch.nonneg hw'
    have h3 := h2 f
    obtain ⟨ss, b2, h4, h5⟩ := ih hw' b1 (Bool.xor f p) (by linarith)
    rw [forward, h1]
    dsimp only
    rw [if_neg, h4]
    · refine ⟨_, _, rfl, ?_⟩
      have : Bool.xor (Bool.xor f p) q = Bool.xor f (Bool.xor p q) := by cases f <;> cases p <;> cases q <;> rfl
      rw [← this]
      linarith
    · rintro ⟨g1, g2⟩
      have : maxSlack < sel (Bool.xor f p) b1 := by
        unfold sel
        split
        · exact g2
        · exact g1
      linarith

/-! ### The options of a column -/

theorem colDeleted_iff (I : Ilp) (x : Nat → ℚ) (j : Nat) : colDeleted I x j = true ↔ ¬ Away I x j := by
  unfold colDeleted Away gap boundOf bnd zeroTol
  rw [Bool.or_eq_true, decide_eq_true_iff, decide_eq_true_iff]
  dsimp only
  constructor
  · rintro (h | h) ⟨h1, h2⟩ <;> linarith
  · intro h
    by_contra hc
    push Not at hc
    exact h ⟨by linarith [hc.2], by linarith [hc.1]⟩

theorem oneWeak_opt {b : ℤ} {t s : Side} {l m : ℚ} {p : Bool} (h : Opt (oneWeak b t l) s p m) :
    s = t ∧ p = isOdd b ∧ m = l := by
  unfold oneWeak at h
  by_cases hb : isOdd b = true
  · rw [if_pos hb] at h; rw [hb]; exact h
  · rw [if_neg hb] at h; rw [Bool.not_eq_true] at hb; rw [hb]; exact h

theorem opt_oneWeak (b : ℤ) (t : Side) (l : ℚ) : Opt (oneWeak b t l) t (isOdd b) l := by
  unfold oneWeak
  by_cases hb : isOdd b = true
  · rw [if_pos hb, hb]; exact ⟨rfl, rfl, rfl⟩
  · rw [if_neg hb]; rw [Bool.not_eq_true] at hb; rw [hb]; exact ⟨rfl, rfl, rfl⟩

/-- What a column offers: a bound that may be used, its parity and what it adds. -/
theorem weakOf_opt {I : Ilp} {x : Nat → ℚ} {j : Nat} {t : Side} {p : Bool} {l : ℚ} (h : Opt (weakOf I x j) t p l) :
    Usable I x (j, t) ∧ p = isOdd (boundOf I j t) ∧ l = loss I x (j, t) := by
  unfold weakOf possWeak at h
  unfold Usable loss nearSide
  unfold zeroTol at h
  dsimp only
  have hg2 : gap I x j .upper = ((bnd I.bnds j).2 : ℚ) - x j := rfl
  have hAw : Away I x j ↔ (1 : ℚ) / 10 ^ 6 ≤ x j - ((bnd I.bnds j).1 : ℚ) ∧ (1 : ℚ) / 10 ^ 6 ≤ ((bnd I.bnds j).2 : ℚ) - x j := Iff.rfl
  rw [hg2]
  have hb1 : boundOf I j .lower = (bnd I.bnds j).1 := rfl
  have hb2 : boundOf I j .upper = (bnd I.bnds j).2 := rfl
  have hg1 : gap I x j .lower = x j - ((bnd I.bnds j).1 : ℚ) := rfl
  generalize (bnd I.bnds j).1 = lb at *
  generalize (bnd I.bnds j).2 = ub at *
  by_cases h1 : x j > (ub : ℚ) - 1 / 10 ^ 6
  · rw [if_pos h1] at h
    obtain ⟨rfl, rfl, rfl⟩ := oneWeak_opt h
    have hn : ¬ Away I x j := fun hh => by linarith [(hAw.mp hh).2]
    rw [if_neg hn, if_neg hn, if_pos (by linarith)]
    exact ⟨rfl, by rw [hb2], rfl⟩
  · rw [if_neg h1] at h
    by_cases h2 : x j < (lb : ℚ) + 1 / 10 ^ 6
    · rw [if_pos h2] at h
      obtain ⟨rfl, rfl, rfl⟩ := oneWeak_opt h
      have hn : ¬ Away I x j := fun hh => by linarith [(hAw.mp hh).1]
      rw [if_neg hn, if_neg hn, if_neg (by linarith)]
      exact ⟨rfl, by rw [hb1], rfl⟩
    · rw [if_neg h2] at h
      have hy : Away I x j := hAw.mpr ⟨by linarith, by linarith⟩
      rw [if_pos hy, if_pos hy]
      by_cases h3 : (ub : ℚ) - x j > 1 ∧ x j - lb > 1
      · rw [if_pos h3] at h; cases h
      · rw [if_neg h3] at h
        by_cases h4 : (ub : ℚ) - x j > 1
        · rw [if_pos h4] at h
          obtain ⟨rfl, rfl, rfl⟩ := oneWeak_opt h
          refine ⟨?_, by rw [hb1], hg1.symm⟩
          rw [hg1]
          by_contra hc
          exact h3 ⟨h4, by linarith⟩
        · rw [if_neg h4] at h
          by_cases h5 : x j - lb > 1
          · rw [if_pos h5] at h
            obtain ⟨rfl, rfl, rfl⟩ := oneWeak_opt h
            first | exact ⟨by rw [hg1]; linarith, by rw [hb1], hg1.symm⟩ | exact ⟨by rw [hg2]; linarith, by rw [hb2], hg2.symm⟩
          · rw [if_neg h5] at h
            by_cases h6 : isOdd ub = isOdd lb
            · rw [if_pos h6] at h
              split at h
              · obtain ⟨rfl, rfl, rfl⟩ := oneWeak_opt h
                first | exact ⟨by rw [hg1]; linarith, by rw [hb1], hg1.symm⟩ | exact ⟨by rw [hg2]; linarith, by rw [hb2], hg2.symm⟩
              · obtain ⟨rfl, rfl, rfl⟩ := oneWeak_opt h
                first | exact ⟨by rw [hg1]; linarith, by rw [hb1], hg1.symm⟩ | exact ⟨by rw [hg2]; linarith, by rw [hb2], hg2.symm⟩
            · rw [if_neg h6] at h
              by_cases h7 : isOdd ub = true
              · rw [if_pos h7] at h
                have h8 : isOdd lb = false := by
                  cases hl : isOdd lb
                  · rfl
                  · rw [h7, hl] at h6; exact absurd rfl h6
                rcases h with ⟨rfl, rfl, rfl⟩ | ⟨rfl, rfl, rfl⟩
                · first | exact ⟨by rw [hg1]; linarith, by rw [hb1, h8], hg1.symm⟩ | exact ⟨by rw [hg2]; linarith, by rw [hb2, h8], hg2.symm⟩
                · first | exact ⟨by rw [hg1]; linarith, by rw [hb1, h7], hg1.symm⟩ | exact ⟨by rw [hg2]; linarith, by rw [hb2, h7], hg2.symm⟩
              · rw [if_neg h7] at h
                rw [Bool.not_eq_true] at h7
                have h8 : isOdd lb = true := by
                  cases hl : isOdd lb
                  · rw [h7, hl] at h6; exact absurd rfl h6
                  · rfl
                rcases h with ⟨rfl, rfl, rfl⟩ | ⟨rfl, rfl, rfl⟩
                · first | exact ⟨by rw [hg1]; linarith, by rw [hb1, h7], hg1.symm⟩ | exact ⟨by rw [hg2]; linarith, by rw [hb2, h7], hg2.symm⟩
                · first | exact ⟨by rw [hg1]; linarith, by rw [hb1, h8], hg1.symm⟩ | exact ⟨by rw [hg2]; linarith, by rw [hb2, h8], hg2.symm⟩

/-- For every bound that may be used the column offers one of the same parity that adds no more. -/
theorem weakOf_has {I : Ilp} {x : Nat → ℚ} {j : Nat} {t : Side} (h : Usable I x (j, t)) :
    ∃ s l, Opt (weakOf I x j) s (isOdd (boundOf I j t)) l ∧ l ≤ loss I x (j, t) := by
  unfold weakOf possWeak
  unfold Usable nearSide at h
  unfold loss
  unfold zeroTol
  dsimp only at *
  have hg2 : gap I x j .upper = ((bnd I.bnds j).2 : ℚ) - x j := rfl
  have hAw : Away I x j ↔ (1 : ℚ) / 10 ^ 6 ≤ x j - ((bnd I.bnds j).1 : ℚ) ∧ (1 : ℚ) / 10 ^ 6 ≤ ((bnd I.bnds j).2 : ℚ) - x j := Iff.rfl
  rw [hg2] at h
  have hb1 : boundOf I j .lower = (bnd I.bnds j).1 := rfl
  have hb2 : boundOf I j .upper = (bnd I.bnds j).2 := rfl
  have hg1 : gap I x j .lower = x j - ((bnd I.bnds j).1 : ℚ) := rfl
  generalize (bnd I.bnds j).1 = lb at *
  generalize (bnd I.bnds j).2 = ub at *
  by_cases h1 : x j > (ub : ℚ) - 1 / 10 ^ 6
  · rw [if_pos h1]
    have hn : ¬ Away I x j := fun hh => by linarith [(hAw.mp hh).2]
    rw [if_neg hn, if_pos (by linarith)] at h
    subst h
    rw [if_neg hn]
    exact ⟨.upper, 0, by rw [hb2]; exact opt_oneWeak _ _ _, le_rfl⟩
  · rw [if_neg h1]
    by_cases h2 : x j < (lb : ℚ) + 1 / 10 ^ 6
    · rw [if_pos h2]
      have hn : ¬ Away I x j := fun hh => by linarith [(hAw.mp hh).1]
      rw [if_neg hn, if_neg (by linarith)] at h
      subst h
      rw [if_neg hn]
      exact ⟨.lower, 0, by rw [hb1]; exact opt_oneWeak _ _ _, le_rfl⟩
    · rw [if_neg h2]
      have hy : Away I x j := hAw.mpr ⟨by linarith, by linarith⟩
      rw [if_pos hy] at h
      rw [if_pos hy]
      by_cases h3 : (ub : ℚ) - x j > 1 ∧ x j - lb > 1
      · cases t
        · rw [hg1] at h; linarith [h3.2]
        · rw [hg2] at h; linarith [h3.1]
      · rw [if_neg h3]
        by_cases h4 : (ub : ℚ) - x j > 1
        · rw [if_pos h4]
          cases t
          · rw [hb1, hg1]; exact ⟨.lower, _, opt_oneWeak _ _ _, le_rfl⟩
          · rw [hg2] at h; linarith
        · rw [if_neg h4]
          by_cases h5 : x j - lb > 1
          · rw [if_pos h5]
            cases t
            · rw [hg1] at h; linarith
            · rw [hb2, hg2]; exact ⟨.upper, _, opt_oneWeak _ _ _, le_rfl⟩
          · rw [if_neg h5]
            by_cases h6 : isOdd ub = isOdd lb
            · rw [if_pos h6]
              by_cases h9 : x j - lb ≤ ub - x j
              · rw [if_pos h9]
                cases t
                · rw [hb1, hg1]; exact ⟨.lower, _, opt_oneWeak _ _ _, le_rfl⟩
                · refine ⟨.lower, x j - lb, ?_, by rw [hg2]; exact h9⟩
                  rw [hb2, h6]
                  exact opt_oneWeak _ _ _
              · rw [if_neg h9]
                cases t
                · refine ⟨.upper, ub - x j, ?_, by rw [hg1]; linarith⟩
                  rw [hb1, ← h6]
                  exact opt_oneWeak _ _ _
                · rw [hb2, hg2]; exact ⟨.upper, _, opt_oneWeak _ _ _, le_rfl⟩
            · rw [if_neg h6]
              by_cases h7 : isOdd ub = true
              · rw [if_pos h7]
                have h8 : isOdd lb = false := by
                  cases hl : isOdd lb
                  · rfl
                  · rw [h7, hl] at h6; exact absurd rfl h6
                cases t
                · rw [hb1, hg1, h8]; exact ⟨.lower, _, Or.inl ⟨rfl, rfl, rfl⟩, le_rfl⟩
                · rw [hb2, hg2, h7]; exact ⟨.upper, _, Or.inr ⟨rfl, rfl, rfl⟩, le_rfl⟩
              · rw [if_neg h7]
                rw [Bool.not_eq_true] at h7
                have h8 : isOdd lb = true := by
                  cases hl : isOdd lb
                  · rw [h7, hl] at h6; exact absurd rfl h6
                  · rfl
                cases t
                · rw [hb1, hg1, h8]; exact ⟨.lower, _, Or.inr ⟨rfl, rfl, rfl⟩, le_rfl⟩
                · rw [hb2, hg2, h7]; exact ⟨.upper, _, Or.inl ⟨rfl, rfl, rfl⟩, le_rfl⟩

theorem loss_nonneg (I : Ilp) (x : Nat → ℚ) (q : Nat × Side) : 0 ≤ loss I x q := by
  unfold loss
  split
  · next h =>
    have h1 : (0 : ℚ) ≤ 1 / 10 ^ 6 := by norm_num
    cases q.2
    · exact h1.trans h.1
    · exact h1.trans h.2
  · exact le_rfl

theorem lossSum_nonneg (I : Ilp) (x : Nat → ℚ) (T : List (Nat × Side)) : 0 ≤ lossSum I x T := by
  unfold lossSum
  induction T with
  | nil => exact le_rfl
  | cons q T ih =>
    rw [List.map_cons, List.sum_cons]
    exact add_nonneg (loss_nonneg I x q) ih

/-- A choice for columns is a list of usable bounds. -/
theorem choice_bounds {I : Ilp} {x : Nat → ℚ} : ∀ (cols : List Nat) (ts : List Side) (p : Bool) (m : ℚ),
    Choice (cols.map (weakOf I x)) ts p m → ∃ T : List (Nat × Side), T.map Prod.fst = cols ∧ (∀ q ∈ T, Usable I x q) ∧
      p = isOdd (boundSum I T) ∧ m = lossSum I x T := by
  intro cols
  induction cols with
  | nil =>
    intro ts p m h
    cases h
    exact ⟨[], rfl, fun q hq => (by cases hq), rfl, rfl⟩
  | cons c cols ih =>
    intro ts p m h
    cases h with
    | @cons _ t p l _ ts q m ho hc =>
      obtain ⟨T, h1, h2, h3, h4⟩ := ih ts q m hc
      obtain ⟨g1, g2, g3⟩ := weakOf_opt ho
      refine ⟨(c, t) :: T, by rw [List.map_cons, h1], ?_, ?_, ?_⟩
      · intro r hr
        rcases List.mem_cons.mp hr with rfl | hr
        · exact g1
        · exact h2 r hr
      · rw [g2, h3]
        unfold boundSum
        rw [List.map_cons, List.sum_cons, isOdd_add]
      · rw [g3, h4]
        unfold lossSum
        rw [List.map_cons, List.sum_cons]

/-! ### Rows -/

/-- The bounds used for the columns at bounds. -/
def nearBounds (I : Ilp) (x : Nat → ℚ) (r : IRow) : List (Nat × Side) :=
  ((oddEntries r).filter fun j => colDeleted I x j).map fun j => (j, nearSide I x j)

theorem near_opt {I : Ilp} {x : Nat → ℚ} {j : Nat} (h : colDeleted I x j = true) :
    onlyOdd (weakOf I x j) = isOdd (boundOf I j (nearSide I x j)) := by
  have hA := (colDeleted_iff I x j).mp h
  have hu : Usable I x (j, nearSide I x j) := by unfold Usable; rw [if_neg hA]
  obtain ⟨s, l, ho, _⟩ := weakOf_has hu
  cases hw : weakOf I x j with
  | none => rw [hw] at ho; cases ho
  | even t m => rw [hw] at ho; rw [ho.2.1]; rfl
  | odd t m => rw [hw] at ho; rw [ho.2.1]; rfl
  | both te le to' lo =>
    have h1 : Opt (weakOf I x j) te false le := by rw [hw]; exact Or.inl ⟨rfl, rfl, rfl⟩
    have h2 : Opt (weakOf I x j) to' true lo := by rw [hw]; exact Or.inr ⟨rfl, rfl, rfl⟩
    obtain ⟨a1, a2, _⟩ := weakOf_opt h1
    obtain ⟨b1, b2, _⟩ := weakOf_opt h2
    unfold Usable at a1 b1
    rw [if_neg hA] at a1 b1
    dsimp only at a1 b1
    rw [a1] at a2
    rw [b1] at b2
    rw [← a2] at b2
    cases b2

theorem parity_fold (I : Ilp) (x : Nat → ℚ) : ∀ (l : List Nat) (z : ℤ),
    l.foldl (fun b j => if colDeleted I x j && onlyOdd (weakOf I x j) then !b else b) (isOdd z) =
      isOdd (z + boundSum I ((l.filter fun j => colDeleted I x j).map fun j => (j, nearSide I x j))) := by
  intro l
  induction l with
  | nil => intro z; simp [boundSum]
  | cons j l ih =>
    intro z
    rw [List.foldl_cons]
    by_cases hd : colDeleted I x j = true
    · rw [List.filter_cons, if_pos hd, List.map_cons]
      have hb : (if (colDeleted I x j && onlyOdd (weakOf I x j)) = true then !isOdd z else isOdd z) =
          isOdd (z + boundOf I j (nearSide I x j)) := by
        rw [hd, near_opt hd, isOdd_add]
        cases isOdd z <;> cases isOdd (boundOf I j (nearSide I x j)) <;> rfl
      rw [hb, ih]
      unfold boundSum
      rw [List.map_cons, List.sum_cons, add_assoc]
    · rw [List.filter_cons, if_neg hd]
      rw [Bool.not_eq_true] at hd
      rw [hd]
      exact ih z

theorem parityOf_eq (I : Ilp) (x : Nat → ℚ) (r : IRow) :
    parityOf I x r = isOdd (r.rhs.tdiv (rowGcd r) + boundSum I (nearBounds I x r)) := parity_fold I x _ _

theorem nearBounds_usable {I : Ilp} {x : Nat → ℚ} {r : IRow} : ∀ q ∈ nearBounds I x r, Usable I x q := by
  intro q hq
  obtain ⟨j, hj, rfl⟩ := List.mem_map.mp hq
  unfold Usable
  rw [if_neg ((colDeleted_iff I x j).mp (List.mem_filter.mp hj).2)]

theorem nearBounds_loss (I : Ilp) (x : Nat → ℚ) (r : IRow) : lossSum I x (nearBounds I x r) = 0 := by
  unfold lossSum
  apply List.sum_eq_zero
  intro y hy
  obtain ⟨q, hq, rfl⟩ := List.mem_map.mp hy
  obtain ⟨j, hj, rfl⟩ := List.mem_map.mp hq
  unfold loss
  rw [if_neg ((colDeleted_iff I x j).mp (List.mem_filter.mp hj).2)]

theorem nearBounds_cols (I : Ilp) (x : Nat → ℚ) (r : IRow) :
    (oddEntries r).Perm ((parRow I x r).cols ++ (nearBounds I x r).map Prod.fst) := by
  unfold parRow nearBounds
  dsimp only
  rw [List.map_map]
  have : ((Prod.fst : Nat × Side → Nat) ∘ fun j => (j, nearSide I x j)) = id := rfl
  rw [this, List.map_id]
  refine (List.Perm.trans ?_ List.perm_append_comm)
  exact (List.filter_append_perm (fun j => colDeleted I x j) (oddEntries r)).symm

theorem boundSum_append (I : Ilp) (A B : List (Nat × Side)) : boundSum I (A ++ B) = boundSum I A + boundSum I B := by
  unfold boundSum
  rw [List.map_append, List.sum_append]

theorem lossSum_append (I : Ilp) (x : Nat → ℚ) (A B : List (Nat × Side)) :
    lossSum I x (A ++ B) = lossSum I x A + lossSum I x B := by
  unfold lossSum
  rw [List.map_append, List.sum_append]

/-! ### Nodes -/

theorem nodes_nodup (I : Ilp) (x : Nat → ℚ) : (nodesOf I x).Nodup := by
  unfold nodesOf
  refine List.Nodup.append (List.nodup_range.filter _) (List.nodup_singleton _) ?_
  intro a ha hb
  have := List.mem_range.mp (List.mem_filter.mp ha).1
  rw [List.mem_singleton.mp hb] at this
  omega

theorem mem_nodes {I : Ilp} {x : Nat → ℚ} {j : Nat} :
    j ∈ nodesOf I x ↔ j < I.bnds.length ∧ colDeleted I x j = false ∨ j = I.bnds.length := by
  unfold nodesOf
  rw [List.mem_append, List.mem_filter, List.mem_range, List.mem_singleton]
  simp

theorem indOf_get {I : Ilp} {x : Nat → ℚ} {j : Nat} (h : j ∈ nodesOf I x) :
    (nodesOf I x)[indOf (nodesOf I x) j]? = some j := by
  unfold indOf
  rw [if_pos h, List.getElem?_eq_getElem (List.idxOf_lt_length_of_mem h), List.getElem_idxOf]

theorem indOf_inj {I : Ilp} {x : Nat → ℚ} {j k : Nat} (hj : j ∈ nodesOf I x) (hk : k ∈ nodesOf I x) (h : j ≠ k) :
    indOf (nodesOf I x) j ≠ indOf (nodesOf I x) k := by
  intro e
  have h1 := indOf_get hj
  rw [e, indOf_get hk] at h1
  exact h (Option.some.inj h1).symm

/-! ### All offers -/

/-- A row of the parity problem that stands for row `r`. -/
def Stands (I : Ilp) (x : Nat → ℚ) (p : ParRow) (r : IRow) : Prop :=
  p.cols = (parRow I x r).cols ∧ p.odd = (parRow I x r).odd ∧ p.slack = (parRow I x r).slack

theorem dedup_stands {I : Ilp} {x : Nat → ℚ} {rows : List ParRow} {rs : List IRow} (q : Nat × Nat)
    (h : List.Forall₂ (Stands I x) rows rs) : List.Forall₂ (Stands I x) (dedupStep rows q) rs := by
  have hset : ∀ (i : Nat) (p : ParRow), rows[i]? = some p → List.Forall₂ (Stands I x) (rows.set i { p with deleted := true }) rs := by
    intro i p hp
    rw [List.forall₂_iff_get] at h ⊢
    obtain ⟨h1, h2⟩ := h
    refine ⟨by rw [List.length_set]; exact h1, fun k hk hk' => ?_⟩
    rw [List.length_set] at hk
    have h3 := h2 k hk hk'
    simp only [List.get_eq_getElem, List.getElem_set] at h3 ⊢
    split
    · next hik =>
      subst hik
      rw [List.getElem?_eq_getElem hk] at hp
      obtain rfl := Option.some.inj hp
      exact h3
    · exact h3
  unfold dedupStep
  split
  · next a b ha hb =>
    split
    · split
      · exact hset _ _ hb
      · exact hset _ _ ha
    · exact h
  · exact h

theorem parityRows_stands (I : Ilp) (x : Nat → ℚ) : List.Forall₂ (Stands I x) (parityRows I x) I.rows := by
  have key : ∀ (l : List (Nat × Nat)) (rows : List ParRow), List.Forall₂ (Stands I x) rows I.rows →
      List.Forall₂ (Stands I x) (l.foldl dedupStep rows) I.rows := by
    intro l
    induction l with
    | nil => intro rows h; exact h
    | cons q l ih => intro rows h; exact ih _ (dedup_stands q h)
  refine key _ _ ?_
  rw [List.forall₂_map_left_iff]
  exact List.forall₂_same.mpr fun r _ => ⟨rfl, rfl, rfl⟩

theorem parRow_nodes {I : Ilp} {x : Nat → ℚ} {r : IRow} (hr : ∀ p ∈ r.coefs, p.1 < I.bnds.length) :
    ∀ j ∈ (parRow I x r).cols, j ∈ nodesOf I x ∧ j < I.bnds.length := by
  intro j hj
  obtain ⟨h1, h2⟩ := List.mem_filter.mp hj
  obtain ⟨p, hp, rfl⟩ := List.mem_map.mp h1
  have := hr p (List.mem_filter.mp hp).1
  exact ⟨mem_nodes.mpr (Or.inl ⟨this, by simpa using h2⟩), this⟩

theorem edgeIf_row {I : Ilp} {x : Nat → ℚ} {i : Nat} {r : IRow} (hr : I.rows[i]? = some r) {j k : Nat} {w : ℚ} {odd : Bool}
    {T : List (Nat × Side)} (hj : j ∈ nodesOf I x) (hk : k ∈ nodesOf I x) (hjk : j ≠ k)
    (hp : (oddEntries r).Perm ([j, k].filter (fun j => decide (j < I.bnds.length)) ++ T.map Prod.fst))
    (hu : ∀ q ∈ T, Usable I x q) (hw : w = rowSlack x r + lossSum I x T)
    (ho : odd = isOdd (r.rhs.tdiv (rowGcd r) + boundSum I T)) :
    ∀ e ∈ edgeIf (nodesOf I x) j k w odd (some i), EdgeOK I x e := by
  intro e he
  unfold edgeIf at he
  by_cases hl : w < maxSlack
  · rw [if_pos hl] at he
    obtain rfl := List.mem_singleton.mp he
    refine ⟨Or.inl ⟨i, r, j, k, T, rfl, hr, indOf_get hj, indOf_get hk, hp, hu, hw, ho⟩, indOf_inj hj hk hjk, ?_⟩
    unfold maxSlack epsTol at hl
    exact hl
  · rw [if_neg hl] at he; cases he

theorem mem_allPairs {n : Nat} {p : Nat × Nat} (h : p ∈ allPairs n) : p.1 < p.2 ∧ p.2 < n := by
  unfold allPairs at h
  obtain ⟨i, hi, h2⟩ := List.mem_flatMap.mp h
  obtain ⟨k, hk, rfl⟩ := List.mem_map.mp h2
  obtain ⟨h3, h4⟩ := List.mem_filter.mp hk
  exact ⟨by simpa using h4, List.mem_range.mp h3⟩

theorem others_perm {cols : List Nat} {a b : Nat} (hab : a < b) (hb : b < cols.length) :
    cols.Perm (cols.getD a 0 :: cols.getD b 0 :: others cols a b) := by
  unfold others
  have hl : (cols.eraseIdx b).length = cols.length - 1 := List.length_eraseIdx_of_lt hb
  have ha : a < (cols.eraseIdx b).length := by omega
  have h1 := List.getElem_cons_eraseIdx_perm hb
  have h2 := List.getElem_cons_eraseIdx_perm ha
  have e1 : (cols.eraseIdx b)[a] = cols[a] := List.getElem_eraseIdx_of_lt ha hab
  rw [e1] at h2
  have g1 : cols.getD a 0 = cols[a] := by rw [List.getD_eq_getElem?_getD, List.getElem?_eq_getElem]; rfl
  have g2 : cols.getD b 0 = cols[b] := by rw [List.getD_eq_getElem?_getD, List.getElem?_eq_getElem hb]; rfl
  rw [g1, g2]
  refine h1.symm.trans ?_
  refine ((List.Perm.cons _ h2).symm).trans ?_
  exact List.Perm.swap ..

theorem rowEdges_ok {I : Ilp} {x : Nat → ℚ} {i : Nat} {r : IRow} {p : ParRow} (hr : I.rows[i]? = some r)
    (hc : ∀ q ∈ r.coefs, q.1 < I.bnds.length) (hn : (r.coefs.map Prod.fst).Nodup) (hs : Stands I x p r) :
    ∀ e ∈ rowEdges I x (nodesOf I x) i p, EdgeOK I x e := by
  obtain ⟨s1, s2, s3⟩ := hs
  have hnode := parRow_nodes (x := x) hc
  have hperm := nearBounds_cols I x r
  rw [← s1] at hnode hperm
  have hnd : p.cols.Nodup := by
    rw [s1]
    exact (List.Nodup.sublist (List.Sublist.map _ List.filter_sublist) hn).filter _
  have hspecial : I.bnds.length ∈ nodesOf I x := mem_nodes.mpr (Or.inr rfl)
  have hodd : p.odd = isOdd (r.rhs.tdiv (rowGcd r) + boundSum I (nearBounds I x r)) := by
    rw [s2]; exact parityOf_eq I x r
  have hslack : p.slack = rowSlack x r := s3
  unfold rowEdges
  split
  · next j hj =>
    rw [hj] at hnode hperm
    obtain ⟨h1, h2⟩ := hnode j (List.mem_singleton_self _)
    refine edgeIf_row hr h1 hspecial (by omega) (T := nearBounds I x r) ?_ nearBounds_usable ?_ hodd
    · rw [List.filter_cons, if_pos (by simpa using h2), List.filter_cons, if_neg (by simp)]
      exact hperm
    · rw [nearBounds_loss, add_zero, hslack]
  · next j k hjk =>
    rw [hjk] at hnode hperm hnd
    obtain ⟨h1, h2⟩ := hnode j (by simp)
    obtain ⟨h3, h4⟩ := hnode k (by simp)
    have hne : j ≠ k := by
      rintro rfl
      simp at hnd
    refine edgeIf_row hr h1 h3 hne (T := nearBounds I x r) ?_ nearBounds_usable ?_ hodd
    · rw [List.filter_cons, if_pos (by simpa using h2), List.filter_cons, if_pos (by simpa using h4)]
      exact hperm
    · rw [nearBounds_loss, add_zero, hslack]
  · intro e he
    obtain ⟨q, hq, he⟩ := List.mem_flatMap.mp he
    obtain ⟨hab, hb⟩ := mem_allPairs hq
    have hop := others_perm hab hb
    have hmj : p.cols.getD q.1 0 ∈ p.cols := hop.mem_iff.mpr (by simp)
    have hmk : p.cols.getD q.2 0 ∈ p.cols := hop.mem_iff.mpr (by simp)
    have hne : p.cols.getD q.1 0 ≠ p.cols.getD q.2 0 := by
      have := hop.nodup_iff.mp hnd
      intro e
      rw [e] at this
      simp at this
    obtain ⟨h1, h2⟩ := hnode _ hmj
    obtain ⟨h3, h4⟩ := hnode _ hmk
    unfold pairEdges at he
    rcases hf : forward ((others p.cols q.1 q.2).map (weakOf I x)) (startSlacks p.odd p.slack) with _ | ⟨ss, b⟩
    · rw [hf] at he; cases he
    · rw [hf] at he
      dsimp only at he
      have key : ∀ f, ∀ e ∈ edgeIf (nodesOf I x) (p.cols.getD q.1 0) (p.cols.getD q.2 0) (sel f b) f (some i), EdgeOK I x e := by
        intro f e he
        obtain ⟨ts, pp, m, hch, hval⟩ := forward_exact _ _ _ _ hf f
        obtain ⟨T, t1, t2, t3, t4⟩ := choice_bounds _ _ _ _ hch
        by_cases hstart : Bool.xor f pp = p.odd
        · refine edgeIf_row hr h1 h3 hne (T := nearBounds I x r ++ T) ?_ ?_ ?_ ?_ e he
          · rw [List.filter_cons, if_pos (by simpa using h2), List.filter_cons, if_pos (by simpa using h4), List.map_append, t1]
            refine hperm.trans ?_
            refine (List.Perm.append_right _ hop).trans ?_
            simp only [List.cons_append, List.filter_nil, List.nil_append]
            exact List.Perm.cons _ (List.Perm.cons _ List.perm_append_comm)
          · intro r' hr'
            rcases List.mem_append.mp hr' with h | h
            · exact nearBounds_usable r' h
            · exact t2 r' h
          · rw [hval, hstart, lossSum_append, nearBounds_loss, zero_add, ← t4, ← hslack]
            unfold startSlacks sel
            cases p.odd <;> rfl
          · rw [boundSum_append, ← add_assoc, isOdd_add, ← hodd, ← t3, ← hstart]
            cases f <;> cases pp <;> rfl
        · exfalso
          have hbig : sel (Bool.xor f pp) (startSlacks p.odd p.slack) = bigInf := by
            unfold startSlacks sel
            cases hh : p.odd <;> cases hg : Bool.xor f pp <;> rw [hh, hg] at hstart <;> simp at hstart ⊢
          have hm := lossSum_nonneg I x T
          rw [← t4] at hm
          unfold edgeIf at he
          rw [if_neg] at he
          · cases he
          · rw [hval, hbig]
            unfold bigInf maxSlack epsTol
            intro hlt
            norm_num at hlt
            linarith
      rcases List.mem_append.mp he with he | he
      · exact key false e he
      · exact key true e he

theorem rowsOffers_ok {lim : Limits} {I : Ilp} {x : Nat → ℚ} : ∀ (ps : List (ParRow × IRow)) (i : Nat) (es : List Edge),
    (∀ k q, ps[k]? = some q → I.rows[i + k]? = some q.2 ∧ Stands I x q.1 q.2) → Ilp.Tidy I →
      rowsOffers lim I x (nodesOf I x) i ps = .ok es → ∀ e ∈ es, EdgeOK I x e := by
  intro ps
  induction ps with
  | nil =>
    intro i es _ _ h
    cases h
    intro e he; cases he
  | cons q ps ih =>
    intro i es hq ht h
    rw [rowsOffers] at h
    obtain ⟨h1, h2⟩ := hq 0 q rfl
    rw [Nat.add_zero] at h1
    obtain ⟨t1, t2⟩ := ht q.2 (List.mem_of_getElem? h1)
    rcases ho : rowOffers lim I x (nodesOf I x) i q.1 q.2 with f | es1
    · rw [ho] at h; cases h
    · rw [ho] at h
      dsimp only at h
      rcases hr : rowsOffers lim I x (nodesOf I x) (i + 1) ps with f | es2
      · rw [hr] at h; cases h
      · rw [hr] at h
        cases h
        have g2 := ih (i + 1) es2 (fun k q' hk => by
          have := hq (k + 1) q' hk
          rw [show i + 1 + k = i + (k + 1) by omega]
          exact this) ht hr
        have g1 : ∀ e ∈ es1, EdgeOK I x e := by
          unfold rowOffers at ho
          split at ho
          · cases ho; intro e he; cases he
          · split at ho
            · cases ho
            · split at ho
              · cases ho; intro e he; cases he
              · split at ho
                · cases ho; intro e he; cases he
                · cases ho
                  exact rowEdges_ok h1 t2 t1 h2
        intro e he
        rcases List.mem_append.mp he with he | he
        · exact g1 e he
        · exact g2 e he

theorem boundEdges_ok {I : Ilp} {x : Nat → ℚ} {j : Nat} (hj : j < I.bnds.length) :
    ∀ e ∈ boundEdges I x (nodesOf I x) j, EdgeOK I x e := by
  intro e he
  unfold boundEdges at he
  by_cases hd : colDeleted I x j = true
  · rw [if_pos hd] at he; cases he
  · rw [if_neg hd] at he
    have hA : Away I x j := by
      by_contra hc
      exact hd ((colDeleted_iff I x j).mpr hc)
    have h1 : j ∈ nodesOf I x := mem_nodes.mpr (Or.inl ⟨hj, by simpa using hd⟩)
    have h2 : I.bnds.length ∈ nodesOf I x := mem_nodes.mpr (Or.inr rfl)
    have key : ∀ t, ∀ e ∈ edgeIf (nodesOf I x) j I.bnds.length (gap I x j t) (isOdd (boundOf I j t)) none, EdgeOK I x e := by
      intro t e he
      unfold edgeIf at he
      by_cases hl : gap I x j t < maxSlack
      · rw [if_pos hl] at he
        obtain rfl := List.mem_singleton.mp he
        refine ⟨Or.inr ⟨j, t, rfl, hj, hA, Or.inl ⟨indOf_get h1, indOf_get h2⟩, rfl, rfl⟩, indOf_inj h1 h2 (by omega), ?_⟩
        unfold maxSlack epsTol at hl
        exact hl
      · rw [if_neg hl] at he; cases he
    rcases List.mem_append.mp he with he | he
    · exact key .lower e he
    · exact key .upper e he

/-- **Every edge offered comes from a row or a bound.** -/
theorem offers_ok {lim : Limits} {I : Ilp} {x : Nat → ℚ} {es : List Edge} (hI : Ilp.Tidy I) (h : offers lim I x = .ok es) :
    ∀ e ∈ es, EdgeOK I x e := by
  unfold offers at h
  rcases hr : rowsOffers lim I x (nodesOf I x) 0 ((parityRows I x).zip I.rows) with f | es1
  · rw [hr] at h; cases h
  · rw [hr] at h
    cases h
    have g1 := rowsOffers_ok _ 0 es1 (fun k q hk => by
      have hs := parityRows_stands I x
      rw [List.getElem?_zip_eq_some] at hk
      obtain ⟨h1, h2⟩ := hk
      rw [Nat.zero_add]
      refine ⟨h2, ?_⟩
      rw [List.forall₂_iff_get] at hs
      obtain ⟨hk1, e1⟩ := List.getElem?_eq_some_iff.mp h1
      obtain ⟨hk2, e2⟩ := List.getElem?_eq_some_iff.mp h2
      have := hs.2 k hk1 hk2
      simp only [List.get_eq_getElem] at this
      rw [e1, e2] at this
      exact this) hI hr
    intro e he
    rcases List.mem_append.mp he with he | he
    · exact g1 e he
    · obtain ⟨j, hj, he⟩ := List.mem_flatMap.mp he
      exact boundEdges_ok (List.mem_range.mp hj) e he

end Cgl.ZHSearch
