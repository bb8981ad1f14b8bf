import Verif.Relax.Model
import Mathlib.Tactic.Linarith

/-! # What the relaxation does to bounds and feasible points -/

namespace Cgl.Relax

theorem fold_fields (O : Prob) (tol : ℚ) : ∀ (l : List Nat) (P : Prob), (l.foldl (step O tol) P).nCols = P.nCols ∧
    (l.foldl (step O tol) P).inf = P.inf ∧ (l.foldl (step O tol) P).isInt = P.isInt ∧ (l.foldl (step O tol) P).rows = P.rows := by
  intro l
  induction l with
  | nil => intro P; exact ⟨rfl, rfl, rfl, rfl⟩
  | cons i l ih =>
    intro P
    obtain ⟨a, b, c, d⟩ := ih (step O tol P i)
    rw [List.foldl_cons, a, b, c, d]
    unfold step
    split <;> exact ⟨rfl, rfl, rfl, rfl⟩

/-- The bounds of column `k` after a list without repetitions. -/
theorem fold_bounds (O : Prob) (tol : ℚ) : ∀ (l : List Nat) (P : Prob) (k : Nat), l.Nodup →
    ((l.foldl (step O tol) P).colLower k, (l.foldl (step O tol) P).colUpper k) =
      if k ∈ l ∧ P.isInt k = false ∧ P.colUpper k - P.colLower k < tol then
        (max (O.colLower k) (P.colLower k - tol), min (O.colUpper k) (P.colUpper k + tol))
      else (P.colLower k, P.colUpper k) := by
  intro l
  induction l with
  | nil => intro P k _; simp
  | cons i l ih =>
    intro P k hn
    rw [List.nodup_cons] at hn
    rw [List.foldl_cons, ih _ k hn.2]
    unfold step
    by_cases hc : P.isInt i = false ∧ P.colUpper i - P.colLower i < tol
    · rw [if_pos hc]
      by_cases hk : k = i
      · subst hk; simp [hn.1, hc]
      · simp [hk]
    · rw [if_neg hc]
      by_cases hk : k = i
      · subst hk; simp only [hn.1, false_and, if_false, List.mem_cons, true_or, true_and, if_neg hc]
      · simp [hk]

/-- **C146.** Exactly the bounds of continuous columns that are fixed up to the tolerance change; each becomes wider by the tolerance,
but not wider than that of the user. -/
theorem relax_bounds (O P : Prob) (tol : ℚ) (hn : O.nCols = P.nCols) (k : Nat) (hk : k < P.nCols) :
    ((P.isInt k = false ∧ P.colUpper k - P.colLower k < tol) →
      (relax O tol P).colLower k = max (O.colLower k) (P.colLower k - tol) ∧
      (relax O tol P).colUpper k = min (O.colUpper k) (P.colUpper k + tol)) ∧
    (¬ (P.isInt k = false ∧ P.colUpper k - P.colLower k < tol) →
      (relax O tol P).colLower k = P.colLower k ∧ (relax O tol P).colUpper k = P.colUpper k) := by
  have h := fold_bounds O tol (List.range O.nCols) P k List.nodup_range
  unfold relax
  rw [if_pos hn]
  have hm : k ∈ List.range O.nCols := List.mem_range.mpr (by omega)
  constructor
  · intro hc
    rw [if_pos ⟨hm, hc⟩] at h
    exact Prod.mk.inj h
  · intro hc
    rw [if_neg (fun a => hc a.2)] at h
    exact Prod.mk.inj h

/-- **C146.** If the bounds were not outside those of the user, no feasible point is lost, and no point outside the bounds of the user
becomes feasible. -/
theorem relax_points (O P : Prob) (tol : ℚ) (htol : 0 ≤ tol) (hinf : O.inf = P.inf) (x : Nat → ℚ)
    (hin : ∀ k < P.nCols, O.colLower k ≤ P.colLower k ∧ P.colUpper k ≤ O.colUpper k) :
    (P.Feasible x → (relax O tol P).Feasible x) ∧
    ((relax O tol P).Feasible x → (∀ r ∈ P.rows, r.Sat P.inf x) ∧ ∀ k < P.nCols,
      (-O.inf < O.colLower k → O.colLower k ≤ x k) ∧ (O.colUpper k < O.inf → x k ≤ O.colUpper k) ∧
      (P.isInt k = true → IsInteger (x k))) := by
  by_cases hn : O.nCols = P.nCols
  · have hb := relax_bounds O P tol hn
    have hf := fold_fields O tol (List.range O.nCols) P
    have e : relax O tol P = (List.range O.nCols).foldl (step O tol) P := by unfold relax; rw [if_pos hn]
    rw [← e] at hf
    obtain ⟨h1, h2, h3, h4⟩ := hf
    have wide : ∀ k < P.nCols, (relax O tol P).colLower k ≤ P.colLower k ∧ P.colUpper k ≤ (relax O tol P).colUpper k ∧
        O.colLower k ≤ (relax O tol P).colLower k ∧ (relax O tol P).colUpper k ≤ O.colUpper k := by
      intro k hk
      obtain ⟨a, b⟩ := hin k hk
      by_cases hc : P.isInt k = false ∧ P.colUpper k - P.colLower k < tol
      · obtain ⟨u, v⟩ := (hb k hk).1 hc
        rw [u, v]
        exact ⟨max_le a (by linarith), le_min b (by linarith), le_max_left _ _, min_le_left _ _⟩
      · obtain ⟨u, v⟩ := (hb k hk).2 hc
        rw [u, v]
        exact ⟨le_refl _, le_refl _, a, b⟩
    constructor
    · intro h
      refine ⟨?_, ?_, ?_, ?_⟩
      · rw [h4, h2]; exact h.rows
      · intro k hk hl
        rw [h1] at hk; rw [h2] at hl
        have := wide k hk
        exact le_trans this.1 (h.lower k hk (lt_of_lt_of_le hl this.1))
      · intro k hk hl
        rw [h1] at hk; rw [h2] at hl
        have := wide k hk
        exact le_trans (h.upper k hk (lt_of_le_of_lt this.2.1 hl)) this.2.1
      · intro k hk hi
        rw [h1] at hk; rw [h3] at hi
        exact h.int k hk hi
    · intro h
      refine ⟨by rw [← h4, ← h2]; exact h.rows, fun k hk => ⟨fun hl => ?_, fun hu => ?_, fun hi => ?_⟩⟩
      · have := wide k hk
        exact le_trans this.2.2.1 (h.lower k (by rw [h1]; exact hk) (by rw [h2, ← hinf]; linarith [this.2.2.1]))
      · have := wide k hk
        exact le_trans (h.upper k (by rw [h1]; exact hk) (by rw [h2, ← hinf]; linarith [this.2.2.2])) this.2.2.2
      · exact h.int k (by rw [h1]; exact hk) (by rw [h3]; exact hi)
  · have e : relax O tol P = P := by unfold relax; rw [if_neg hn]
    rw [e]
    refine ⟨id, fun h => ⟨h.rows, fun k hk => ⟨fun hl => ?_, fun hu => ?_, h.int k hk⟩⟩⟩
    · have := hin k hk
      exact le_trans this.1 (h.lower k hk (by rw [← hinf]; linarith [this.1]))
    · have := hin k hk
      exact le_trans (h.upper k hk (by rw [← hinf]; linarith [this.2])) this.2

end Cgl.Relax
