import Verif.MadeCont.Spec
import Verif.DomCols.Move

/-! # The feasible points after integer columns became continuous -/

namespace Cgl.MadeCont

theorem dot_integer {v : SVec} {y : Nat → ℚ} (h : ∀ p ∈ v, IsInteger p.2 ∧ IsInteger (y p.1)) : IsInteger (v.dot y) := by
  induction v with
  | nil => exact ⟨0, by simp⟩
  | cons p v ih =>
    obtain ⟨⟨a, ha⟩, ⟨b, hb⟩⟩ := h p List.mem_cons_self
    obtain ⟨c, hc⟩ := ih fun q hq => h q (List.mem_cons_of_mem _ hq)
    exact ⟨a * b + c, by rw [SVec.dot_cons, ha, hb, hc]; push_cast; ring⟩

/-- The two outcomes of a step. -/
theorem step_cases (cost : Nat → ℚ) (s : Prob × Nat) (j : Nat) :
    step cost s j = s ∨ (step cost s j = ({ s.1 with isInt := fun k => !decide (k = j) && s.1.isInt k }, s.2 + 1) ∧
      s.1.isInt j = true ∧ cost j = 0 ∧ colLength s.1 j = 1 ∧
      ∃ r ∈ s.1.rows, r.lb = r.ub ∧ |(r.coefs.lookup j).getD 0| = 1 ∧ ∀ p ∈ r.coefs, s.1.isInt p.1 = true) := by
  unfold step
  split
  · rename_i h
    split
    · exact Or.inl rfl
    · rename_i r hr
      split
      · rename_i hs
        right
        refine ⟨rfl, h.2.2, h.2.1, h.1, r, List.mem_of_find?_eq_some hr, ?_⟩
        unfold suits at hs
        simp only [Bool.and_eq_true, decide_eq_true_eq, List.all_eq_true] at hs
        exact ⟨hs.1.1.1, hs.1.1.2, hs.2⟩
      · exact Or.inl rfl
  · exact Or.inl rfl

theorem step_back (cost : Nat → ℚ) (s : Prob × Nat) (j : Nat) (hwf : s.1.WF) (hw : Whole s.1) (y : Nat → ℚ)
    (hy : (step cost s j).1.Feasible y) : s.1.Feasible y := by
  rcases step_cases cost s j with h | ⟨h, hint, -, -, r, hr, heq, hab, hall⟩
  · rwa [h] at hy
  · rw [h] at hy
    dsimp only at hy
    refine ⟨hy.rows, hy.lower, hy.upper, ?_⟩
    intro k hk hki
    by_cases hkj : k = j
    · subst hkj
      obtain ⟨⟨b, hb⟩, hl, hu, hco⟩ := hw r hr heq hall
      have h1 := (hy.rows r hr).1 hl
      have h2 := (hy.rows r hr).2 hu
      have hdot : r.coefs.dot y = b := by rw [heq] at h1; rw [← hb]; exact le_antisymm h2 h1
      have hup := DomCols.dot_update (v := r.coefs) y k 0 (hwf.nodup r hr)
      obtain ⟨c, hc⟩ : IsInteger (r.coefs.dot (Function.update y k 0)) := by
        refine dot_integer fun p hp => ⟨hco p hp, ?_⟩
        by_cases hpk : p.1 = k
        · rw [hpk, Function.update_self]; exact ⟨0, by simp⟩
        · rw [Function.update_of_ne hpk]
          exact hy.int p.1 (hwf.cols r hr p hp) (by simp [hpk, hall p hp])
      rw [hdot, hc] at hup
      rcases eq_or_eq_neg_of_abs_eq hab with ha | ha
      · rw [ha] at hup; exact ⟨b - c, by push_cast; linarith⟩
      · rw [ha] at hup; exact ⟨c - b, by push_cast; linarith⟩
    · exact hy.int k hk (by simp [hkj, hki])

theorem step_on (cost : Nat → ℚ) (s : Prob × Nat) (j : Nat) (y : Nat → ℚ) (hy : s.1.Feasible y) :
    (step cost s j).1.Feasible y := by
  rcases step_cases cost s j with h | ⟨h, -⟩
  · rwa [h]
  · rw [h]
    refine ⟨hy.rows, hy.lower, hy.upper, ?_⟩
    intro k hk hki
    dsimp only at hki
    rw [Bool.and_eq_true] at hki
    exact hy.int k hk hki.2

theorem step_whole (cost : Nat → ℚ) (s : Prob × Nat) (j : Nat) (hwf : s.1.WF) (hw : Whole s.1) :
    (step cost s j).1.WF ∧ Whole (step cost s j).1 := by
  rcases step_cases cost s j with h | ⟨h, -⟩
  · rw [h]; exact ⟨hwf, hw⟩
  · rw [h]
    refine ⟨⟨hwf.cols, hwf.nodup⟩, ?_⟩
    intro r hr heq hall
    refine hw r hr heq fun p hp => ?_
    have := hall p hp
    dsimp only at this
    rw [Bool.and_eq_true] at this
    exact this.2

/-- **C142.** No feasible point is lost. -/
theorem cont_keeps (cost : Nat → ℚ) (P : Prob) (y : Nat → ℚ) (hy : P.Feasible y) : (madeCont cost P).1.Feasible y := by
  have key : ∀ (l : List Nat) (s : Prob × Nat), s.1.Feasible y → (l.foldl (step cost) s).1.Feasible y := by
    intro l
    induction l with
    | nil => intro s h; exact h
    | cons j l ih => intro s h; exact ih _ (step_on cost s j y h)
  exact key _ _ hy

/-- **C142.** No feasible point is added, if equations in integer columns have integer coefficients and right hand sides.  (Missing:
other problems, `not_whole`.) -/
theorem cont_partial (cost : Nat → ℚ) (P : Prob) (hwf : P.WF) (hw : Whole P) (y : Nat → ℚ) (hy : (madeCont cost P).1.Feasible y) :
    P.Feasible y := by
  have key : ∀ (l : List Nat) (s : Prob × Nat), s.1.WF → Whole s.1 → (l.foldl (step cost) s).1.Feasible y → s.1.Feasible y := by
    intro l
    induction l with
    | nil => intro s _ _ h; exact h
    | cons j l ih =>
      intro s h1 h2 h
      obtain ⟨h3, h4⟩ := step_whole cost s j h1 h2
      exact step_back cost s j h1 h2 y (ih _ h3 h4 h)
  exact key _ _ hwf hw hy

/-- **C142.** Nothing but integrality changes; a column that becomes continuous has no cost, is in exactly one row, which is an equation
with the coefficient 1 or -1; and the number that is counted is 0 exactly if nothing changes. -/
theorem cont_only (cost : Nat → ℚ) (P : Prob) :
    (madeCont cost P).1.rows = P.rows ∧ (madeCont cost P).1.nCols = P.nCols ∧ (madeCont cost P).1.colLower = P.colLower ∧
    (madeCont cost P).1.colUpper = P.colUpper ∧
    (∀ j, (madeCont cost P).1.isInt j ≠ P.isInt j → P.isInt j = true ∧ (madeCont cost P).1.isInt j = false ∧ cost j = 0 ∧
      P.rows.countP (fun r => (r.coefs.map Prod.fst).contains j) = 1 ∧
      ∃ r ∈ P.rows, r.lb = r.ub ∧ |(r.coefs.lookup j).getD 0| = 1) ∧
    ((madeCont cost P).2 = 0 ↔ (madeCont cost P).1 = P) := by
  have key : ∀ (l : List Nat) (s : Prob × Nat), s.1.rows = P.rows → s.1.nCols = P.nCols → s.1.colLower = P.colLower →
      s.1.colUpper = P.colUpper →
      (∀ j, s.1.isInt j ≠ P.isInt j → P.isInt j = true ∧ s.1.isInt j = false ∧ cost j = 0 ∧
        P.rows.countP (fun r => (r.coefs.map Prod.fst).contains j) = 1 ∧
        ∃ r ∈ P.rows, r.lb = r.ub ∧ |(r.coefs.lookup j).getD 0| = 1) →
      ((s.2 = 0 ∧ s.1 = P) ∨ (0 < s.2 ∧ ∃ j, s.1.isInt j ≠ P.isInt j)) →
      (l.foldl (step cost) s).1.rows = P.rows ∧ (l.foldl (step cost) s).1.nCols = P.nCols ∧
      (l.foldl (step cost) s).1.colLower = P.colLower ∧ (l.foldl (step cost) s).1.colUpper = P.colUpper ∧
      (∀ j, (l.foldl (step cost) s).1.isInt j ≠ P.isInt j → P.isInt j = true ∧ (l.foldl (step cost) s).1.isInt j = false ∧
        cost j = 0 ∧ P.rows.countP (fun r => (r.coefs.map Prod.fst).contains j) = 1 ∧
        ∃ r ∈ P.rows, r.lb = r.ub ∧ |(r.coefs.lookup j).getD 0| = 1) ∧
      (((l.foldl (step cost) s).2 = 0 ∧ (l.foldl (step cost) s).1 = P) ∨
        (0 < (l.foldl (step cost) s).2 ∧ ∃ j, (l.foldl (step cost) s).1.isInt j ≠ P.isInt j)) := by
    intro l
    induction l with
    | nil => intro s h1 h2 h3 h4 h5 h6; exact ⟨h1, h2, h3, h4, h5, h6⟩
    | cons j l ih =>
      intro s h1 h2 h3 h4 h5 h6
      rw [List.foldl_cons]
      rcases step_cases cost s j with h | ⟨h, hint, hcost, hlen, r, hr, heq, hab, -⟩
      · rw [h]; exact ih s h1 h2 h3 h4 h5 h6
      · have hPj : P.isInt j = true := by
          by_contra hn
          have := h5 j (by rw [hint]; exact fun h => hn h.symm)
          exact hn this.1
        refine ih _ (by rw [h]; exact h1) (by rw [h]; exact h2) (by rw [h]; exact h3) (by rw [h]; exact h4) ?_ ?_
        · rw [h]
          dsimp only
          intro k hk
          by_cases hkj : k = j
          · subst hkj
            exact ⟨hPj, by simp, hcost, by rw [← h1]; exact hlen, r, by rw [← h1]; exact hr, heq, hab⟩
          · have e : (!decide (k = j) && s.1.isInt k) = s.1.isInt k := by simp [hkj]
            rw [e] at hk ⊢
            exact h5 k hk
        · rw [h]
          right
          exact ⟨Nat.succ_pos _, j, by dsimp only; rw [hPj]; simp⟩
  obtain ⟨h1, h2, h3, h4, h5, h6⟩ := key (List.range P.nCols) (P, 0) rfl rfl rfl rfl (fun j h => absurd rfl h) (Or.inl ⟨rfl, rfl⟩)
  refine ⟨h1, h2, h3, h4, h5, ?_⟩
  rcases h6 with ⟨a, b⟩ | ⟨a, j, hj⟩
  · exact ⟨fun _ => b, fun _ => a⟩
  · constructor
    · intro h; exact absurd h (Nat.pos_iff_ne_zero.mp a)
    · intro h; exact absurd (by rw [show madeCont cost P = (List.range P.nCols).foldl (step cost) (P, 0) from rfl] at h; rw [h]) hj

end Cgl.MadeCont
