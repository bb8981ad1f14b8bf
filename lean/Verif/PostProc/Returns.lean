import Verif.PostProc.Leftover

/-!
# When `postProcess` comes back
-/

namespace Cgl.PostProc

/-- The passes are there, and the column numbers of each fit the model above and the model below.  No column of the start
model was made integer. -/
structure Sized (p : Pre) (modelIn : Solver) : Prop where
  positive : p.numberSolvers ≠ 0
  allocated : p.numberSolvers ≤ p.passes.length ∨ p.numberSolvers = 99
  present : ∀ k < levels p, ∃ P, p.passes[k]? = some (some P) ∧
    (above p modelIn k P).prob.nCols ≤ P.model.prob.nCols ∧ (above p modelIn k P).prob.nCols ≤ P.cols.length ∧
    ∀ B, belowOf p k = some B → ∀ i < (above p modelIn k P).prob.nCols, P.cols.getD i 0 < B.prob.nCols
  columns : (p.start.getD p.original).prob.nCols = p.original.prob.nCols
  ints : ∀ j < p.original.prob.nCols, (p.start.getD p.original).prob.isInt j = p.original.prob.isInt j

theorem belowOf_some {p : Pre} {k : Nat} (h : ∀ i < k, ∃ P, p.passes[i]? = some (some P)) : ∃ B, belowOf p k = some B := by
  cases k with
  | zero => exact ⟨_, rfl⟩
  | succ k =>
    obtain ⟨P, hP⟩ := h k (by omega)
    exact ⟨P.modified, by simp only [belowOf, hP]⟩

/-- The loop over the passes comes back. -/
theorem unwind_returns {E : Env} (hE : PostsolveFrame E) {n del} (k : Nat) : ∀ {p : Pre} {M : Solver},
    (∀ i < k, ∃ P, p.passes[i]? = some (some P) ∧
      (if i + 1 = k then M else P.modified).prob.nCols ≤ P.model.prob.nCols ∧
      (if i + 1 = k then M else P.modified).prob.nCols ≤ P.cols.length ∧
      ∀ B, belowOf p i = some B → ∀ c < (if i + 1 = k then M else P.modified).prob.nCols, P.cols.getD c 0 < B.prob.nCols) →
    ∃ r, unwind E n none del k p M = .ok r := by
  induction k with
  | zero => intro p M _; exact ⟨_, rfl⟩
  | succ k ih =>
    intro p M h
    obtain ⟨P, hP, h1, h2, h3⟩ := h k (by omega)
    rw [if_pos rfl] at h1 h2 h3
    obtain ⟨B, hB⟩ := belowOf_some (p := p) (k := k) fun i hi => (h i (by omega)).imp fun _ h => h.1
    have hpf : passFault n none (originalOf (p.passes.take (k + 1)) id) P M B = none := by
      unfold passFault
      rw [if_neg]
      rintro (⟨-, hc⟩ | hc | ⟨i, hi, hc⟩)
      · omega
      · omega
      · have := h3 B hB i hi; omega
    obtain ⟨m, b, hu⟩ : ∃ m b, unwindPass E n k none (originalOf (p.passes.take (k + 1)) id) P M B = .ok (m, b) := by
      unfold unwindPass
      rw [hpf]
      exact ⟨_, _, rfl⟩
    have hb := unwindPass_frame hE hu
    have ht : turn E n none del k p M = .ok (after p k b del m, b) := by
      unfold turn
      rw [hP]
      dsimp only
      rw [hB]
      dsimp only
      rw [hu]
      rfl
    obtain ⟨r, hr⟩ := ih (p := after p k b del m) (M := b) (by
      intro i hi
      obtain ⟨Q, hQ, q1, q2, q3⟩ := h i (by omega)
      rw [if_neg (by omega)] at q1 q2 q3
      by_cases he : i + 1 = k
      · subst he
        have hbelow : B = Q.modified := by
          simp only [belowOf, hQ, Option.some.injEq] at hB
          exact hB.symm
        refine ⟨{ Q with modified := b }, ?_, ?_⟩
        · unfold after setPass
          dsimp only
          rw [modify_ne _ _ (by omega)]
          simp only [setBelow]
          rw [modify_self, hQ]
          rfl
        · rw [if_pos rfl, hb.1, hbelow, after_below _ _ _ _ _ (by omega)]
          exact ⟨q1, q2, q3⟩
      · refine ⟨Q, ?_, ?_⟩
        · rw [after_pass_lt _ _ _ _ _ (by omega)]; exact hQ
        · rw [if_neg he, after_below _ _ _ _ _ hi]
          exact ⟨q1, q2, q3⟩)
    refine ⟨r, ?_⟩
    unfold unwind
    rw [ht]
    exact hr

/-- The model the loop ends with is the start model with other bounds and another solution. -/
theorem unwind_model {E : Env} (hE : PostsolveFrame E) {n sc del} (k : Nat) :
    ∀ {p M p' M'}, unwind E n sc del (k + 1) p M = .ok (p', M') → SameRows (p.start.getD p.original) M' := by
  induction k with
  | zero =>
    intro p M p' M' h
    unfold unwind at h
    split at h
    · cases h
    · rename_i p1 M1 ht
      obtain ⟨P, B, m, hP, hB, hu, rfl⟩ := turn_ok ht
      simp only [unwind, Except.ok.injEq, Prod.mk.injEq] at h
      have hB' : p.start.getD p.original = B := by
        simp only [belowOf, Option.some.injEq] at hB
        exact hB
      rw [← h.2, hB']
      exact unwindPass_frame hE hu
  | succ k ih =>
    intro p M p' M' h
    unfold unwind at h
    split at h
    · cases h
    · rename_i p1 M1 ht
      obtain ⟨P, B, m, hP, hB, hu, rfl⟩ := turn_ok ht
      have h1 := ih h
      have h2 := after_below p (k + 1) M1 del m (i := 0) (by omega)
      simp only [belowOf, Option.some.injEq] at h2
      rw [h2] at h1
      exact h1

/-- The loop over the integer columns counts those without an integer value. -/
theorem settleFold_checked (t : ℚ) (l : List Nat) (hl : l.Nodup) (s : Settle) :
    (l.foldl (settleColumn t) s).checked = s.checked +
      (l.filter fun j => decide (s.S.prob.isInt j = true ∧ s.x j ≠ (⌊s.x j⌋ : ℤ))).length := by
  induction l generalizing s with
  | nil => simp
  | cons j l ih =>
    have hjl := (List.nodup_cons.mp hl).1
    rw [List.foldl_cons, ih (List.nodup_cons.mp hl).2]
    have hstep : (settleColumn t s j).S.prob.isInt = s.S.prob.isInt ∧ (∀ i, i ≠ j → (settleColumn t s j).x i = s.x i) ∧
        (settleColumn t s j).checked = s.checked + if s.S.prob.isInt j = true ∧ s.x j ≠ (⌊s.x j⌋ : ℤ) then 1 else 0 := by
      unfold settleColumn
      by_cases hc : s.S.prob.isInt j = true ∧ s.x j ≠ (⌊s.x j⌋ : ℤ)
      · rw [if_pos hc, if_pos hc]
        split
        · exact ⟨rfl, fun _ _ => rfl, rfl⟩
        · exact ⟨rfl, fun i hi => Function.update_of_ne hi .., rfl⟩
      · rw [if_neg hc, if_neg hc]
        exact ⟨rfl, fun _ _ => rfl, rfl⟩
    obtain ⟨e1, e2, e3⟩ := hstep
    have hf : (l.filter fun i => decide ((settleColumn t s j).S.prob.isInt i = true ∧
        (settleColumn t s j).x i ≠ (⌊(settleColumn t s j).x i⌋ : ℤ))) =
        l.filter fun i => decide (s.S.prob.isInt i = true ∧ s.x i ≠ (⌊s.x i⌋ : ℤ)) := by
      apply List.filter_congr
      intro i hi
      rw [e1, e2 i (fun h => hjl (h ▸ hi))]
    rw [hf, e3, List.filter_cons]
    by_cases hc : s.S.prob.isInt j = true ∧ s.x j ≠ (⌊s.x j⌋ : ℤ)
    · rw [if_pos hc, if_pos (by simpa using hc), List.length_cons]; omega
    · rw [if_neg hc, if_neg (by simpa using hc)]; omega

theorem rounded_bad (M : Solver) (j : Nat) (hi : M.prob.isInt j = true) :
    roundedValue M j ≠ (⌊roundedValue M j⌋ : ℤ) ↔ ¬ near (M.sol j) := by
  unfold roundedValue
  by_cases hn : near (M.sol j)
  · rw [if_pos ⟨hi, hn⟩]
    obtain ⟨z, hz, -⟩ := roundHalf_int (M.sol j)
    rw [hz]
    simp [hn]
  · rw [if_neg (fun h => hn h.2)]
    refine ⟨fun _ => hn, fun _ hc => hn ?_⟩
    have : near ((⌊M.sol j⌋ : ℤ) : ℚ) := near_of (z := ⌊M.sol j⌋) (by norm_num)
    rw [← hc] at this
    exact this

/-- The assertion holds if the integer columns are those of the user's model. -/
theorem backToOriginal_returns {M S : Solver} (hn : S.prob.nCols ≤ M.prob.nCols)
    (hi : ∀ j < S.prob.nCols, M.prob.isInt j = S.prob.isInt j) : ∃ S', backToOriginal M S = .ok S' := by
  unfold backToOriginal
  rw [if_neg (by omega)]
  dsimp only
  by_cases h0 : numberBad M S.prob.nCols = 0
  · rw [if_pos h0]; exact ⟨_, rfl⟩
  · rw [if_neg h0, if_neg]
    · exact ⟨_, rfl⟩
    · intro hc
      apply hc
      have hre := rebound_fold _ (rebound_fixColumn M) (List.range S.prob.nCols) S
      unfold settle numberBad
      rw [settleFold_checked _ _ List.nodup_range, hre.nCols]
      dsimp only
      rw [Nat.zero_add]
      congr 1
      apply List.filter_congr
      intro j hj
      have hj := List.mem_range.mp hj
      rw [hre.isInt, ← hi j hj]
      by_cases hm : M.prob.isInt j = true
      · have := rounded_bad M j hm
        by_cases hnr : near (M.sol j)
        · have h1 : roundedValue M j = (⌊roundedValue M j⌋ : ℤ) := by
            by_contra hx; exact this.mp hx hnr
          simp [hm, hnr, ← h1]
        · have h1 := this.mpr hnr
          simp [hm, hnr, h1]
      · simp [hm]

/-- **C110.** Without semi-continuous columns `postProcess` comes back, whatever the solvers answer, if the passes are there
and fit together and no column was made integer; for the simple mode (99) the reduced model must have a solution, or
nothing may have to be deleted. -/
theorem postProcess_returns {E : Env} (hE : Honest E) (hP : PostsolveFrame E) {p : Pre} {modelIn : Solver} {del : Bool}
    (hS : Sized p modelIn) (hlots : p.lots = none)
    (h99 : p.numberSolvers ≤ p.passes.length ∨ modelIn.optimal = true ∨ del = false) :
    ∃ r, postProcess E p modelIn del = .ok r := by
  have hfin : ∀ sc so hp hd q mi u, (q.numberSolvers ≤ q.passes.length ∨ del = false) →
      ∃ r, finish E sc del so hp hd q mi u = .ok r := by
    intro sc so hp hd q mi u hq
    unfold finish
    dsimp only
    split
    · split
      · rename_i hd'
        rw [if_neg]
        · exact ⟨_, rfl⟩
        · rcases hq with hq | hq
          · omega
          · rw [hq] at hd'; cases hd'
      · exact ⟨_, rfl⟩
    · split
      · exact ⟨_, rfl⟩
      · exact ⟨_, rfl⟩
  have ha : (if ({ modelIn with cutoff := 10 ^ 50 } : Solver).optimal then ({ modelIn with cutoff := 10 ^ 50 } : Solver)
      else E.solve .resolve { modelIn with cutoff := 10 ^ 50 }) = asked E modelIn := rfl
  have hcols : (asked E modelIn).prob = modelIn.prob := by
    unfold asked
    split
    · rfl
    · exact (hE .resolve _).1.1
  unfold postProcess
  dsimp only
  dsimp only at ha
  rw [ha]
  by_cases ho : (asked E modelIn).optimal = true
  · rw [if_pos ho]
    unfold incoming
    rw [hlots]
    dsimp only
    have hlev : levels p ≠ 0 := by
      have := hS.positive
      unfold levels; split <;> omega
    obtain ⟨k, hk⟩ := Nat.exists_eq_succ_of_ne_zero hlev
    obtain ⟨⟨p2, M⟩, hu⟩ := unwind_returns hP (n := p.original.prob.nCols) (del := del) (levels p)
      (p := { p with numberSolvers := levels p }) (M := addCuts p.cuts (asked E modelIn)) (by
        intro i hi
        obtain ⟨P, h1, h2, h3, h4⟩ := hS.present i hi
        refine ⟨P, h1, ?_⟩
        have hB : belowOf { p with numberSolvers := levels p } i = belowOf p i := by cases i <;> rfl
        rw [hB]
        unfold above at h2 h3 h4
        by_cases he : i + 1 = levels p
        · rw [if_pos he] at h2 h3 h4 ⊢
          have : (addCuts p.cuts (asked E modelIn)).prob.nCols = modelIn.prob.nCols := by
            unfold addCuts; dsimp only; rw [hcols]
          rw [this]
          exact ⟨h2, h3, h4⟩
        · rw [if_neg he] at h2 h3 h4 ⊢
          exact ⟨h2, h3, h4⟩)
    have hlv : (if p.numberSolvers = 99 then 1 else p.numberSolvers) = levels p := rfl
    rw [hlots] at hu
    rw [hlv, hu]
    dsimp only
    rw [hk] at hu
    have hm := unwind_model hP _ hu
    have hf := unwind_frame hP _ hu
    dsimp only at hm hf
    obtain ⟨S, hback⟩ := backToOriginal_returns (M := M) (S := p2.original)
      (by rw [hf.1.1, hm.1, hS.columns]) (by
        intro j hj
        rw [hf.1.1] at hj
        rw [hm.2.2.1, hf.1.2.2.1]
        exact hS.ints j hj)
    rw [hback]
    dsimp only
    apply hfin
    left
    rw [hf.2.2.2.2.1, hf.2.2.2.2.2.1]
    rw [← hk]
    unfold levels at hlev hk ⊢
    split
    · rename_i h9
      obtain ⟨P, h1, -⟩ := hS.present 0 (by unfold levels; rw [if_pos h9]; omega)
      have := (List.getElem?_eq_some_iff.mp h1).1
      omega
    · rename_i h9
      rcases hS.allocated with h | h
      · exact h
      · exact absurd h h9
  · rw [if_neg ho]
    apply hfin
    rcases h99 with h | h | h
    · exact Or.inl h
    · exfalso
      apply ho
      unfold asked
      rw [if_pos h]
      exact h
    · exact Or.inr h

end Cgl.PostProc
