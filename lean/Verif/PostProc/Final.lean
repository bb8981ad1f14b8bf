import Verif.PostProc.Unwind

/-!
# Back at the user's model: the bounds, and what the last solve says
-/

namespace Cgl.PostProc

theorem fixColumn_int {M S : Solver} {j : Nat} {z : ℤ} (hi : M.prob.isInt j = true) (hn : |M.sol j - z| < 1 / 1000)
    (h1 : M.prob.colLower j ≤ z) (h2 : (z : ℚ) ≤ M.prob.colUpper j) :
    (fixColumn M S j).prob.colLower j = z ∧ (fixColumn M S j).prob.colUpper j = z := by
  unfold fixColumn
  rw [if_pos hi, if_pos (near_of hn), roundHalf_near hn]
  have : max (min (z : ℚ) (M.prob.colUpper j)) (M.prob.colLower j) = z := by
    rw [min_eq_left h2, max_eq_left h1]
  dsimp only
  rw [this]
  simp

/-- The bounds of a column after `fixColumn`. -/
theorem fixColumn_at (M S : Solver) (j : Nat) :
    ((fixColumn M S j).prob.colLower j = S.prob.colLower j ∧ (fixColumn M S j).prob.colUpper j = S.prob.colUpper j) ∨
    (M.prob.isInt j = true ∧ near (M.sol j) ∧
      (fixColumn M S j).prob.colLower j = max (min (roundHalf (M.sol j)) (M.prob.colUpper j)) (M.prob.colLower j) ∧
      (fixColumn M S j).prob.colUpper j = max (min (roundHalf (M.sol j)) (M.prob.colUpper j)) (M.prob.colLower j)) ∨
    ((fixColumn M S j).prob.colLower j = M.prob.colLower j ∧ (fixColumn M S j).prob.colUpper j = M.prob.colLower j ∧
      M.prob.colUpper j = M.prob.colLower j) := by
  unfold fixColumn
  split
  · rename_i hi
    split
    · rename_i hn
      exact Or.inr (Or.inl ⟨hi, hn, by simp, by simp⟩)
    · exact Or.inl ⟨rfl, rfl⟩
  · rcases copyFixed_at M S j with h | h
    · exact Or.inl h
    · exact Or.inr (Or.inr h)

/-- The columns stay inside any bounds that contain those of the user's model and those of the model unwound. -/
theorem fixFold_inside {M S : Solver} (hr : RoundsInside M) {n : Nat} (hn : n ≤ M.prob.nCols) {j : Nat} (hj : j < n)
    {lo up : ℚ} (h1 : lo ≤ S.prob.colLower j) (h2 : S.prob.colUpper j ≤ up) (h3 : lo ≤ M.prob.colLower j)
    (h4 : M.prob.colUpper j ≤ up) :
    lo ≤ ((List.range n).foldl (fixColumn M) S).prob.colLower j ∧
      ((List.range n).foldl (fixColumn M) S).prob.colUpper j ≤ up := by
  obtain ⟨e1, e2⟩ := (local_fixColumn M).range n S j hj
  rw [e1, e2]
  rcases fixColumn_at M S j with h | ⟨hi, -, ha, hb⟩ | ⟨ha, hb, hc⟩
  · rw [h.1, h.2]; exact ⟨h1, h2⟩
  · have := hr j (lt_of_lt_of_le hj hn) hi
    rw [min_eq_left this.2, max_eq_left this.1] at ha hb
    rw [ha, hb]
    exact ⟨h3.trans this.1, this.2.trans h4⟩
  · rw [ha, hb]
    exact ⟨h3, hc ▸ h4⟩

/-! ### The end -/

theorem finish_ok {E sc del so hp hd p mi u r} (h : finish E sc del so hp hd p mi u = .ok r) :
    r.pre.original = { E.solve .final (lastColumns sc { p.original with
        hintPresolve := ⟨true, 1⟩, hintDual := ⟨false, 1⟩ }) with hintPresolve := hp, hintDual := hd } ∧
    r.modelIn = mi ∧ r.unwound = u ∧ r.pre.start = p.start ∧ r.pre.numberSolvers = p.numberSolvers ∧
    (r.message = some .infeasible ↔ r.pre.original.optimal = false) ∧ r.pre.lots = p.lots := by
  unfold finish at h
  dsimp only at h
  split at h
  · rename_i ho
    split at h
    · split at h
      · cases h
      · simp only [Except.ok.injEq] at h
        subst h
        exact ⟨rfl, rfl, rfl, rfl, rfl, ⟨fun _ => ho, fun _ => rfl⟩, rfl⟩
    · simp only [Except.ok.injEq] at h
      subst h
      exact ⟨rfl, rfl, rfl, rfl, rfl, ⟨fun _ => ho, fun _ => rfl⟩, rfl⟩
  · rename_i ho
    split at h
    · simp only [Except.ok.injEq] at h
      subst h
      exact ⟨rfl, rfl, rfl, rfl, rfl, ⟨fun hc => (by cases hc), fun hc => absurd hc ho⟩, rfl⟩
    · simp only [Except.ok.injEq] at h
      subst h
      exact ⟨rfl, rfl, rfl, rfl, rfl, ⟨fun hc => (by cases hc), fun hc => absurd hc ho⟩, rfl⟩

/-- What the last solve says about the model it was given. -/
theorem finish_honest {E : Env} (hE : Honest E) {sc del so hp hd p mi u r}
    (h : finish E sc del so hp hd p mi u = .ok r) (ho : r.pre.original.optimal = true) :
    LpFeasible (lastColumns sc p.original).prob r.pre.original.sol ∧
      ∀ y, LpFeasible (lastColumns sc p.original).prob y →
        cost p.original r.pre.original.sol ≤ cost p.original y := by
  obtain ⟨h1, -⟩ := finish_ok h
  set T : Solver := { p.original with hintPresolve := ⟨true, 1⟩, hintDual := ⟨false, 1⟩ } with hT
  have hlast : (lastColumns sc T).prob = (lastColumns sc p.original).prob := by
    cases sc with
    | none => rfl
    | some f =>
      unfold lastColumns
      dsimp only
      have hn : T.prob.nCols = p.original.prob.nCols := rfl
      rw [hn]
      have key : ∀ (l : List Nat) (A B : Solver), A.prob = B.prob →
          (l.foldl (lastColumn f) A).prob = (l.foldl (lastColumn f) B).prob := by
        intro l
        induction l with
        | nil => exact fun A B h => h
        | cons i l ih =>
          intro A B h
          apply ih
          unfold lastColumn
          rw [h]
          split
          · exact h
          · split
            · exact h
            · unfold setLower; rw [h]
      exact key _ _ _ rfl
  have hre := rebound_lastColumns sc T
  rw [h1] at ho ⊢
  have hh := (hE .final (lastColumns sc T)).2 ho
  rw [hlast] at hh
  refine ⟨hh.1, fun y hy => ?_⟩
  have hc : ∀ x, cost (lastColumns sc T) x = cost p.original x := by
    intro x
    unfold cost
    rw [hre.sense, hre.nCols, hre.obj]
  have := hh.2 y hy
  rw [hc, hc] at this
  exact this

/-! ### No integer column left over -/

theorem settle_none {M S : Solver} (h : ∀ j < S.prob.nCols, S.prob.isInt j = true →
    roundedValue M j = (⌊roundedValue M j⌋ : ℤ)) : (settle M S).checked = 0 := by
  unfold settle
  have key : ∀ (l : List Nat), (∀ j ∈ l, j < S.prob.nCols) → ∀ act,
      l.foldl (settleColumn (10 * S.tol)) ⟨S, roundedValue M, act, 0⟩ = ⟨S, roundedValue M, act, 0⟩ := by
    intro l
    induction l with
    | nil => exact fun _ _ => rfl
    | cons i l ih =>
      intro hl act
      rw [List.foldl_cons]
      have : settleColumn (10 * S.tol) ⟨S, roundedValue M, act, 0⟩ i = ⟨S, roundedValue M, act, 0⟩ := by
        unfold settleColumn
        rw [if_neg]
        rintro ⟨h1, h2⟩
        exact h2 (h i (hl i List.mem_cons_self) h1)
      rw [this]
      exact ih (fun j hj => hl j (List.mem_cons_of_mem _ hj)) act
  rw [key _ (fun j hj => List.mem_range.mp hj)]

/-- If the integer columns of the user's model are near integers, nothing is left over. -/
theorem backToOriginal_near {M S S' : Solver} (h : backToOriginal M S = .ok S')
    (hk : ∀ j < S.prob.nCols, S.prob.isInt j = true → M.prob.isInt j = true ∧ near (M.sol j)) :
    S.prob.nCols ≤ M.prob.nCols ∧ S' = (List.range S.prob.nCols).foldl (fixColumn M) S := by
  unfold backToOriginal at h
  split at h
  · cases h
  · rename_i hn
    refine ⟨not_lt.mp hn, ?_⟩
    dsimp only at h
    split at h
    · exact (Except.ok.inj h).symm
    · rename_i hb
      exfalso
      have hre := rebound_fold _ (rebound_fixColumn M) (List.range S.prob.nCols) S
      have h0 : (settle M ((List.range S.prob.nCols).foldl (fixColumn M) S)).checked = 0 := by
        apply settle_none
        intro j hj hi
        rw [hre.nCols] at hj
        rw [hre.isInt] at hi
        obtain ⟨a, b⟩ := hk j hj hi
        unfold roundedValue
        rw [if_pos ⟨a, b⟩]
        unfold roundHalf
        rw [Int.floor_intCast]
      rw [h0, if_pos (fun h => hb h.symm)] at h
      cases h

end Cgl.PostProc
