import Verif.Rebuild.Returns

/-! # Using the answers: the theorems are not empty, and what goes wrong -/

namespace Cgl.Rebuild

open TreeInfo (Info implied sequence oneFixes bit)

instance (v : ℚ) : Decidable (Crisp v) := by unfold Crisp; infer_instance

/-! ## Rows are replaced -/

/-- 7 x0 - 2 x1 - 2 x2 ≥ 0 will become 6 x0 - 2 x1 - 2 x2 ≥ 0; the second row is strengthened by the generator; the third one
follows from the second one. -/
def prob : Prob where
  nCols := 4
  inf := 10 ^ 30
  colLower := fun _ => 0
  colUpper := fun j => if j = 3 then 1 else if j = 0 then 1 else 10
  isInt := fun _ => true
  rows := [⟨0, 10 ^ 30, [(0, 7), (1, -2), (2, -2)]⟩, ⟨1, 3, [(0, 2), (3, 2)]⟩, ⟨-10 ^ 30, 4, [(0, 2), (3, 2)]⟩]

/-- Row 1 is replaced by x0 + x3 = 1, row 2 is dropped, and x1 has a new upper bound. -/
def answer : Answer where
  first := true
  noStrengthening := false
  cut := fun i => if i = 1 then some ⟨1, 1, [(0, 1), (3, 1)]⟩ else none
  dup := fun i => i == 2
  rowCuts := [⟨1, 1, [(0, 1), (3, 1)]⟩]
  colCuts := [⟨[], [(1, 3)]⟩]
  table := none
  dupRow := false
  solved := true

theorem prob_neat : Neat (free prob answer.dup) where
  wf := ⟨by decide +kernel, by decide +kernel⟩
  inf := by decide +kernel
  infMax := by decide +kernel
  rowBounds := by decide +kernel
  moved := by decide +kernel
  fixedCols := by decide +kernel
  coefs := by decide +kernel

theorem prob_sound : Sound prob answer where
  cut := by
    intro k r c hr hc
    match k, hr, hc with
    | 0, _, hc => cases hc
    | 1, hr, hc =>
      cases Option.some.inj hr
      cases Option.some.inj hc
      have i1 : (10 : ℚ) ^ 30 ≠ 0 := by norm_num
      refine ⟨fun x hx => ?_, fun x hx hh => ?_⟩
      · have h := hx.rows ⟨1, 3, [(0, 2), (3, 2)]⟩ (by simp [prob])
        obtain ⟨a, ha⟩ := hx.int 0 (by decide) rfl
        obtain ⟨b, hb⟩ := hx.int 3 (by decide) rfl
        simp only [Row.Sat, RowCut.SatIn, lbOk, ubOk, SVec.dot_cons, SVec.dot_nil, prob] at h ⊢
        rw [ha, hb] at h ⊢
        have h1 := h.1 (by norm_num)
        have h2 := h.2 (by norm_num)
        have e1 : (1 : ℤ) ≤ 2 * a + (2 * b + 0) := by exact_mod_cast h1
        have e2 : 2 * a + (2 * b + 0) ≤ (3 : ℤ) := by exact_mod_cast h2
        have e : a + b = 1 := by omega
        have e' : (a : ℚ) + b = 1 := by exact_mod_cast e
        exact ⟨fun _ => by linarith, fun _ => by linarith⟩
      · simp only [Row.Sat, RowCut.SatIn, lbOk, ubOk, SVec.dot_cons, SVec.dot_nil, prob] at hh ⊢
        have h1 := hh.1 (by norm_num)
        have h2 := hh.2 (by norm_num)
        exact ⟨fun _ => by linarith, fun _ => by linarith⟩
    | k + 2, _, hc =>
      have : answer.cut (k + 2) = none := by simp [answer]
      rw [this] at hc
      cases hc
  dup := by
    intro x hx
    have h1 := hx.rows ⟨1, 3, [(0, 2), (3, 2)]⟩ (by simp [prob, free, answer])
    refine ⟨fun r hr => ?_, hx.lower, hx.upper, hx.int⟩
    have hr : r = ⟨0, 10 ^ 30, [(0, 7), (1, -2), (2, -2)]⟩ ∨ r = ⟨1, 3, [(0, 2), (3, 2)]⟩ ∨ r = ⟨-10 ^ 30, 4, [(0, 2), (3, 2)]⟩ := by
      simpa [prob] using hr
    rcases hr with rfl | rfl | rfl
    · exact hx.rows _ (by simp [prob, free, answer])
    · exact h1
    · simp only [Row.Sat, lbOk, ubOk, SVec.dot_cons, SVec.dot_nil, prob, free] at h1 ⊢
      have h2 := h1.2 (by norm_num)
      exact ⟨fun hh => absurd hh (lt_irrefl _), fun _ => by linarith⟩
  rowCuts := by
    intro c hc x hx
    rw [List.mem_singleton.mp hc]
    have h := hx.rows ⟨1, 3, [(0, 2), (3, 2)]⟩ (by simp [prob])
    obtain ⟨a, ha⟩ := hx.int 0 (by decide) rfl
    obtain ⟨b, hb⟩ := hx.int 3 (by decide) rfl
    simp only [Row.Sat, RowCut.SatIn, lbOk, ubOk, SVec.dot_cons, SVec.dot_nil, prob] at h ⊢
    rw [ha, hb] at h ⊢
    have h1 := h.1 (by norm_num)
    have h2 := h.2 (by norm_num)
    have e1 : (1 : ℤ) ≤ 2 * a + (2 * b + 0) := by exact_mod_cast h1
    have e2 : 2 * a + (2 * b + 0) ≤ (3 : ℤ) := by exact_mod_cast h2
    have e : a + b = 1 := by omega
    have e' : (a : ℚ) + b = 1 := by exact_mod_cast e
    exact ⟨fun _ => by linarith, fun _ => by linarith⟩
  colCuts := by
    intro c hc
    rw [List.mem_singleton.mp hc]
    refine ⟨fun x hx => ⟨fun p hp => (by cases hp), fun p hp => ?_⟩, fun p hp => (by cases hp), fun p hp => ?_⟩
    · rw [List.mem_singleton.mp hp]
      have h := hx.rows ⟨0, 10 ^ 30, [(0, 7), (1, -2), (2, -2)]⟩ (by simp [prob])
      have h0 := hx.upper 0 (by decide)
      have h2 := hx.lower 2 (by decide)
      obtain ⟨b, hb⟩ := hx.int 1 (by decide) rfl
      simp only [Row.Sat, lbOk, ubOk, SVec.dot_cons, SVec.dot_nil, prob] at h h0 h2 ⊢
      have h1 := h.1 (by norm_num)
      have h0 := h0 (by norm_num)
      have h2 := h2 (by norm_num)
      norm_num at h0
      rw [hb] at h1 ⊢
      have : (b : ℚ) < 4 := by linarith
      have : b < 4 := by exact_mod_cast this
      have : b ≤ 3 := by omega
      exact_mod_cast this
    · rw [List.mem_singleton.mp hp]
      exact ⟨by decide, by decide +kernel⟩
  solved := by intro h; cases h
  table := by intro t h; cases h

/-- Rows and upper bounds of the new problem. -/
def shown (o : Except Fault (Option St)) : List (ℚ × ℚ × List (ℕ × ℚ)) × List ℚ :=
  match o with
  | .ok (some s) => (s.P.rows.map fun r => (r.lb, r.ub, r.coefs), (List.range 4).map s.P.colUpper)
  | _ => ([], [])

/-- The problem is rebuilt: rows and the new bound. -/
theorem prob_rebuilt : shown (useAnswers true [answer] prob none) =
    ([(0, 10 ^ 30, [(0, 6), (1, -2), (2, -2)]), (1, 1, [(0, 1), (3, 1)]), (1, 1, [(0, 1), (3, 1)])], [1, 3, 10, 1]) := by
  decide +kernel

/-- The hypotheses of `useAnswers_same` and `useAnswers_returns_partial` are met. -/
theorem prob_applies : Sounds true [answer] ⟨prob, [], none⟩ ∧ Smalls true [answer] ⟨prob, [], none⟩ ∧
    prob.Feasible (fun j => if j = 0 ∨ j = 1 then 1 else 0) :=
  ⟨⟨prob_neat, prob_sound, fun _ _ => trivial⟩, ⟨by unfold Small; decide +kernel, fun _ _ => trivial⟩, by decide +kernel⟩

/-! ## Implications -/

/-- Four columns. -/
def small : Prob where
  nCols := 4
  inf := 10 ^ 30
  colLower := fun _ => 0
  colUpper := fun _ => 1
  isInt := fun _ => true
  rows := []

/-- If x0 = 1 then x1 = 1, if x1 = 1 then x0 = 1; if x2 = 0 then x0 = 1, if x0 = 1 then x2 = 1; if x1 = 0 then x3 = 1, if x3 = 1 then
x1 = 0. -/
def calls : List TreeInfo.Call :=
  [⟨0, true, 1, false⟩, ⟨1, true, 0, false⟩, ⟨2, false, 0, false⟩, ⟨0, true, 2, false⟩, ⟨1, false, 3, false⟩, ⟨3, true, 1, true⟩]

/-- Two equations, each found from both sides, and x2 ≥ 1. -/
theorem calls_give :
    (TreeInfo.run (TreeInfo.initializeFixing small) calls).map (fun s => (implications (some (TreeInfo.convert s))).toOption) =
    some (some ([⟨0, 0, [(0, 1), (1, -1)]⟩, ⟨1, 1, [(1, 1), (3, 1)]⟩, ⟨0, 0, [(1, 1), (0, -1)]⟩, ⟨1, 1, [(3, 1), (1, 1)]⟩],
      [⟨[(2, 1)], []⟩], true)) := by
  decide +kernel

/-- A point of which all these implications are true. -/
theorem calls_hold : ∀ c ∈ calls, c.Holds small (fun j => if j = 3 then 0 else 1) := by decide +kernel

/-! ## C120: what goes wrong with types of rows -/

/-- **An added equation gets the type of a row that was dropped**: the counter that is set hides the member. -/
theorem types_stale :
    Sounds true [answer] ⟨prob, [], some ⟨[0, -3, 1], 3⟩⟩ ∧
    (useAnswers true [answer] prob (some ⟨[0, -3, 1], 3⟩)).toOption.map (fun o => o.map fun s => s.types) =
      some (some (some ⟨[0, -3, 1], 3⟩)) :=
  ⟨⟨prob_neat, prob_sound, fun _ _ => trivial⟩, by decide +kernel⟩

/-- The next generator strengthens a row. -/
def answer2 : Answer where
  first := false
  noStrengthening := false
  cut := fun i => if i = 0 then some ⟨0, 10 ^ 30, [(0, 3), (1, -1), (2, -1)]⟩ else none
  dup := fun _ => false
  rowCuts := []
  colCuts := []
  table := none
  dupRow := false
  solved := true

/-- **Once a row has been dropped, the next change of rows fails** at `assert(numberRowType_ == numberRows)`. -/
theorem types_assert :
    (match useAnswers true [answer, answer2] prob (some ⟨[0, -3, 1], 3⟩) with | .error e => some e | .ok _ => none) = some .assert ∧
    (useAnswers true [answer, answer2] prob none).toOption.isSome = true := by
  decide +kernel

/-! ## C121: what goes wrong -/

/-- 2 x0 = 1 and another row. -/
def none01 : Prob where
  nCols := 2
  inf := 10 ^ 30
  colLower := fun _ => 0
  colUpper := fun _ => 1
  isInt := fun _ => true
  rows := [⟨1, 1, [(0, 2)]⟩, ⟨-10 ^ 30, 1, [(0, 1), (1, 1)]⟩]

/-- The first row is replaced by an empty one that no point satisfies. -/
def answerNone : Answer where
  first := false
  noStrengthening := false
  cut := fun i => if i = 0 then some ⟨1, 1, []⟩ else none
  dup := fun _ => false
  rowCuts := []
  colCuts := []
  table := none
  dupRow := false
  solved := true

theorem none01_none (x : Nat → ℚ) : ¬ none01.Feasible x := by
  intro hx
  have h := hx.rows ⟨1, 1, [(0, 2)]⟩ (by simp [none01])
  obtain ⟨a, ha⟩ := hx.int 0 (by decide) rfl
  simp only [Row.Sat, lbOk, ubOk, SVec.dot_cons, SVec.dot_nil, none01] at h
  rw [ha] at h
  have h1 := h.1 (by norm_num)
  have h2 := h.2 (by norm_num)
  have e1 : (1 : ℤ) ≤ 2 * a + 0 := by exact_mod_cast h1
  have e2 : 2 * a + 0 ≤ (1 : ℤ) := by exact_mod_cast h2
  omega

/-- **A row found infeasible before the last one**: elements of `keepRow` that were never set are read. -/
theorem unset_read :
    Sounds false [answerNone] ⟨none01, [], none⟩ ∧
    (match useAnswers false [answerNone] none01 none with | .error e => some e | .ok _ => none) = some .unset := by
  refine ⟨⟨⟨⟨by decide +kernel, by decide +kernel⟩, by decide +kernel, by decide +kernel, by decide +kernel, by decide +kernel,
    by decide +kernel, by decide +kernel⟩, ?_, fun _ _ => trivial⟩, by decide +kernel⟩
  refine ⟨?_, ?_, fun c hc => (by cases hc), fun c hc => (by cases hc), fun h => (by cases h), fun t h => (by cases h)⟩
  · intro k r c hr hc
    refine ⟨fun x hx => absurd hx (none01_none x), fun x hx hh => ?_⟩
    match k, hr, hc with
    | 0, _, hc =>
      cases Option.some.inj hc
      simp only [RowCut.SatIn, lbOk, ubOk, SVec.dot_nil, none01] at hh
      exact absurd (hh.1 (by norm_num)) (by norm_num)
    | k + 1, _, hc => cases hc
  · intro x hx
    refine ⟨fun r hr => hx.rows r ?_, hx.lower, hx.upper, hx.int⟩
    simpa [free, answerNone, none01] using hr

/-- A row with large coefficients, and another row. -/
def large : Prob where
  nCols := 3
  inf := 10 ^ 30
  colLower := fun _ => 0
  colUpper := fun _ => 1
  isInt := fun _ => true
  rows := [⟨0, 10 ^ 30, [(0, 5 * 10 ^ 7), (1, -2 * 10 ^ 7), (2, -2 * 10 ^ 7)]⟩, ⟨-10 ^ 30, 5, [(0, 1), (1, 1)]⟩]

/-- The second row is dropped. -/
def answerLarge : Answer where
  first := true
  noStrengthening := false
  cut := fun _ => none
  dup := fun i => i == 1
  rowCuts := []
  colCuts := []
  table := none
  dupRow := false
  solved := true

/-- **A coefficient of 2e7 is multiplied by 120 and converted to `int`**, which is undefined. -/
theorem int_overflow :
    Sounds false [answerLarge] ⟨large, [], none⟩ ∧ large.Feasible (fun _ => 0) ∧
    (match useAnswers false [answerLarge] large none with | .error e => some e | .ok _ => none) = some .overflow := by
  refine ⟨⟨⟨⟨by decide +kernel, by decide +kernel⟩, by decide +kernel, by decide +kernel, by decide +kernel, by decide +kernel,
    by decide +kernel, by decide +kernel⟩, ?_, fun _ _ => trivial⟩, by decide +kernel, by decide +kernel⟩
  refine ⟨fun k r c _ h => (by cases h), ?_, fun c hc => (by cases hc), fun c hc => (by cases hc), fun h => (by cases h),
    fun t h => (by cases h)⟩
  intro x hx
  refine ⟨fun r hr => ?_, hx.lower, hx.upper, hx.int⟩
  have hr : r = ⟨0, 10 ^ 30, [(0, 5 * 10 ^ 7), (1, -2 * 10 ^ 7), (2, -2 * 10 ^ 7)]⟩ ∨ r = ⟨-10 ^ 30, 5, [(0, 1), (1, 1)]⟩ := by
    simpa [large] using hr
  rcases hr with rfl | rfl
  · exact hx.rows _ (by simp [large, free, answerLarge])
  · have h0 := hx.upper 0 (by decide)
    have h1 := hx.upper 1 (by decide)
    simp only [Row.Sat, lbOk, ubOk, SVec.dot_cons, SVec.dot_nil, large, free] at h0 h1 ⊢
    have h0 := h0 (by norm_num)
    have h1 := h1 (by norm_num)
    exact ⟨fun hh => absurd hh (lt_irrefl _), fun _ => by linarith⟩

end Cgl.Rebuild
