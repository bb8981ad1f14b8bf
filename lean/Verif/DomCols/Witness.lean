import Verif.DomCols.Props

/-! # Cases that meet the hypotheses, and cases that lose points -/

namespace Cgl.DomCols

theorem one_lt_dblMax : (1 : ℚ) < dblMax := by decide +kernel

/-- Two rows of a covering problem; the second column is in both.  The fourth column is in a row with a continuous column. -/
def cover : Input where
  P := { nCols := 5, inf := dblMax, colLower := fun _ => 0, colUpper := fun j => if j = 4 then dblMax else 1,
         isInt := fun j => decide (j < 4),
         rows := [⟨1, dblMax, [(0, 1), (1, 1)]⟩, ⟨1, dblMax, [(1, 1), (2, 1)]⟩, ⟨-dblMax, 5, [(3, 2), (4, 1)]⟩] }
  cost := fun j => if j = 3 then -1 else if j = 2 then 2 else 1
  prohibited := fun _ => false

/-- The hypotheses of `dominated_partial` are met, there is a feasible point, and two columns are fixed. -/
theorem cover_meets : Tidy cover.P ∧ NonNegative cover.P ∧ NoGain cover.P cover.cost ∧
    cover.P.Feasible (fun j => if j < 4 then 1 else 0) ∧
    (List.range 5).map (dominated cover) = [true, false, true, false, false] := by
  refine ⟨⟨by decide +kernel, by decide +kernel, rfl, by decide +kernel, by decide +kernel, by decide +kernel⟩, ?_, ?_,
    by decide +kernel, by decide +kernel⟩
  · unfold NonNegative; decide +kernel
  · unfold NoGain; decide +kernel

/-- Two columns with negative costs in a covering row. -/
def gain : Input where
  P := { nCols := 2, inf := dblMax, colLower := fun _ => 0, colUpper := fun _ => 1, isInt := fun _ => true,
         rows := [⟨1, dblMax, [(0, 1), (1, 1)]⟩] }
  cost := fun j => if j = 0 then -2 else -1
  prohibited := fun _ => false

/-- The second column is fixed although both at 1 is best: the optimum is lost.  (`NoGain` is the only hypothesis that fails.) -/
theorem not_gain : Tidy gain.P ∧ NonNegative gain.P ∧ ∃ x, gain.P.Feasible x ∧ ∀ y, (fixDominated gain).Feasible y →
    value gain.P.nCols gain.cost x < value gain.P.nCols gain.cost y := by
  refine ⟨⟨by decide +kernel, by decide +kernel, rfl, by decide +kernel, by decide +kernel, by decide +kernel⟩,
    by unfold NonNegative; decide +kernel, fun _ => 1, by decide +kernel, ?_⟩
  intro y hy
  have hu0 : (fixDominated gain).colUpper 0 = 1 := by decide +kernel
  have hu1 : (fixDominated gain).colUpper 1 = 0 := by decide +kernel
  have h0 := hy.upper 0 (by decide)
  have h1 := hy.upper 1 (by decide)
  rw [hu0] at h0
  rw [hu1] at h1
  have h0' := h0 one_lt_dblMax
  have h1' := h1 dblMax_pos
  change value 2 gain.cost _ < value 2 gain.cost y
  unfold value
  rw [Finset.sum_range_succ, Finset.sum_range_one, Finset.sum_range_succ, Finset.sum_range_one]
  change (-2 : ℚ) * 1 + -1 * 1 < -2 * y 0 + -1 * y 1
  linarith

/-- A covering row with a column that may be negative, and is by another row. -/
def negative : Input where
  P := { nCols := 3, inf := dblMax, colLower := fun j => if j = 2 then -1 else 0, colUpper := fun _ => 1, isInt := fun _ => true,
         rows := [⟨1, dblMax, [(0, 1), (1, 1), (2, 1)]⟩, ⟨-dblMax, -1, [(2, 1)]⟩] }
  cost := fun _ => 1
  prohibited := fun _ => false

/-- One of two equal columns is fixed, and the problem has no feasible point any more.  (`NonNegative` is the only hypothesis that
fails.) -/
theorem not_negative : Tidy negative.P ∧ NoGain negative.P negative.cost ∧
    negative.P.Feasible (fun j => if j = 2 then -1 else 1) ∧ ∀ y, ¬ (fixDominated negative).Feasible y := by
  refine ⟨⟨by decide +kernel, by decide +kernel, rfl, by decide +kernel, by decide +kernel, by decide +kernel⟩,
    by unfold NoGain; decide +kernel, by decide +kernel, ?_⟩
  intro y hy
  have hu0 : (fixDominated negative).colUpper 0 = 0 := by decide +kernel
  have hu1 : (fixDominated negative).colUpper 1 = 1 := by decide +kernel
  have h0 := hy.upper 0 (by decide)
  have h1 := hy.upper 1 (by decide)
  rw [hu0] at h0
  rw [hu1] at h1
  have h0' := h0 dblMax_pos
  have h1' := h1 one_lt_dblMax
  have r0 := (hy.rows ⟨1, dblMax, [(0, 1), (1, 1), (2, 1)]⟩ (by change _ ∈ [_, _]; simp)).1
    (by change -dblMax < 1; linarith [dblMax_pos])
  have r1 := (hy.rows ⟨-dblMax, -1, [(2, 1)]⟩ (by change _ ∈ [_, _]; simp)).2
    (by change -1 < dblMax; linarith [dblMax_pos])
  simp only [SVec.dot_cons, SVec.dot_nil] at r0 r1
  linarith

/-- Two columns with positive costs in a packing row. -/
def packing : Input where
  P := { nCols := 2, inf := dblMax, colLower := fun _ => 0, colUpper := fun _ => 1, isInt := fun _ => true,
         rows := [⟨-dblMax, 1, [(0, 1), (1, 1)]⟩] }
  cost := fun j => if j = 0 then 1 else 2
  prohibited := fun _ => false

/-- `getObjSense` is not read: if the objective is to be maximised the best column is fixed, and the maximum is lost.  (All
hypotheses of `dominated_partial` hold.) -/
theorem not_max : Tidy packing.P ∧ NonNegative packing.P ∧ NoGain packing.P packing.cost ∧
    ∃ x, packing.P.Feasible x ∧ ∀ y, (fixDominated packing).Feasible y →
      value packing.P.nCols packing.cost y < value packing.P.nCols packing.cost x := by
  refine ⟨⟨by decide +kernel, by decide +kernel, rfl, by decide +kernel, by decide +kernel, by decide +kernel⟩,
    by unfold NonNegative; decide +kernel, by unfold NoGain; decide +kernel, fun j => if j = 1 then 1 else 0, by decide +kernel, ?_⟩
  intro y hy
  have hu0 : (fixDominated packing).colUpper 0 = 1 := by decide +kernel
  have hu1 : (fixDominated packing).colUpper 1 = 0 := by decide +kernel
  have h0 := hy.upper 0 (by decide)
  have h1 := hy.upper 1 (by decide)
  rw [hu0] at h0
  rw [hu1] at h1
  have h0' := h0 one_lt_dblMax
  have h1' := h1 dblMax_pos
  change value 2 packing.cost y < value 2 packing.cost _
  unfold value
  rw [Finset.sum_range_succ, Finset.sum_range_one, Finset.sum_range_succ, Finset.sum_range_one]
  change (1 : ℚ) * y 0 + 2 * y 1 < 1 * 0 + 2 * 1
  linarith

/-- A column with a negative upper bound. -/
def crossed : Input where
  P := { nCols := 2, inf := dblMax, colLower := fun _ => 0, colUpper := fun j => if j = 0 then -1 else 1, isInt := fun _ => true,
         rows := [⟨-dblMax, 1, [(0, 1), (1, 1)]⟩] }
  cost := fun _ => 1
  prohibited := fun _ => false

/-- The upper bound is raised to 0: a problem without feasible points gets one. -/
theorem not_crossed : (∀ x, ¬ crossed.P.Feasible x) ∧ (fixDominated crossed).Feasible fun _ => 0 := by
  refine ⟨?_, by decide +kernel⟩
  intro x hx
  have h1 := hx.lower 0 (by decide) (by change -dblMax < 0; linarith [dblMax_pos])
  have h2 := hx.upper 0 (by decide) (by change -1 < dblMax; linarith [dblMax_pos])
  change (0 : ℚ) ≤ x 0 at h1
  change x 0 ≤ (-1 : ℚ) at h2
  linarith

/-- The hypotheses of `fix_feasible` are met and a bound changes. -/
theorem cover_feasible : (∀ j < cover.P.nCols, 0 ≤ cover.P.colUpper j) ∧ 0 < cover.P.inf ∧
    (fixDominated cover).Feasible (fun j => if j = 1 ∨ j = 3 then 1 else 0) ∧
    (fixDominated cover).colUpper 0 ≠ cover.P.colUpper 0 := by
  refine ⟨by decide +kernel, dblMax_pos, by decide +kernel, by decide +kernel⟩

end Cgl.DomCols
