import Verif.Vub.Props

/-! # Cases that meet the hypotheses, and cases that lose points -/

namespace Cgl.Vub

/-- The first row makes its column integer, the second row (with a lower bound) becomes an equation. -/
def sample : Prob :=
  { nCols := 4, inf := dblMax, colLower := fun _ => 0,
    colUpper := fun j => if j = 2 then dblMax else if j = 0 then 3 else 1,
    isInt := fun j => decide (j = 1 ∨ j = 3),
    rows := [⟨-dblMax, 4, [(0, 1), (1, 2)]⟩, ⟨-5, dblMax, [(1, 1), (2, -2)]⟩, ⟨1, dblMax, [(1, 1), (3, 1)]⟩] }

/-- Costs for it. -/
def sampleCost : Nat → ℚ := fun j => if j = 1 then 2 else -1

/-- The hypotheses of `vub_partial`, `vub_feasible` and `vub_only` are met, there are feasible points before and after, and both
changes happen. -/
theorem sample_meets : Tidy sample ∧ (∀ r ∈ sample.rows, RowOk sample r) ∧ (∀ r ∈ sample.rows, r.lb ≤ r.ub) ∧
    (∀ r ∈ sample.rows, (r.coefs.map Prod.fst).Nodup) ∧
    sample.Feasible (fun j => if j = 1 then 1 else 1 / 2 * if j = 3 then 2 else 1) ∧
    (vubs sampleCost 1 sample).Feasible (fun j => if j = 1 then 1 else if j = 0 then 2 else if j = 2 then 3 else 0) ∧
    (vubs sampleCost 1 sample).isInt 0 = true ∧
    (vubs sampleCost 1 sample).rows.map Row.lb = [-dblMax, -5, 1] ∧
    (vubs sampleCost 1 sample).rows.map Row.ub = [4, -5, dblMax] := by
  refine ⟨⟨by decide +kernel, rfl, by decide +kernel, by decide +kernel, by decide +kernel⟩, by decide +kernel, by decide +kernel,
    by decide +kernel, by decide +kernel, by decide +kernel, by decide +kernel, by decide +kernel, by decide +kernel⟩

/-- The singleton has the upper bound 3/2. -/
def bound : Prob :=
  { nCols := 2, inf := dblMax, colLower := fun _ => 0, colUpper := fun j => if j = 0 then 3 / 2 else 1,
    isInt := fun j => decide (j = 1), rows := [⟨-dblMax, 4, [(0, 1), (1, 1)]⟩, ⟨-dblMax, 1, [(1, 1)]⟩] }

/-- The singleton grows. -/
def oneCost : Nat → ℚ := fun j => if j = 0 then -1 else 0

theorem integer_le {q : ℚ} (h : IsInteger q) {n : ℤ} (hq : q < n + 1) : q ≤ n := by
  obtain ⟨z, rfl⟩ := h
  have : z < n + 1 := by exact_mod_cast hq
  exact_mod_cast Int.lt_add_one_iff.mp this

/-- The column becomes integer although its best value is its fractional upper bound: the optimum is lost. -/
theorem not_bound : Tidy bound ∧ ∃ x, bound.Feasible x ∧ ∀ y, (vubs oneCost 1 bound).Feasible y →
    1 * value bound.nCols oneCost x < 1 * value bound.nCols oneCost y := by
  refine ⟨⟨by decide +kernel, rfl, by decide +kernel, by decide +kernel, by decide +kernel⟩,
    fun j => if j = 0 then 3 / 2 else 0, by decide +kernel, ?_⟩
  intro y hy
  have hcol := vub_only oneCost 1 bound (by decide +kernel)
  have hi := hy.int 0 (by rw [hcol.1]; decide) (by decide +kernel)
  have hf := vub_feasible oneCost 1 bound (by decide +kernel) y hy
  have hu := hf.upper 0 (by decide) (by decide +kernel)
  change y 0 ≤ 3 / 2 at hu
  have := integer_le (n := 1) hi (by norm_num; linarith)
  change 1 * value 2 oneCost _ < 1 * value 2 oneCost y
  unfold value
  rw [Finset.sum_range_succ, Finset.sum_range_one, Finset.sum_range_succ, Finset.sum_range_one]
  change 1 * ((-1 : ℚ) * (3 / 2) + 0 * 0) < 1 * (-1 * y 0 + 0 * y 1)
  push_cast at this
  linarith

/-- The singleton has the coefficient 2. -/
def unit : Prob :=
  { nCols := 2, inf := dblMax, colLower := fun _ => 0, colUpper := fun _ => 1,
    isInt := fun j => decide (j = 1), rows := [⟨-dblMax, 4, [(0, 2), (1, 3)]⟩, ⟨1, dblMax, [(1, 1)]⟩] }

/-- The column becomes integer although its best value is 1/2: the optimum is lost. -/
theorem not_unit : Tidy unit ∧ ∃ x, unit.Feasible x ∧ ∀ y, (vubs oneCost 1 unit).Feasible y →
    1 * value unit.nCols oneCost x < 1 * value unit.nCols oneCost y := by
  refine ⟨⟨by decide +kernel, rfl, by decide +kernel, by decide +kernel, by decide +kernel⟩,
    fun j => if j = 0 then 1 / 2 else 1, by decide +kernel, ?_⟩
  intro y hy
  have hcol := vub_only oneCost 1 unit (by decide +kernel)
  have hi := hy.int 0 (by rw [hcol.1]; decide) (by decide +kernel)
  have hf := vub_feasible oneCost 1 unit (by decide +kernel) y hy
  have r0 := (hf.rows ⟨-dblMax, 4, [(0, 2), (1, 3)]⟩ (by change _ ∈ [_, _]; simp)).2
    (by change (4 : ℚ) < dblMax; decide +kernel)
  have r1 := (hf.rows ⟨1, dblMax, [(1, 1)]⟩ (by change _ ∈ [_, _]; simp)).1
    (by change -dblMax < 1; linarith [dblMax_pos])
  simp only [SVec.dot_cons, SVec.dot_nil] at r0 r1
  have := integer_le (n := 0) hi (by norm_num; linarith)
  change 1 * value 2 oneCost _ < 1 * value 2 oneCost y
  unfold value
  rw [Finset.sum_range_succ, Finset.sum_range_one, Finset.sum_range_succ, Finset.sum_range_one]
  change 1 * ((-1 : ℚ) * (1 / 2) + 0 * 1) < 1 * (-1 * y 0 + 0 * y 1)
  push_cast at this
  linarith

end Cgl.Vub
