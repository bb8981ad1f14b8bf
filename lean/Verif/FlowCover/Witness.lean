import Verif.FlowCover.Props

/-!
# Cases that meet the hypotheses, and cases in which the full claim is false
-/

namespace Cgl.FlowCover.Witness

/-- `y0 + y1 <= 4`, `y0 <= 3 x2`, `y1 <= 3 x3`, `y >= 0`, `x` binary. -/
def base : Prob where
  nCols := 4
  inf := dblMax
  colLower := fun _ => 0
  colUpper := fun j => if j < 2 then 100 else 1
  isInt := fun j => 2 ≤ j
  rows := [⟨-dblMax, 4, [(0, 1), (1, 1)]⟩, ⟨-dblMax, 0, [(0, 1), (2, -3)]⟩, ⟨-dblMax, 0, [(1, 1), (3, -3)]⟩]

/-- LP solution `(5/2, 3/2, 5/6, 1/2)`. -/
def lp : Nat → ℚ := fun j => ([5 / 2, 3 / 2, 5 / 6, 1 / 2] : List ℚ).getD j 0

/-- The cut `y0 + y1 - x2 - x3 <= 2` is found. -/
example : (generateCuts Obj.new base lp []).2 = [⟨-dblMax, 2, [(0, 1), (1, 1), (2, -1), (3, -1)]⟩] := by decide +kernel

/-- All hypotheses of the validity theorems hold for it. -/
example : 1 < base.inf ∧ base.WF ∧ Exact base ∧ Grid base 1 := by decide +kernel

/-- It has feasible points that the cut touches. -/
example : base.Feasible (fun j => ([3, 0, 1, 0] : List ℚ).getD j 0) ∧
    SVec.dot [(0, 1), (1, 1), (2, -1), (3, -1)] (fun j => ([3, 0, 1, 0] : List ℚ).getD j 0) = 2 := by decide +kernel

/-- A row with a negative arc, a binary column of its own and lifting: `y0 + y1 + 5 x4 - y5 <= 4`, `y5 <= 1`. -/
def mixed : Prob where
  nCols := 6
  inf := dblMax
  colLower := fun _ => 0
  colUpper := fun j => if j < 2 then 100 else 1
  isInt := fun j => 2 ≤ j && j < 5
  rows := [⟨-dblMax, 4, [(0, 1), (1, 1), (4, 5), (5, -1)]⟩, ⟨-dblMax, 0, [(0, 1), (2, -3)]⟩, ⟨-dblMax, 0, [(1, 1), (3, -3)]⟩]

/-- LP solution of `mixed`. -/
def mixedLp : Nat → ℚ := fun j => ([5 / 2, 3 / 2, 5 / 6, 1 / 2, 1 / 10, 1 / 2] : List ℚ).getD j 0

example : 1 < mixed.inf ∧ mixed.WF ∧ Exact mixed ∧ Grid mixed 1 ∧ (generateCuts Obj.new mixed mixedLp []).2.length = 1 := by
  decide +kernel

/-- The limits: two calls with a limit of one add one cut. -/
example : (run Obj.new [.setMax 1, .generate base lp [], .copy, .generate mixed mixedLp []]).2 = 1 := by decide +kernel

/-! ### The full claim is false of the code -/

/-- The same with *free* rows `y0 - 3 x2` and `y1 - 3 x3`, which say nothing. -/
def freeRows : Prob :=
  { base with rows := [⟨-dblMax, 4, [(0, 1), (1, 1)]⟩, ⟨-dblMax, dblMax, [(0, 1), (2, -3)]⟩, ⟨-dblMax, dblMax, [(1, 1), (3, -3)]⟩] }

/-- A free row with one binary and one other column is taken for the equation `y = 3 x`: the cut `y0 + y1 - x2 - x3 <= 2` is
generated although `y0 = 4`, everything else zero, is feasible. -/
theorem free_row_invalid : ∃ c ∈ (generateCuts Obj.new freeRows lp []).2, freeRows.WF ∧
    ∃ x, freeRows.Feasible x ∧ ¬ c.SatIn freeRows.inf x :=
  ⟨⟨-dblMax, 2, [(0, 1), (1, 1), (2, -1), (3, -1)]⟩, by decide +kernel, by decide +kernel, fun j => if j = 0 then 4 else 0,
    by decide +kernel, by decide +kernel⟩

/-- The same with `y0 - 3 x2 <= 1e-6`. -/
def tinyRhs : Prob :=
  { base with rows := [⟨-dblMax, 4, [(0, 1), (1, 1)]⟩, ⟨-dblMax, 1 / 10 ^ 6, [(0, 1), (2, -3)]⟩, ⟨-dblMax, 0, [(1, 1), (3, -3)]⟩] }

/-- A right-hand side of at most 1e-6 is ignored when a variable bound is read. -/
theorem tiny_rhs_invalid : ∃ c ∈ (generateCuts Obj.new tinyRhs lp []).2, tinyRhs.WF ∧
    ∃ x, tinyRhs.Feasible x ∧ ¬ c.SatIn tinyRhs.inf x :=
  ⟨⟨-dblMax, 2, [(0, 1), (1, 1), (2, -1), (3, -1)]⟩, by decide +kernel, by decide +kernel,
    fun j => if j = 0 then 3 + 1 / 10 ^ 6 else if j = 2 then 1 else 0, by decide +kernel, by decide +kernel⟩

/-- The lower bound of `y1` is `-1e-6`. -/
def tinyLower : Prob :=
  { base with colLower := fun j => if j = 1 then -1 / 10 ^ 6 else 0,
              rows := [⟨-dblMax, 3, [(0, 1), (1, 1)]⟩, ⟨-dblMax, 0, [(0, 1), (2, -4)]⟩] }

/-- LP solution for `tinyLower`. -/
def tinyLowerLp : Nat → ℚ := fun j => ([5 / 2, 1 / 2, 5 / 8, 0] : List ℚ).getD j 0

/-- A lower bound between -1e-6 and zero is treated as zero: `y0 - 3 x2 <= 0` is generated although `y0 = 3 + 1e-6`,
`y1 = -1e-6`, `x2 = 1` is feasible. -/
theorem tiny_lower_invalid : ∃ c ∈ (generateCuts Obj.new tinyLower tinyLowerLp []).2, tinyLower.WF ∧
    ∃ x, tinyLower.Feasible x ∧ ¬ c.SatIn tinyLower.inf x :=
  ⟨⟨-dblMax, 0, [(0, 1), (2, -3)]⟩, by decide +kernel, by decide +kernel,
    fun j => if j = 0 then 3 + 1 / 10 ^ 6 else if j = 1 then -1 / 10 ^ 6 else if j = 2 then 1 else 0,
    by decide +kernel, by decide +kernel⟩

/-- `y0 + y1 + (5/2 - 2e-7) x2 <= 4` with the variable bounds of `base`: the two coefficients of `x2` in the cut nearly cancel. -/
def nearCancel : Prob :=
  { base with rows := [⟨-dblMax, 4, [(0, 1), (1, 1), (2, 5 / 2 - 2 / 10 ^ 7)]⟩, ⟨-dblMax, 0, [(0, 1), (2, -3)]⟩,
      ⟨-dblMax, 0, [(1, 1), (3, -3)]⟩] }

/-- The remaining coefficient -4e-7 of `x2` is dropped without relaxing the right-hand side (so the grid condition cannot be
left out, the other condition alone is not enough). -/
theorem near_cancel_invalid : Exact nearCancel ∧ ∃ c ∈ (generateCuts Obj.new nearCancel lp []).2, nearCancel.WF ∧
    ∃ x, nearCancel.Feasible x ∧ ¬ c.SatIn nearCancel.inf x :=
  ⟨by decide +kernel, ⟨-dblMax, 3 / 2 - 2 / 10 ^ 7, [(0, 1), (1, 1), (3, -3 / 2 - 2 / 10 ^ 7)]⟩, by decide +kernel, by decide +kernel,
    fun j => if j = 0 then 3 / 2 + 2 / 10 ^ 7 else if j = 2 then 1 else 0, by decide +kernel, by decide +kernel⟩

end Cgl.FlowCover.Witness
