import Verif.Relax.Props

/-! # A case that meets the hypotheses, and one where bounds outside those of the user lose a point -/

namespace Cgl.Relax

/-- The problem of the user. -/
def user : Prob :=
  { nCols := 4, inf := dblMax, colLower := fun _ => 0, colUpper := fun _ => 5, isInt := fun j => decide (j = 3),
    rows := [⟨-dblMax, 9, [(0, 1), (1, 2), (3, 1)]⟩] }

/-- Columns 0, 1 and 3 have been fixed. -/
def fixed : Prob :=
  { user with
    colLower := fun j => if j = 0 then 0 else if j = 1 then 2 else if j = 3 then 1 else 0
    colUpper := fun j => if j = 0 then 0 else if j = 1 then 2 else if j = 3 then 1 else 5 }

/-- The hypotheses are met, there is a feasible point, and the bounds of two columns change. -/
theorem fixed_meets : (∀ k < fixed.nCols, user.colLower k ≤ fixed.colLower k ∧ fixed.colUpper k ≤ user.colUpper k) ∧
    user.nCols = fixed.nCols ∧ user.inf = fixed.inf ∧ fixed.Feasible (fun j => if j = 1 then 2 else if j = 3 then 1 else 0) ∧
    (List.range 4).map (relax user (1 / 10) fixed).colLower = [0, 19 / 10, 0, 1] ∧
    (List.range 4).map (relax user (1 / 10) fixed).colUpper = [1 / 10, 21 / 10, 5, 1] := by
  refine ⟨by decide +kernel, by decide +kernel, by decide +kernel, by decide +kernel, by decide +kernel, by decide +kernel⟩

/-- If a bound is outside that of the user a point is lost. -/
theorem not_inside : ∃ P : Prob, P.inf = user.inf ∧ P.nCols = user.nCols ∧ ∃ x, P.Feasible x ∧ ¬ (relax user (1 / 10) P).Feasible x :=
  ⟨{ user with colLower := fun j => if j = 0 then -1 else 0, colUpper := fun j => if j = 0 then -1 else 5 }, rfl, rfl,
    fun j => if j = 0 then -1 else 0, by decide +kernel, by decide +kernel⟩

end Cgl.Relax
