import Verif.MadeCont.Props

/-! # A case that meets the hypotheses, and one that gets new points -/

namespace Cgl.MadeCont

/-- Two singletons in one equation and one in another one. -/
def sample : Prob :=
  { nCols := 4, inf := dblMax, colLower := fun _ => 0, colUpper := fun _ => 5, isInt := fun _ => true,
    rows := [⟨3, 3, [(0, 1), (1, 1), (2, 2)]⟩, ⟨1, 1, [(2, 3), (3, -1)]⟩] }

/-- The hypotheses are met, there is a feasible point, and one column of each row becomes continuous. -/
theorem sample_meets : sample.WF ∧ Whole sample ∧ sample.Feasible (fun j => if j = 3 then 2 else if j = 1 then 0 else 1) ∧
    (madeCont (fun _ => 0) sample).2 = 2 ∧
    (List.range 4).map (madeCont (fun _ => 0) sample).1.isInt = [false, true, true, false] := by
  refine ⟨by decide +kernel, by decide +kernel, by decide +kernel, by decide +kernel, by decide +kernel⟩

/-- An equation with a fractional coefficient. -/
def half : Prob :=
  { nCols := 2, inf := dblMax, colLower := fun _ => 0, colUpper := fun _ => 5, isInt := fun _ => true,
    rows := [⟨3 / 2, 3 / 2, [(0, 1), (1, 1 / 2)]⟩, ⟨-dblMax, 4, [(1, 1)]⟩] }

/-- The first column becomes continuous, and a point with a fractional value becomes feasible: coefficients of the other columns
and the right hand side are not tested. -/
theorem not_whole : half.WF ∧ ∃ y, (madeCont (fun _ => 0) half).1.Feasible y ∧ ¬ half.Feasible y :=
  ⟨by decide +kernel, fun j => if j = 0 then 3 / 2 else 0, by decide +kernel, by decide +kernel⟩

end Cgl.MadeCont
