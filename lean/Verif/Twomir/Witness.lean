import Verif.Twomir.Props

/-!
# CglTwomir: concrete cases

Cases that meet the hypotheses of the theorems of `Props.lean`, and cases that show that the conditions are needed.
-/

namespace Cgl.Twomir.Witness

/-- The parameters of the default constructor. -/
def prm : Prm := ⟨5 / 10000, 5 / 10000, true, true, true, true, 1, 1, 1, 1, 2, 50000, 50000⟩
/-- Second pass at the root, ten formulation rows. -/
def info : Info := ⟨false, 1, 0, false, 10⟩

/-- Two integer columns in `0..10` with `2 x + 2 y ≤ 7` and `10 x + 5 y ≥ 8`. -/
def P1 : Prob where
  nCols := 2
  inf := dblMax
  colLower := fun _ => 0
  colUpper := fun _ => 10
  isInt := fun _ => true
  rows := [⟨-dblMax, 7, [(0, 2), (1, 2)]⟩, ⟨8, dblMax, [(0, 10), (1, 5)]⟩]

/-- LP solution `(7/2, 0)`, first column basic. -/
def D1 : Data := ⟨P1, fun j => if j = 0 then 7 / 2 else 0, fun j => if j = 1 then 1 else 0, fun j => j == 0⟩
/-- Row of the inverse of the basis matrix. -/
def fact1 : Option (Nat → SVec) := some fun _ => [(0, 1 / 2)]

/-- The hypotheses of C27, C54 and C55 are met by a call that uses both a tableau row and a formulation row, and the cut
`- x/2 - y/2 ≥ - 3/2` comes out. -/
theorem case1 : D1.P.WF ∧ Clean D1 prm info fact1 (fun _ _ => 0) ∧ FixedAtBound D1 ∧ SmallCoefs D1.P ∧
    D1.P.Feasible (fun j => if j = 0 then 3 else 0) ∧ Representable D1.P (fun j => if j = 0 then 3 else 0) ∧
    (generateCuts D1 prm info fact1 (fun _ _ => 0) ⟨[], []⟩).map Cuts.rows =
      some [⟨-3 / 2, dblMax, [(0, -1 / 2), (1, -1 / 2)]⟩] := by
  decide +kernel

/-- LP solution `(4/5, 0)`: a mixed-integer rounding cut and a two-step cut come out. -/
def D2 : Data := ⟨P1, fun j => if j = 0 then 4 / 5 else 0, fun j => if j = 1 then 1 else 0, fun j => j == 0⟩

theorem case2 : D2.P.WF ∧ Clean D2 prm info none (fun _ _ => 0) ∧ FixedAtBound D2 ∧ SmallCoefs D2.P ∧
    D2.P.Feasible (fun j => if j = 0 then 1 else 0) ∧ Representable D2.P (fun j => if j = 0 then 1 else 0) ∧
    (generateCuts D2 prm info none (fun _ _ => 0) ⟨[], []⟩).map Cuts.rows =
      some [⟨4 / 5, dblMax, [(0, 4 / 5), (1, 1 / 2)]⟩, ⟨3 / 5, dblMax, [(0, 3 / 5), (1, 3 / 10)]⟩] := by
  decide +kernel

/-- One integer column in `0..10` with `2 x ≥ 3`. -/
def P5 : Prob where
  nCols := 2
  inf := dblMax
  colLower := fun _ => 0
  colUpper := fun j => if j = 0 then 10 else 0
  isInt := fun _ => true
  rows := [⟨3, dblMax, [(0, 2), (1, 1)]⟩]

/-- LP solution `(3/2, 0)`, the second column fixed. -/
def D5 : Data := ⟨P5, fun j => if j = 0 then 3 / 2 else 0, fun _ => 0, fun j => j == 0⟩

/-- A column cut comes out: `x ≥ 2`. -/
theorem case_column : D5.P.WF ∧ Clean D5 prm info none (fun _ _ => 0) ∧ FixedAtBound D5 ∧
    D5.P.Feasible (fun j => if j = 0 then 2 else 0) ∧
    (generateCuts D5 prm info none (fun _ _ => 0) ⟨[], []⟩).map Cuts.cols = some [⟨[(0, 2)], []⟩] := by
  decide +kernel

/-- `z` in `0..2` and `y` in `-10000003..-10000000`, both integer, with `z + (1 + 5e-8) y ≥ 3/4 - (1 + 5e-8) 10000003`. -/
def P3 : Prob where
  nCols := 2
  inf := dblMax
  colLower := fun j => if j = 0 then 0 else -10000003
  colUpper := fun j => if j = 0 then 2 else -10000000
  isInt := fun _ => true
  rows := [⟨(1 + 5 / 10 ^ 8) * (-10000003) + 3 / 4, dblMax, [(0, 1), (1, 1 + 5 / 10 ^ 8)]⟩]

def D3 : Data := ⟨P3, fun j => if j = 0 then 3 / 4 else -10000003, fun _ => 0, fun j => j == 0⟩

/-- A feasible point of `P3`. -/
def x3 : Nat → ℚ := fun j => if j = 0 then 1 else -10000003

/-- `DGG_nicefyConstraint` pads with the upper bound of the column although the variable has been replaced by its distance
to the lower bound: with a negative upper bound the right-hand side goes up, here by one half, and the cut
`z/4 + y/4 ≥ - 10000001/4` cuts off the feasible point `(1, -10000003)`. -/
theorem negative_bound_invalid : D3.P.WF ∧ Clear D3.P ∧ FixedAtBound D3 ∧ D3.P.Feasible x3 ∧ Representable D3.P x3 ∧
    (generateCuts D3 prm info none (fun _ _ => 0) ⟨[], []⟩).map Cuts.rows =
      some [⟨-10000001 / 4, dblMax, [(0, 1 / 4), (1, 1 / 4)]⟩] ∧
    ¬ RowCut.SatIn D3.P.inf ⟨-10000001 / 4, dblMax, [(0, 1 / 4), (1, 1 / 4)]⟩ x3 := by
  decide +kernel

/-- `1/2 ≤ x + w ≤ 1/2 + 1e-6` with `x` integer and `w` continuous. -/
def P4 : Prob where
  nCols := 2
  inf := dblMax
  colLower := fun _ => 0
  colUpper := fun _ => 10
  isInt := fun j => j == 0
  rows := [⟨1 / 2, 1 / 2 + 1 / 10 ^ 6, [(0, 1), (1, 1)]⟩]

def D4 : Data := ⟨P4, fun j => if j = 0 then 1 / 2 + 1 / 10 ^ 6 else 0, fun _ => 0, fun j => j == 0⟩

/-- A range row whose sides are within `1e-6` is taken for an equality: the cut misses the feasible point `(0, 1/2)` by
`1e-6`. -/
theorem near_equality_invalid : D4.P.WF ∧ FixedAtBound D4 ∧ D4.P.Feasible (fun j => if j = 0 then 0 else 1 / 2) ∧
    ∃ r ∈ ((generateCuts D4 prm info none (fun _ _ => 0) ⟨[], []⟩).map Cuts.rows).getD [],
      ¬ RowCut.SatIn D4.P.inf r (fun j => if j = 0 then 0 else 1 / 2) := by
  decide +kernel

/-- `1e8 x ≤ 15e7` with `x` integer. -/
def P6 : Prob where
  nCols := 1
  inf := dblMax
  colLower := fun _ => 0
  colUpper := fun _ => 10
  isInt := fun _ => true
  rows := [⟨-dblMax, 15 * 10 ^ 7, [(0, 10 ^ 8)]⟩]

def D6 : Data := ⟨P6, fun _ => 3 / 2, fun _ => 0, fun j => j == 0⟩

/-- With a coefficient of `1e8` the conversion `int(100*skala)` is undefined behaviour. -/
theorem large_coefficient_undefined : D6.P.WF ∧ Clear D6.P ∧ D6.P.Feasible (fun _ => 1) ∧
    (generateCuts D6 prm info none (fun _ _ => 0) ⟨[], []⟩).isNone = true := by
  decide +kernel

end Cgl.Twomir.Witness
