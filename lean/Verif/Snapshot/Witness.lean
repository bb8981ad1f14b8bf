import Verif.Snapshot.Props

/-!
# Cases for the theorems about `snapshot`
-/

namespace Cgl.Snapshot
open Cgl.Probing

/-- Two integer columns from 0 to 10: `2 x + y ≤ 4`, `x + y ≤ 100` (redundant), `x - y ≥ 1`. -/
def pTwo : Prob where
  nCols := 2
  inf := 10 ^ 30
  colLower := fun _ => 0
  colUpper := fun _ => 10
  isInt := fun _ => true
  rows := [⟨-10 ^ 30, 4, [(0, 2), (1, 1)]⟩, ⟨-10 ^ 30, 100, [(0, 1), (1, 1)]⟩, ⟨1, 10 ^ 30, [(0, 1), (1, -1)]⟩]

def ptTwo : Nat → ℚ := fun c => if c = 0 then 1 else 0

/-- The hypotheses of the theorems are met; the copy has tighter bounds, and the second row is marked. -/
theorem two_meets : Data pTwo (some [true, true, true]) ∧ Point pTwo (some [true, true, true]) ptTwo ∧
    (snapshot pTwo (fun _ => 1) 1 (some [true, true, true]) false).possible = some [true, false, true] ∧
    (snapshot pTwo (fun _ => 1) 1 (some [true, true, true]) false).colUpper 0 = 2 ∧
    (snapshot pTwo (fun _ => 1) 1 (some [true, true, true]) false).colLower 0 = 1 ∧
    (snapshot pTwo (fun _ => 1) 1 (some [true, true, true]) false).colUpper 1 = 1 ∧
    InBounds 2 (snapshot pTwo (fun _ => 1) 1 (some [true, true, true]) false) ptTwo ∧
    ((snapshot pTwo (fun _ => 1) 1 (some [true, true, true]) false).rows)[2]? = some ([(1, -1), (0, 1)] : SVec) := by
  decide +kernel

/-- With the first row not wanted the bounds stay wide; the array keeps its 0. -/
theorem two_unwanted : Data pTwo (some [false, true, true]) ∧
    (snapshot pTwo (fun _ => 1) 1 (some [false, true, true]) false).possible = some [false, false, true] ∧
    (snapshot pTwo (fun _ => 1) 1 (some [false, true, true]) false).colUpper 0 = 10 := by
  decide +kernel

/-- `x + y ≥ 30` with columns up to 10. -/
def pNone : Prob := { pTwo with rows := [⟨30, 10 ^ 30, [(0, 1), (1, 1)]⟩] }

/-- The return code is 1. -/
theorem none_code : Data pNone none ∧ (snapshot pNone (fun _ => 1) 1 none true).code = 1 := by decide +kernel

/-- One integer column from 0 to 10: `0.01 x ≤ 0.0299995` and `1000000 x ≤ 2999950`. -/
def pRound : Prob where
  nCols := 1
  inf := 10 ^ 30
  colLower := fun _ => 0
  colUpper := fun _ => 10
  isInt := fun _ => true
  rows := [⟨-10 ^ 30, 299995 / 10 ^ 7, [(0, 1 / 100)]⟩, ⟨-10 ^ 30, 2999950, [(0, 10 ^ 6)]⟩]

/-- Rows are set to 0 although they are not redundant: the first row gives `x ≤ 2.99995`, which makes the second row
redundant; then the bound is rounded to 3, and the first row is redundant within the tolerance.  The point 3 is within
the bounds and rows of the copy and violates the second row by 50. -/
theorem not_redundant : Data pRound (some [true, true]) ∧
    (snapshot pRound (fun _ => 0) 1 (some [true, true]) false).possible = some [false, false] ∧
    InBounds 1 (snapshot pRound (fun _ => 0) 1 (some [true, true]) false) (fun _ => 3) ∧
    InRows (snapshot pRound (fun _ => 0) 1 (some [true, true]) false) (fun _ => 3) ∧
    ¬ Nearly 49 ⟨-10 ^ 30, 2999950, [(0, 10 ^ 6)]⟩ (fun _ => 3) := by
  decide +kernel

/-- With the objective (the default) the copy is never whole: nothing writes the bounds of the last row. -/
theorem not_objective (P : Prob) (obj : Nat → ℚ) (sense : ℚ) (possible : Option (List Bool)) :
    ¬ Whole P true (snapshot P obj sense possible true) := by
  intro h
  obtain ⟨b, hb⟩ := h.bounds P.rows.length (by simp [snapshot])
  dsimp only [snapshot] at hb
  rw [List.getElem?_append_right (by simp)] at hb
  simp at hb

/-- A second call on the same object never leaves a whole copy of a problem that has rows, whatever is left in the
object: `numberRows_` is 0. -/
theorem again_lost (old : List Nat) (P : Prob) (obj : Nat → ℚ) (sense : ℚ) (possible : Option (List Bool)) (w : Bool)
    (h : P.rows ≠ []) : ¬ Whole P w (snapshotAgain old P obj sense possible w) := by
  intro hw
  have h1 : (if w then 1 else 0) = P.rows.length + if w then 1 else 0 := hw.number
  have := List.length_pos_of_ne_nil h
  omega

/-- So redundant rows are not marked by a second call. -/
theorem again_unmarked : Data pTwo (some [true, true, true]) ∧
    (snapshotAgain [0, 1, 2] pTwo (fun _ => 1) 1 (some [true, true, true]) false).possible = some [true, true, true] ∧
    (snapshotAgain [0, 1, 2] pTwo (fun _ => 1) 1 (some [true, true, true]) false).numberRows = 0 ∧
    pTwo.rows ≠ [] := by
  refine ⟨by decide +kernel, rfl, rfl, by simp [pTwo]⟩

end Cgl.Snapshot
