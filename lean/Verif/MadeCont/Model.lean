import Verif.Spec

/-!
# Integer singleton columns made continuous in `CglPreProcess::preProcessNonDefault`

`/repo/src/CglPreProcess/CglPreProcess.cpp`, lines 3805-3833, done with `makeEquality` -2 when nothing changes any more.  An integer
column without cost that is in one row only, an equation, becomes continuous if all columns of the row are integer.  `double` is `ℚ`;
integrality is read from the problem as changed so far.
-/

namespace Cgl.MadeCont

/-- `columnLength[iColumn]`. -/
def colLength (P : Prob) (j : Nat) : Nat := P.rows.countP fun r => (r.coefs.map Prod.fst).contains j

/-- The row of a singleton column, :3809-3810. -/
def rowOf (P : Prob) (j : Nat) : Option Row := P.rows.find? fun r => (r.coefs.map Prod.fst).contains j

/-- The tests of the row, :3811-3825. -/
def suits (P : Prob) (j : Nat) (r : Row) : Bool :=
  decide (r.lb = r.ub) && decide (|(r.coefs.lookup j).getD 0| = 1) &&
    decide ((r.coefs.lookup j).getD 0 - ⌊(r.coefs.lookup j).getD 0⌋ = 0) && r.coefs.all fun p => P.isInt p.1

/-- One column, :3806-3832: the problem and `nMadeContinuous`. -/
def step (cost : Nat → ℚ) (s : Prob × Nat) (j : Nat) : Prob × Nat :=
  if colLength s.1 j = 1 ∧ cost j = 0 ∧ s.1.isInt j = true then
    match rowOf s.1 j with
    | none => s
    | some r =>
      if suits s.1 j r = true then ({ s.1 with isInt := fun k => !decide (k = j) && s.1.isInt k }, s.2 + 1) else s
  else s

/-- All columns, :3805-3833.  The number says if there is another pass. -/
def madeCont (cost : Nat → ℚ) (P : Prob) : Prob × Nat := (List.range P.nCols).foldl (step cost) (P, 0)

end Cgl.MadeCont
