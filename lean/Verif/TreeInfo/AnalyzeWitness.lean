import Verif.TreeInfo.AnalyzeDup

/-!
# Concrete cases for `analyze` and its clean-up
-/

namespace Cgl.TreeInfo

/-- A 0-1 problem. -/
def binProb (n : Nat) (rows : List Row) : Prob :=
  { nCols := n, inf := 10 ^ 30, colLower := fun _ => 0, colUpper := fun _ => 1, isInt := fun _ => true, rows := rows }

/-- Three columns that exclude each other in pairs. -/
def triangleCalls : List Call :=
  [⟨0, true, 1, true⟩, ⟨1, true, 0, true⟩, ⟨0, true, 2, true⟩, ⟨2, true, 0, true⟩, ⟨1, true, 2, true⟩, ⟨2, true, 1, true⟩]

def triangleProb : Prob := binProb 3 [⟨-10 ^ 30, 1, [(0, 1), (1, 1)]⟩]

def triangleInfo : Info := (run (initializeFixing triangleProb) triangleCalls).get (by decide +kernel)

/-- Non-vacuity of C49: the returned model has the row x0 + x1 + x2 ≤ 1, and the points meet the hypotheses. -/
example : run (initializeFixing triangleProb) triangleCalls = some triangleInfo ∧
    (analyze triangleInfo triangleProb true (-1)).map (fun r => r.map fun q => q.rows.map fun r => (r.ub, r.coefs)) =
      some (some [(1, [(0, 1), (1, 1), (2, 1)]), (1, [(1, 1), (2, 1)])]) ∧
    triangleProb.Feasible (fun j => if j = 1 then 1 else 0) ∧
    (∀ c ∈ triangleCalls, c.Holds triangleProb (fun j => if j = 1 then 1 else 0)) := by
  refine ⟨by simp [triangleInfo], ?_, ?_, ?_⟩ <;> decide +kernel

example : CleanRows triangleProb := by
  refine ⟨by decide +kernel, ?_, by decide +kernel, by decide +kernel, by decide +kernel⟩
  intro j _ h
  norm_num [triangleProb, binProb] at h

/-- A fixed column is moved to the right-hand side: x0 + x1 + 2 y ≤ 3 with y = 1. -/
def fixedProb : Prob :=
  { nCols := 3, inf := 10 ^ 30, colLower := fun j => if j = 2 then 1 else 0, colUpper := fun _ => 1,
    isInt := fun j => decide (j < 2), rows := [⟨3, 3, [(0, 1), (1, 1), (2, 2)]⟩] }

example : (analyze (initializeFixing fixedProb) fixedProb true (-1)).map
    (fun r => r.map fun q => q.rows.map fun r => (r.lb, r.coefs)) = some (some [(1, [(0, 1), (1, 1)])]) := by
  decide +kernel

/-- Non-vacuity of `cleanup_keeps_partial`: two of three cliques are kept. -/
example : outDupsEtc 4 [⟨[(2, true), (0, true)], false⟩, ⟨[(1, true), (3, true)], false⟩, ⟨[(0, true), (2, true)], false⟩] 1 (-1) =
    some ⟨[⟨[(0, true), (2, true)], false⟩, ⟨[(1, true), (3, true)], false⟩], 1, 1⟩ := by
  decide +kernel

/-- x1 + x2 + x4 ≤ 1 and x1 + x3 ≤ 1. -/
def lossRows : Prob := binProb 5 [⟨-10 ^ 30, 1, [(1, 1), (2, 1), (4, 1)]⟩, ⟨-10 ^ 30, 1, [(1, 1), (3, 1)]⟩]

/-- **C12 fails**: the clean-up takes {1,3} for a subset of {1,2,4}.  The model `analyze` returns then allows x1 = x3 = 1, which
the given problem, although it consists of cliques only, does not. -/
theorem cleanup_loses : ∃ Q' x, analyze (initializeFixing lossRows) lossRows true (-1) = some (some Q') ∧
    Q'.Feasible x ∧ ¬ lossRows.Feasible x := by
  refine ⟨((analyze (initializeFixing lossRows) lossRows true (-1)).get (by decide +kernel)).get (by decide +kernel),
    fun j => if j = 1 ∨ j = 3 then 1 else 0, by simp, ?_, ?_⟩ <;> decide +kernel

/-- x0 + x1 ≤ 1 and x0 ≤ x1 (written x0 - x1 ≤ 0). -/
def directionRows : Prob := binProb 2 [⟨-10 ^ 30, 1, [(0, 1), (1, 1)]⟩, ⟨-10 ^ 30, 0, [(0, 1), (1, -1)]⟩]

/-- The clean-up takes two cliques for duplicates if they have the same columns in different directions. -/
theorem cleanup_ignores_direction : ∃ Q' x, analyze (initializeFixing directionRows) directionRows true (-1) = some (some Q') ∧
    Q'.Feasible x ∧ ¬ directionRows.Feasible x := by
  refine ⟨((analyze (initializeFixing directionRows) directionRows true (-1)).get (by decide +kernel)).get (by decide +kernel),
    fun j => if j = 0 then 1 else 0, by simp, ?_, ?_⟩ <;> decide +kernel

/-- x0 + x1 ≤ 1 and x0 + x1 = 1. -/
def typeRows : Prob := binProb 2 [⟨-10 ^ 30, 1, [(0, 1), (1, 1)]⟩, ⟨1, 1, [(0, 1), (1, 1)]⟩]

/-- Of two cliques with the same entries the clean-up keeps the first, even if only the second is an equality. -/
theorem cleanup_prefers_first : ∃ Q' x, analyze (initializeFixing typeRows) typeRows true (-1) = some (some Q') ∧
    Q'.Feasible x ∧ ¬ typeRows.Feasible x := by
  refine ⟨((analyze (initializeFixing typeRows) typeRows true (-1)).get (by decide +kernel)).get (by decide +kernel),
    fun _ => 0, by simp, ?_, ?_⟩ <;> decide +kernel

/-- x1 + x3 + x5 + x7 ≤ 1 and x1 + x2 + x3 + x4 + x5 ≤ 1. -/
def readRows : Prob := binProb 8 [⟨-10 ^ 30, 1, [(1, 1), (3, 1), (5, 1), (7, 1)]⟩,
  ⟨-10 ^ 30, 1, [(1, 1), (2, 1), (3, 1), (4, 1), (5, 1)]⟩]

/-- The clean-up reads past the array of all entries. -/
theorem cleanup_reads_outside : analyze (initializeFixing readRows) readRows true (-1) = none := by decide +kernel

/-- A positive number of extra cliques writes through a null pointer. -/
theorem extra_cliques_fault : analyze (initializeFixing typeRows) typeRows true 1 = none := by decide +kernel

end Cgl.TreeInfo
