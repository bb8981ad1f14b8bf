import Verif.Finish.Props

/-! # Cases that meet the hypotheses, and cases where a stronger statement is false -/

namespace Cgl.Finish

/-- The columns `a`, ..., `a + n - 1`, all with coefficient 1. -/
def run (a n : Nat) : SVec := (List.range n).map fun i => (a + i, 1)

/-- Two disjoint equations, one that overlaps, one that is short and one with another right hand side. -/
def sets : Prob :=
  { nCols := 13, inf := dblMax, colLower := fun _ => 0, colUpper := fun _ => 1, isInt := fun _ => true,
    rows := [⟨1, 1, run 0 5⟩, ⟨1, 1, run 3 5⟩, ⟨1, 1, run 5 6⟩, ⟨1, 1, run 11 2⟩, ⟨-dblMax, 1, run 0 7⟩] }

/-- The hypotheses are met, there is a feasible point and two sets are reported with `makeEquality` 3, none with 2 or without
cliques. -/
theorem sets_meet : sets.WF ∧ 1 < sets.inf ∧ Eligible sets ⟨1, 1, run 3 5⟩ ∧
    sets.Feasible (fun j => if j = 3 ∨ j = 8 ∨ j = 11 then 1 else 0) ∧
    sos sets (fun _ => 1) 3 1 false false = [[0, 1, 2, 3, 4], [5, 6, 7, 8, 9, 10]] ∧ sos sets (fun _ => 1) 2 1 false false = [] ∧
    sos sets (fun _ => 1) 3 0 false false = [] ∧
    sos sets (fun j => j) 3 1 true false = [[0, 1, 2, 3, 4], [5, 6, 7, 8, 9, 10], [11, 12]] := by
  refine ⟨by decide +kernel, by decide +kernel, by decide +kernel, by decide +kernel, by decide +kernel, by decide +kernel,
    by decide +kernel, by decide +kernel⟩

/-- Two equations that cover all integer columns but one: sets are reported with `makeEquality` 2. -/
def cover : Prob :=
  { nCols := 11, inf := dblMax, colLower := fun _ => 0, colUpper := fun _ => 1, isInt := fun _ => true,
    rows := [⟨1, 1, run 0 5⟩, ⟨1, 1, run 5 5⟩] }

theorem cover_meets : sos cover (fun _ => 0) 2 1 false false = [[0, 1, 2, 3, 4], [5, 6, 7, 8, 9]] := by decide +kernel

/-- With an equation that overlaps none is reported. -/
theorem overlap_none : sos { cover with rows := cover.rows ++ [⟨1, 1, run 3 5⟩] } (fun _ => 0) 2 1 false false = [] := by decide +kernel

/-- Two equations of twenty columns with a common one. -/
def big : Prob :=
  { nCols := 39, inf := dblMax, colLower := fun _ => 0, colUpper := fun _ => 1, isInt := fun _ => true,
    rows := [⟨1, 1, run 0 20⟩, ⟨1, 1, run 19 20⟩, ⟨1, 1, run 0 6⟩] }

/-- With `allToGub` sets may overlap. -/
theorem not_disjoint : big.WF ∧ sos big (fun _ => 0) 3 1 false true = [List.range 20, (List.range 20).map (19 + ·)] ∧
    ¬ (sos big (fun _ => 0) 3 1 false true).Pairwise fun a b => ∀ j ∈ a, j ∉ b := by
  refine ⟨by decide +kernel, by decide +kernel, by decide +kernel⟩

/-- Rows of the types 1, 0, 2. -/
theorem cuts_meet : let P : Prob := { cover with rows := [⟨1, 1, run 0 2⟩, ⟨0, 3, run 1 3⟩, ⟨-dblMax, 2, run 2 3⟩] }
    let t : Nat → ℤ := fun i => if i = 0 then 1 else if i = 2 then 2 else 0
    (takeCuts P t).1.rows.map (fun r => (r.lb, r.ub, r.coefs)) = [(0, 3, run 1 3), (-dblMax, 2, run 2 3)] ∧
    (takeCuts P t).2.map (fun c => (c.lb, c.ub, c.row)) =
      [(1, 1, run 0 2)] ∧ P.Feasible (fun j => if j = 1 then 1 else 0) := by
  refine ⟨by decide +kernel, by decide +kernel, by decide +kernel⟩

/-- An equation and an inequality whose right hand sides are off by 1e-14. -/
def off : Prob :=
  { nCols := 2, inf := dblMax, colLower := fun _ => 0, colUpper := fun _ => 3, isInt := fun _ => true,
    rows := [⟨2 + 1 / 10 ^ 14, 3 - 1 / 10 ^ 14, [(0, 1), (1, -1)]⟩, ⟨-dblMax, 3 + 1 / 10 ^ 14, [(0, 1), (1, 2)]⟩] }

/-- The hypotheses of `clean_near` and `clean_keeps` are met, right hand sides change, and a point that violates a row by 1e-14 becomes
feasible. -/
theorem off_meets : off.WF ∧ 10 ^ 15 + 1 ≤ off.inf ∧
    (∀ r ∈ off.rows, (∀ p ∈ r.coefs, off.isInt p.1 = true) → ∀ p ∈ r.coefs, IsInteger p.2) ∧
    (clean off).rows.map (fun r => (r.lb, r.ub)) = [(2, 3), (-dblMax, 3)] ∧
    (clean off).Feasible (fun j => if j = 0 then 2 else 0) ∧ ¬ off.Feasible (fun j => if j = 0 then 2 else 0) := by
  refine ⟨by decide +kernel, by decide +kernel, by decide +kernel, by decide +kernel, by decide +kernel, by decide +kernel⟩

/-- A feasible point exists for `clean_keeps` too, with a right hand side that changes. -/
theorem kept_meets : let P : Prob := { off with rows := [⟨2 - 1 / 10 ^ 14, dblMax, [(0, 1), (1, -1)]⟩] }
    P.WF ∧ P.Feasible (fun j => if j = 0 then 2 else 0) ∧ (clean P).rows.map Row.lb = [2] := by
  refine ⟨by decide +kernel, by decide +kernel, by decide +kernel⟩

/-- A row whose coefficients are not integer. -/
def fraction : Prob :=
  { nCols := 2, inf := dblMax, colLower := fun _ => 0, colUpper := fun _ => 5, isInt := fun _ => true,
    rows := [⟨-dblMax, 3 + 1 / 10 ^ 14, [(0, 6 / 10), (1, 6 / 10 + 1 / 10 ^ 14)]⟩] }

/-- The coefficient 0.6 counts as an integer, because the difference to the nearest integer is tested without `fabs` (:4498); the
upper bound is made smaller and a feasible point is lost. -/
theorem not_kept : fraction.WF ∧ 10 ^ 15 + 1 ≤ fraction.inf ∧ ∃ x, fraction.Feasible x ∧ ¬ (clean fraction).Feasible x := by
  refine ⟨by decide +kernel, by decide +kernel, fun j => if j = 0 then 4 else 1, by decide +kernel, by decide +kernel⟩

end Cgl.Finish
