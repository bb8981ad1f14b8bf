import Verif.MoveObj.Start
import Verif.Setup.Witness
import Mathlib.Algebra.BigOperators.Fin

/-! # Concrete cases, and offsets with the wrong sign -/

namespace Cgl.MoveObj

/-- The first `n` costs and the offset. -/
def shown (n : Nat) (o : Obj) : List ℚ × ℚ := ((List.range n).map o.cost, o.offset)

/-- The value in the form in which it is computed. -/
theorem value_list (n : Nat) (o : Obj) (x : Nat → ℚ) :
    value n o x = ((List.range n).map fun j => o.cost j * x j).sum - o.offset := by
  unfold value
  rw [Finset.sum_range, ← List.sum_ofFn, List.ofFn_eq_map, ← List.map_coe_finRange_eq_range, List.map_map]
  rfl

/-- Columns 0 (integer), 1, 2 (continuous), 3 (fixed at 1), 4 (continuous). -/
def base (rows : List Row) : Prob where
  nCols := 5
  inf := 10 ^ 30
  colLower := fun j => if j = 3 then 1 else 0
  colUpper := fun j => if j = 3 then 1 else 10
  isInt := fun j => j == 0
  rows := rows

/-- 2 x0 - x1 - x2 + 4 x3 = 4, and an inequality. -/
def zeroed : Prob := base [⟨4, 4, [(0, 2), (1, -1), (2, -1), (3, 4)]⟩, ⟨0, 8, [(1, 1), (4, 1)]⟩]

/-- Costs -3, -5 on the continuous columns, 7 on the others. -/
def costs : Obj := ⟨fun j => if j = 1 then -3 else if j = 2 then -5 else if j = 0 then 0 else 7, 100⟩

/-- x0 = 1, x1 = 2, x3 = 1, x4 = 3. -/
def point : Nat → ℚ := fun j => [1, 2, 0, 1, 3].getD j 0

theorem zeroed_tidy : Tidy zeroed := ⟨⟨by decide +kernel, by decide +kernel⟩, by decide +kernel, by decide +kernel⟩

/-- A point that is feasible, and a move with the right sign: -3 goes to column 0 (twice), the offset follows. -/
theorem zeroed_moved : zeroed.Feasible point ∧ RightSigns zeroed zeroed.rows costs ∧
    shown 5 (moveCosts zeroed costs) = ([-6, 0, -2, -5, 7], 88) := by
  refine ⟨by decide +kernel, by decide +kernel, by decide +kernel⟩

/-- The values are the same, as the theorem says: -78. -/
theorem zeroed_value : value 5 costs point = -78 ∧ value 5 (moveCosts zeroed costs) point = -78 := by
  rw [value_list, value_list]
  exact ⟨by decide +kernel, by decide +kernel⟩

/-- The costs are small enough for `moveRow_moved`. -/
theorem zeroed_small : ∀ r ∈ zeroed.rows, ∀ p ∈ r.coefs, |costs.cost p.1| < dblMax := by decide +kernel

/-- Positive costs on columns with negative coefficients. -/
def plusCosts : Obj := ⟨fun j => if j = 1 then 3 else if j = 2 then 5 else if j = 0 then 0 else 7, 100⟩

/-- 2 x0 - x1 - x2 + 4 x3 = 4 with positive costs: the offset goes in the wrong direction, and the value of the objective at a
feasible point changes from -66 to -42. -/
theorem wrong_plus : Tidy zeroed ∧ zeroed.Feasible point ∧ shown 5 (moveCosts zeroed plusCosts) = ([6, 0, 2, 19, 7], 88) ∧
    value 5 plusCosts point = -66 ∧ value 5 (moveCosts zeroed plusCosts) point = -42 := by
  refine ⟨zeroed_tidy, by decide +kernel, by decide +kernel, ?_, ?_⟩
  · rw [value_list]; decide +kernel
  · rw [value_list]; decide +kernel

/-- The same row, negated. -/
def negated : Prob := base [⟨-4, -4, [(0, -2), (1, 1), (2, 1), (3, -4)]⟩]

theorem negated_tidy : Tidy negated := ⟨⟨by decide +kernel, by decide +kernel⟩, by decide +kernel, by decide +kernel⟩

/-- Negative costs on columns with positive coefficients: wrong again. -/
theorem wrong_minus : Tidy negated ∧ negated.Feasible point ∧
    value 5 costs point = -78 ∧ value 5 (moveCosts negated costs) point = -102 := by
  refine ⟨negated_tidy, by decide +kernel, ?_, ?_⟩
  · rw [value_list]; decide +kernel
  · rw [value_list]; decide +kernel

/-- Positive costs on columns with positive coefficients are right. -/
theorem negated_right : RightSigns negated negated.rows plusCosts ∧ value 5 plusCosts point = -66 ∧
    value 5 (moveCosts negated plusCosts) point = -66 := by
  refine ⟨by decide +kernel, ?_, ?_⟩
  · rw [value_list]; decide +kernel
  · rw [value_list]; decide +kernel

/-- So the value of the objective is not kept in general. -/
theorem value_not_kept : ¬ ∀ (P : Prob) (_ : Tidy P) (o : Obj) (x : Nat → ℚ) (_ : P.Feasible x),
    value P.nCols (moveCosts P o) x = value P.nCols o x := by
  intro h
  have h1 := h zeroed zeroed_tidy plusCosts point wrong_plus.2.1
  have e : zeroed.nCols = 5 := rfl
  rw [e, wrong_plus.2.2.2.1, wrong_plus.2.2.2.2] at h1
  norm_num at h1

/-- Rows that do not suit: different coefficients, a single column with cost, a single continuous column, no continuous column. -/
theorem not_moved :
    [moveCosts (base [⟨4, 4, [(0, 2), (1, -1), (2, -2)]⟩]) plusCosts, moveCosts (base [⟨4, 4, [(4, 2), (1, -1), (2, -1)]⟩]) plusCosts,
      moveCosts (base [⟨4, 5, [(0, 2), (1, -1), (2, -1)]⟩]) plusCosts,
      moveCosts { zeroed with isInt := fun _ => true } plusCosts].map (shown 5) = List.replicate 4 (shown 5 plusCosts) := by
  decide +kernel

/-- `Tidy` as a test. -/
def tidyTest (P : Prob) : Bool :=
  decide (∀ r ∈ P.rows, ∀ p ∈ r.coefs, p.1 < P.nCols) && decide (∀ r ∈ P.rows, (r.coefs.map Prod.fst).Nodup) &&
    decide (∀ r ∈ P.rows, ∀ p ∈ r.coefs, p.2 ≠ 0) && decide (∀ r ∈ P.rows, r.lb = r.ub → |r.lb| < P.inf)

theorem tidy_of_test {P : Prob} (h : tidyTest P = true) : Tidy P := by
  unfold tidyTest at h
  simp only [Bool.and_eq_true, decide_eq_true_eq] at h
  exact ⟨⟨h.1.1.1, h.1.1.2⟩, h.1.2, h.2⟩

/-- The hypotheses of `start_objective_partial` hold for the example of `Setup`, with two slack columns. -/
theorem start_meets : Setup.Neat Setup.prob ∧ Setup.Tidy Setup.exactRat Setup.prob ∧ Setup.CrispRhs Setup.exactRat false Setup.prob ∧
    ∃ M S, Setup.setup Setup.exactRat false 2 Setup.prob = .ok (some (M, S)) ∧ Tidy S ∧ S.nCols = Setup.prob.nCols + 2 := by
  refine ⟨Setup.prob_meets.1, Setup.prob_meets.2.1, Setup.prob_meets.2.2.2.2, ?_⟩
  have hd : (match Setup.setup Setup.exactRat false 2 Setup.prob with
    | .ok (some q) => tidyTest q.2 && decide (q.2.nCols = Setup.prob.nCols + 2)
    | _ => false) = true := by decide +kernel
  cases h : Setup.setup Setup.exactRat false 2 Setup.prob with
  | error e => rw [h] at hd; cases hd
  | ok o =>
    rw [h] at hd
    cases o with
    | none => cases hd
    | some q =>
      rw [Bool.and_eq_true] at hd
      exact ⟨q.1, q.2, rfl, tidy_of_test hd.1, of_decide_eq_true hd.2⟩

end Cgl.MoveObj
