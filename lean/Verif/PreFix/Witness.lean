import Verif.PreFix.Cost
import Verif.PreFix.Some
import Verif.PreFix.Index
import Mathlib.Tactic.IntervalCases
import Mathlib.Tactic.NormNum

/-! # Concrete cases for the functions that fix columns and keep track of indices -/

namespace Cgl.PreFix

/-! ### `reducedCostFix` -/

/-- Minimise `x₀ + 3 x₁` subject to `x₀ + x₁ ≥ 1`, both integers between 0 and 4. -/
def sample : Prob where
  nCols := 2
  inf := 10 ^ 30
  colLower := fun _ => 0
  colUpper := fun _ => 4
  isInt := fun _ => true
  rows := [⟨1, 10 ^ 30, [(0, 1), (1, 1)]⟩]

def cost : Objective := ⟨fun j => if j = 0 then 1 else 3, 1⟩

/-- The solver has found (1, 0) with the price 1; a solution of value 2 is known. -/
def answer : Answers where
  solution := fun j => if j = 0 then 1 else 0
  dj := fun j => if j = 0 then 0 else 2
  objValue := 1
  limit := 2
  dualTol := 1 / 10 ^ 7
  primalTol := 1 / 10 ^ 7

theorem sample_optimal : Optimal sample cost answer fun _ => 1 where
  objValue := by decide +kernel
  dj := by
    intro j hj
    have h : j < 2 := hj
    interval_cases j <;> decide +kernel
  rows := by
    intro i r hr
    cases i with
    | zero =>
      obtain rfl := Option.some.inj hr
      exact ⟨fun _ => by decide +kernel, fun h => absurd h (by decide +kernel)⟩
    | succ i => simp [sample] at hr
  columns := by
    intro j hj
    have h : j < 2 := hj
    interval_cases j <;>
      exact ⟨fun h => by revert h; decide +kernel, fun h => by revert h; decide +kernel⟩

theorem isInteger_nat (n : Nat) : IsInteger (n : ℚ) := ⟨n, by push_cast; rfl⟩

/-- The hypotheses of `reducedCostFix_keeps_partial` and of `reducedCostFix_complete` hold, one column is fixed, and a feasible
point within the limit remains. -/
theorem sample_fixes : sample.WF ∧ IntegralBounds sample ∧ (reducedCostFix sample cost answer).2 = 1 ∧
    (reducedCostFix sample cost answer).1.colUpper 1 = 0 ∧ (reducedCostFix sample cost answer).1.colUpper 0 = 4 ∧
    sample.Feasible (fun j => if j = 0 then 2 else 0) ∧
    (reducedCostFix sample cost answer).1.Feasible (fun j => if j = 0 then 2 else 0) := by
  have hW : sample.WF := by
    refine ⟨?_, ?_⟩ <;> decide +kernel
  have hB : IntegralBounds sample := fun j _ _ => ⟨isInteger_nat 0, isInteger_nat 4⟩
  have hF : sample.Feasible (fun j => if j = 0 then 2 else 0) := by
    refine ⟨?_, ?_, ?_, ?_⟩
    · intro r hr
      obtain rfl := List.mem_singleton.1 hr
      unfold Row.Sat
      decide +kernel
    · intro j hj
      have h : j < 2 := hj
      interval_cases j <;> decide +kernel
    · intro j hj
      have h : j < 2 := hj
      interval_cases j <;> decide +kernel
    · intro j hj _
      have h : j < 2 := hj
      interval_cases j
      · exact isInteger_nat 2
      · exact isInteger_nat 0
  refine ⟨hW, hB, by decide +kernel, by decide +kernel, by decide +kernel, hF, ?_⟩
  exact reducedCostFix_keeps_partial hW sample_optimal hB (by decide +kernel) hF (by decide +kernel)

example : (reducedCostFix sample cost answer).1.colLower 1 = answer.solution 1 ∧
    (reducedCostFix sample cost answer).1.colUpper 1 = answer.solution 1 :=
  reducedCostFix_complete sample_optimal (by decide +kernel) (by decide +kernel) (by decide +kernel) (j := 1)
    (by decide +kernel) rfl (by decide +kernel) (by decide +kernel) (by decide +kernel)

/-- Minimise an integer between 1/2 and 3. -/
def halves : Prob where
  nCols := 1
  inf := 10 ^ 30
  colLower := fun _ => 1 / 2
  colUpper := fun _ => 3
  isInt := fun _ => true
  rows := []

def halvesAnswer : Answers where
  solution := fun _ => 1 / 2
  dj := fun _ => 1
  objValue := 1 / 2
  limit := 1
  dualTol := 1 / 10 ^ 7
  primalTol := 1 / 10 ^ 7

def unitCost : Objective := ⟨fun _ => 1, 1⟩

/-- **Fractional bounds lose every solution**: the bound of an integer column is not rounded, and the column is fixed
at a fraction although the point 1 is feasible and within the limit. -/
theorem reducedCostFix_fails : Optimal halves unitCost halvesAnswer (fun _ => 0) ∧ halves.WF ∧
    halves.Feasible (fun _ => 1) ∧
    unitCost.direction * value halves unitCost (fun _ => 1) ≤ unitCost.direction * halvesAnswer.limit ∧
    ∀ x, ¬ (reducedCostFix halves unitCost halvesAnswer).1.Feasible x := by
  refine ⟨⟨by decide +kernel, ?_, ?_, ?_⟩, ⟨by decide +kernel, by decide +kernel⟩, ⟨?_, ?_, ?_, ?_⟩, by decide +kernel, ?_⟩
  · intro j hj
    have h : j < 1 := hj
    interval_cases j
    decide +kernel
  · intro i r hr
    simp [halves] at hr
  · intro j hj
    have h : j < 1 := hj
    interval_cases j
    exact ⟨fun h => by revert h; decide +kernel, fun h => by revert h; decide +kernel⟩
  · intro r hr
    simp [halves] at hr
  · intro j _
    intro _; change (1 / 2 : ℚ) ≤ 1; norm_num
  · intro j _
    intro _; change (1 : ℚ) ≤ 3; norm_num
  · intro j _ _
    exact isInteger_nat 1
  · intro x hx
    have h0 : 0 < (reducedCostFix halves unitCost halvesAnswer).1.nCols := by decide +kernel
    have h1 := hx.lower 0 h0
    have h2 := hx.upper 0 h0
    have h3 := hx.int 0 h0 (by decide +kernel)
    rw [show (reducedCostFix halves unitCost halvesAnswer).1.colLower 0 = 1 / 2 from by
      decide +kernel] at h1
    rw [show (reducedCostFix halves unitCost halvesAnswer).1.colUpper 0 = 1 / 2 from by
      decide +kernel] at h2
    rw [show (reducedCostFix halves unitCost halvesAnswer).1.inf = 10 ^ 30 from by
      decide +kernel] at h1 h2
    have g1 : (1 / 2 : ℚ) ≤ x 0 := h1 (by norm_num)
    have g2 : x 0 ≤ (1 / 2 : ℚ) := h2 (by norm_num)
    obtain ⟨n, hn⟩ := h3
    have : (n : ℚ) = 1 / 2 := by rw [← hn]; linarith
    have : ((2 * n : ℤ) : ℚ) = (1 : ℤ) := by push_cast; linarith
    have : 2 * n = 1 := by exact_mod_cast this
    omega

/-! ### `someFixed` -/

/-- A sorting algorithm exists. -/
def sorted (l : List (ℚ × Nat)) : List (ℚ × Nat) := l.insertionSort fun a b => a.1 ≤ b.1

instance : Std.Total (fun a b : ℚ × Nat => a.1 ≤ b.1) := ⟨fun a b => le_total a.1 b.1⟩
instance : IsTrans (ℚ × Nat) (fun a b : ℚ × Nat => a.1 ≤ b.1) := ⟨fun _ _ _ h1 h2 => le_trans h1 h2⟩

theorem sorted_sorts : Sorts sorted :=
  fun l => ⟨List.perm_insertionSort _ _, List.pairwise_insertionSort (fun a b : ℚ × Nat => a.1 ≤ b.1) l⟩

/-- Four columns, the last continuous; columns 0, 1 at the lower bound, 2 at the upper bound. -/
def four : Prob where
  nCols := 4
  inf := 10 ^ 30
  colLower := fun _ => 0
  colUpper := fun _ => 2
  isInt := fun j => decide (j < 3)
  rows := []

def fourAnswer : Answers where
  solution := fun j => if j = 2 then 2 else 0
  dj := fun j => if j = 0 then 5 else if j = 1 then 7 else -3
  objValue := 0
  limit := 10
  dualTol := 1 / 10 ^ 7
  primalTol := 1 / 10 ^ 7

/-- What remains of the upper bounds. -/
def uppers (r : Except Fault Prob) (n : Nat) : Option (List ℚ) :=
  match r with
  | .ok N => some ((List.range n).map N.colUpper)
  | .error _ => none

/-- One of three integer columns is fixed: the one with the larger reduced cost. -/
theorem four_fixes : uppers (someFixed sorted four fourAnswer (1 / 2) false none) 4 = some [2, 0, 2, 2] := by
  decide +kernel

example : ∃ N, someFixed sorted four fourAnswer (1 / 2) false none = .ok N :=
  someFixed_returns_partial sorted (by decide +kernel) (by decide +kernel) (by decide +kernel)
    (Or.inl ⟨3, by decide +kernel, Or.inr ⟨by decide +kernel, rfl⟩⟩)

/-- A column to be discarded that is at its lower bound is fixed. -/
theorem four_discards : uppers (someFixed sorted four fourAnswer 1 false (some fun j => if j = 0 then -1 else 0)) 4 =
    some [0, 2, 2, 2] := by
  decide +kernel

/-- **A column to be discarded that is at its upper bound is not fixed**: its lower bound is set to the lower bound. -/
theorem someFixed_fails : ∃ N, someFixed sorted four fourAnswer 1 false (some fun j => if j = 2 then -1 else 0) = .ok N ∧
    N.colLower 2 = 0 ∧ N.colUpper 2 = 2 := by
  have h : ∃ N, someFixed sorted four fourAnswer 1 false (some fun j => if j = 2 then -1 else 0) = .ok N :=
    someFixed_returns_partial sorted (by decide +kernel) (by decide +kernel) (by decide +kernel)
      (Or.inl ⟨3, by decide +kernel, Or.inr ⟨by decide +kernel, rfl⟩⟩)
  obtain ⟨N, hN⟩ := h
  have h2 : uppers (someFixed sorted four fourAnswer 1 false (some fun j => if j = 2 then -1 else 0)) 4 =
      some [2, 2, 2, 2] := by decide +kernel
  rw [hN] at h2
  refine ⟨N, hN, (someFixed_restricts sorted_sorts hN).1 2, ?_⟩
  have h3 := Option.some.inj h2
  exact (List.cons.inj (List.cons.inj (List.cons.inj h3).2).2).1

/-- The same with three columns. -/
def three : Prob := { four with nCols := 3 }

def faultOf (r : Except Fault Prob) : Option Fault :=
  match r with
  | .ok _ => none
  | .error e => some e

/-- **The upper bounds are read outside the array** when every column is a candidate and one of those to be fixed is not
at its lower bound. -/
theorem someFixed_outside : someFixed sorted three fourAnswer 0 false none = .error .outside := by
  have h : faultOf (someFixed sorted three fourAnswer 0 false none) = some .outside := by decide +kernel
  unfold faultOf at h
  cases hr : someFixed sorted three fourAnswer 0 false none with
  | ok N => rw [hr] at h; cases h
  | error e => rw [hr] at h; rw [Option.some.inj h]

/-! ### Prohibited columns and row types -/

/-- Columns 1 and 3 remain of four, column 3 is prohibited; row 0 and 2 remain. -/
example : update [1, 3] [0, 2] ⟨some [0, 0, 0, 1], some [5, 6, 7]⟩ = .ok ⟨some [0, 1], some [5, 7]⟩ := by decide +kernel

theorem sample_update : ∃ m', update [1, 3] [0, 2] ⟨some [0, 0, 0, 1], some [5, 6, 7]⟩ = .ok m' :=
  (update_follows (by decide) (by decide)
    (fun p h => by
      obtain rfl := Option.some.inj h
      refine ⟨by decide, fun k v hk hv => ?_⟩
      have : k < 4 := (List.getElem?_eq_some_iff.1 hk).1
      interval_cases k <;> simp_all)
    (fun t h => by
      obtain rfl := Option.some.inj h
      decide)).imp fun _ h => h.1

/-- A presolve that removes a prohibited column is an assertion failure. -/
theorem update_lost : update [1, 2] [] ⟨some [0, 0, 0, 1], none⟩ = .error .assertion := by decide +kernel

/-- **Row types are mixed up if the rows change order**, without any check. -/
theorem update_rows_fails : update [] [1, 0] ⟨none, some [5, 6]⟩ = .ok ⟨none, some [6, 6]⟩ ∧ ¬ picks [5, 6] [1, 0] [(6 : ℤ), 6] := by
  refine ⟨by decide +kernel, fun h => ?_⟩
  obtain ⟨-, v, h1, h2⟩ := h.2 1 0 rfl
  rw [← Option.some.inj h1] at h2
  cases h2

/-- A new row (index -1) reads outside the array. -/
theorem update_new_row : update [] [0, -1] ⟨none, some [5, 6]⟩ = .error .outside := by decide +kernel

example : passInProhibited ⟨some [1, 0, 2], none⟩ [0, 0, 1] = ⟨some [1, 0, 3], none⟩ := by decide +kernel

/-- **A shorter array replaces the prohibited columns.** -/
theorem prohibited_replaced : passInProhibited ⟨some [1, 0, 1], none⟩ [0, 0] = ⟨some [0, 0], none⟩ := by decide +kernel

/-! ### Original indices -/

/-- Two presolves: 5 columns to 3, then to 2; the second model has a new row. -/
def passes : List Pass := [⟨3, 3, some ([0, 2, 4], [1, 2, -1])⟩, ⟨2, 2, some ([1, 2], [2, 0])⟩, ⟨2, 2, none⟩]

theorem passes_original : originalIndices 4 5 passes = .ok ([2, 4], [-1, 1]) := by decide +kernel

theorem passes_fit : Fits 5 [⟨2, 2, some ([1, 2], [2, 0])⟩, ⟨3, 3, some ([0, 2, 4], [1, 2, -1])⟩] ∧
    Ordered [⟨2, 2, some ([1, 2], [2, 0])⟩, ⟨3, 3, some ([0, 2, 4], [1, 2, -1])⟩] := by
  refine ⟨⟨⟨_, _, rfl, rfl, rfl, ?_⟩, ⟨_, _, rfl, rfl, rfl, ?_⟩, trivial⟩, ?_⟩
  · change ∀ c ∈ ([1, 2] : List ℤ), 0 ≤ c ∧ c < ((3 : Nat) : ℤ)
    decide
  · change ∀ c ∈ ([0, 2, 4] : List ℤ), 0 ≤ c ∧ c < ((5 : Nat) : ℤ)
    decide
  · intro p hp cs hc
    rcases List.mem_cons.1 hp with rfl | hp
    · obtain rfl := Option.some.inj hc
      decide
    · obtain rfl := List.mem_singleton.1 hp
      obtain rfl := Option.some.inj hc
      decide

/-- **The columns are wrong if a presolve changes their order**: column 0 of the final model comes from column 1. -/
theorem originalIndices_fails : originalIndices 0 2 [⟨0, 2, some ([1, 0], [])⟩] = .ok ([0, 1], []) ∧
    Leads colMap [⟨0, 2, some ([1, 0], [])⟩] 0 1 ∧ ¬ Leads colMap [⟨0, 2, some ([1, 0], [])⟩] 0 0 := by
  refine ⟨by decide +kernel, .cons rfl (by decide) rfl (.nil _), fun h => ?_⟩
  obtain ⟨j, -, h2, h3⟩ := leads_cons rfl h
  obtain rfl := Option.some.inj h2
  cases h3

/-- **A pass without a presolve in between is a null pointer.** -/
theorem originalIndices_null :
    originalIndices 1 2 [⟨1, 2, none⟩, ⟨1, 1, some ([1], [0])⟩] = .error .outside := by decide +kernel

end Cgl.PreFix
