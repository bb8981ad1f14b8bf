import Verif.Knapsack.Derived
import Mathlib.Data.List.Sort

/-!
# Knapsack cover cuts: instances of the hypotheses, and why they are needed
-/

namespace Cgl.Knapsack

/-- A sorting function. -/
def exSorter : Sorter where
  run k l := l.insertionSort fun a b => k b ≤ k a
  perm k l := List.perm_insertionSort _ l
  sorted {α} k l := by
    have : Std.Total (fun a b : α => k b ≤ k a) := ⟨fun a b => le_total (k b) (k a)⟩
    have : IsTrans α (fun a b : α => k b ≤ k a) := ⟨fun a b c h1 h2 => le_trans h2 h1⟩
    exact List.pairwise_insertionSort _ l

/-- `5a + 5b + 4c + y ≤ 10`, `y ≥ 2d` with binaries `a, b, c, d` and a continuous `y`. -/
def exP : Prob where
  nCols := 5
  inf := 10 ^ 30
  colLower := fun _ => 0
  colUpper := fun j => if j = 4 then 10 else 1
  isInt := fun j => j != 4
  rows := [⟨-(10 ^ 30), 10, [(0, 5), (1, 5), (2, 4), (4, 1)]⟩, ⟨0, 10 ^ 30, [(3, -2), (4, 1)]⟩]

/-- An LP solution of it. -/
def exX : Nat → ℚ := fun j =>
  if j = 0 then 1 else if j = 1 then 3 / 5 else if j = 2 then 1 / 4 else if j = 3 then 1 / 2 else if j = 4 then 1 else 0

theorem exP_wf : exP.WF := by
  refine ⟨?_, ?_⟩
  · intro r hr p hp
    have h : ∀ r ∈ exP.rows, ∀ p ∈ r.coefs, p.1 < exP.nCols := by decide +kernel
    exact h r hr p hp
  · have h : ∀ r ∈ exP.rows, (r.coefs.map Prod.fst).Nodup := by decide +kernel
    exact h

theorem exP_grid : GridData 1 exP := by
  have hint : ∀ q : ℚ, q.den = 1 → Grid 1 q := by
    intro q hq
    refine ⟨q.num, ?_⟩
    rw [mul_one]
    exact (Rat.den_eq_one_iff q).mp hq |>.symm
  have hint' : ∀ q : ℚ, q.den = 1 → IsInteger q := fun q hq => ⟨q.num, ((Rat.den_eq_one_iff q).mp hq).symm⟩
  refine ⟨by norm_num, ?_, ?_, ?_, ?_, ?_, ?_, ?_, ?_⟩
  · have h : ∀ r ∈ exP.rows, ∀ p ∈ r.coefs, p.2 ≠ 0 := by decide +kernel
    exact h
  · have h : ∀ r ∈ exP.rows, ∀ p ∈ r.coefs, p.2.den = 1 := by decide +kernel
    exact fun r hr p hp => hint _ (h r hr p hp)
  · have h : ∀ r ∈ exP.rows, r.lb.den = 1 := by decide +kernel
    exact fun r hr _ => hint _ (h r hr)
  · have h : ∀ r ∈ exP.rows, r.ub.den = 1 := by decide +kernel
    exact fun r hr _ => hint _ (h r hr)
  · have h : ∀ j < exP.nCols, (exP.colLower j).den = 1 := by decide +kernel
    exact fun j hj _ => hint' _ (h j hj)
  · have h : ∀ j < exP.nCols, (exP.colUpper j).den = 1 := by decide +kernel
    exact fun j hj _ => hint' _ (h j hj)
  · have h : ∀ j < exP.nCols, exP.colLower j ≤ exP.colUpper j ∧ exP.colLower j < exP.inf ∧ -exP.inf < exP.colUpper j := by decide +kernel
    exact h
  · have h : ∀ r ∈ exP.rows, ∀ r' ∈ exP.rows, ∀ p ∈ r.coefs, ∀ q ∈ r'.coefs, p.1 = q.1 → freeBinary exP p.1 = false →
        (p.2 / q.2).den = 1 := by decide +kernel
    intro r hr r' hr' j c v h1 h2 h3 _ _
    exact hint' _ (h r hr r' hr' (j, c) h1 (j, v) h2 rfl h3)

theorem exX_lp : LPPoint exP exX := by
  refine ⟨?_, ?_, ?_, ?_, ?_, ?_⟩
  · have h : ∀ r ∈ exP.rows, (-exP.inf < r.lb → r.lb ≤ r.coefs.dot exX) ∧ (r.ub < exP.inf → r.coefs.dot exX ≤ r.ub) := by decide +kernel
    exact h
  · have h : ∀ j < exP.nCols, exP.colLower j ≤ exX j := by decide +kernel
    exact h
  · have h : ∀ j < exP.nCols, exX j ≤ exP.colUpper j := by decide +kernel
    exact h
  · have h : ∀ j < exP.nCols, freeBinary exP j = true → exX j < eps → exX j = 0 := by decide +kernel
    exact h
  · have h : ∀ j < exP.nCols, freeBinary exP j = true → onetol < exX j → exX j = 1 := by decide +kernel
    exact h
  · have h : ∀ r ∈ exP.rows, |r.coefs.dot exX| + 10000 ≤ exP.inf := by decide +kernel
    exact h

/-- The generator finds `a + b + c + d ≤ 2` (after replacing `y` by `2d`). -/
theorem exP_cuts : (generateCuts exSorter {} exP false 0 exX ⟨[], []⟩).map (fun c => c.rows.map fun r => (r.ub, r.row)) =
    some [(2, [(1, 1), (3, 1), (2, 1), (0, 1)])] := by decide +kernel

/-- The hypotheses of `generateCuts_valid_partial` and `generateCuts_total_partial` are met. -/
example : ∃ cs', generateCuts exSorter {} exP false 0 exX ⟨[], []⟩ = some cs' ∧ ∀ c ∈ cs'.rows, c.Valid exP := by
  obtain ⟨cs', h⟩ := generateCuts_total_partial exP_wf exP_grid exX_lp exSorter {} false 0 ⟨[], []⟩
  refine ⟨cs', h, fun c hc => ?_⟩
  rcases (generateCuts_valid_partial exP_wf exP_grid exX_lp exSorter {} false 0 h).2 c hc with h | h
  · cases h
  · exact h

/-- The hypotheses of `derive_implied_partial` are met, and a knapsack is derived. -/
example : (derive exP exX true [(0, 5), (1, 5), (2, -4)] 10).2.isSome = true ∧ (∀ p ∈ [(0, (5 : ℚ)), (1, 5), (2, -4)], eps < |p.2|) := by
  constructor <;> decide +kernel

/-- `3a + 3b + 2c - 1e-8 y ≤ 5` with binaries `a, b, c` and `0 ≤ y ≤ 1e9`. -/
def exQ : Prob where
  nCols := 4
  inf := 10 ^ 30
  colLower := fun _ => 0
  colUpper := fun j => if j = 3 then 10 ^ 9 else 1
  isInt := fun j => j != 3
  rows := [⟨-(10 ^ 30), 5, [(0, 3), (1, 3), (2, 2), (3, -1 / 10 ^ 8)]⟩]

/-- An LP solution of it. -/
def exY : Nat → ℚ := fun j => if j = 0 then 1 else if j = 1 then 3 / 5 else if j = 2 then 1 / 10 else 0

/-- A feasible point: all ones with `y = 1e9`. -/
def exF : Nat → ℚ := fun j => if j = 3 then 10 ^ 9 else 1

/-- **C21 and C22 fail when a row has a coefficient below 1e-7**: the column is ignored in the derivation of the
knapsack, whatever its bounds, and the cut cuts off a feasible point. -/
theorem generateCuts_invalid_tiny : LPPoint exQ exY ∧ exQ.Feasible exF ∧
    ∃ cs', generateCuts exSorter {} exQ false 0 exY ⟨[], []⟩ = some cs' ∧ ∃ c ∈ cs'.rows, ¬ c.Sat exF := by
  refine ⟨⟨?_, ?_, ?_, ?_, ?_, ?_⟩, ⟨?_, ?_, ?_, ?_⟩, ?_⟩
  · have h : ∀ r ∈ exQ.rows, (-exQ.inf < r.lb → r.lb ≤ r.coefs.dot exY) ∧ (r.ub < exQ.inf → r.coefs.dot exY ≤ r.ub) := by decide +kernel
    exact h
  · have h : ∀ j < exQ.nCols, exQ.colLower j ≤ exY j := by decide +kernel
    exact h
  · have h : ∀ j < exQ.nCols, exY j ≤ exQ.colUpper j := by decide +kernel
    exact h
  · have h : ∀ j < exQ.nCols, freeBinary exQ j = true → exY j < eps → exY j = 0 := by decide +kernel
    exact h
  · have h : ∀ j < exQ.nCols, freeBinary exQ j = true → onetol < exY j → exY j = 1 := by decide +kernel
    exact h
  · have h : ∀ r ∈ exQ.rows, |r.coefs.dot exY| + 10000 ≤ exQ.inf := by decide +kernel
    exact h
  · have h : ∀ r ∈ exQ.rows, (-exQ.inf < r.lb → r.lb ≤ r.coefs.dot exF) ∧ (r.ub < exQ.inf → r.coefs.dot exF ≤ r.ub) := by decide +kernel
    exact h
  · have h : ∀ j < exQ.nCols, -exQ.inf < exQ.colLower j → exQ.colLower j ≤ exF j := by decide +kernel
    exact h
  · have h : ∀ j < exQ.nCols, exQ.colUpper j < exQ.inf → exF j ≤ exQ.colUpper j := by decide +kernel
    exact h
  · intro j hj _
    unfold exF
    split
    · exact ⟨10 ^ 9, by norm_num⟩
    · exact ⟨1, by norm_num⟩
  · have hcuts : (generateCuts exSorter {} exQ false 0 exY ⟨[], []⟩).map (fun c => c.rows.map fun r => (r.ub, r.row)) =
        some [(1, [(1, 1), (0, 1)])] := by decide +kernel
    cases hg : generateCuts exSorter {} exQ false 0 exY ⟨[], []⟩ with
    | none => rw [hg] at hcuts; cases hcuts
    | some cs' =>
      rw [hg] at hcuts
      simp only [Option.map_some, Option.some.injEq] at hcuts
      refine ⟨cs', rfl, ?_⟩
      cases hr : cs'.rows with
      | nil => rw [hr] at hcuts; cases hcuts
      | cons c t =>
        rw [hr] at hcuts
        simp only [List.map_cons, List.cons.injEq, Prod.mk.injEq] at hcuts
        obtain ⟨⟨e1, e2⟩, _⟩ := hcuts
        refine ⟨c, by simp, ?_⟩
        rintro ⟨_, h2⟩
        have hu : c.ub < dblMax := by rw [e1]; decide +kernel
        have := h2 hu
        rw [e1, e2] at this
        revert this
        decide +kernel

/-- `5e-6 a + 4e-6 b + 3e-6 c ≤ 6e-6` with binaries `a, b, c`. -/
def exU : Prob where
  nCols := 3
  inf := 10 ^ 30
  colLower := fun _ => 0
  colUpper := fun _ => 1
  isInt := fun _ => true
  rows := [⟨-(10 ^ 30), 6 / 10 ^ 6, [(0, 5 / 10 ^ 6), (1, 4 / 10 ^ 6), (2, 3 / 10 ^ 6)]⟩]

/-- An LP solution of it. -/
def exZ : Nat → ℚ := fun j => if j = 0 then 2 / 5 else if j = 1 then 1 else 0

/-- **C40 fails when a row has tiny coefficients**: the most violated cover comes out empty (the capacity of the auxiliary
knapsack is enlarged by 1e-5), and its last element is read. -/
theorem generateCuts_ub_tiny : LPPoint exU exZ ∧ (generateCuts exSorter {} exU false 0 exZ ⟨[], []⟩).isNone = true := by
  refine ⟨⟨?_, ?_, ?_, ?_, ?_, ?_⟩, ?_⟩
  · have h : ∀ r ∈ exU.rows, (-exU.inf < r.lb → r.lb ≤ r.coefs.dot exZ) ∧ (r.ub < exU.inf → r.coefs.dot exZ ≤ r.ub) := by decide +kernel
    exact h
  · have h : ∀ j < exU.nCols, exU.colLower j ≤ exZ j := by decide +kernel
    exact h
  · have h : ∀ j < exU.nCols, exZ j ≤ exU.colUpper j := by decide +kernel
    exact h
  · have h : ∀ j < exU.nCols, freeBinary exU j = true → exZ j < eps → exZ j = 0 := by decide +kernel
    exact h
  · have h : ∀ j < exU.nCols, freeBinary exU j = true → onetol < exZ j → exZ j = 1 := by decide +kernel
    exact h
  · have h : ∀ r ∈ exU.rows, |r.coefs.dot exZ| + 10000 ≤ exU.inf := by decide +kernel
    exact h
  · decide +kernel

/-! ## The auxiliary knapsack -/

/-- **C41 (partial).** For integral profits, positive weights and items in order of profit per weight,
`exactSolveKnapsack` ends with a selection that fits into the capacity `c + 1e-5`, and the value it reports is the value of
that selection and at least that of any other selection that fits.  Missing: fractional profits, see
`exactSolve_not_optimal`. -/
theorem exactSolve_optimal_partial {items : List (ℚ × ℚ)} (hw : ∀ i ∈ items, 0 < i.2) (hp : ∀ i ∈ items, 0 ≤ i.1)
    (hint : ∀ i ∈ items, IsInteger i.1) (hs : items.Pairwise fun i j => j.1 / j.2 ≤ i.1 / i.2) {c : ℚ} (hc : 0 ≤ c + eps2) :
    ∃ z best, exactSolve items c = some (z, best) ∧ best.length = items.length ∧ weight items best ≤ c + eps2 ∧ value items best = z ∧
      ∀ sol, sol.length = items.length → weight items sol ≤ c + eps2 → value items sol ≤ z := by
  obtain ⟨z, best, e, _, _, h3, h4, h5⟩ := exactSolve_spec ⟨hw, hp, hint, hs⟩ hc
  obtain ⟨z', best', e', _, _, g3⟩ := exactSolve_fit (fun i hi => (hw i hi).le) hc
  rw [e] at e'
  simp only [Option.some.injEq, Prod.mk.injEq] at e'
  obtain ⟨rfl, rfl⟩ := e'
  exact ⟨z, best, e, h3, h4, g3, h5⟩

/-- An instance of the hypotheses, with its solution. -/
example : exactSolve [(3, 4), (2, 3), (2, 3), (1, 2)] 7 = some (5, [true, true, false, false]) := by decide +kernel

/-- **C41 fails for fractional profits**, which are what `findExactMostViolatedMinCover` passes: the bound is rounded down,
so the search gives up at once although one item fits. -/
theorem exactSolve_not_optimal : exactSolve [(9 / 10, 3), (1 / 2, 2)] 2 = some (0, [false, false]) ∧
    weight [(9 / 10, 3), (1 / 2, 2)] [false, true] ≤ 2 + eps2 ∧ value [(9 / 10, 3), (1 / 2, 2)] [false, true] = 1 / 2 := by
  refine ⟨by decide +kernel, by decide +kernel, by decide +kernel⟩

end Cgl.Knapsack
