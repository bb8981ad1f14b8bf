import Verif.PostProc.Frame
import Verif.PostProc.Returns
import Mathlib.Tactic.IntervalCases

/-!
# The hypotheses can be met, and what goes wrong

A solver that is honest for every model: it puts every column at its cheaper bound and says "proven optimal" exactly when
these bounds are finite and the rows hold there.
-/

namespace Cgl.PostProc

/-- Every column at its cheaper bound. -/
def boxPoint (S : Solver) (j : Nat) : ℚ := if 0 ≤ S.sense * S.obj j then S.prob.colLower j else S.prob.colUpper j

/-- Finite bounds, and the rows hold there. -/
def boxOk (S : Solver) : Prop :=
  (∀ j < S.prob.nCols, S.prob.colLower j ≤ S.prob.colUpper j ∧ -S.prob.inf < S.prob.colLower j ∧
    S.prob.colUpper j < S.prob.inf) ∧ ∀ r ∈ S.prob.rows, r.Sat S.prob.inf (boxPoint S)

instance (S : Solver) : Decidable (boxOk S) := by unfold boxOk; infer_instance

/-- The solver. -/
def boxSolve (S : Solver) : Solver :=
  { S with
    sol := boxPoint S
    objValue := ((List.range S.prob.nCols).map fun j => S.obj j * boxPoint S j).sum
    optimal := decide (boxOk S) }

theorem sum_le {l : List Nat} {f g : Nat → ℚ} (c : ℚ) (h : ∀ j ∈ l, c * f j ≤ c * g j) :
    c * (l.map f).sum ≤ c * (l.map g).sum := by
  induction l with
  | nil => simp
  | cons j l ih =>
    rw [List.map_cons, List.map_cons, List.sum_cons, List.sum_cons, mul_add, mul_add]
    exact add_le_add (h j List.mem_cons_self) (ih fun k hk => h k (List.mem_cons_of_mem _ hk))

theorem boxSolve_honest (S : Solver) : SameInput S (boxSolve S) ∧ ((boxSolve S).optimal = true →
    LpFeasible S.prob (boxSolve S).sol ∧ ∀ y, LpFeasible S.prob y → cost S (boxSolve S).sol ≤ cost S y) := by
  refine ⟨⟨rfl, rfl, rfl, rfl, rfl, rfl, rfl⟩, fun h => ?_⟩
  have hb : boxOk S := by simpa [boxSolve] using h
  have hin : ∀ j < S.prob.nCols, S.prob.colLower j ≤ boxPoint S j ∧ boxPoint S j ≤ S.prob.colUpper j := by
    intro j hj
    have := (hb.1 j hj).1
    unfold boxPoint
    split
    · exact ⟨le_refl _, this⟩
    · exact ⟨this, le_refl _⟩
  refine ⟨⟨hb.2, fun j hj _ => (hin j hj).1, fun j hj _ => (hin j hj).2⟩, fun y hy => ?_⟩
  unfold cost
  apply sum_le
  intro j hj
  have hj := List.mem_range.mp hj
  have h1 := hy.lower j hj (hb.1 j hj).2.1
  have h2 := hy.upper j hj (hb.1 j hj).2.2
  have hs : (boxSolve S).sol j = boxPoint S j := rfl
  rw [hs, ← mul_assoc, ← mul_assoc]
  unfold boxPoint
  by_cases hc : 0 ≤ S.sense * S.obj j
  · rw [if_pos hc]
    exact mul_le_mul_of_nonneg_left h1 hc
  · rw [if_neg hc]
    have := not_le.mp hc
    nlinarith

/-- What `postsolve` writes for column `j`: the value above if the column is there, its lower bound otherwise, and an
integer inside the bounds if that does not round into them. -/
def postValue (cols : List Nat) (m b : Solver) (j : Nat) : ℚ :=
  let v := if j ∈ cols then m.sol (cols.idxOf j) else b.prob.colLower j
  if b.prob.isInt j = true ∧ ¬ (b.prob.colLower j ≤ roundHalf v ∧ roundHalf v ≤ b.prob.colUpper j) then
    (⌈b.prob.colLower j⌉ : ℤ)
  else v

/-- The external parts of the examples; `solves` says which calls solve at all. -/
def env (cols : List Nat) (solves : Call → Bool) : Env where
  solve c S := if solves c then boxSolve S else { S with optimal := false }
  postsolve _ m b := { b with sol := postValue cols m b }

theorem env_honest (cols solves) : Honest (env cols solves) := by
  intro c S
  by_cases h : solves c = true
  · have : (env cols solves).solve c S = boxSolve S := by unfold env; dsimp only; rw [if_pos h]
    rw [this]; exact boxSolve_honest S
  · have : (env cols solves).solve c S = { S with optimal := false } := by unfold env; dsimp only; rw [if_neg h]
    rw [this]
    exact ⟨⟨rfl, rfl, rfl, rfl, rfl, rfl, rfl⟩, fun h => by cases h⟩

theorem env_postsolve (cols solves) : PostsolveOk (env cols solves) := by
  intro k m b
  refine ⟨⟨rfl, rfl, rfl, rfl, rfl, rfl, rfl⟩, ?_⟩
  intro j hj hi ⟨z, hz1, hz2⟩
  have he : ((env cols solves).postsolve k m b).sol j = postValue cols m b j := rfl
  rw [he]
  unfold postValue
  dsimp only
  generalize (if j ∈ cols then m.sol (cols.idxOf j) else b.prob.colLower j) = v
  by_cases hc : b.prob.isInt j = true ∧ ¬ (b.prob.colLower j ≤ roundHalf v ∧ roundHalf v ≤ b.prob.colUpper j)
  · rw [if_pos hc]
    refine ⟨⌈b.prob.colLower j⌉, Int.le_ceil _, ?_, by linarith, by linarith⟩
    have : ⌈b.prob.colLower j⌉ ≤ z := Int.ceil_le.mpr hz1
    exact le_trans (by exact_mod_cast this) hz2
  · rw [if_neg hc]
    have hin : b.prob.colLower j ≤ roundHalf v ∧ roundHalf v ≤ b.prob.colUpper j := by
      by_contra h; exact hc ⟨hi, h⟩
    obtain ⟨w, hw, h1, h2⟩ := roundHalf_int v
    rw [hw] at hin
    exact ⟨w, hin.1, hin.2, h1, h2⟩

/-- A run that ends well, with a test of the result. -/
def okAnd (x : Except Fault Result) (f : Result → Bool) : Bool :=
  match x with
  | .ok r => f r
  | .error _ => false

theorem of_okAnd {x f} (h : okAnd x f = true) : ∃ r, x = .ok r ∧ f r = true := by
  cases x with
  | ok r => exact ⟨r, rfl, h⟩
  | error e => cases h

/-! ### A run

Three columns `x0`, `x1` (integer), `x2`; `x0 + x1 + x2 ≤ 10`, `x0 - x1 ≥ 1`; minimise `-x0 - x1 - x2`.  The presolve has
removed `x1`, which is fixed at 2 in the start model. -/

/-- A solver object for a problem. -/
def solver (n : Nat) (lo up : List ℚ) (ints : List Bool) (rows : List Row) (obj : List ℚ) : Solver where
  prob := { nCols := n, inf := 10 ^ 30, colLower := fun j => lo.getD j 0, colUpper := fun j => up.getD j 0
            isInt := fun j => ints.getD j false, rows := rows }
  obj := fun j => obj.getD j 0
  sense := 1
  sol := fun _ => 0
  objValue := 0
  optimal := false
  cutoff := 10 ^ 50
  tol := 1 / 10 ^ 7
  hintPresolve := ⟨false, 0⟩
  hintDual := ⟨true, 2⟩

/-- The user's rows. -/
def rows3 : List Row := [⟨-10 ^ 30, 10, [(0, 1), (1, 1), (2, 1)]⟩, ⟨1, 10 ^ 30, [(0, 1), (1, -1)]⟩]

/-- The user's model. -/
def user3 : Solver := solver 3 [0, 0, 0] [3, 2, 5] [true, true, false] rows3 [-1, -1, -1]

/-- The start model: `x1` is fixed. -/
def start3 : Solver := solver 3 [0, 2, 0] [3, 2, 5] [true, true, false] rows3 [-1, -1, -1]

/-- The model after the presolve. -/
def reduced3 : Solver := solver 2 [0, 0] [3, 5] [true, false]
  [⟨-10 ^ 30, 8, [(0, 1), (1, 1)]⟩, ⟨3, 10 ^ 30, [(0, 1)]⟩] [-1, -1]

/-- The reduced model with its solution, up to a small error. -/
def in3 : Solver := { reduced3 with sol := fun j => if j = 0 then 29999 / 10000 else 5, objValue := -10, optimal := true }

/-- The object. -/
def pre3 : Pre where
  original := user3
  start := some start3
  numberSolvers := 1
  passes := [some ⟨reduced3, reduced3, [0, 2]⟩]
  cuts := []
  lots := none
  originalColumn := [0, 2]

/-- The external parts. -/
def env3 : Env := env [0, 2] fun _ => true

/-- What the run gives: the point (3, 2, 5), proven optimal, no message; the model unwound has 3, 2, 5. -/
def test3 (r : Result) : Bool :=
  r.pre.original.optimal && decide (r.pre.original.sol 0 = 3) && decide (r.pre.original.sol 1 = 2) &&
    decide (r.pre.original.sol 2 = 5) && decide (r.message = none) &&
    match r.unwound with
    | none => false
    | some u => decide (u.sol 0 = 3) && decide (u.sol 1 = 2) && decide (u.sol 2 = 5) && u.prob.isInt 0 && u.prob.isInt 1 &&
        !u.prob.isInt 2 && decide (u.prob.colLower 0 = 0) && decide (u.prob.colUpper 0 = 3) &&
        decide (u.prob.colLower 1 = 2) && decide (u.prob.colUpper 1 = 2) && decide (u.prob.colLower 2 = 0) &&
        decide (u.prob.colUpper 2 = 5)

theorem run3 : ∃ r, postProcess env3 pre3 in3 true = .ok r ∧ test3 r = true :=
  of_okAnd (by decide +kernel)

theorem linked3 : Linked pre3 in3 where
  chain := by
    intro k hk P hP B hB
    have hk0 : k = 0 := by
      have : levels pre3 = 1 := by decide
      omega
    subst hk0
    have hP' : P = ⟨reduced3, reduced3, [0, 2]⟩ := by
      have : pre3.passes[0]? = some (some ⟨reduced3, reduced3, [0, 2]⟩) := rfl
      rw [this] at hP
      exact (Option.some.inj (Option.some.inj hP)).symm
    have hB' : B = start3 := by
      have : belowOf pre3 0 = some start3 := rfl
      rw [this] at hB
      exact (Option.some.inj hB).symm
    subst hP'; subst hB'
    unfold Inside above
    decide +kernel
  ints := by
    intro k hk B hB
    have hk0 : k = 0 := by
      have : levels pre3 = 1 := by decide
      omega
    subst hk0
    have hB' : B = start3 := by
      have : belowOf pre3 0 = some start3 := rfl
      rw [this] at hB
      exact (Option.some.inj hB).symm
    subst hB'
    intro j hj hi
    have hj : j < 3 := hj
    interval_cases j
    · exact ⟨0, by decide +kernel, by decide +kernel⟩
    · exact ⟨2, by decide +kernel, by decide +kernel⟩
    · cases hi
  bounds := by decide +kernel
  keep := by decide +kernel

/-- All hypotheses of `postProcess_feasible` hold for the run. -/
example : ∃ r u, Honest env3 ∧ PostsolveOk env3 ∧ Linked pre3 in3 ∧ pre3.numberSolvers ≠ 0 ∧ pre3.lots = none ∧
    postProcess env3 pre3 in3 true = .ok r ∧
    r.unwound = some u ∧ NearIntegral pre3.original.prob u.sol ∧ r.pre.original.optimal = true ∧
    r.pre.original.sol 0 = 3 := by
  obtain ⟨r, hr, ht⟩ := run3
  unfold test3 at ht
  cases hu : r.unwound with
  | none => rw [hu] at ht; simp at ht
  | some u =>
    rw [hu] at ht
    simp only [Bool.and_eq_true, decide_eq_true_eq] at ht
    refine ⟨r, u, env_honest _ _, env_postsolve _ _, linked3, by decide, rfl, hr, hu, ?_, ?_, ?_⟩
    · intro j hj hi
      have hj : j < 3 := hj
      obtain ⟨-, ⟨⟨⟨⟨⟨⟨⟨⟨⟨⟨⟨h0, h1⟩, h2⟩, -⟩, -⟩, -⟩, -⟩, -⟩, -⟩, -⟩, -⟩, -⟩⟩ := ht
      interval_cases j
      · exact ⟨3, by rw [h0]; norm_num, by decide +kernel, by decide +kernel⟩
      · exact ⟨2, by rw [h1]; norm_num, by decide +kernel, by decide +kernel⟩
      · cases hi
    · exact ht.1.1.1.1.1
    · exact ht.1.1.1.1.2

/-- The hypotheses of `postProcess_returns` hold for the run. -/
example : Sized pre3 in3 ∧ pre3.numberSolvers ≤ pre3.passes.length where
  left :=
    { positive := by decide
      allocated := by decide
      present := by
        intro k hk
        have hk0 : k = 0 := by
          have : levels pre3 = 1 := by decide
          omega
        subst hk0
        refine ⟨_, rfl, by decide, by decide, ?_⟩
        intro B hB
        have hB' : B = start3 := by
          have : belowOf pre3 0 = some start3 := rfl
          rw [this] at hB
          exact (Option.some.inj hB).symm
        subst hB'
        decide
      columns := rfl
      ints := fun _ _ => rfl }
  right := by decide

/-- All hypotheses of `postProcess_no_worse` hold for the run and the point (3, 2, 5). -/
example : ∃ r u, ∃ y : Nat → ℚ, Honest env3 ∧ PostsolveFrame env3 ∧ postProcess env3 pre3 in3 true = .ok r ∧
    r.unwound = some u ∧ r.pre.original.optimal = true ∧ LpFeasible pre3.original.prob y ∧
    (∀ j < pre3.original.prob.nCols, u.prob.isInt j = true → IsInteger (y j) ∧ |u.sol j - y j| < 1 / 1000) ∧
    ∀ j < pre3.original.prob.nCols, u.prob.colLower j ≤ y j ∧ y j ≤ u.prob.colUpper j := by
  obtain ⟨r, hr, ht⟩ := run3
  unfold test3 at ht
  cases hu : r.unwound with
  | none => rw [hu] at ht; simp at ht
  | some u =>
    rw [hu] at ht
    simp only [Bool.and_eq_true, decide_eq_true_eq] at ht
    refine ⟨r, u, fun j => [3, 2, 4].getD j 0, env_honest _ _, (env_postsolve _ _).frame, hr, hu, ht.1.1.1.1.1,
      by decide +kernel, ?_, ?_⟩
    · intro j hj hi
      have hj : j < 3 := hj
      obtain ⟨-, ⟨⟨⟨⟨⟨⟨⟨⟨⟨⟨⟨h0, h1⟩, h2⟩, -⟩, -⟩, h5⟩, -⟩, -⟩, -⟩, -⟩, -⟩, -⟩⟩ := ht
      interval_cases j
      · exact ⟨⟨3, rfl⟩, by rw [h0]; norm_num⟩
      · exact ⟨⟨2, rfl⟩, by rw [h1]; norm_num⟩
      · simp [hi] at h5
    · intro j hj
      have hj : j < 3 := hj
      obtain ⟨-, ⟨⟨⟨⟨⟨⟨⟨⟨⟨⟨⟨-, -⟩, -⟩, -⟩, -⟩, -⟩, h6⟩, h7⟩, h8⟩, h9⟩, h10⟩, h11⟩⟩ := ht
      interval_cases j
      · rw [h6, h7]; decide +kernel
      · rw [h8, h9]; decide +kernel
      · rw [h10, h11]; decide +kernel

/-! ### Integer columns left over -/

/-- One integer column in `2 x ≤ 3`, and a continuous one. -/
def left1 : Solver := solver 2 [0, 0] [4, 1] [true, false] [⟨-10 ^ 30, 3, [(0, 2), (1, 1)]⟩] [-1, 0]

/-- The model unwound: the integer column has value 1/2. -/
def left1M : Solver := { left1 with sol := fun j => if j = 0 then 1 / 2 else 0 }

/-- The hypotheses of `leftover_rows` and `leftover_bounds`: the column goes up to 1, the cheaper side. -/
example : left1.prob.WF ∧ (∃ S', backToOriginal left1M left1 = .ok S' ∧ S'.sol 0 = 1) ∧
    (∃ j < left1.prob.nCols, left1M.prob.isInt j = true ∧ ∀ z : ℤ, 1 / 1000 ≤ |left1M.sol j - z|) ∧
    (∃ x, Rounded left1M x) ∧ RowNear (10 * left1.tol) ⟨-10 ^ 30, 3, [(0, 2), (1, 1)]⟩ left1M.sol := by
  refine ⟨by decide +kernel, ?_, ⟨0, by decide, rfl, ?_⟩, ⟨left1M.sol, ?_⟩, by unfold RowNear; decide +kernel⟩
  · have : (match backToOriginal left1M left1 with | .ok S => decide (S.sol 0 = 1) | .error _ => false) = true := by
      decide +kernel
    cases h : backToOriginal left1M left1 with
    | ok S => rw [h] at this; exact ⟨S, rfl, by simpa using this⟩
    | error e => rw [h] at this; cases this
  · intro z
    have h : left1M.sol 0 = 1 / 2 := rfl
    rw [h]
    rcases le_or_gt z 0 with hz | hz
    · have : (z : ℚ) ≤ 0 := by exact_mod_cast hz
      rw [abs_of_nonneg (by linarith)]; linarith
    · have : (1 : ℚ) ≤ z := by exact_mod_cast hz
      rw [abs_of_nonpos (by linarith)]; linarith
  · intro j
    right
    refine ⟨?_, rfl⟩
    by_cases hj : j = 0
    · subst hj
      right
      intro z
      have h : left1M.sol 0 = 1 / 2 := rfl
      rw [h]
      rcases le_or_gt z 0 with hz | hz
      · have : (z : ℚ) ≤ 0 := by exact_mod_cast hz
        rw [abs_of_nonneg (by linarith)]; linarith
      · have : (1 : ℚ) ≤ z := by exact_mod_cast hz
        rw [abs_of_nonpos (by linarith)]; linarith
    · left
      show [true, false].getD j false = false
      rcases j with _ | _ | j
      · exact absurd rfl hj
      · rfl
      · simp

/-- **C108 fails for bounds that are not integers.**  The bounds of the column are not looked at: an integer column with upper
bound 1/2 and value 1/2 is moved to 1 and fixed there. -/
theorem leftover_beyond : ∃ M S S', backToOriginal M S = .ok S' ∧ S.prob.isInt 0 = true ∧
    S.prob.colLower 0 ≤ M.sol 0 ∧ M.sol 0 ≤ S.prob.colUpper 0 ∧ S.prob.colUpper 0 < S'.sol 0 ∧
    S.prob.colUpper 0 < S'.prob.colLower 0 := by
  refine ⟨{ solver 1 [0] [1 / 2] [true] [] [-1] with sol := fun _ => 1 / 2 }, solver 1 [0] [1 / 2] [true] [] [-1], ?_⟩
  have : (match backToOriginal { solver 1 [0] [1 / 2] [true] [] [-1] with sol := fun _ => 1 / 2 }
      (solver 1 [0] [1 / 2] [true] [] [-1]) with
      | .ok S => decide (S.sol 0 = 1) && decide (S.prob.colLower 0 = 1) | .error _ => false) = true := by
    decide +kernel
  cases h : backToOriginal { solver 1 [0] [1 / 2] [true] [] [-1] with sol := fun _ => 1 / 2 }
      (solver 1 [0] [1 / 2] [true] [] [-1]) with
  | ok S =>
    rw [h] at this
    simp only [Bool.and_eq_true, decide_eq_true_eq] at this
    refine ⟨S, rfl, rfl, by decide +kernel, by decide +kernel, ?_, ?_⟩
    · rw [this.1]; decide +kernel
    · rw [this.2]; decide +kernel
  | error e => rw [h] at this; cases this

/-- **The assertion at the end of that loop can fail.**  The preprocessing has declared a column integer that is continuous in
the user's model (as `makeIntegers` does), and its value is not near an integer: it is counted once, not twice. -/
theorem leftover_assertion : ∃ M S : Solver, S.prob.nCols = M.prob.nCols ∧ S.prob.isInt 0 = false ∧ M.prob.isInt 0 = true ∧
    backToOriginal M S = .error .assertion := by
  refine ⟨{ solver 1 [0] [1] [true] [] [0] with sol := fun _ => 1 / 2 }, solver 1 [0] [1] [false] [] [0], rfl, rfl, rfl, ?_⟩
  have : (match backToOriginal { solver 1 [0] [1] [true] [] [0] with sol := fun _ => 1 / 2 }
      (solver 1 [0] [1] [false] [] [0]) with
      | .ok _ => false | .error e => decide (e = .assertion)) = true := by decide +kernel
  cases h : backToOriginal { solver 1 [0] [1] [true] [] [0] with sol := fun _ => 1 / 2 }
      (solver 1 [0] [1] [false] [] [0]) with
  | ok S => rw [h] at this; cases this
  | error e => rw [h] at this; simp at this; rw [this]

/-! ### A reduced model without a solution -/

/-- Only the last solve works. -/
def envLast : Env := env [0] fun c => decide (c = .final)

/-- One column, `0 ≤ x ≤ 3` integer, maximise `x`. -/
def user1 : Solver := solver 1 [0] [3] [true] [] [-1]

/-- The object. -/
def pre1 : Pre where
  original := user1
  start := some user1
  numberSolvers := 1
  passes := [some ⟨user1, user1, [0]⟩]
  cuts := []
  lots := none
  originalColumn := [0]

/-- **C109.** A reduced model without a solution gives a user's model that is proven optimal, without any message, although
its solution is not the best one: the caller has to ask the reduced model. -/
theorem unsolved_silent : ∃ (E : Env) (p : Pre) (modelIn : Solver) (r : Result), Honest E ∧
    postProcess E p modelIn true = .ok r ∧ r.unwound = none ∧ r.message = none ∧ r.pre.original.optimal = true ∧
    p.original.prob.Feasible r.pre.original.sol ∧
    ∃ y, p.original.prob.Feasible y ∧ cost p.original y < cost p.original r.pre.original.sol := by
  obtain ⟨r, hr, ht⟩ : ∃ r, postProcess envLast pre1 user1 true = .ok r ∧
      (r.pre.original.optimal && decide (r.pre.original.sol 0 = 0) && decide (r.message = none) &&
        r.unwound.isNone) = true := of_okAnd (f := fun r => r.pre.original.optimal && decide (r.pre.original.sol 0 = 0) &&
          decide (r.message = none) && r.unwound.isNone) (by decide +kernel)
  simp only [Bool.and_eq_true, decide_eq_true_eq, Option.isNone_iff_eq_none] at ht
  obtain ⟨⟨⟨h1, h2⟩, h3⟩, h4⟩ := ht
  refine ⟨envLast, pre1, user1, r, env_honest _ _, hr, h4, h3, h1, ⟨?_, ?_, ?_, ?_⟩, fun _ => 3, by decide +kernel, ?_⟩
  · intro row hrow; cases hrow
  · intro j hj
    have hj : j < 1 := hj
    interval_cases j
    rw [h2]; decide +kernel
  · intro j hj
    have hj : j < 1 := hj
    interval_cases j
    rw [h2]; decide +kernel
  · intro j hj _
    have hj : j < 1 := hj
    interval_cases j
    exact ⟨0, by rw [h2]; rfl⟩
  · have : cost pre1.original r.pre.original.sol = 0 := by
      unfold cost
      have : (List.range pre1.original.prob.nCols) = [0] := rfl
      rw [this]
      simp [h2]
    rw [this]; decide +kernel

/-! ### Deleted passes -/

/-- The hypotheses of `twice_null` hold for the run above. -/
example : ∃ r, PostsolveFrame env3 ∧ pre3.numberSolvers ≠ 0 ∧ pre3.lots = none ∧
    postProcess env3 pre3 in3 true = .ok r ∧ r.unwound ≠ none ∧ in3.optimal = true := by
  obtain ⟨r, hr, ht⟩ := run3
  refine ⟨r, (env_postsolve _ _).frame, by decide, rfl, hr, ?_, rfl⟩
  unfold test3 at ht
  intro hu
  rw [hu] at ht
  simp at ht

/-- The hypotheses of `simple_unsolved_outside` can be met, by an honest solver. -/
example : ∃ (E : Env) (p : Pre) (modelIn : Solver), Honest E ∧ p.numberSolvers = 99 ∧ p.passes.length = 1 ∧
    modelIn.optimal = false ∧ (E.solve .resolve { modelIn with cutoff := 10 ^ 50 }).optimal = false ∧
    ∀ S, (E.solve .final S).optimal = false :=
  ⟨env [] fun _ => false, { pre1 with numberSolvers := 99, start := none }, user1, env_honest _ _, rfl, rfl, rfl, rfl,
    fun _ => rfl⟩

/-! ### Semi-continuous columns -/

/-- Two continuous columns: `x0` in [0, 5] and `x1`, which is 0 or at least 2; `x1 ≤ 1` is a row. -/
def userSc : Solver := solver 2 [0, 0] [5, 4] [false, false] [⟨-10 ^ 30, 1, [(1, 1)]⟩] [-1, 1]

/-- The model after a presolve that has removed `x1` (0 is its cheapest value). -/
def reducedSc : Solver := solver 1 [0] [5] [false] [] [-1]

/-- The object. -/
def preSc : Pre where
  original := userSc
  start := some userSc
  numberSolvers := 1
  passes := [some ⟨reducedSc, reducedSc, [0]⟩]
  cuts := []
  lots := some [(1, 2)]
  originalColumn := [0]

/-- The reduced model with its solution. -/
def inSc : Solver := { reducedSc with sol := fun _ => 5, objValue := -5, optimal := true }

/-- **C111.** A semi-continuous column that the presolve has removed at 0 comes back with its `low` as lower bound: the solution
that was unwound satisfies the user's rows and bounds, and 0 is an allowed value, but the user's model is declared
infeasible. -/
theorem sc_zero_lost : ∃ (E : Env) (p : Pre) (modelIn : Solver) (r : Result) (u : Solver), Honest E ∧ PostsolveOk E ∧
    p.lots = some [(1, 2)] ∧ postProcess E p modelIn true = .ok r ∧ r.unwound = some u ∧
    LpFeasible p.original.prob u.sol ∧ u.sol 1 = 0 ∧ r.pre.original.prob.colLower 1 = 2 ∧
    r.message = some .infeasible ∧ ¬ ∃ y, LpFeasible r.pre.original.prob y := by
  obtain ⟨r, hr, ht⟩ : ∃ r, postProcess (env [0] fun _ => true) preSc inSc true = .ok r ∧
      (decide (r.message = some .infeasible) && decide (r.pre.original.prob.colLower 1 = 2) &&
        (match r.unwound with
        | none => false
        | some u => decide (u.sol 1 = 0) && decide (LpFeasible preSc.original.prob u.sol)) &&
        decide (r.pre.original.prob.nCols = 2) && decide (r.pre.original.prob.inf = 10 ^ 30) &&
        decide (∃ row ∈ r.pre.original.prob.rows, row.ub = 1 ∧ row.coefs = [(1, 1)])) = true :=
    of_okAnd (f := fun r => decide (r.message = some .infeasible) && decide (r.pre.original.prob.colLower 1 = 2) &&
        (match r.unwound with
        | none => false
        | some u => decide (u.sol 1 = 0) && decide (LpFeasible preSc.original.prob u.sol)) &&
        decide (r.pre.original.prob.nCols = 2) && decide (r.pre.original.prob.inf = 10 ^ 30) &&
        decide (∃ row ∈ r.pre.original.prob.rows, row.ub = 1 ∧ row.coefs = [(1, 1)])) (by decide +kernel)
  cases hu : r.unwound with
  | none => rw [hu] at ht; simp at ht
  | some u =>
    rw [hu] at ht
    simp only [Bool.and_eq_true, decide_eq_true_eq] at ht
    obtain ⟨⟨⟨⟨⟨h1, h2⟩, h3, h4⟩, h5⟩, h6⟩, row, h7, h8, h9⟩ := ht
    refine ⟨env [0] fun _ => true, preSc, inSc, r, u, env_honest _ _, env_postsolve _ _, rfl, hr, hu, h4, h3, h2, h1, ?_⟩
    rintro ⟨y, hy⟩
    have a := hy.lower 1 (by rw [h5]; decide)
    have b := (hy.rows row h7).2
    rw [h6, h8, h9] at b
    rw [h2, h6] at a
    have a := a (by norm_num)
    have b := b (by norm_num)
    simp at b
    linarith

/-- The hypotheses of `sc_fixed_or_low` hold for that run. -/
example : ∃ r, Honest (env [0] fun _ => true) ∧ PostsolveFrame (env [0] fun _ => true) ∧
    postProcess (env [0] fun _ => true) preSc inSc true = .ok r ∧ r.unwound ≠ none ∧
    (1, (2 : ℚ)) ∈ [(1, (2 : ℚ))] ∧ (2 : ℚ) ≠ -dblMax := by
  obtain ⟨r, hr, ht⟩ : ∃ r, postProcess (env [0] fun _ => true) preSc inSc true = .ok r ∧ r.unwound.isSome = true :=
    of_okAnd (f := fun r => r.unwound.isSome) (by decide +kernel)
  refine ⟨r, env_honest _ _, (env_postsolve _ _).frame, hr, ?_, by simp, ?_⟩
  · intro h; rw [h] at ht; cases ht
  · have := dblMax_pos; linarith

/-- The hypotheses of `original_numbers`: two passes, of four and of two columns. -/
example : ∃ ps : List Pass, ps.length = 2 ∧ (∀ P ∈ ps, P.cols.length = P.model.prob.nCols) ∧
    (∀ P ∈ ps, ∀ i < P.cols.length, i ≤ P.cols.getD i 0) ∧
    (∀ k P Q, ps[k]? = some P → ps[k + 1]? = some Q → ∀ i < Q.cols.length, Q.cols.getD i 0 < P.cols.length) ∧
    originalOf (ps.map some) id 1 = 4 := by
  refine ⟨[⟨solver 4 [] [] [] [] [], user1, [0, 1, 3, 4]⟩, ⟨solver 2 [] [] [] [] [], user1, [1, 3]⟩], rfl, ?_, ?_, ?_, ?_⟩
  · decide
  · decide
  · intro k P Q h1 h2
    rcases k with _ | k
    · simp only [List.getElem?_cons_zero, zero_add, List.getElem?_cons_succ, Option.some.injEq] at h1 h2
      subst h1; subst h2
      decide
    · simp at h2
  · decide

/-- **Without order the array is wrong**: a presolve that swaps two columns gives both the same number. -/
theorem original_numbers_order : ∃ P : Pass, P.cols = [1, 0] ∧ P.cols.length = P.model.prob.nCols ∧
    originalOf [some P] id 0 = 1 ∧ originalOf [some P] id 1 = 1 :=
  ⟨⟨solver 2 [] [] [] [] [], user1, [1, 0]⟩, rfl, rfl, by decide, by decide⟩

end Cgl.PostProc
