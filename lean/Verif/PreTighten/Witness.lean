import Verif.PreTighten.Props
import Mathlib.Data.List.Sort

/-!
# Bound tightening of the preprocessor: examples

Concrete problems that meet the hypotheses of the theorems of `Props.lean`, and problems that show that the hypotheses
are needed.
-/

namespace Cgl.PreTighten

/-- A problem over the columns with the bounds `bs`. -/
def problem (bs : List (ℚ × ℚ)) (isInt : Nat → Bool) (rows : List Row) : Prob where
  nCols := bs.length
  inf := dblMax
  colLower := fun j => (bs.getD j (0, 0)).1
  colUpper := fun j => (bs.getD j (0, 0)).2
  isInt := isInt
  rows := rows

/-- A call; the sort is by insertion. -/
def call (P : Prob) (tol : ℚ) : Call where
  P := P
  tol := tol
  srt := List.insertionSort fun p q => p.2 ≤ q.2

instance : Std.Total (fun p q : Nat × ℚ => p.2 ≤ q.2) := ⟨fun p q => le_total p.2 q.2⟩
instance : IsTrans (Nat × ℚ) (fun p q => p.2 ≤ q.2) := ⟨fun _ _ _ h h' => le_trans h h'⟩

/-- The decidable part of `Setting`. -/
def settingOk (P : Prob) (tol : ℚ) : Bool :=
  decide P.WF && P.rows.all (fun r => r.coefs.all fun p => decide (p.2 ≠ 0)) &&
    P.rows.all (fun r => decide (RowBounds P.inf r)) && decide (0 ≤ tol) &&
    decide (10 ^ 100 ≤ P.inf) && decide (P.inf ≤ dblMax)

theorem setting_of {P : Prob} {tol : ℚ} (h : settingOk P tol = true) : Setting (call P tol) := by
  simp only [settingOk, Bool.and_eq_true, decide_eq_true_eq, List.all_eq_true] at h
  obtain ⟨⟨⟨⟨⟨h1, h2⟩, h3⟩, h4⟩, h5⟩, h6⟩ := h
  exact ⟨h1, h2, h3, h4, ⟨h5, h6⟩, fun es => List.perm_insertionSort _ es,
    fun es => List.pairwise_insertionSort _ es⟩

/-- The decidable parts of `Point`. -/
def pointOk (P : Prob) (x : Nat → ℚ) : Bool :=
  (List.range P.nCols).all (fun j => decide (|x j| < P.inf)) &&
    P.rows.all fun r => decide ((r.coefs.map fun p => |p.2| * (|x p.1| + 1)).sum ≤ 10 ^ 19)

theorem point_of {P : Prob} {x : Nat → ℚ} (h : pointOk P x = true) : Point P x := by
  simp only [pointOk, Bool.and_eq_true, decide_eq_true_eq, List.all_eq_true, List.mem_range] at h
  exact ⟨h.1, h.2⟩

/-- The decidable parts of `SmallTolerance`. -/
def toleranceOk (P : Prob) (tol : ℚ) : Bool :=
  decide (tol < 1) && P.rows.all fun r =>
    decide (tol + max (1/100000) (100 * tol) * (r.coefs.map fun p => |p.2|).sum < 1)

theorem tolerance_of {P : Prob} {tol : ℚ} (h : toleranceOk P tol = true) : SmallTolerance (call P tol) := by
  simp only [toleranceOk, Bool.and_eq_true, decide_eq_true_eq, List.all_eq_true] at h
  exact ⟨h.1, h.2⟩

/-- Whether a rational number is an integer. -/
def whole (q : ℚ) : Bool := decide (q.den = 1)
theorem isInteger_of_whole {q : ℚ} (h : whole q = true) : IsInteger q :=
  ⟨q.num, (Rat.den_eq_one_iff q).mp (of_decide_eq_true h) |>.symm⟩

/-- The decidable parts of `PureInteger`. -/
def pureOk (P : Prob) : Bool :=
  (List.range P.nCols).all (fun j => P.isInt j && whole (P.colLower j) && whole (P.colUpper j)) &&
    P.rows.all fun r => r.coefs.all (fun p => whole p.2) && whole r.lb && whole r.ub

theorem pure_of {P : Prob} (h : pureOk P = true) : PureInteger P := by
  simp only [pureOk, Bool.and_eq_true, List.all_eq_true, List.mem_range] at h
  exact ⟨fun j hj => (h.1 j hj).1.1, fun j hj => isInteger_of_whole (h.1 j hj).1.2,
    fun j hj => isInteger_of_whole (h.1 j hj).2, fun r hr p hp => isInteger_of_whole ((h.2 r hr).1.1 p hp),
    fun r hr _ => isInteger_of_whole (h.2 r hr).1.2, fun r hr _ => isInteger_of_whole (h.2 r hr).2⟩

/-- Whether a point is feasible. -/
def feasibleOk (P : Prob) (x : Nat → ℚ) : Bool :=
  (List.range P.nCols).all (fun j => decide (P.colLower j ≤ x j) && decide (x j ≤ P.colUpper j) && whole (x j)) &&
    P.rows.all fun r => decide (-P.inf < r.lb → r.lb ≤ SVec.dot r.coefs x) &&
      decide (r.ub < P.inf → SVec.dot r.coefs x ≤ r.ub)

theorem feasible_of {P : Prob} {x : Nat → ℚ} (h : feasibleOk P x = true) : P.Feasible x := by
  simp only [feasibleOk, Bool.and_eq_true, decide_eq_true_eq, List.all_eq_true, List.mem_range] at h
  exact ⟨h.2, fun j hj _ => (h.1 j hj).1.1, fun j hj _ => (h.1 j hj).1.2, fun j hj _ => isInteger_of_whole (h.1 j hj).2⟩

/-- The column bounds of the result. -/
def newBounds (c : Call) : List (ℚ × ℚ) :=
  (List.range c.P.nCols).map fun j => ((tightenPrimalBounds c).prob.colLower j, (tightenPrimalBounds c).prob.colUpper j)

/-- The rows of the result. -/
def newRows (c : Call) : List (ℚ × ℚ × List (Nat × ℚ)) :=
  (tightenPrimalBounds c).prob.rows.map fun r => (r.lb, r.ub, r.coefs)

/-! ### An integer problem: a bound is tightened, rows are made free, a coefficient is reduced -/

def demo : Prob := problem [(0, 1), (0, 1), (0, 1), (0, 5)] (fun _ => true)
  [⟨1, dblMax, [(0, 3), (1, 1), (2, 1)]⟩, ⟨-dblMax, 2, [(0, 1), (1, 1)]⟩, ⟨-dblMax, 3, [(3, 2), (0, 1)]⟩]

/-- The column bound 5 becomes 1, the coefficient 3 becomes 1, and two rows are made free. -/
theorem demo_result : newBounds (call demo (1/10000000)) = [(0, 1), (0, 1), (0, 1), (0, 1)] ∧
    newRows (call demo (1/10000000)) = [(1, dblMax, [(1, 1), (2, 1), (0, 1)]), (-dblMax, dblMax, [(0, 1), (1, 1)]),
      (-dblMax, dblMax, [(0, 1), (3, 2)])] ∧ (tightenPrimalBounds (call demo (1/10000000))).ret = 1073741826 := by
  decide +kernel

/-- All hypotheses of the equivalence are met. -/
example {x : Nat → ℚ} (hp : Point demo x) :
    (tightenPrimalBounds (call demo (1/10000000))).prob.Feasible x ↔ demo.Feasible x :=
  tighten_same_points_partial (setting_of (by decide +kernel)) (pure_of (by decide +kernel))
    (tolerance_of (by decide +kernel)) (by decide +kernel) hp

/-- The hypotheses about the points are met. -/
example : (tightenPrimalBounds (call demo (1/10000000))).prob.Feasible fun j => if j = 0 then 1 else 0 :=
  (tighten_keeps_feasible (setting_of (by decide +kernel)) (point_of (by decide +kernel))
    (feasible_of (by decide +kernel))).2.2.2 fun _ _ h => absurd h (by simp [call, demo, problem])

/-! ### An infeasible problem is reported -/

def bad : Prob := problem [(0, 1), (0, 1)] (fun _ => true) [⟨3, 3, [(0, 1), (1, 1)]⟩]

theorem bad_ret : (tightenPrimalBounds (call bad (1/10000000))).ret = -1 := by decide +kernel

example : ¬ ∃ x, Point bad x ∧ bad.Feasible x :=
  tighten_negative_infeasible (c := call bad (1/10000000)) (setting_of (by decide +kernel)) (by rw [bad_ret]; decide)

/-! ### The return value does not tell whether anything was changed -/

def silent : Prob := problem [(0, 10), (0, 10)] (fun _ => true) [⟨-dblMax, 7, [(0, 2), (1, 2)]⟩]

/-- The bounds 10 become 3 and the function returns 0. -/
theorem silent_result : newBounds (call silent (1/10000000)) = [(0, 3), (0, 3)] ∧
    (tightenPrimalBounds (call silent (1/10000000))).ret = 0 := by decide +kernel

/-! ### The hypotheses on the tolerance and on the data are needed -/

/-- With a tolerance of 1e-2 the row `100001 x <= 100000` of a binary column is made free, and the point 1, which
violates it by 1, becomes feasible. -/
theorem tighten_adds_point : ∃ c, Setting c ∧ PureInteger c.P ∧ 0 ≤ (tightenPrimalBounds c).ret ∧
    ∃ x, Point c.P x ∧ (tightenPrimalBounds c).prob.Feasible x ∧ ¬ c.P.Feasible x := by
  refine ⟨call (problem [(0, 1)] (fun _ => true) [⟨-dblMax, 100000, [(0, 100001)]⟩]) (1/100),
    setting_of (by decide +kernel), pure_of (by decide +kernel), by decide +kernel, fun _ => 1,
    point_of (by decide +kernel), feasible_of (by decide +kernel), fun h => ?_⟩
  have := (h.rows ⟨-dblMax, 100000, [(0, 100001)]⟩ (by simp [call, problem])).2 (by decide +kernel)
  exact absurd this (by decide +kernel)

/-- With the tolerance 1e-7 the row `x >= 1e-5` of a binary column is made free, and the point 0, which violates it by
100 tolerances, becomes feasible. -/
theorem tighten_adds_point_fractional : ∃ c, Setting c ∧ SmallTolerance c ∧ c.tol = 1/10000000 ∧
    0 ≤ (tightenPrimalBounds c).ret ∧ ∃ x, Point c.P x ∧ (tightenPrimalBounds c).prob.Feasible x ∧ ¬ c.P.Feasible x := by
  refine ⟨call (problem [(0, 1)] (fun _ => true) [⟨1/100000, dblMax, [(0, 1)]⟩]) (1/10000000),
    setting_of (by decide +kernel), tolerance_of (by decide +kernel), rfl, by decide +kernel, fun _ => 0,
    point_of (by decide +kernel), feasible_of (by decide +kernel), fun h => ?_⟩
  have := (h.rows ⟨1/100000, dblMax, [(0, 1)]⟩ (by simp [call, problem])).1 (by decide +kernel)
  exact absurd this (by decide +kernel)

/-- A continuous column with the bounds 0 and 5e-9 is fixed at 0: a feasible point is lost. -/
theorem tighten_loses_point : ∃ c, Setting c ∧ ∃ x, Point c.P x ∧ c.P.Feasible x ∧
    ¬ (tightenPrimalBounds c).prob.Feasible x := by
  refine ⟨call (problem [(0, 1/200000000)] (fun _ => false) []) (1/10000000), setting_of (by decide +kernel),
    fun _ => 1/200000000, point_of (by decide +kernel), ⟨by simp [call, problem], ?_, ?_, ?_⟩, fun h => ?_⟩
  · intro j hj _
    obtain rfl : j = 0 := by simp [call, problem] at hj; exact hj
    decide +kernel
  · intro j hj _
    obtain rfl : j = 0 := by simp [call, problem] at hj; exact hj
    decide +kernel
  · intro j _ hi; simp [call, problem] at hi
  · have := h.upper 0 (by decide +kernel) (by decide +kernel)
    exact absurd this (by decide +kernel)

/-- The bound 1e-6 of an integer column becomes 0: bounds can be loosened. -/
theorem tighten_loosens : ∃ c, Setting c ∧ (tightenPrimalBounds c).prob.colLower 0 < c.P.colLower 0 :=
  ⟨call (problem [(1/1000000, 5)] (fun _ => true) []) (1/10000000), setting_of (by decide +kernel), by decide +kernel⟩

end Cgl.PreTighten
