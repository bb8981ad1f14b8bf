import Verif.GMI.Props

/-!
# CglGMI: examples that meet the hypotheses, and what goes wrong without them
-/

namespace Cgl.GMI

/-- The parameters as constructed by default (`CglGMIParam.hpp` 210-224). -/
def defaults : Prm :=
  { infinit := dblMax, eps := 1 / 10 ^ 12, epsCoeff := 1 / 10 ^ 11, away := 5 / 1000, epsElim := 0,
    epsRelaxAbs := 1 / 10 ^ 11, epsRelaxRel := 1 / 10 ^ 13, maxDyn := 10 ^ 6, minViol := 1 / 10 ^ 4,
    maxSupportAbs := 1000, maxSupportRel := 1 / 10, integralScaleCont := false, enforceScaling := true,
    proc := .landp1 }

/-- Exact rational approximation. -/
def exactRat (q : ℚ) : ℤ × ℤ := (q.num, q.den)

/-! ### A problem with all kinds of columns -/

/-- 2 x0 + x1 + 3 x2 ≤ 4 and x0 - x2 ≥ -5; x0, x2 integer, x1 ≤ 1. -/
def good : Prob :=
  { nCols := 3, inf := dblMax, colLower := fun _ => 0,
    colUpper := fun j => if j = 1 then 1 else 10, isInt := fun j => j != 1,
    rows := [⟨-dblMax, 4, [(0, 2), (1, 1), (2, 3)]⟩, ⟨-5, dblMax, [(0, 1), (2, -1)]⟩] }

/-- x0 basic at 3/2, x1 at its upper, x2 at its lower bound; the first row is tight. -/
def goodLp : Lp :=
  { cstat := fun j => if j = 0 then 1 else if j = 1 then 2 else 3, rstat := fun i => if i = 0 then 3 else 1,
    xlp := fun j => if j = 0 then 3 / 2 else if j = 1 then 1 else 0,
    act := fun i => if i = 0 then 4 else 3 / 2, binv := some fun _ => [(0, 1 / 2)] }

theorem good_wf : good.WF := by decide +kernel
theorem good_frac : fracBasics defaults good goodLp = [0] := by decide +kernel

theorem safe_defaults : SafeParams defaults := by
  refine ⟨rfl, ?_, ?_, ?_, ?_, le_refl _⟩ <;> decide +kernel

theorem good_exact : ExactData defaults.eps good :=
  ⟨by decide +kernel, by decide +kernel, by decide +kernel, by decide +kernel, by decide +kernel⟩

theorem good_basic : BasicSolution good goodLp :=
  ⟨by decide +kernel, by decide +kernel, by decide +kernel, by decide +kernel, by decide +kernel⟩

theorem good_row : GoodRow defaults good goodLp [(0, 1 / 2)] 0 := by
  refine ⟨⟨by decide +kernel, by decide +kernel, by decide +kernel, by decide +kernel⟩,
    ⟨by decide +kernel, by decide +kernel⟩, ⟨by decide +kernel, by decide +kernel, by decide +kernel, by decide +kernel,
      by decide +kernel⟩, fun _ => by decide +kernel, fun h => by cases h⟩

/-- The cut is x0 + x1 + x2 ≤ 2 (slightly relaxed), and the theorem applies to it. -/
example : generateCuts defaults good goodLp id exactRat [] =
    some [⟨-dblMax, 2 + 102 / 10 ^ 13, [(0, 1), (1, 1), (2, 1)]⟩] := by decide +kernel
example : ∀ cs', generateCuts defaults good goodLp id exactRat [] = some cs' → ∀ r ∈ cs', r ∈ [] ∨ r.Valid good :=
  fun cs' h => generateCuts_valid_partial id exactRat [] cs' safe_defaults good_wf good_exact good_basic
    (by
      intro binv hb b hbl
      cases hb
      rw [good_frac] at hbl
      cases List.mem_singleton.1 hbl
      exact good_row) h
/-- A feasible point. -/
example : good.Feasible (fun j => if j = 0 then 1 else if j = 1 then 1 / 2 else 0) := by decide +kernel
/-- The integral procedure on the same row. -/
example : GoodRow { defaults with proc := .integral } good goodLp [(0, 1 / 2)] 0 := by
  refine ⟨⟨by decide +kernel, by decide +kernel, by decide +kernel, by decide +kernel⟩,
    ⟨by decide +kernel, by decide +kernel⟩, ⟨by decide +kernel, by decide +kernel, by decide +kernel, by decide +kernel,
      by decide +kernel⟩, fun h => (by cases h), fun _ => by decide +kernel⟩
example : generateCuts { defaults with proc := .integral } good goodLp id exactRat [] =
    some [⟨-dblMax, 2, [(0, 1), (1, 1), (2, 1)]⟩] := by decide +kernel
/-- Cleaning a cut with a small coefficient, 2 x0 + 1e-12 x1 ≤ 3: it is removed at the cost of nothing, the lower
bound being 0. -/
example : Removable defaults good ⟨[(0, 2), (1, 1 / 10 ^ 12)], 3⟩ ∧
    cleanCut defaults good id exactRat (fun _ => 2) ⟨[(0, 2), (1, 1 / 10 ^ 12)], 3⟩ =
      .ok ⟨[(0, 2)], 3 + (3 / 10 ^ 13 + 1 / 10 ^ 11)⟩ := by
  constructor <;> decide +kernel
/-- Scaling 3/2 x0 - 3/4 x2 ≤ 9/2: the greatest common divisor of 9, 3 and -3 is computed as -3, the multiple as 4. -/
example : scaleIntegral defaults good exactRat ⟨[(0, 3 / 2), (2, - 3 / 4)], 9 / 2⟩ =
    .done ⟨[(0, -2), (2, 1)], -6⟩ := by decide +kernel

/-! ### Each proviso is needed -/

/-- A feasible point of `P` that violates a cut of the call. -/
def Broken (prm : Prm) (P : Prob) (lp : Lp) : Prop :=
  ∃ cs', generateCuts prm P lp id exactRat [] = some cs' ∧ ∃ x, P.Feasible x ∧ ∃ r ∈ cs', ¬ r.Sat x

/-- x0 + 1e-12 x1 + x2 / 2 = 3/2, x0 and x2 integer, 0 ≤ x1 with or without an upper bound. -/
def flat (u : ℚ) : Prob :=
  { nCols := 3, inf := dblMax, colLower := fun _ => 0,
    colUpper := fun j => if j = 0 then 10 else if j = 1 then u else 1, isInt := fun j => j != 1,
    rows := [⟨3 / 2, 3 / 2, [(0, 1), (1, 1 / 10 ^ 12), (2, 1 / 2)]⟩] }

/-- x0 basic, the others at their lower bounds. -/
def flatLp : Lp :=
  { cstat := fun j => if j = 0 then 1 else 3, rstat := fun _ => 3,
    xlp := fun j => if j = 0 then 3 / 2 else 0, act := fun _ => 3 / 2, binv := some fun _ => [(0, 1)] }

/-- **C24 and C25 are false of the code**: with the default parameters, on a problem without an upper bound on x1, the
small coefficient of x1 is dropped and nothing is given for it.  The cut x2 ≥ 1 (slightly relaxed) excludes the
feasible point x0 = 1, x1 = 5e11, x2 = 0. -/
theorem dropped_invalid : Broken defaults (flat dblMax) flatLp := by
  refine ⟨[⟨-dblMax, -1 / 2 + (1 / 2 * (1 / 10 ^ 13) + 1 / 10 ^ 11), [(2, -1 / 2)]⟩], by decide +kernel, fun j => if j = 0 then 1 else if j = 1 then 5 * 10 ^ 11 else 0, by decide +kernel, _, List.mem_singleton_self _,
    by decide +kernel⟩

/-- **C24 and C25 are false of the code** with `CP_INTEGRAL_CUTS`: the small coefficient of x1 is removed and the
right-hand side grows to 19/2; the greatest common divisor of 19 and -1 is computed as -1, so the cut
-x2/2 ≤ 19/2 is scaled by -2 to x2 ≤ -19, which is violated by the LP solution and accepted.  No feasible point
satisfies it. -/
theorem integral_turned_round : Broken { defaults with proc := .integral } (flat (10 ^ 13)) flatLp := by
  refine ⟨[⟨-dblMax, -19, [(2, 1)]⟩], by decide +kernel, fun j => if j = 0 then 1 else if j = 1 then 5 * 10 ^ 11 else 0,
    by decide +kernel, _, List.mem_singleton_self _, by decide +kernel⟩

/-- **C25 is false of the code**: cleaning turns x0 ≥ -2 into x0 ≤ -2. -/
theorem clean_turned_round : cleanCut { defaults with proc := .integral } good id exactRat (fun _ => 0) ⟨[(0, -3)], 6⟩ =
    .ok ⟨[(0, 1)], -2⟩ := by decide +kernel

/-- 1e13 x0 + 5e12 x1 ≤ 1.5e13. -/
def steep : Prob :=
  { nCols := 2, inf := dblMax, colLower := fun _ => 0, colUpper := fun _ => 10, isInt := fun _ => true,
    rows := [⟨-dblMax, 15 * 10 ^ 12, [(0, 10 ^ 13), (1, 5 * 10 ^ 12)]⟩] }

def steepLp : Lp :=
  { cstat := fun j => if j = 0 then 1 else 3, rstat := fun _ => 3,
    xlp := fun j => if j = 0 then 3 / 2 else 0, act := fun _ => 15 * 10 ^ 12, binv := some fun _ => [(0, 1 / 10 ^ 13)] }

/-- **C24 is false of the code** with `EPS_ELIM` 1e-12, the default of the constructor from a `CglParam`
(`CglGMIParam.hpp` 229): the slack with its coefficient 1e-13 is dropped, and the cut x1 ≥ 1 excludes the origin. -/
theorem elim_invalid : Broken { defaults with epsElim := 1 / 10 ^ 12 } steep steepLp := by
  refine ⟨[⟨-dblMax, -1 / 2 + (1 / 2 * (1 / 10 ^ 13) + 1 / 10 ^ 11), [(1, -1 / 2)]⟩], by decide +kernel, fun _ => 0, by decide +kernel, _, List.mem_singleton_self _,
    by decide +kernel⟩

/-- 2 x0 + x1 ≤ 3, x0 integer, x1 free. -/
def freeCol : Prob :=
  { nCols := 2, inf := dblMax, colLower := fun j => if j = 0 then 0 else -dblMax,
    colUpper := fun j => if j = 0 then 10 else dblMax, isInt := fun j => j == 0,
    rows := [⟨-dblMax, 3, [(0, 2), (1, 1)]⟩] }

def freeLp : Lp :=
  { cstat := fun j => if j = 0 then 1 else 0, rstat := fun _ => 3,
    xlp := fun j => if j = 0 then 3 / 2 else 0, act := fun _ => 3, binv := some fun _ => [(0, 1 / 2)] }

/-- **C24 is false of the code** if a free column is nonbasic: it is treated as nonnegative.  The cut x0 ≤ 1 excludes
x0 = 2, x1 = -1. -/
theorem free_invalid : Broken defaults freeCol freeLp := by
  refine ⟨[⟨-dblMax, 1 + (1 / 10 ^ 13 + 1 / 10 ^ 11), [(0, 1)]⟩], by decide +kernel, fun j => if j = 0 then 2 else -1, by decide +kernel, _, List.mem_singleton_self _,
    by decide +kernel⟩

/-- x0 + x1 / 2 = 3/2, both integer, x1 ≤ 3/2. -/
def fracBound : Prob :=
  { nCols := 2, inf := dblMax, colLower := fun _ => 0, colUpper := fun j => if j = 0 then 10 else 3 / 2,
    isInt := fun _ => true, rows := [⟨3 / 2, 3 / 2, [(0, 1), (1, 1 / 2)]⟩] }

def fracLp : Lp :=
  { cstat := fun j => if j = 0 then 1 else 2, rstat := fun _ => 3,
    xlp := fun j => if j = 0 then 3 / 4 else 3 / 2, act := fun _ => 3 / 2, binv := some fun _ => [(0, 1)] }

/-- **C24 is false of the code** if an integer column is at a fractional bound: the cut x1 ≤ 0 excludes x0 = x1 = 1. -/
theorem fractional_bound_invalid : Broken defaults fracBound fracLp := by
  refine ⟨[⟨-dblMax, 1 / 10 ^ 11, [(1, 1 / 2)]⟩], by decide +kernel, fun _ => 1, by decide +kernel, _, List.mem_singleton_self _,
    by decide +kernel⟩

/-- With `EPS` 0 and scaling by the right-hand side the call divides by zero. -/
theorem rhs_zero_divides : cleanCut { defaults with proc := .landp1ScaleRhs, eps := 0 } good id exactRat (fun _ => 1)
    ⟨[(0, 1)], 0⟩ = .undef := by decide +kernel

end Cgl.GMI
