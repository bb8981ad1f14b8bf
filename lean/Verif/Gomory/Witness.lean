import Verif.Gomory.Props

/-!
# CglGomory: examples that meet the hypotheses, and what goes wrong without them
-/

namespace Cgl.Gomory

/-- The parameters as constructed by default (`CglGomory.cpp` 2007-2022). -/
def defaults : Prm :=
  { away := 5 / 100, awayAtRoot := 5 / 100, limit := 50, limitAtRoot := 0,
    conditionNumberMultiplier := 1 / 10 ^ 18, largestFactorMultiplier := 1 / 10 ^ 13 }

/-- The first pass at the root. -/
def root : Info := { inTree := false, pass := 0, level := 0, sorted := false, global := false, opt32 := false }

theorem good_defaults : GoodParams defaults := ⟨by decide +kernel, by decide +kernel⟩

/-! ### A problem with all kinds of columns -/

/-- 2 x0 + x1 + 3 x2 ≤ 4 and x0 - x2 ≥ -5; x0, x2 integer, x1 ≤ 1. -/
def good : Prob :=
  { nCols := 3, inf := dblMax, colLower := fun _ => 0,
    colUpper := fun j => if j = 1 then 1 else 10, isInt := fun j => j != 1,
    rows := [⟨-dblMax, 4, [(0, 2), (1, 1), (2, 3)]⟩, ⟨-5, dblMax, [(0, 1), (2, -1)]⟩] }

/-- x0 basic at 3/2, x1 at its upper, x2 at its lower bound; the first row is tight. -/
def goodLp : Lp :=
  { colBasic := fun j => j == 0, rowBasic := fun i => i == 1,
    sol := fun j => if j = 0 then 3 / 2 else if j = 1 then 1 else 0,
    fact := some (1, fun _ => [(0, 1 / 2)]) }

theorem good_wf : good.WF := by decide +kernel
theorem good_cand : candidates defaults good goodLp root = [0] := by decide +kernel

theorem good_exact : ExactData good :=
  ⟨by decide +kernel, by decide +kernel, by decide +kernel, by decide +kernel, by decide +kernel, by decide +kernel,
    by decide +kernel, by decide +kernel, by decide +kernel⟩

theorem good_basic : BasicSolution good goodLp := ⟨by decide +kernel, by decide +kernel⟩

theorem good_row : GoodRow good goodLp root [(0, 1 / 2)] 0 := by
  refine ⟨⟨by decide +kernel, by decide +kernel, by decide +kernel, by decide +kernel⟩,
    ⟨by decide +kernel, by decide +kernel, by decide +kernel, by decide +kernel, ?_, by decide +kernel⟩,
    Or.inr ⟨by decide +kernel, Or.inr ?_⟩⟩
  · intro p hp t ht hi
    rw [List.mem_singleton] at hp
    subst hp
    have : rowType good goodLp 0 = some ⟨true, false⟩ := by decide +kernel
    rw [this] at ht
    cases ht
    cases hi
  · intro l hl
    have : lcmLoop ((rawCut good goodLp root [(0, 1 / 2)] 0).elems.map Prod.snd ++
      [(rawCut good goodLp root [(0, 1 / 2)] 0).rhs]) false 1 = .allInt := by decide +kernel
    rw [this] at hl
    cases hl

/-- The cut is x0 + x1 + x2 ≤ 2, and the theorem applies to it. -/
example : generateCuts defaults good goodLp root id [] [] =
    some ([⟨-dblMax, 2, [(1, 1), (2, 1), (0, 1)]⟩], []) := by decide +kernel
example : ∀ rows' cols', generateCuts defaults good goodLp root id [] [] = some (rows', cols') →
    ∀ x, good.Feasible x → Representable good x →
      (∀ c ∈ rows', c ∈ [] ∨ c.Sat x) ∧ ∀ c ∈ cols', c ∈ [] ∨ c.Sat x :=
  fun rows' cols' h => generateCuts_valid_partial id (fun _ hq => hq) [] rows' [] cols' good_defaults good_wf good_exact
    good_basic (fun h => by cases h)
    (by
      intro cond binv hb b hbl
      cases hb
      rw [good_cand] at hbl
      cases List.mem_singleton.1 hbl
      exact good_row) h
/-- A feasible point. -/
example : good.Feasible (fun j => if j = 0 then 1 else if j = 1 then 1 / 2 else 0) := by decide +kernel

/-- Integers only: 2 x0 + 2 x1 ≤ 3. -/
def ints : Prob :=
  { nCols := 2, inf := dblMax, colLower := fun _ => 0, colUpper := fun _ => 10, isInt := fun _ => true,
    rows := [⟨-dblMax, 3, [(0, 2), (1, 2)]⟩] }

def intsLp : Lp :=
  { colBasic := fun j => j == 0, rowBasic := fun _ => false, sol := fun j => if j = 0 then 3 / 2 else 0,
    fact := some (1, fun _ => [(0, 1 / 2)]) }

theorem ints_row : GoodRow ints intsLp root [(0, 1 / 2)] 0 := by
  refine ⟨⟨by decide +kernel, by decide +kernel, by decide +kernel, by decide +kernel⟩,
    ⟨by decide +kernel, by decide +kernel, by decide +kernel, by decide +kernel, ?_, by decide +kernel⟩,
    Or.inl ⟨by decide +kernel, by decide +kernel, by decide +kernel⟩⟩
  intro p hp t ht hi
  rw [List.mem_singleton] at hp
  subst hp
  have : rowType ints intsLp 0 = some ⟨true, true⟩ := by decide +kernel
  rw [this] at ht
  cases ht
  decide +kernel

example : generateCuts defaults ints intsLp root id [] [] =
    some ([⟨-dblMax, 1, [(0, 1), (1, 1)]⟩], []) := by decide +kernel
/-- With the limit 1 the cut with two entries is not made. -/
example : generateCuts { defaults with limitAtRoot := 1 } ints intsLp root id [] [] = some ([], []) := by decide +kernel

/-! ### Each proviso is needed -/

/-- A feasible point of `P` that violates a row cut of the call. -/
def Broken (prm : Prm) (P : Prob) (lp : Lp) : Prop :=
  ∃ rows' cols', generateCuts prm P lp root id [] [] = some (rows', cols') ∧
    ∃ x, P.Feasible x ∧ ∃ r ∈ rows', ¬ r.Sat x

/-- x0 + c x1 + x2 / 2 + x3 / 2 = b, x0, x2, x3 integer, l ≤ x1 ≤ u. -/
def four (c b l u : ℚ) (int : Bool) : Prob :=
  { nCols := 4, inf := dblMax, colLower := fun j => if j = 0 then - 10 ^ 10 else if j = 1 then l else 0,
    colUpper := fun j => if j = 0 then 10 ^ 10 else if j = 1 then u else 1, isInt := fun j => j != 1 || int,
    rows := [⟨b, b, [(0, 1), (1, c), (2, 1 / 2), (3, 1 / 2)]⟩] }

/-- x0 = 3/2 basic, the others at their lower bounds. -/
def fourLp (l : ℚ) : Lp :=
  { colBasic := fun j => j == 0, rowBasic := fun _ => false,
    sol := fun j => if j = 0 then 3 / 2 else if j = 1 then l else 0, fact := some (1, fun _ => [(0, 1)]) }

/-- A point with x2 and x3 given. -/
def pt (a b c d : ℚ) (j : Nat) : ℚ := if j = 0 then a else if j = 1 then b else if j = 2 then c else d

/-- **C24 is false of the code**: an entry of the tableau within 1e-9 of an integer is taken to be an integer.
The row is x0 + (1 + 1e-9) x1 + x2/2 + x3/2 = 3/2, with integers up to 1e9.  The cut x2 + x3 ≥ 1 excludes the feasible
point x0 = 1 - 5e8, x1 = 5e8. -/
theorem near_invalid : Broken defaults (four (1 + 1 / 10 ^ 9) (3 / 2) 0 (10 ^ 9) true) (fourLp 0) := by
  refine ⟨[⟨-dblMax, -1, [(2, -1), (3, -1)]⟩], [], by decide +kernel, pt (1 - 5 * 10 ^ 8) (5 * 10 ^ 8) 0 0,
    by decide +kernel, _, List.mem_singleton_self _, by decide +kernel⟩

/-- **C24 is false of the code**: with fewer than six entries the coefficients of continuous columns are rounded too,
and nothing is given for it.  The continuous column has the coefficient 1/2 - 4e-9 and is at its lower bound -1.25e8;
the cut x1 + x2 + x3 ≥ -124999998 excludes the feasible point x0 = 1, x2 = 1, and by a violation of 1. -/
theorem rounding_invalid :
    Broken defaults (four (1 / 2 - 4 / 10 ^ 9) (3 / 2 - (1 / 2 - 4 / 10 ^ 9) * (125 * 10 ^ 6)) (- 125 * 10 ^ 6) 0 false)
      (fourLp (- 125 * 10 ^ 6)) := by
  refine ⟨[⟨-dblMax, 124999998, [(1, -1), (2, -1), (3, -1)]⟩], [], by decide +kernel, pt 1 (- 125 * 10 ^ 6) 1 0,
    by decide +kernel, _, List.mem_singleton_self _, by decide +kernel⟩

/-- **C24 is false of the code**: a column whose bounds are closer than 1e-8 is left out as if fixed. -/
theorem fixed_invalid : Broken defaults (four (10 ^ 9) (3 / 2) 0 (5 / 10 ^ 10) false) (fourLp 0) := by
  refine ⟨[⟨-dblMax, -1, [(2, -1), (3, -1)]⟩], [], by decide +kernel, pt 1 (5 / 10 ^ 10) 0 0,
    by decide +kernel, _, List.mem_singleton_self _, by decide +kernel⟩

/-- **C24 is false of the code**: a coefficient of at most 1e-13 on a column without an upper bound is dropped. -/
theorem dropped_invalid : Broken defaults (four (1 / 10 ^ 13) (3 / 2) 0 dblMax false) (fourLp 0) := by
  refine ⟨[⟨-dblMax, -1, [(2, -1), (3, -1)]⟩], [], by decide +kernel, pt 1 (5 * 10 ^ 12) 0 0,
    by decide +kernel, _, List.mem_singleton_self _, by decide +kernel⟩

/-- **C24 is false of the code**: an integer column with a fractional bound is shifted by it as if it were integral:
x1 ∈ {1, 2}, but the shifted column takes the values 1/2, 3/2.  The row is x0 + x1 + x2/2 + x3/2 = 2; at
x0 = 1, x1 = 1 the cut x2 + x3 ≥ 1 is violated. -/
theorem bound_invalid : Broken defaults (four 1 2 (1 / 2) 2 true) (fourLp (1 / 2)) := by
  refine ⟨[⟨-dblMax, -1, [(2, -1), (3, -1)]⟩], [], by decide +kernel, pt 1 1 0 0,
    by decide +kernel, _, List.mem_singleton_self _, by decide +kernel⟩

/-- x0 + 5e-10 x1 = 3/2, x0 integer, x1 without an upper bound. -/
def thin : Prob :=
  { nCols := 2, inf := dblMax, colLower := fun _ => 0, colUpper := fun j => if j = 0 then 10 else dblMax,
    isInt := fun j => j == 0, rows := [⟨3 / 2, 3 / 2, [(0, 1), (1, 5 / 10 ^ 10)]⟩] }

/-- **A call can read past its arrays**: the only coefficient of the cut 5e-10 x1 ≥ 1/2 is rounded to 0, and the
greatest common divisor is then computed from the entry after the last (`CglGomory.cpp` 1349-1352). -/
theorem thin_reads_outside : generateCuts defaults thin (fourLp 0) root id [] [] = none := by decide +kernel

end Cgl.Gomory
