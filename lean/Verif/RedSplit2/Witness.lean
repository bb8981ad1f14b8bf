import Verif.RedSplit2.Props
import Verif.RedSplit.Witness

/-!
# CglRedSplit2: examples that meet the hypotheses, and what goes wrong without them
-/

namespace Cgl.RedSplit2

open RedSplit (good goodLp stat indices nonBasic goodModel flip tabv Dense BasicSolution TableauRow)

/-- The parameters as constructed by default. -/
abbrev defaults : Prm := Param.RedSplit2.fresh

theorem reached_defaults : Reached defaults := ⟨[.new], 0, rfl⟩

/-- With the Gomory cuts of single rows. -/
def gomory : Prm := Param.RedSplit2.set defaults .skipGomory 0
theorem reached_gomory : Reached gomory := ⟨[.new, .set 0 .skipGomory 0], 0, rfl⟩

/-- Systems of one or two equations. -/
def cramer (n : Nat) (A : Nat → Nat → ℚ) (b : Nat → ℚ) : Option (Nat → ℚ) :=
  if n = 2 ∧ A 0 0 * A 1 1 - A 0 1 * A 1 0 ≠ 0 then
    some fun i => if i = 0 then (b 0 * A 1 1 - A 0 1 * b 1) / (A 0 0 * A 1 1 - A 0 1 * A 1 0)
      else (A 0 0 * b 1 - b 0 * A 1 0) / (A 0 0 * A 1 1 - A 0 1 * A 1 0)
  else none

/-- A call with the default strategies. -/
def call (prm : Prm) (P : Prob) (lp : RedSplit.Lp) : Call :=
  { prm := prm, strat := Param.Strat.fresh true, P := P,
    lp := { toLp := lp, redCost := fun j => j, price := fun i => i }, sqrt := fun _ => 1, solve := cramer }

/-! ### The example of CglRedSplit -/

/-- x0 + 5 x2 + x3 + x4/2 ≤ 5/4 and x1 + 2 x2 + x4/3 ≤ 7/12, with x0 = 3/4, x1 = 1/4 and x4 = 1. -/
def wit : Call := call defaults good goodLp

/-- The first row minus twice the second: 3/4 x0 + 1/2 x1 + 4 x2 + 2/3 x4 ≤ 7/6, slightly relaxed. -/
theorem wit_cuts : (generateCuts wit []).toOption =
    some [⟨-dblMax, 7 / 6 + (1 / 10 ^ 11 + 7 / 6 / 10 ^ 13), [(0, 3 / 4), (1, 1 / 2), (2, 4), (4, 2 / 3)]⟩] := by
  decide +kernel

theorem wit_multipliers : (generateMultipliers wit 3 none).toOption = some (none, [[1, -2]]) := by decide +kernel

/-- Multipliers for two rows. -/
def pair (a b : ℤ) (k : Nat) : ℤ := if k = 0 then a else if k = 1 then b else 0

/-- The pairs with 1-norm at most `n`. -/
def pairs (n : Nat) : List (ℤ × ℤ) :=
  ((List.range (2 * n + 1)).flatMap fun (i : Nat) => (List.range (2 * n + 1)).map fun (j : Nat) =>
    ((i : ℤ) - n, (j : ℤ) - n)).filter
    fun p => decide (|p.1| + |p.2| ≤ n)

theorem mem_pairs {n : Nat} {a b : ℤ} (h : |a| + |b| ≤ n) : (a, b) ∈ pairs n := by
  unfold pairs
  rw [List.mem_filter]
  refine ⟨List.mem_flatMap.mpr ⟨(a + n).toNat, List.mem_range.mpr ?_, List.mem_map.mpr ⟨(b + n).toNat,
    List.mem_range.mpr ?_, ?_⟩⟩, by simpa using h⟩
  · have h1 := abs_nonneg b
    have h2 := le_abs_self a
    omega
  · have h1 := abs_nonneg a
    have h2 := le_abs_self b
    omega
  · have h1 := abs_nonneg b
    have h2 := neg_abs_le a
    have h3 := abs_nonneg a
    have h4 := neg_abs_le b
    rw [Prod.mk.injEq]
    constructor <;> omega

theorem wit_mTab : mTab wit = 2 := by decide +kernel

theorem flipped_pair (m : Nat → ℤ) : flipped wit m = flipped wit (pair (m 0) (m 1)) := by
  unfold flipped comboRhs
  have h : comboRow wit m = comboRow wit (pair (m 0) (m 1)) := by
    funext j
    unfold comboRow
    rw [wit_mTab]
    rfl
  rw [h, wit_mTab]
  rfl

theorem small_pair {m : Nat → ℤ} (h : Small wit m) : (m 0, m 1) ∈ pairs 10 := by
  unfold Small at h
  rw [wit_mTab, show max 1 (wit.par .maxSumMultipliers) = 10 by decide +kernel, Finset.sum_range_succ,
    Finset.sum_range_one] at h
  refine mem_pairs ?_
  have h' : ((|m 0| + |m 1| : ℤ) : ℚ) ≤ ((10 : ℕ) : ℤ) := by push_cast; exact h
  exact_mod_cast h'

theorem wit_safe : SafeParams wit := ⟨by decide +kernel, by decide +kernel⟩
theorem wit_tableau : Tableau wit := RedSplit.good_tableau
theorem wit_basic : BasicSolution wit.P wit.lp.toLp := RedSplit.good_basic

theorem wit_near : ∀ p ∈ pairs 10, ∀ j < wit.P.nCols, intNB wit j = true →
    aboveInteger wit ((flipped wit (pair p.1 p.2)).row j) =
      (flipped wit (pair p.1 p.2)).row j - ⌊(flipped wit (pair p.1 p.2)).row j⌋ := by decide +kernel

theorem wit_exact : Exact wit := by
  refine ⟨by decide +kernel, by decide +kernel, by decide +kernel, by decide +kernel, fun m hm => ?_, ?_⟩
  · have h := wit_near (m 0, m 1) (small_pair hm)
    dsimp only at h
    rw [flipped_pair m]
    exact h
  · intro m _ d _ i _ h
    rw [show wit.par .EPS_ELIM = 0 by decide +kernel] at h
    exact abs_eq_zero.mp (le_antisymm h (abs_nonneg _))

theorem wit_noDrop' : ∀ p ∈ pairs 10, ∀ d ∈ cgCut wit (flipped wit (pair p.1 p.2)), ∀ j < wit.P.nCols,
    (eliminate wit (unflip wit d)).row j ≠ 0 → big wit ((eliminate wit (unflip wit d)).row j) = true := by
  decide +kernel

theorem wit_noDrop : NoDrop wit := by
  intro m hm d hd
  rw [flipped_pair m] at hd
  exact wit_noDrop' (m 0, m 1) (small_pair hm) d hd

theorem wit_basis : Basis wit := ⟨by decide +kernel, by decide +kernel, by decide +kernel⟩
theorem wit_survives : Survives wit := ⟨by decide +kernel, by decide +kernel, by decide +kernel, by decide +kernel⟩

example : ∀ cs', generateCuts wit [] = .ok cs' → ∀ d ∈ cs', d ∈ [] ∨ d.Valid wit.P :=
  fun _ h => generateCuts_valid_bounded_partial reached_defaults wit_safe RedSplit.good_wf wit_basic wit_tableau wit_exact
    (by decide +kernel) (by decide +kernel) h
example : ∀ cs', generateCuts wit [] = .ok cs' → ∀ d ∈ cs', d ∈ [] ∨ ∃ rhs, d.ub = rhs + adjust wit rhs ∧
    wit.par .away / 2 ≤ d.row.dot wit.lp.xlp - rhs ∧ wit.par .MINVIOL * d.row.length ≤ d.row.dot wit.lp.xlp - rhs :=
  fun _ h => generateCuts_cutsOff_partial reached_defaults RedSplit.good_wf wit_basic wit_exact wit_noDrop h
example : ∃ cs', generateCuts wit [] = .ok cs' := generateCuts_returns_partial reached_defaults wit_basis wit_survives []
example : ∃ r, generateMultipliers wit 3 (some []) = .ok r :=
  generateMultipliers_returns_partial reached_defaults wit_basis wit_survives (by decide +kernel) (by decide +kernel) _

/-- The vector found shortens the first row on all continuous nonbasic columns: 7 instead of 27. -/
example : ((contVars wit).map fun j => combined wit [1, -2] j ^ 2).sum = 7 ∧
    ((contVars wit).map fun j => tabv wit.P wit.lp.toLp 0 j ^ 2).sum = 27 := by
  unfold combined
  constructor <;> decide +kernel

/-- With the single rows there are three vectors. -/
def two : Call := call gomory good goodLp
theorem two_all : (generateMultipliers two 10000 none).toOption = some (none, [[1, 0], [0, 1], [1, -2]]) := by
  decide +kernel

/-- The best of the three is kept if only one is wanted: the first row, and the third vector is not returned. -/
theorem two_best : (generateMultipliers two 1 none).toOption = some (none, [[1, 0]]) := by decide +kernel

example : Single two [1, 0] := ⟨0, by decide +kernel, rfl⟩

/-! ### Each proviso is needed -/

/-- A feasible point of the problem that violates a cut of the call. -/
def Broken (c : Call) : Prop :=
  ∃ cs', (generateCuts c []).toOption = some cs' ∧ ∃ x, c.P.Feasible x ∧ ∃ d ∈ cs', ¬ d.Sat x

/-- **C26 is false of the code** with single rows: in x0 - 1e-13 x1 ≤ 3/2 the coefficient -1e-13 of the integer column x1,
with upper bound 6e12, is taken for an integer.  The cut x0/2 ≤ 4/5 excludes the feasible point x0 = 2, x1 = 5e12. -/
theorem near_integer_invalid : Broken (call gomory (RedSplit.two (- 1 / 10 ^ 13) (6 * 10 ^ 12) (3 / 2) true)
    (RedSplit.twoLp (- 1 / 10 ^ 13))) :=
  ⟨[⟨-dblMax, 5000000000063 / 6250000000000, [(0, 1 / 2)]⟩], by decide +kernel,
    fun j => if j = 0 then 2 else 5 * 10 ^ 12, by decide +kernel, _, List.mem_singleton_self _, by decide +kernel⟩

/-- x0 - 1e-14 x1 ≤ 3/2 without upper bounds. -/
def far : Prob :=
  { nCols := 2, inf := dblMax, colLower := fun _ => 0, colUpper := fun _ => dblMax, isInt := fun j => j == 0,
    rows := [⟨-dblMax, 3 / 2, [(0, 1), (1, - 1 / 10 ^ 14)]⟩] }

/-- **C26 is false of the code** beyond 1e20: a dropped coefficient is made good for values up to 1e20 only.  The cut
x0/2 ≤ 1000000.5 excludes the feasible point x0 = 3000001, x1 = 3e20. -/
theorem far_invalid : Broken (call gomory far (RedSplit.twoLp (- 1 / 10 ^ 14))) :=
  ⟨[⟨-dblMax, 20000010000002000201 / 20000000000000, [(0, 1 / 2)]⟩], by decide +kernel,
    fun j => if j = 0 then 3000001 else 3 * 10 ^ 20, by decide +kernel, _, List.mem_singleton_self _, by decide +kernel⟩

/-- **C80, cutting off, is false of the code**: the same cut is far from being violated by the LP solution x0 = 3/2, and is
added: a cut is only rejected if it is violated by too little. -/
theorem far_not_cut_off : (generateCuts (call gomory far (RedSplit.twoLp (- 1 / 10 ^ 14))) []).toOption =
    some [⟨-dblMax, 20000010000002000201 / 20000000000000, [(0, 1 / 2)]⟩] ∧
    SVec.dot [(0, 1 / 2)] (RedSplit.twoLp (- 1 / 10 ^ 14)).xlp = 3 / 4 := by
  constructor <;> decide +kernel

/-- **C26 is false of the code** for integer columns with fractional bounds: x0 + x1 ≤ 2, x1 ≤ 1/2 gives
x0/2 + x1/2 ≤ 3/4, which excludes x0 = 2, x1 = 0. -/
theorem fractional_bound_invalid : Broken (call gomory (RedSplit.two 1 (1 / 2) 2 true) RedSplit.halfLp) :=
  ⟨[⟨-dblMax, 30000000000403 / 40000000000000, [(0, 1 / 2), (1, 1 / 2)]⟩], by decide +kernel,
    fun j => if j = 0 then 2 else 0, by decide +kernel, _, List.mem_singleton_self _, by decide +kernel⟩

/-- `setINFINIT` accepts 1/10. -/
def tight : Prm := Param.RedSplit2.set gomory .INFINIT (1 / 10)
theorem reached_tight : Reached tight := ⟨[.new, .set 0 .skipGomory 0, .set 0 .INFINIT (1 / 10)], 0, rfl⟩

/-! ### Calls that do not return -/

/-- The fault of a call. -/
def faultOf {α : Type} : Except Fault α → Option Fault
  | .error e => some e
  | .ok _ => none

theorem faultOf_spec {α : Type} {r : Except Fault α} {e : Fault} (h : faultOf r = some e) : r = .error e := by
  rcases r with f | a
  · cases h; rfl
  · cases h

/-- Rows with at most one nonzero. -/
def sparse : Prm := Param.RedSplit2.set defaults .maxNonzeroesTab 2
theorem reached_sparse : Reached sparse := ⟨[.new, .set 0 .maxNonzeroesTab 2], 0, rfl⟩

/-- **C82 is false of the code**: rows with too many nonzeros are skipped, but the number of rows is not reduced, and
right-hand sides that were never written are used. -/
theorem skipped_rows_uninitialised : generateCuts (call (Param.RedSplit2.set sparse .skipGomory 0) good goodLp) [] =
    .error .uninitialised := faultOf_spec (by decide +kernel)

/-- **C82 is false of the code**: `addNumRowsReduction(0)` is accepted, and writes before the start of a list. -/
theorem zero_rows_outside : generateCuts
    { wit with
      strat := { Param.Strat.fresh true with
        rows := [0] } } [] = .error .outside := faultOf_spec (by decide +kernel)

/-- The problem `good` with a row x3 ≤ 1e200 whose slack is basic. -/
def huge : Prob := { good with
  rows := good.rows ++ [⟨-dblMax, 10 ^ 200, [(3, 1)]⟩] }

/-- **C82 is false of the code**: a finite right-hand side of 1e100 or more makes an assertion fail. -/
theorem huge_rhs_asserts : generateCuts (call defaults huge { goodLp with
    rstat := fun i => if i = 2 then 1 else 3
    basis := fun r => if r = 2 then 7 else r }) [] = .error .assertion := faultOf_spec (by decide +kernel)

/-- The largest limit on the support. -/
def broad : Prm := Param.RedSplit2.set gomory .MAX_SUPPORT (2 ^ 31 - 1)
theorem reached_broad : Reached broad := ⟨[.new, .set 0 .skipGomory 0, .set 0 .MAX_SUPPORT (2 ^ 31 - 1)], 0, rfl⟩

/-- x0 + ... + x9 ≤ 3/2. -/
def ten : Prob :=
  { nCols := 10, inf := dblMax, colLower := fun _ => 0, colUpper := fun _ => 10, isInt := fun _ => true,
    rows := [⟨-dblMax, 3 / 2, (List.range 10).map fun j => (j, 1)⟩] }

/-- **C82 is false of the code**: the largest limit on the support makes an `int` overflow as soon as there are ten
columns. -/
theorem support_overflow : generateCuts (call broad ten (RedSplit.twoLp 1)) [] = .error .overflow :=
  faultOf_spec (by decide +kernel)

/-- The largest number of cuts to compute. -/
def most : Prm := Param.RedSplit2.set defaults .maxNumComputedCuts (2 ^ 31 - 1)
theorem reached_most : Reached most := ⟨[.new, .set 0 .maxNumComputedCuts (2 ^ 31 - 1)], 0, rfl⟩

/-- **C82 is false of the code**: with the largest number of cuts to compute, the size of the array of multipliers
overflows for two rows. -/
theorem lambda_overflow : generateMultipliers (call most good goodLp) 1 none = .error .overflow :=
  faultOf_spec (by decide +kernel)

/-- Tilting fails in the example. -/
theorem tilt_outside : tilt wit 0 = .error .outside := faultOf_spec (by decide +kernel)
example : contVars wit ≠ [] ∧ mTab wit ≠ 0 ∧ wit.strat.colsLAP ≠ [] := by decide +kernel

/-- **C26 is false of the code** if `INFINIT` is lowered: the lower bound -1/10 of the cut is a real one.  It excludes
a feasible point of the problem. -/
theorem lowered_infinit_invalid : Broken (call tight RedSplit.steep RedSplit.steepLp) :=
  ⟨[⟨- 1 / 10, -9999999999899 / 10000000000000, [(0, -1 / 2), (1, -1 / 2)]⟩], by decide +kernel,
    fun j => if j = 0 then 2 else 0, by decide +kernel, _, List.mem_singleton_self _, by decide +kernel⟩

end Cgl.RedSplit2
