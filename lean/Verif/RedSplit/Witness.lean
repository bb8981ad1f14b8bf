import Verif.RedSplit.Props

/-!
# CglRedSplit: examples that meet the hypotheses, and what goes wrong without them
-/

namespace Cgl.RedSplit

/-- The parameters as constructed by default. -/
abbrev defaults : Prm := Param.RedSplit.fresh

theorem reached_defaults : Reached defaults := ⟨[.new], 0, rfl⟩

/-- The two roots, on the numbers that occur in the examples. -/
def sq (q : ℚ) : ℚ := if q = 505 * 505 then 505 else 1
def cb (_ : ℚ) : ℚ := 215

/-! ### A problem with all kinds of columns -/

/-- x0 + 5 x2 + x3 + x4/2 ≤ 5/4 and x1 + 2 x2 + x4/3 ≤ 7/12; x0, x1, x4 integer, all in [0, 1]. -/
def good : Prob :=
  { nCols := 5, inf := dblMax, colLower := fun _ => 0, colUpper := fun _ => 1, isInt := fun j => j != 2 && j != 3,
    rows := [⟨-dblMax, 5 / 4, [(0, 1), (2, 5), (3, 1), (4, 1 / 2)]⟩, ⟨-dblMax, 7 / 12, [(1, 1), (2, 2), (4, 1 / 3)]⟩] }

/-- x0 and x1 basic at 3/4 and 1/4, x2 and x3 at their lower, x4 at its upper bound; both rows tight. -/
def goodLp : Lp :=
  { cstat := fun j => if j ≤ 1 then 1 else if j = 4 then 2 else 3, rstat := fun _ => 3,
    xlp := fun j => if j = 0 then 3 / 4 else if j = 1 then 1 / 4 else if j = 4 then 1 else 0,
    act := fun i => if i = 0 then 5 / 4 else 7 / 12, basis := fun r => r,
    z := fun r j => if r = 0 then (if j = 0 then 1 else if j = 2 then 5 else if j = 3 then 1 else if j = 4 then 1 / 2 else 0)
      else (if j = 1 then 1 else if j = 2 then 2 else if j = 4 then 1 / 3 else 0),
    slack := fun r i => if r = i then 1 else 0 }

theorem good_wf : good.WF := by decide +kernel

theorem good_safe : SafeParams defaults good.inf := by
  constructor <;> decide +kernel

theorem good_exact : ExactData defaults good :=
  ⟨by decide +kernel, by decide +kernel, by decide +kernel, by decide +kernel⟩

theorem good_basic : BasicSolution good goodLp :=
  ⟨by decide +kernel, by decide +kernel, by decide +kernel, by decide +kernel, by decide +kernel⟩

theorem good_tableau : ∀ r < good.rows.length, goodLp.basis r < good.nCols → TableauRow good goodLp r := by
  intro r hr _
  have : r = 0 ∨ r = 1 := by
    have : good.rows.length = 2 := rfl
    omega
  rcases this with rfl | rfl
  · exact ⟨by decide +kernel, by decide +kernel, by decide +kernel, by decide +kernel⟩
  · exact ⟨by decide +kernel, by decide +kernel, by decide +kernel, by decide +kernel⟩

theorem good_sel : selection defaults good goodLp sq cb = .ok (some [0, 1]) := by decide +kernel

/-- The combinations: the first row minus twice the second, and the second. -/
example : (reduced defaults good goodLp [0, 1] 3).toOption.map
    (fun s => (s.pi 0 0, s.pi 0 1, s.pi 1 0, s.pi 1 1)) = some (1, -2, 0, 1) := by decide +kernel

theorem of_toOption {α : Type} {e : Except Fault α} {p : α → Prop} (h : ∀ s ∈ e.toOption, p s) :
    ∀ s, e = .ok s → p s := by
  rintro s rfl; exact h s rfl

theorem good_noSmall : NoSmall defaults good goodLp sq cb 3 := by
  intro sel s hsel hred r hr
  rw [good_sel] at hsel
  cases hsel
  exact of_toOption (e := reduced defaults good goodLp [0, 1] 3) (p := fun s => ∀ r < 2,
    ∀ d ∈ denseCut defaults good goodLp [0, 1] s r, ∀ v ∈ scaleFactor defaults good sq d.row, ∀ j < good.nCols,
      d.row j ≠ 0 → par defaults .EPS_COEFF < |d.row j / v|) (by decide +kernel) s hred r hr

theorem good_clean : Clean defaults good goodLp sq cb 3 := by
  intro sel s hsel hred r hr
  rw [good_sel] at hsel
  cases hsel
  have h1 := of_toOption (e := reduced defaults good goodLp [0, 1] 3) (p := fun s => ∀ r < 2, ∀ j < good.nCols,
    intNB defaults good goodLp j = true → aboveInteger defaults (flip good goodLp (comboRow defaults good goodLp [0, 1] s r) j) =
      flip good goodLp (comboRow defaults good goodLp [0, 1] s r) j -
        ⌊flip good goodLp (comboRow defaults good goodLp [0, 1] s r) j⌋) (by decide +kernel) s hred r hr
  have h2 := of_toOption (e := reduced defaults good goodLp [0, 1] 3) (p := fun s => ∀ r < 2,
    ∀ d ∈ cgCut defaults good goodLp ⟨flip good goodLp (comboRow defaults good goodLp [0, 1] s r),
      comboRhs goodLp [0, 1] s r⟩, ∀ i < good.rows.length,
      |(unflip good goodLp d).row (good.nCols + i)| ≤ par defaults .EPS_ELIM → (unflip good goodLp d).row (good.nCols + i) = 0)
    (by decide +kernel) s hred r hr
  refine ⟨h1, h2, fun d hd v hv j hj h0 => Or.inl ?_⟩
  unfold kept
  rw [if_pos (good_noSmall _ s good_sel hred r hr d hd v hv j hj h0)]

/-- Two cuts: x0 + 2/3 x1 + 16/3 x2 + 8/9 x4 ≤ 14/9 and x1 + 4/9 x4 ≤ 4/9, slightly relaxed. -/
theorem good_cuts : (generateCuts defaults good goodLp sq cb 3 []).toOption =
    some [⟨-dblMax, 14 / 9 + 1 / 10 ^ 8, [(0, 1), (1, 2 / 3), (2, 16 / 3), (4, 8 / 9)]⟩,
      ⟨-dblMax, 4 / 9 + 1 / 10 ^ 8, [(1, 1), (4, 4 / 9)]⟩] := by decide +kernel

example : ∀ cs', generateCuts defaults good goodLp sq cb 3 [] = .ok cs' → ∀ c ∈ cs', c ∈ [] ∨ c.Valid good :=
  fun _ h => generateCuts_valid_partial reached_defaults good_safe good_wf good_basic good_tableau good_exact good_clean h
example : ∀ cs', generateCuts defaults good goodLp sq cb 3 [] = .ok cs' → ∀ c ∈ cs', c ∈ [] ∨
    ∃ rhs, c.ub = rhs + adjust defaults rhs ∧ par defaults .away / 50 ≤ c.row.dot goodLp.xlp - rhs :=
  fun _ h => generateCuts_cutsOff_partial reached_defaults good_wf good_basic good_tableau good_exact good_clean
    good_noSmall h
/-- A feasible point. -/
example : good.Feasible (fun j => if j = 0 then 1 else if j = 3 then 1 / 4 else 0) := by decide +kernel

/-! ### Each proviso is needed -/

/-- A feasible point of `P` that violates a cut of the call. -/
def Broken (prm : Prm) (P : Prob) (lp : Lp) : Prop :=
  ∃ cs', (generateCuts prm P lp sq cb 3 []).toOption = some cs' ∧ ∃ x, P.Feasible x ∧ ∃ c ∈ cs', ¬ c.Sat x

/-- x0 + a x1 ≤ 3/2 with x0 integer and x1, integer or not, in [0, u]. -/
def two (a u b : ℚ) (int : Bool) : Prob :=
  { nCols := 2, inf := dblMax, colLower := fun _ => 0, colUpper := fun j => if j = 0 then 10 else u,
    isInt := fun j => j == 0 || int, rows := [⟨-dblMax, b, [(0, 1), (1, a)]⟩] }

/-- x0 basic at 3/2, x1 at its lower bound, the row tight. -/
def twoLp (a : ℚ) : Lp :=
  { cstat := fun j => if j = 0 then 1 else 3, rstat := fun _ => 3, xlp := fun j => if j = 0 then 3 / 2 else 0,
    act := fun _ => 3 / 2, basis := fun _ => 0, z := fun _ j => if j = 0 then 1 else a, slack := fun _ _ => 1 }

example : BasicSolution (two (- 1 / 10 ^ 7) (10 ^ 7) (3 / 2) true) (twoLp (- 1 / 10 ^ 7)) ∧
    TableauRow (two (- 1 / 10 ^ 7) (10 ^ 7) (3 / 2) true) (twoLp (- 1 / 10 ^ 7)) 0 ∧
    ExactData defaults (two (- 1 / 10 ^ 7) (10 ^ 7) (3 / 2) true) :=
  ⟨⟨by decide +kernel, by decide +kernel, by decide +kernel, by decide +kernel, by decide +kernel⟩,
    ⟨by decide +kernel, by decide +kernel, by decide +kernel, by decide +kernel⟩,
    ⟨by decide +kernel, by decide +kernel, by decide +kernel, by decide +kernel⟩⟩

/-- **C26 is false of the code** with the default parameters: the coefficient -1e-7 of the integer column x1 is taken for
an integer, and the cut x0 - 1e-7 x1 ≤ 1 excludes the feasible point x0 = 2, x1 = 5e6. -/
theorem near_integer_invalid : Broken defaults (two (- 1 / 10 ^ 7) (10 ^ 7) (3 / 2) true) (twoLp (- 1 / 10 ^ 7)) :=
  ⟨[⟨-dblMax, 1 + 1 / 10 ^ 8, [(0, 1), (1, - 1 / 10 ^ 7)]⟩], by decide +kernel,
    fun j => if j = 0 then 2 else 5 * 10 ^ 6, by decide +kernel, _, List.mem_singleton_self _, by decide +kernel⟩

/-- **C26 is false of the code** with the default parameters: a small coefficient of a column without an upper bound is
left out and nothing is given for it.  The cut x0 ≤ 1 excludes the feasible point x0 = 2, x1 = 5e13. -/
theorem dropped_invalid : Broken defaults (two (- 1 / 10 ^ 14) dblMax (3 / 2) false) (twoLp (- 1 / 10 ^ 14)) :=
  ⟨[⟨-dblMax, 1 + 1 / 10 ^ 8, [(0, 1)]⟩], by decide +kernel,
    fun j => if j = 0 then 2 else 5 * 10 ^ 13, by decide +kernel, _, List.mem_singleton_self _, by decide +kernel⟩

/-- 1e13 x0 + 5e12 x1 ≥ 1.5e13. -/
def steep : Prob :=
  { nCols := 2, inf := dblMax, colLower := fun _ => 0, colUpper := fun _ => 10, isInt := fun _ => true,
    rows := [⟨15 * 10 ^ 12, dblMax, [(0, 10 ^ 13), (1, 5 * 10 ^ 12)]⟩] }

/-- x0 basic at 3/2, the row at its lower bound. -/
def steepLp : Lp :=
  { cstat := fun j => if j = 0 then 1 else 3, rstat := fun _ => 2, xlp := fun j => if j = 0 then 3 / 2 else 0,
    act := fun _ => 15 * 10 ^ 12, basis := fun _ => 0, z := fun _ j => if j = 0 then 1 else 1 / 2,
    slack := fun _ _ => 1 / 10 ^ 13 }

/-- **C26 is false of the code** with the default parameters: a slack with a coefficient below `EPS_ELIM` is left out.  The
cut x0 ≤ 1 excludes the feasible point x0 = 2, x1 = 0. -/
theorem eliminated_invalid : Broken defaults steep steepLp :=
  ⟨[⟨-dblMax, 1 + 1 / 10 ^ 8, [(0, 1)]⟩], by decide +kernel,
    fun j => if j = 0 then 2 else 0, by decide +kernel, _, List.mem_singleton_self _, by decide +kernel⟩

/-- x1 nonbasic at its upper bound 1/2. -/
def halfLp : Lp :=
  { twoLp 1 with
    cstat := fun j => if j = 0 then 1 else 2
    xlp := fun j => if j = 0 then 3 / 2 else 1 / 2
    act := fun _ => 2 }

/-- **C26 is false of the code** for integer columns with fractional bounds: x0 + x1 ≤ 2, x1 ≤ 1/2 gives
x0 + x1 ≤ 3/2, which excludes x0 = 2, x1 = 0. -/
theorem fractional_bound_invalid : Broken defaults (two 1 (1 / 2) 2 true) halfLp :=
  ⟨[⟨-dblMax, 3 / 2 + 1 / 10 ^ 8, [(0, 1), (1, 1)]⟩], by decide +kernel,
    fun j => if j = 0 then 2 else 0, by decide +kernel, _, List.mem_singleton_self _, by decide +kernel⟩

/-- x0 + 4e-6 x1 ≤ 3/2 with -1e8 ≤ x1 ≤ 0. -/
def slow : Prob :=
  { nCols := 2, inf := dblMax, colLower := fun j => if j = 0 then 0 else - 10 ^ 8,
    colUpper := fun j => if j = 0 then 1000 else 0, isInt := fun j => j == 0,
    rows := [⟨-dblMax, 3 / 2, [(0, 1), (1, 4 / 10 ^ 6)]⟩] }

/-- x1 at its upper bound. -/
def slowLp : Lp := { twoLp (4 / 10 ^ 6) with cstat := fun j => if j = 0 then 1 else 2 }

/-- A larger size of bounds that count as large. -/
def wide : Prm := Param.RedSplit.set defaults .LUB (10 ^ 9)
theorem reached_wide : Reached wide := ⟨[.new, .set 0 .LUB (10 ^ 9)], 0, rfl⟩

/-- **C57, cutting off, is false of the code**: a cut that the LP solution satisfies by far is added, because a cut is
only rejected if it is violated by too little. -/
theorem not_cut_off : (generateCuts wide slow slowLp sq cb 3 []).toOption =
    some [⟨-dblMax, 801 + 1 / 10 ^ 8, [(0, 1)]⟩] ∧ SVec.dot [(0, 1)] slowLp.xlp = 3 / 2 := by
  constructor <;> decide +kernel

/-- 506 rows 2 xi ≤ 1. -/
def many : Prob :=
  { nCols := 506, inf := dblMax, colLower := fun _ => 0, colUpper := fun _ => 1, isInt := fun _ => true,
    rows := (List.range 506).map fun i => ⟨-dblMax, 1, [(i, 2)]⟩ }

/-- All columns basic at 1/2. -/
def manyLp : Lp :=
  { cstat := fun _ => 1, rstat := fun _ => 3, xlp := fun _ => 1 / 2, act := fun _ => 1, basis := fun r => r,
    z := fun r j => if r = j then 1 else 0, slack := fun r i => if r = i then 1 / 2 else 0 }

/-- Room for 505 rows. -/
def room : Prm := Param.RedSplit.set defaults .maxTab (506 * 505 * 505)
theorem reached_room : Reached room := ⟨[.new, .set 0 .maxTab (506 * 505 * 505)], 0, rfl⟩

/-- **A read past the end of an array**: when fewer rows are used than there are, starting at row 2, `basis_index[nrow]`
is read after the last row. -/
theorem reads_past_end : generateCuts room many manyLp sq cb 3 [] = .error .undef := by
  have : selection room many manyLp sq cb = .error .undef := by
    have h : (match selection room many manyLp sq cb with | .error .undef => true | _ => false) = true := by
      decide +kernel
    revert h
    rcases selection room many manyLp sq cb with e | s
    · cases e <;> simp
    · simp
  unfold generateCuts
  rw [this]

end Cgl.RedSplit
