import Verif.RedSplit2.Model
import Verif.Param.Props

/-!
# What CglRedSplit2 may assume about its parameters and the solver, and when no tolerance bites
-/

namespace Cgl.RedSplit2

open RedSplit (stat indices nonBasic goodModel flip tabv Dense BasicSolution TableauRow)

/-- A parameter object some program can have: the result of a history of constructions, copies, assignments and calls of
setters. -/
def Reached (prm : Prm) : Prop :=
  ∃ (h : List (Param.Op Param.RedSplit2.Name ℚ)) (i : ℕ), (Param.RedSplit2.impl.run h)[i]? = some prm

theorem Reached.range {prm : Prm} (h : Reached prm) (n : Param.RedSplit2.Name) :
    Param.RedSplit2.doc.range n (Param.RedSplit2.get prm n) := by
  obtain ⟨h, i, hi⟩ := h
  exact Param.RedSplit2.ranges h i prm hi n

/-- Settings under which a cut says what it should: `INFINIT` is not below `COIN_DBL_MAX`, and the solver's infinity is
not below 1e20, which stands for it when a small coefficient is dropped. -/
structure SafeParams (c : Call) : Prop where
  infinit : dblMax ≤ c.par .INFINIT
  inf : 10^20 ≤ c.P.inf

/-- Multipliers whose 1-norm is within the limit. -/
def Small (c : Call) (m : Nat → ℤ) : Prop :=
  ∑ k ∈ Finset.range (mTab c), |(m k : ℚ)| ≤ max 1 (c.par .maxSumMultipliers)

/-- No tolerance comes into play: a continuous column that is treated as integer is fixed at an integer, integer columns
have integer bounds, no entry of an integer column is nonzero but below 1e-20, no combination with small multipliers has an
entry that is nearly an integer without being one, and no slack coefficient is nonzero but below `EPS_ELIM`. -/
structure Exact (c : Call) : Prop where
  fixed : ∀ j < c.P.nCols, c.P.isInt j = false →
    c.P.colUpper j - c.P.colLower j < c.par .EPS ∧ aboveInteger c (c.P.colUpper j) < c.par .EPS →
    c.P.colLower j = c.P.colUpper j ∧ IsInteger (c.P.colUpper j) ∧ - c.P.inf < c.P.colLower j ∧ c.P.colUpper j < c.P.inf
  intUpper : ∀ j < c.P.nCols, c.P.isInt j = true → c.P.colUpper j < c.P.inf → IsInteger (c.P.colUpper j)
  intLower : ∀ j < c.P.nCols, c.P.isInt j = true → - c.P.inf < c.P.colLower j → IsInteger (c.P.colLower j)
  tiny : ∀ r < c.P.rows.length, ∀ j < c.P.nCols, tabv c.P c.lp.toLp r j ≠ 0 → tiny < |tabv c.P c.lp.toLp r j|
  near : ∀ m, Small c m → ∀ j < c.P.nCols, intNB c j = true →
    aboveInteger c ((flipped c m).row j) = (flipped c m).row j - ⌊(flipped c m).row j⌋
  elim : ∀ m, Small c m → ∀ d, cgCut c (flipped c m) = some d → ∀ i < c.P.rows.length,
    |d.row (c.P.nCols + i)| ≤ c.par .EPS_ELIM → d.row (c.P.nCols + i) = 0

/-- What the solver promises about the tableau rows. -/
def Tableau (c : Call) : Prop :=
  ∀ r < c.P.rows.length, c.lp.basis r < c.P.nCols → TableauRow c.P c.lp.toLp r

/-- The basis: different rows have different basic variables, and each basic column is basic in some row. -/
structure Basis (c : Call) : Prop where
  inj : ∀ r < c.P.rows.length, ∀ s < c.P.rows.length, c.lp.basis r = c.lp.basis s → r = s
  onto : ∀ j < c.P.nCols, c.lp.cstat j = 1 → ∃ r < c.P.rows.length, c.lp.basis r = j
  basic : ∀ r < c.P.rows.length, c.lp.basis r < c.P.nCols → c.lp.cstat (c.lp.basis r) = 1

/-- A point whose entries are within 1e20, the value the code uses for "infinite". -/
def Moderate (P : Prob) (x : Nat → ℚ) : Prop := ∀ j < P.nCols, |x j| ≤ 10^20

/-- Settings the main loop survives: every row of the tableau is short enough to be kept, each number of rows to combine
is positive, the limit on the support is a sensible `int`. -/
structure Survives (c : Call) : Prop where
  rhs : ∀ i < c.P.rows.length, |effRhs c i| < 10^100
  short : ∀ r < c.P.rows.length, usable c r = true → (nonzeroes c r : ℚ) < c.par .maxNonzeroesTab
  rows : ∀ n ∈ c.strat.rows, 0 < n
  support : c.par .MAX_SUPPORT + c.P.nCols * c.par .MAX_SUPP_REL ≤ intMax

end Cgl.RedSplit2
