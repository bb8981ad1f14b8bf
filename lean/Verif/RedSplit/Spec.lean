import Verif.RedSplit.Model

/-!
# What CglRedSplit may assume about the solver, and when no tolerance bites
-/

namespace Cgl.RedSplit

/-- A column, or the slack `rhs - activity` of a row, at the point `x`. -/
def ext (P : Prob) (x : Nat → ℚ) (j : Nat) : ℚ :=
  if j < P.nCols then x j else P.rhs (j - P.nCols) - P.activity x (j - P.nCols)

/-- The solution the solver reports is a basic solution with the reported statuses: row activities belong to the
solution, a column (row) reported at a bound is at that bound, and the bound is finite.  (A slack is `rhs - activity`,
so a slack at its upper bound is a row at its lower bound.) -/
structure BasicSolution (P : Prob) (lp : Lp) : Prop where
  act : ∀ i < P.rows.length, lp.act i = P.activity lp.xlp i
  upper : ∀ j < P.nCols, lp.cstat j = 2 → lp.xlp j = P.colUpper j ∧ P.colUpper j < P.inf
  lower : ∀ j < P.nCols, lp.cstat j = 3 → lp.xlp j = P.colLower j ∧ - P.inf < P.colLower j
  rowLower : ∀ i < P.rows.length, lp.rstat i = 2 → lp.act i = (P.row i).lb ∧ - P.inf < (P.row i).lb
  rowUpper : ∀ i < P.rows.length, lp.rstat i = 3 → lp.act i = (P.row i).ub ∧ (P.row i).ub < P.inf

/-- What `getBInvARow` promises for row `r` of the tableau with a basic column: the second array is a row of the inverse of
the basis matrix, the first one is its product with the constraint matrix; it is 1 in the basic column of the row and 0
in all other basic columns and slacks. -/
structure TableauRow (P : Prob) (lp : Lp) (r : Nat) : Prop where
  entry : ∀ j < P.nCols, lp.z r j = ∑ i ∈ Finset.range P.rows.length, (P.row i).coef j * lp.slack r i
  pivot : lp.z r (lp.basis r) = 1
  basic : ∀ j < P.nCols, lp.cstat j = 1 → j ≠ lp.basis r → lp.z r j = 0
  slackBasic : ∀ i < P.rows.length, lp.rstat i = 1 → lp.slack r i = 0

/-- The problem data are not within a tolerance of being something else: a continuous column that is treated as integer is
fixed at an integer, a row treated as an equation is one, and integer columns have integer bounds. -/
structure ExactData (prm : Prm) (P : Prob) : Prop where
  fixed : ∀ j < P.nCols, P.isInt j = false → P.colUpper j - P.colLower j < par prm .EPS ∧ aboveInteger prm (P.colUpper j) < par prm .EPS →
    P.colLower j = P.colUpper j ∧ IsInteger (P.colUpper j) ∧ - P.inf < P.colLower j ∧ P.colUpper j < P.inf
  rows : ∀ i < P.rows.length, (P.row i).ub - par prm .EPS < (P.row i).lb →
    (P.row i).lb = (P.row i).ub ∧ - P.inf < (P.row i).lb ∧ (P.row i).ub < P.inf
  intUpper : ∀ j < P.nCols, P.isInt j = true → P.colUpper j < P.inf → IsInteger (P.colUpper j)
  intLower : ∀ j < P.nCols, P.isInt j = true → - P.inf < P.colLower j → IsInteger (P.colLower j)

/-- No tolerance comes into play for the combination `r` of the run: no entry of an integer column is nearly an integer
without being one, no slack coefficient is nonzero but below `EPS_ELIM`, and no coefficient of the scaled cut is dropped
without a bound that pays for it. -/
structure CleanRow (prm : Prm) (P : Prob) (lp : Lp) (sqrt : ℚ → ℚ) (sel : List Nat) (s : St) (r : Nat) : Prop where
  near : ∀ j < P.nCols, intNB prm P lp j = true →
    aboveInteger prm (flip P lp (comboRow prm P lp sel s r) j) =
      flip P lp (comboRow prm P lp sel s r) j - ⌊flip P lp (comboRow prm P lp sel s r) j⌋
  elim : ∀ d, cgCut prm P lp ⟨flip P lp (comboRow prm P lp sel s r), comboRhs lp sel s r⟩ = some d →
    ∀ i < P.rows.length, |(unflip P lp d).row (P.nCols + i)| ≤ par prm .EPS_ELIM → (unflip P lp d).row (P.nCols + i) = 0
  drop : ∀ d, denseCut prm P lp sel s r = some d → ∀ v, scaleFactor prm P sqrt d.row = some v →
    ∀ j < P.nCols, d.row j ≠ 0 → kept prm P j (d.row j / v) = true ∨
      (0 < d.row j ∧ lowLub prm P j = false) ∨ (d.row j < 0 ∧ upLub prm P j = false)

/-- No tolerance comes into play in the whole run. -/
def Clean (prm : Prm) (P : Prob) (lp : Lp) (sqrt cbrt : ℚ → ℚ) (fuel : Nat) : Prop :=
  ∀ sel s, selection prm P lp sqrt cbrt = .ok (some sel) → reduced prm P lp sel fuel = .ok s →
    ∀ r < sel.length, CleanRow prm P lp sqrt sel s r

/-- Settings under which a cut says what it should: infinity is not below `COIN_DBL_MAX`, the size above which a bound
counts as large is below infinity. -/
structure SafeParams (prm : Prm) (inf : ℚ) : Prop where
  infinit : dblMax ≤ par prm .INFINIT
  lub : par prm .LUB < inf

end Cgl.RedSplit
