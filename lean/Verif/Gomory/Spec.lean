import Verif.Gomory.Model

/-!
# What CglGomory may assume about the solver, and when no tolerance bites
-/

namespace Cgl.Gomory

/-- The solution the solver reports is a basic solution of its basis: every nonbasic column and every nonbasic row is
at one of its bounds, which is finite. -/
structure BasicSolution (P : Prob) (lp : Lp) : Prop where
  col : ∀ j < P.nCols, lp.colBasic j = false →
    (lp.sol j = P.colLower j ∧ - P.inf < P.colLower j) ∨ (lp.sol j = P.colUpper j ∧ P.colUpper j < P.inf)
  row : ∀ i < P.rows.length, lp.rowBasic i = false →
    (P.activity lp.sol i = (P.row i).lb ∧ - P.inf < (P.row i).lb) ∨
    (P.activity lp.sol i = (P.row i).ub ∧ (P.row i).ub < P.inf)

/-- `ρ` is the row of the inverse of the basis matrix that belongs to the basic column `b`: multiplied with the
matrix it gives 1 in column `b`, 0 in the other basic columns and 0 in the basic slacks. -/
structure TableauRow (P : Prob) (lp : Lp) (b : Nat) (ρ : SVec) : Prop where
  rows : ∀ p ∈ ρ, p.1 < P.rows.length
  pivot : tabEntry P ρ b = 1
  basic : ∀ j < P.nCols, lp.colBasic j = true → j ≠ b → tabEntry P ρ j = 0
  slack : ∀ p ∈ ρ, lp.rowBasic p.1 = true → p.2 = 0

/-- The problem data are not within a tolerance of being something else: bounds closer than `1e-7` are equal, a
column whose bounds are closer than `1e20` has finite bounds, integer columns have integer bounds, and row bounds and
coefficients of integer columns that look integral are integral. -/
structure ExactData (P : Prob) : Prop where
  inf : large ≤ P.inf
  cols : ∀ j < P.nCols, P.colUpper j ≤ P.colLower j + 1 / 10 ^ 7 → P.colLower j = P.colUpper j
  range : ∀ j < P.nCols, P.colUpper j - P.colLower j < large → - P.inf < P.colLower j ∧ P.colUpper j < P.inf
  rows : ∀ i < P.rows.length, (P.row i).ub ≤ (P.row i).lb + 1 / 10 ^ 7 →
    (P.row i).lb = (P.row i).ub ∧ - P.inf < (P.row i).lb ∧ (P.row i).ub < P.inf
  intUpper : ∀ j < P.nCols, P.isInt j = true → P.colUpper j < P.inf → IsInteger (P.colUpper j)
  intLower : ∀ j < P.nCols, P.isInt j = true → - P.inf < P.colLower j → IsInteger (P.colLower j)
  rowUpper : ∀ i < P.rows.length, aboveInteger (P.row i).ub < 1 / 10 ^ 10 → IsInteger (P.row i).ub
  rowLower : ∀ i < P.rows.length, aboveInteger (P.row i).lb < 1 / 10 ^ 10 → IsInteger (P.row i).lb
  coef : ∀ i < P.rows.length, ∀ p ∈ (P.row i).coefs, P.isInt p.1 = true → aboveInteger p.2 ≤ 1 / 10 ^ 10 →
    IsInteger p.2

/-- `v` is not within the tolerance of an integer unless it is one. -/
def NearOk (v : ℚ) : Prop :=
  |(⌊v + 1 / 2⌋ : ℚ) - v| < 1 / 10 ^ 9 * (|(⌊v + 1 / 2⌋ : ℚ)| + 1) → v = ⌊v + 1 / 2⌋

instance (v : ℚ) : Decidable (NearOk v) := by unfold NearOk; infer_instance

/-- No number in the tableau row, or in the inequality computed from it, is within a tolerance of zero or of an
integer without being equal to it. -/
structure NoTiny (P : Prob) (lp : Lp) (info : Info) (ρ : SVec) (f0 : ℚ) : Prop where
  entry : ∀ j < P.nCols, |tabEntry P ρ j| < 1 / 10 ^ 16 → tabEntry P ρ j = 0
  near : ∀ j < P.nCols, lp.colBasic j = false → P.isInt j = true → NearOk (negIf (swap P lp j) (tabEntry P ρ j))
  coef : ∀ j < P.nCols, |coefficient f0 (P.isInt j) (negIf (swap P lp j) (tabEntry P ρ j))| < 1 / 10 ^ 50 →
    coefficient f0 (P.isInt j) (negIf (swap P lp j) (tabEntry P ρ j)) = 0
  slack : ∀ p ∈ ρ, |p.2| < 1 / 10 ^ 16 → p.2 = 0
  nearSlack : ∀ p ∈ ρ, ∀ t, rowType P lp p.1 = some t → t.int = true → NearOk (negIf (! t.upper) p.2)
  cut : ∀ p ∈ (fullRow P lp info ρ f0).elems, |p.2| ≤ 1 / 10 ^ 13 →
    p.2 = 0 ∨ (p.2 < 0 ∧ - large < P.colLower p.1) ∨ (0 < p.2 ∧ P.colUpper p.1 < large)

/-- A bound on the magnitudes of the columns of a vector. -/
def box (P : Prob) (v : SVec) : ℚ := (v.map fun p => max |P.colLower p.1| |P.colUpper p.1|).sum

/-- The cut may be rounded: either it has integer columns only, finite and not too large, or it has continuous
columns and the rational cleaning, if it takes place, is exact. -/
def RoundOk (P : Prob) (v : SVec) (rhs : ℚ) : Prop :=
  (nonInteger P v = 0 ∧ box P v ≤ 900000 ∧ ∀ p ∈ v, - P.inf < P.colLower p.1 ∧ P.colUpper p.1 < P.inf) ∨
  (nonInteger P v ≠ 0 ∧ (6 ≤ v.length ∨ ∀ l, lcmLoop (v.map Prod.snd ++ [rhs]) false 1 = .found l →
    ∀ q ∈ v.map Prod.snd ++ [rhs], IsInteger (|q| * l)))

/-- The point satisfies `v · x ≤ b`. -/
def Le (v : SVec) (b : ℚ) (x : Nat → ℚ) : Prop := SVec.dot v x ≤ b

end Cgl.Gomory
