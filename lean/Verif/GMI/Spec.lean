import Verif.GMI.Model

/-!
# What CglGMI may assume about the solver, and when no tolerance bites

None of this mentions how the generator works, except that the last two conditions on tiny numbers speak about the
coefficients it computes.
-/

namespace Cgl.GMI

/-- The solution the solver reports is a basic solution with the reported statuses: row activities belong to the
solution, a column (row) reported at a bound is at that bound, and the bound is finite.  (A slack is `rhs - activity`,
so a slack at its upper bound is a row at its lower bound.) -/
structure BasicSolution (P : Prob) (lp : Lp) : Prop where
  act : ∀ i < P.rows.length, lp.act i = P.activity lp.xlp i
  upper : ∀ j < P.nCols, lp.cstat j = 2 → lp.xlp j = P.colUpper j ∧ P.colUpper j < P.inf
  lower : ∀ j < P.nCols, lp.cstat j = 3 → lp.xlp j = P.colLower j ∧ - P.inf < P.colLower j
  rowLower : ∀ i < P.rows.length, lp.rstat i = 2 → lp.act i = (P.row i).lb ∧ - P.inf < (P.row i).lb
  rowUpper : ∀ i < P.rows.length, lp.rstat i = 3 → lp.act i = (P.row i).ub ∧ (P.row i).ub < P.inf

/-- `ρ` is the row of the inverse of the basis matrix that belongs to the basic column `b`: multiplied with the
matrix it gives 1 in column `b`, 0 in the other basic columns and 0 in the basic slacks. -/
structure TableauRow (P : Prob) (lp : Lp) (b : Nat) (ρ : SVec) : Prop where
  rows : ∀ p ∈ ρ, p.1 < P.rows.length
  pivot : tabEntry P ρ b = 1
  basic : ∀ j < P.nCols, lp.cstat j = 1 → j ≠ b → tabEntry P ρ j = 0
  slack : ∀ p ∈ ρ, lp.rstat p.1 = 1 → p.2 = 0

/-- No column or slack that is nonbasic but at no bound takes part in the tableau row. -/
structure NoFree (P : Prob) (lp : Lp) (ρ : SVec) : Prop where
  cols : ∀ j < P.nCols, lp.cstat j = 1 ∨ lp.cstat j = 2 ∨ lp.cstat j = 3 ∨ tabEntry P ρ j = 0
  rows : ∀ p ∈ ρ, lp.rstat p.1 = 1 ∨ lp.rstat p.1 = 2 ∨ lp.rstat p.1 = 3 ∨ p.2 = 0

/-- The problem data are not within a tolerance of being something else: columns and rows whose bounds agree within
the tolerance have equal finite bounds, a continuous column fixed within `1e-9` of an integer is fixed at an integer,
and integer columns have integer bounds. -/
structure ExactData (eps : ℚ) (P : Prob) : Prop where
  fixed : ∀ j < P.nCols, areEqual eps (P.colLower j) (P.colUpper j) = true →
    P.colLower j = P.colUpper j ∧ - P.inf < P.colLower j ∧ P.colUpper j < P.inf
  fixedInt : ∀ j < P.nCols, areEqual eps (P.colLower j) (P.colUpper j) = true → P.isInt j = false →
    isIntegerValue (P.colUpper j) = true → IsInteger (P.colUpper j)
  rows : ∀ i < P.rows.length, areEqual eps (P.row i).lb (P.row i).ub = true →
    (P.row i).lb = (P.row i).ub ∧ - P.inf < (P.row i).lb ∧ (P.row i).ub < P.inf
  intUpper : ∀ j < P.nCols, P.isInt j = true → P.colUpper j < P.inf → IsInteger (P.colUpper j)
  intLower : ∀ j < P.nCols, P.isInt j = true → - P.inf < P.colLower j → IsInteger (P.colLower j)

/-- No number in the tableau row or in the cut computed from it is nonzero but below `1e-20`. -/
structure NoTiny (prm : Prm) (P : Prob) (lp : Lp) (ρ : SVec) (f0 : ℚ) : Prop where
  entry : ∀ j < P.nCols, isZero (tabEntry P ρ j) = true → tabEntry P ρ j = 0
  coef : ∀ j < P.nCols, isZero (cutCoefficient f0 (isInteger prm P j) (flip (lp.cstat j) (tabEntry P ρ j))) = true →
    cutCoefficient f0 (isInteger prm P j) (flip (lp.cstat j) (tabEntry P ρ j)) = 0
  slack : ∀ p ∈ ρ, isZero p.2 = true → p.2 = 0
  slackCoef : ∀ p ∈ ρ, isZero (cutCoefficient f0 false (flip (lp.rstat p.1) p.2)) = true →
    cutCoefficient f0 false (flip (lp.rstat p.1) p.2) = 0
  cut : ∀ j < P.nCols, isZero ((denseCut prm P lp ρ f0).cut j) = true → (denseCut prm P lp ρ f0).cut j = 0

/-- The point is within the column bounds. -/
def InBounds (P : Prob) (x : Nat → ℚ) : Prop :=
  ∀ j < P.nCols, lbOk P.inf (P.colLower j) (x j) ∧ ubOk P.inf (P.colUpper j) (x j)

/-- The point satisfies the cut. -/
def Cut.Sat (c : Cut) (x : Nat → ℚ) : Prop := SVec.dot c.elems x ≤ c.rhs

end Cgl.GMI
