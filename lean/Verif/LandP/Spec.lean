import Verif.LandP.Model

/-!
# What CglLandP may assume about the solver and the problem data

None of this mentions how the cuts are computed.
-/

namespace Cgl.LandP

/-- The solver reports a basis of `P` with the given statuses: the nonbasic columns and rows are at the finite bounds
the statuses name, the basic variables are exactly those with status "basic", and row `k` of the inverse of the basis
matrix gives 1 for the variable basic in row `k` and 0 for the other basic variables. -/
structure GoodBasis (P : Prob) (stat : Nat → Nat) (v : View) : Prop where
  act : ∀ i < P.rows.length, v.act i = P.activity v.xlp i
  upper : ∀ j < P.nCols, stat j = 2 → v.xlp j = P.colUpper j ∧ P.colUpper j < P.inf
  lower : ∀ j < P.nCols, stat j = 3 → v.xlp j = P.colLower j ∧ - P.inf < P.colLower j
  rowLower : ∀ i < P.rows.length, stat (P.nCols + i) = 2 →
    P.activity v.xlp i = (P.row i).lb ∧ - P.inf < (P.row i).lb
  rowUpper : ∀ i < P.rows.length, stat (P.nCols + i) = 3 →
    P.activity v.xlp i = (P.row i).ub ∧ (P.row i).ub < P.inf
  /-- a row that is not basic is at a bound -/
  rowBound : ∀ i < P.rows.length, stat (P.nCols + i) = 1 ∨ stat (P.nCols + i) = 2 ∨ stat (P.nCols + i) = 3
  size : v.basics.length = P.rows.length
  nodup : v.basics.Nodup
  basic : ∀ w < P.nCols + P.rows.length, stat w = 1 ↔ w ∈ v.basics
  range : ∀ w ∈ v.basics, w < P.nCols + P.rows.length
  multipliers : ∀ k < P.rows.length, ∀ p ∈ v.binv k, p.1 < P.rows.length
  one : ∀ k < P.rows.length, raw P (v.binv k) (v.basics.getD k 0) = 1
  zero : ∀ k < P.rows.length, ∀ w ∈ v.basics, w ≠ v.basics.getD k 0 → raw P (v.binv k) w = 0

/-- The pivots of the search: positions exist, the variable whose row is looked at does not leave, and after a
successful pivot the solver again reports a basis with the updated statuses. -/
def GoodSteps (P : Prob) : Sim → Nat → List Step → Prop
  | _, _, [] => True
  | s, num, st :: l =>
    st.leaving < P.rows.length ∧ st.incoming < s.nonBasics.length ∧ st.leaving ≠ num ∧
    (st.ok = true → GoodBasis P (pivotSim s st).stat st.view ∧ GoodSteps P (pivotSim s st) (newNum s st num) l)

/-- No nonzero entry of the tableau is `1e-10` or less. -/
def NoTinyEntry (P : Prob) (v : View) : Prop :=
  ∀ k < P.rows.length, ∀ w < P.nCols + P.rows.length, |raw P (v.binv k) w| ≤ 1/10^10 → raw P (v.binv k) w = 0

/-- The problem data are not within a tolerance of being something else: integer columns have integer bounds, row
bounds and coefficients within `1e-15` of an integer are integers, and row bounds are infinite when they are `1e50` or
more and only then. -/
structure ExactData (P : Prob) : Prop where
  inf : 10^50 ≤ P.inf
  intUpper : ∀ j < P.nCols, P.isInt j = true → P.colUpper j < P.inf → IsInteger (P.colUpper j)
  intLower : ∀ j < P.nCols, P.isInt j = true → - P.inf < P.colLower j → IsInteger (P.colLower j)
  coef : ∀ r ∈ P.rows, ∀ p ∈ r.coefs, intInfeas p.2 ≤ 1/10^15 → IsInteger p.2
  lb : ∀ r ∈ P.rows, intInfeas r.lb ≤ 1/10^15 → IsInteger r.lb
  ub : ∀ r ∈ P.rows, intInfeas r.ub ≤ 1/10^15 → IsInteger r.ub
  lbSize : ∀ r ∈ P.rows, - P.inf < r.lb → -10^50 < r.lb
  ubSize : ∀ r ∈ P.rows, r.ub < P.inf → r.ub < 10^50

/-- No row has two different finite bounds. -/
def NoRanges (P : Prob) : Prop := ∀ r ∈ P.rows, -P.inf < r.lb → r.ub < P.inf → r.ub ≤ r.lb

/-- The point, and the ranged rows, are not so large that a coefficient of `1e-20` matters. -/
def Modest (P : Prob) (x : Nat → ℚ) : Prop :=
  ((List.range P.nCols).map fun j => |x j|).sum +
    ((rangedRows P).map fun i => (P.row i).ub - (P.row i).lb).sum ≤ 10^12

/-- The contract for one call: a basis of the problem that is pivoted in, and good pivots for every row.  If
cuts are not strengthened, no tiny entries in the tableaus. -/
structure Contract (st : State) (P : Prob) (env : Env) : Prop where
  start : GoodBasis (work st P env) env.stat env.view
  steps : ∀ row < P.rows.length, GoodSteps (work st P env) ⟨startNonBasics (work st P env) env.stat, env.stat, env.view⟩ row
    (env.run row).steps
  tiny : st.prm.strengthen = false → st.prm.modularize = false →
    NoTinyEntry (work st P env) env.view ∧ ∀ row < P.rows.length, ∀ s ∈ (env.run row).steps, NoTinyEntry (work st P env) s.view

/-- Every column is basic or at a bound, and the entries of the tableau are small enough that no sum of entries times
`B` reaches `1e99`. -/
structure Calm (P : Prob) (B : ℚ) (stat : Nat → Nat) (v : View) : Prop where
  colBound : ∀ j < P.nCols, stat j = 1 ∨ stat j = 2 ∨ stat j = 3
  entries : ∀ k < P.rows.length,
    ((List.range (P.nCols + P.rows.length)).map fun w => (1 + |raw P (v.binv k) w|) * B).sum ≤ 10^99

/-- The same after every successful pivot. -/
def CalmSteps (P : Prob) (B : ℚ) : Sim → List Step → Prop
  | _, [] => True
  | s, st :: l => st.ok = true → Calm P B (pivotSim s st).stat st.view ∧ CalmSteps P B (pivotSim s st) l

/-- The finite bounds are at most `B` in magnitude. -/
structure Bounded (P : Prob) (B : ℚ) : Prop where
  upper : ∀ j < P.nCols, P.colUpper j < P.inf → |P.colUpper j| ≤ B
  lower : ∀ j < P.nCols, -P.inf < P.colLower j → |P.colLower j| ≤ B
  rowUpper : ∀ r ∈ P.rows, r.ub < P.inf → |r.ub| ≤ B
  rowLower : ∀ r ∈ P.rows, -P.inf < r.lb → |r.lb| ≤ B

end Cgl.LandP
