import Verif.PostProc.Model

/-!
# What is expected of `postProcess`, and of the solvers it calls
-/

namespace Cgl.PostProc

/-- The points of the linear relaxation: rows and bounds, without integrality. -/
structure LpFeasible (P : Prob) (x : Nat → ℚ) : Prop where
  rows : ∀ r ∈ P.rows, r.Sat P.inf x
  lower : ∀ j < P.nCols, lbOk P.inf (P.colLower j) (x j)
  upper : ∀ j < P.nCols, ubOk P.inf (P.colUpper j) (x j)

instance (P : Prob) (x : Nat → ℚ) : Decidable (LpFeasible P x) :=
  decidable_of_iff ((∀ r ∈ P.rows, r.Sat P.inf x) ∧ (∀ j < P.nCols, lbOk P.inf (P.colLower j) (x j)) ∧
      ∀ j < P.nCols, ubOk P.inf (P.colUpper j) (x j))
    ⟨fun h => ⟨h.1, h.2.1, h.2.2⟩, fun h => ⟨h.1, h.2, h.3⟩⟩

/-- The objective, as something to be made small. -/
def cost (S : Solver) (x : Nat → ℚ) : ℚ := S.sense * ((List.range S.prob.nCols).map fun j => S.obj j * x j).sum

/-- The two solvers differ at most in the solution, the objective value and the status. -/
def SameInput (S S' : Solver) : Prop :=
  S'.prob = S.prob ∧ S'.obj = S.obj ∧ S'.sense = S.sense ∧ S'.cutoff = S.cutoff ∧ S'.tol = S.tol ∧
    S'.hintPresolve = S.hintPresolve ∧ S'.hintDual = S.hintDual

/-- A solver that says "proven optimal" only when its solution is a best point of the linear relaxation, and does not
change the problem. -/
def Honest (E : Env) : Prop :=
  ∀ c S, SameInput S (E.solve c S) ∧ ((E.solve c S).optimal = true →
    LpFeasible S.prob (E.solve c S).sol ∧ ∀ y, LpFeasible S.prob y → cost S (E.solve c S).sol ≤ cost S y)

/-- `postsolve` only writes the solution and the status of the model below, and gives every integer column with an integer
between its bounds a value that rounds to such an integer. -/
def PostsolveOk (E : Env) : Prop :=
  ∀ k m b, SameInput b (E.postsolve k m b) ∧ ∀ j < b.prob.nCols, b.prob.isInt j = true →
    (∃ z : ℤ, b.prob.colLower j ≤ z ∧ (z : ℚ) ≤ b.prob.colUpper j) →
    ∃ z : ℤ, b.prob.colLower j ≤ z ∧ (z : ℚ) ≤ b.prob.colUpper j ∧
      (z : ℚ) - 1 / 2 ≤ (E.postsolve k m b).sol j ∧ (E.postsolve k m b).sol j < z + 1 / 2

/-- The number of passes to undo: 99 stands for one (CglPreProcess.cpp:1706, 5756-5759). -/
def levels (p : Pre) : Nat := if p.numberSolvers = 99 then 1 else p.numberSolvers

/-- The model above pass `k` when `postProcess` is called: the reduced model for the last pass. -/
def above (p : Pre) (modelIn : Solver) (k : Nat) (P : Pass) : Solver := if k + 1 = levels p then modelIn else P.modified

/-- The bounds of a column that is continuous below are, above, inside the bounds below. -/
def Inside (cols : List Nat) (A B : Solver) : Prop :=
  ∀ i < A.prob.nCols, B.prob.isInt (cols.getD i 0) = false →
    B.prob.colLower (cols.getD i 0) ≤ A.prob.colLower i ∧ A.prob.colUpper i ≤ B.prob.colUpper (cols.getD i 0)

/-- Every integer column has an integer between its bounds. -/
def HasIntegers (S : Solver) : Prop :=
  ∀ j < S.prob.nCols, S.prob.isInt j = true → ∃ z : ℤ, S.prob.colLower j ≤ z ∧ (z : ℚ) ≤ S.prob.colUpper j

/-- What presolving leaves: bounds are only ever tightened from the user's model to the reduced model, and integer columns
of the user's model are still integer in the start model. -/
structure Linked (p : Pre) (modelIn : Solver) : Prop where
  chain : ∀ k < levels p, ∀ P, p.passes[k]? = some (some P) → ∀ B, belowOf p k = some B →
    Inside P.cols (above p modelIn k P) B
  ints : ∀ k < levels p, ∀ B, belowOf p k = some B → HasIntegers B
  bounds : ∀ j < p.original.prob.nCols,
    p.original.prob.colLower j ≤ (p.start.getD p.original).prob.colLower j ∧
      (p.start.getD p.original).prob.colUpper j ≤ p.original.prob.colUpper j
  keep : ∀ j < p.original.prob.nCols, p.original.prob.isInt j = true →
    (p.start.getD p.original).prob.isInt j = true

/-- The integer columns of the problem have values within `1e-3` of finite integers. -/
def NearIntegral (P : Prob) (x : Nat → ℚ) : Prop :=
  ∀ j < P.nCols, P.isInt j = true → ∃ z : ℤ, |x j - z| < 1 / 1000 ∧ -P.inf < (z : ℚ) ∧ (z : ℚ) < P.inf

/-- `x` is the solution of `M` with the integer columns that are within `1e-3` of an integer rounded to it. -/
def Rounded (M : Solver) (x : Nat → ℚ) : Prop :=
  ∀ j, (M.prob.isInt j = true ∧ ∃ z : ℤ, |M.sol j - z| < 1 / 1000 ∧ x j = z) ∨
    ((M.prob.isInt j = false ∨ ∀ z : ℤ, 1 / 1000 ≤ |M.sol j - z|) ∧ x j = M.sol j)

/-- A row holds up to the tolerance `t`. -/
def RowNear (t : ℚ) (r : Row) (x : Nat → ℚ) : Prop := r.lb - t ≤ r.coefs.dot x ∧ r.coefs.dot x ≤ r.ub + t

end Cgl.PostProc
