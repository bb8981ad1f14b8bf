import Verif.LiftProject.Model

/-!
# CglLiftAndProject: what the theorems ask of the solver and of the problem
-/

namespace Cgl.LiftProject

/-- `w` satisfies the constraints of the LP. -/
structure Lp.Feasible (L : Lp) (w : Nat → ℚ) : Prop where
  rows : ∀ r < L.rhs.length, L.row w r = L.rhs.getD r 0
  nonneg : ∀ c < L.nonneg, 0 ≤ w c

/-- The solver is right whenever it claims an optimal solution. -/
def Right (solve : Solver) : Prop :=
  ∀ L w, solve L = some w → L.Feasible w ∧ ∀ w', L.Feasible w' → L.value w ≤ L.value w'

/-- The row-ordered matrix has no gaps. -/
def NoGaps (I : Input) : Prop :=
  I.starts 0 = 0 ∧ ∀ i < I.m, I.starts (i+1) = I.starts i + (I.P.row i).coefs.length

/-- As far as the rows go, the problem is in the form the generator asks for: every row has a lower bound. -/
def Canonical (P : Prob) : Prop := ∀ r ∈ P.rows, -P.inf < r.lb

/-- The documented form: every row is `≥`, and `x_j ≥ 0` and `-x_j ≥ -1` are rows for every binary column. -/
structure Documented (P : Prob) : Prop where
  lower : ∀ r ∈ P.rows, -P.inf < r.lb ∧ P.inf ≤ r.ub
  zero : ∀ j < P.nCols, colType P j = 1 → ∃ r ∈ P.rows, r.lb = 0 ∧ r.coefs = [(j, 1)]
  one : ∀ j < P.nCols, colType P j = 1 → ∃ r ∈ P.rows, r.lb = -1 ∧ r.coefs = [(j, -1)]

/-- Every column whose value is fractional is binary. -/
def FractionalBinary (I : Input) : Prop :=
  ∀ j < I.n, relEq (I.x j) 0 = false → relEq (I.x j) 1 = false → colType I.P j = 1

/-- Objects that come about by the default constructor, copies, assignments and calls of `setBeta`. -/
inductive Reachable : Obj → Prop
  | new : Reachable Obj.new
  | copy {o : Obj} : Reachable o → Reachable o.copy
  | assign {a o : Obj} : Reachable a → Reachable o → Reachable (a.assign o)
  | setBeta {o o' : Obj} {b : ℤ} : Reachable o → o.setBeta b = .ok o' → Reachable o'

end Cgl.LiftProject
