import Verif.Probing.Generate
import Mathlib.Algebra.BigOperators.Group.Finset.Basic

/-!
# What the properties of `CglProbing` say

Everything here is said in terms of the problem, the solution of its relaxation and a point.
-/

namespace Cgl.Probing

/-- Objective value of a point (`OsiObjOffset` is subtracted). -/
def Lp.objValue (L : Lp) (n : Nat) (x : Nat → ℚ) : ℚ := ∑ c ∈ Finset.range n, L.obj c * x c - L.offset

/-- What is asked of the problem and of the solution of its relaxation: the bounds of integer columns are integers (the
infinity of every solver is), and the reduced costs have the sign that belongs to the bound the solution is at.  The
offset matters if the objective is to be maximised and used as a row. -/
structure Data (P : Prob) (A : Params) (L : Lp) : Prop where
  wf : P.WF
  inf : 10 ^ 20 ≤ P.inf
  int : ∀ c < P.nCols, P.isInt c = true → IsInteger (P.colLower c) ∧ IsInteger (P.colUpper c)
  sense : L.sense = 1 ∨ L.sense = -1
  djLo : ∀ c < P.nCols, 0 < L.dj c * L.sense → L.sol c ≤ P.colLower c
  djUp : ∀ c < P.nCols, L.dj c * L.sense < 0 → P.colUpper c ≤ L.sol c
  offset : L.sense = -1 → 0 < A.usingObjective → 0 ≤ L.offset

instance (P : Prob) (A : Params) (L : Lp) : Decidable (Data P A L) :=
  decidable_of_iff (P.WF ∧ 10 ^ 20 ≤ P.inf ∧
      (∀ c < P.nCols, P.isInt c = true → IsInteger (P.colLower c) ∧ IsInteger (P.colUpper c)) ∧
      (L.sense = 1 ∨ L.sense = -1) ∧ (∀ c < P.nCols, 0 < L.dj c * L.sense → L.sol c ≤ P.colLower c) ∧
      (∀ c < P.nCols, L.dj c * L.sense < 0 → P.colUpper c ≤ L.sol c) ∧
      (L.sense = -1 → 0 < A.usingObjective → 0 ≤ L.offset))
    ⟨fun h => ⟨h.1, h.2.1, h.2.2.1, h.2.2.2.1, h.2.2.2.2.1, h.2.2.2.2.2.1, h.2.2.2.2.2.2⟩,
      fun h => ⟨h.1, h.2, h.3, h.4, h.5, h.6, h.7⟩⟩

/-- The objective is not worse than the limit: `OsiDualObjectiveLimit`, or infinity if there is none or it is not to be
used. -/
def WithinLimit (P : Prob) (A : Params) (L : Lp) (x : Nat → ℚ) : Prop :=
  L.sense * L.objValue P.nCols x ≤ L.sense * (if 0 ≤ A.usingObjective then L.limit.getD P.inf else P.inf)

instance (P : Prob) (A : Params) (L : Lp) (x : Nat → ℚ) : Decidable (WithinLimit P A L x) := by
  unfold WithinLimit; infer_instance

/-- The reduced costs bound the objective value of the point.  (True of every feasible point if the solution is optimal
for the relaxation: `Verif/Probing/Props.lean`, `probing_dualBound`.) -/
def DualBound (P : Prob) (L : Lp) (x : Nat → ℚ) : Prop :=
  L.value * L.sense + ∑ c ∈ Finset.range P.nCols, L.dj c * L.sense * (x c - L.sol c) ≤ L.sense * L.objValue P.nCols x

instance (P : Prob) (L : Lp) (x : Nat → ℚ) : Decidable (DualBound P L x) := by unfold DualBound; infer_instance

/-- The points the properties are about: feasible, with numbers that are not astronomical, not beyond the limit. -/
structure Reach (P : Prob) (A : Params) (L : Lp) (x : Nat → ℚ) : Prop where
  feasible : P.Feasible x
  size : ∀ c < P.nCols, |x c| ≤ 10 ^ 20
  intSize : ∀ c < P.nCols, P.isInt c = true → |x c| ≤ 12345678900
  rowSize : ∀ r ∈ P.rows, (r.coefs.map fun p => |p.2| * (|x p.1| + 10 ^ 10)).sum ≤ 10 ^ 20
  objSize : ∑ c ∈ Finset.range P.nCols, |L.obj c| * (|x c| + 10 ^ 10) ≤ 10 ^ 20
  limit : WithinLimit P A L x
  dual : DualBound P L x

instance (P : Prob) (A : Params) (L : Lp) (x : Nat → ℚ) : Decidable (Reach P A L x) :=
  decidable_of_iff (P.Feasible x ∧ (∀ c < P.nCols, |x c| ≤ 10 ^ 20) ∧
      (∀ c < P.nCols, P.isInt c = true → |x c| ≤ 12345678900) ∧
      (∀ r ∈ P.rows, (r.coefs.map fun p => |p.2| * (|x p.1| + 10 ^ 10)).sum ≤ 10 ^ 20) ∧
      ∑ c ∈ Finset.range P.nCols, |L.obj c| * (|x c| + 10 ^ 10) ≤ 10 ^ 20 ∧ WithinLimit P A L x ∧ DualBound P L x)
    ⟨fun h => ⟨h.1, h.2.1, h.2.2.1, h.2.2.2.1, h.2.2.2.2.1, h.2.2.2.2.2.1, h.2.2.2.2.2.2⟩,
      fun h => ⟨h.1, h.2, h.3, h.4, h.5, h.6, h.7⟩⟩

/-- Coefficient of column `c` in a row. -/
def coefAt (v : SVec) (c : Nat) : ℚ := ((v.filter fun p => decide (p.1 = c)).map Prod.snd).sum

/-- The solution is optimal for the relaxation: there are row prices `y` that give the reduced costs, a row with a price
is at the bound that belongs to its sign, and the objective value is that of the solution.  (The signs of the reduced
costs are in `Data`.) -/
def Optimal (P : Prob) (L : Lp) : Prop :=
  L.value = L.objValue P.nCols L.sol ∧
  ∃ y : Nat → ℚ,
    (∀ c < P.nCols, L.dj c = L.obj c - (P.rows.zipIdx.map fun p => y p.2 * coefAt p.1.coefs c).sum) ∧
    ∀ p ∈ P.rows.zipIdx,
      (0 < L.sense * y p.2 → -P.inf < p.1.lb ∧ p.1.coefs.dot L.sol = p.1.lb) ∧
      (L.sense * y p.2 < 0 → p.1.ub < P.inf ∧ p.1.coefs.dot L.sol = p.1.ub)

/-- What is asked of the numbers for a call not to fail: an objective limit if the objective is to be maximised, no
column far from the origin, and rows and the objective limit that stay below 1.0e20 when the fixed columns are taken
out. -/
structure Tame (P : Prob) (A : Params) (L : Lp) : Prop where
  hasLimit : L.sense = 1 ∨ (0 ≤ A.usingObjective ∧ L.limit.isSome = true)
  limit : ∀ l ∈ L.limit, -10 ^ 30 ≤ L.sense * l
  lower : ∀ c < P.nCols, P.colLower c ≤ 10 ^ 10
  upper : ∀ c < P.nCols, -10 ^ 10 ≤ P.colUpper c
  fixed : ∀ r ∈ P.rows, (r.coefs.map fun p => if P.colUpper p.1 ≤ P.colLower p.1 then |P.colUpper p.1 * p.2| else 0).sum ≤
    5 * 10 ^ 19
  rows : ∀ r ∈ P.rows, (r.lb < -10 ^ 20 ∧ 10 ^ 20 < r.ub) ∨ -5 * 10 ^ 19 < r.lb ∨ r.ub < 5 * 10 ^ 19
  objFixed : ∑ c ∈ Finset.range P.nCols, (if P.colUpper c ≤ P.colLower c then |P.colUpper c * L.obj c| else 0) ≤
    5 * 10 ^ 19
  objLimit : 0 < A.usingObjective → (L.limit = none → 10 ^ 30 ≤ P.inf) ∧
    ∀ l ∈ L.limit, 10 ^ 30 ≤ L.sense * l ∨ L.sense * l + L.offset < 5 * 10 ^ 19

instance (P : Prob) (A : Params) (L : Lp) : Decidable (Tame P A L) :=
  decidable_of_iff ((L.sense = 1 ∨ (0 ≤ A.usingObjective ∧ L.limit.isSome = true)) ∧
      (∀ l ∈ L.limit, -10 ^ 30 ≤ L.sense * l) ∧
      (∀ c < P.nCols, P.colLower c ≤ 10 ^ 10) ∧ (∀ c < P.nCols, -10 ^ 10 ≤ P.colUpper c) ∧
      (∀ r ∈ P.rows, (r.coefs.map fun p => if P.colUpper p.1 ≤ P.colLower p.1 then |P.colUpper p.1 * p.2| else 0).sum ≤
        5 * 10 ^ 19) ∧
      (∀ r ∈ P.rows, (r.lb < -10 ^ 20 ∧ 10 ^ 20 < r.ub) ∨ -5 * 10 ^ 19 < r.lb ∨ r.ub < 5 * 10 ^ 19) ∧
      ∑ c ∈ Finset.range P.nCols, (if P.colUpper c ≤ P.colLower c then |P.colUpper c * L.obj c| else 0) ≤ 5 * 10 ^ 19 ∧
      (0 < A.usingObjective → (L.limit = none → 10 ^ 30 ≤ P.inf) ∧
        ∀ l ∈ L.limit, 10 ^ 30 ≤ L.sense * l ∨ L.sense * l + L.offset < 5 * 10 ^ 19))
    ⟨fun h => ⟨h.1, h.2.1, h.2.2.1, h.2.2.2.1, h.2.2.2.2.1, h.2.2.2.2.2.1, h.2.2.2.2.2.2.1, h.2.2.2.2.2.2.2⟩,
      fun h => ⟨h.1, h.2, h.3, h.4, h.5, h.6, h.7, h.8⟩⟩

/-- A recorded implication holds at the point: column `j` at its lower bound 0 (upper bound 1) forces the integer column
`col` to 0 or 1. -/
def Fix.Holds (P : Prob) (f : Fix) (x : Nat → ℚ) : Prop :=
  P.isInt f.col = true →
    (f.up = false → P.colLower f.j = 0 → x f.j = 0 → x f.col = if f.toLower then 0 else 1) ∧
    (f.up = true → P.colUpper f.j = 1 → x f.j = 1 → x f.col = if f.toLower then 0 else 1)

/-- No step of the call rests on a tolerance or on the objective of other points (see `Verif/Probing/Probe.lean`). -/
def ExactRun (P : Prob) (A : Params) (L : Lp) (dup : List RowCut → RowCut → Bool) (look : Nat → List Nat) : Prop :=
  ∀ o, guts P A L dup look = .ok o → o.exact = true

end Cgl.Probing
