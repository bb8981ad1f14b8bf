import Verif.FlowCover.Model

/-!
# What is claimed of the flow cover generator (read together with `Verif/Spec.lean` and `Exact` in `Verif/FlowCover/Pre.lean`)
-/

namespace Cgl.FlowCover

/-- All numbers that enter a cut from a row (its right-hand side, what fixed columns contribute, and the capacity of each arc:
the coefficient of a binary column, the coefficient times the bound of another column) are multiples of one step `δ` above 1e-6.
Integral data, for instance, with `δ = 1`. -/
structure Grid (P : Prob) (δ : ℚ) : Prop where
  step : 1 / 10 ^ 6 < δ
  rhs : ∀ r ∈ P.rows, IsInteger ((r.senseRhs P.inf).2 / δ)
  fixed : ∀ r ∈ P.rows, ∀ p ∈ r.coefs, ¬ P.colLower p.1 < P.colUpper p.1 → IsInteger (P.colLower p.1 * p.2 / δ)
  arc : ∀ r ∈ P.rows, ∀ p ∈ r.coefs, IsInteger ((if isBin P p.1 then |p.2| else |p.2| * ubOf P (preprocess P) p.1) / δ)

instance (P : Prob) (δ : ℚ) : Decidable (Grid P δ) :=
  decidable_of_iff (1 / 10 ^ 6 < δ ∧ (∀ r ∈ P.rows, IsInteger ((r.senseRhs P.inf).2 / δ)) ∧
      (∀ r ∈ P.rows, ∀ p ∈ r.coefs, ¬ P.colLower p.1 < P.colUpper p.1 → IsInteger (P.colLower p.1 * p.2 / δ)) ∧
      ∀ r ∈ P.rows, ∀ p ∈ r.coefs, IsInteger ((if isBin P p.1 then |p.2| else |p.2| * ubOf P (preprocess P) p.1) / δ))
    ⟨fun h => ⟨h.1, h.2.1, h.2.2.1, h.2.2.2⟩, fun h => ⟨h.1, h.2, h.3, h.4⟩⟩

/-- A row cut as CglFlowCover should hand it over: no lower bound, at least one coefficient, columns of the problem in strictly
increasing order, no coefficient below 1e-6 in size. -/
structure WellShaped (P : Prob) (c : RowCut) : Prop where
  lb : c.lb = -P.inf
  ne : c.row ≠ []
  cols : ∀ p ∈ c.row, p.1 < P.nCols
  sorted : c.row.Pairwise fun p q => p.1 < q.1
  size : ∀ p ∈ c.row, 1 / 10 ^ 6 ≤ |p.2|

/-- A history of a generator: the object afterwards and the number of cuts its calls added to the collections they were given. -/
def run (o : Obj) : List Op → Obj × Nat
  | [] => (o, 0)
  | op :: ops =>
    let added := match op, (step o op).2 with
      | .generate _ _ cs, some cs' => cs'.length - cs.length
      | _, _ => 0
    let r := run (step o op).1 ops
    (r.1, added + r.2)

/-- Operations that leave the limit and the counter alone. -/
def Op.quiet : Op → Prop
  | .setMax _ => False
  | .setNum _ => False
  | _ => True

end Cgl.FlowCover
