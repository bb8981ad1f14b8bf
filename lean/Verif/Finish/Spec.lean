import Verif.Spec

/-! # Notions for the end of preprocessing -/

namespace Cgl.Finish

/-- A row holds up to 1e-13. -/
def Near (inf : ℚ) (r : Row) (x : Nat → ℚ) : Prop :=
  (-inf < r.lb → r.lb - 1 / 10 ^ 13 ≤ r.coefs.dot x) ∧ (r.ub < inf → r.coefs.dot x ≤ r.ub + 1 / 10 ^ 13)

/-- An equation with right hand side 1, coefficients 1 and at least five integer columns with lower bound 0. -/
def Eligible (P : Prob) (r : Row) : Prop :=
  r.lb = 1 ∧ r.ub = 1 ∧ 5 ≤ r.coefs.length ∧ ∀ p ∈ r.coefs, p.2 = 1 ∧ P.isInt p.1 = true ∧ P.colLower p.1 = 0

instance (P : Prob) (r : Row) : Decidable (Eligible P r) := by unfold Eligible; infer_instance

instance (inf : ℚ) (r : Row) (x : Nat → ℚ) : Decidable (Near inf r x) := by unfold Near; infer_instance

end Cgl.Finish
