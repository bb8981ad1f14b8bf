import Verif.MadeCont.Model

/-! # What is assumed about the data -/

namespace Cgl.MadeCont

/-- Equations in integer columns have integer coefficients and finite integer right hand sides. -/
def Whole (P : Prob) : Prop :=
  ∀ r ∈ P.rows, r.lb = r.ub → (∀ p ∈ r.coefs, P.isInt p.1 = true) →
    IsInteger r.ub ∧ -P.inf < r.lb ∧ r.ub < P.inf ∧ ∀ p ∈ r.coefs, IsInteger p.2

instance (P : Prob) : Decidable (Whole P) := by unfold Whole; infer_instance

end Cgl.MadeCont
