import Verif.CutRows.Model
import Verif.DupRow.Exact8

/-!
# Clique cuts in place of rows: conditions
-/

namespace Cgl.CutRows

open DupRow

/-- The cuts are no equations and hold at all feasible points of the problem. -/
structure Valid (P : Prob) (cuts : List RowCut) : Prop where
  lower : ∀ c ∈ cuts, c.lb ≤ -P.inf
  sat : ∀ x, P.Feasible x → ∀ c ∈ cuts, c.Sat x

/-- No clique cut has the same columns as another clique among rows and cuts. -/
def NoCopies (P : Prob) (cuts : List RowCut) : Prop :=
  ∀ m < (withCuts P cuts).rows.length, ∀ n < (withCuts P cuts).rows.length, P.rows.length ≤ m ∧ m ≠ n ∧
    CliqueRow P ((withCuts P cuts).rows[m]?.getD ⟨0, 0, []⟩) ∧ CliqueRow P ((withCuts P cuts).rows[n]?.getD ⟨0, 0, []⟩) →
    ¬ (openCols P ((withCuts P cuts).rows[m]?.getD ⟨0, 0, []⟩).coefs).Perm
      (openCols P ((withCuts P cuts).rows[n]?.getD ⟨0, 0, []⟩).coefs)

instance (P : Prob) (cuts : List RowCut) : Decidable (NoCopies P cuts) := by unfold NoCopies; infer_instance

end Cgl.CutRows
