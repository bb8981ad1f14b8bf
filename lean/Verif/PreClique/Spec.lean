import Verif.Spec
import Mathlib.Data.Finset.Card

/-!
# Cliques of a problem

What the clique rows of a 0-1 problem are, which columns they put in conflict, and what a maximal clique is.  Nothing
here refers to the model of the code.
-/

namespace Cgl.PreClique

/-- A 0-1 column. -/
def Binary (P : Prob) (j : Nat) : Prop := P.colLower j = 0 ∧ P.colUpper j = 1 ∧ P.isInt j = true

/-- Column `j` has an entry in the row. -/
def Row.Has (r : Row) (j : Nat) : Prop := ∃ p ∈ r.coefs, p.1 = j

/-- A clique row: a sum of at most 1000 binary columns that is at most 1 (or equal to 1). -/
structure SetRow (P : Prob) (r : Row) : Prop where
  ub : r.ub = 1
  lb : r.lb ≤ 0 ∨ r.lb = 1
  ones : ∀ p ∈ r.coefs, p.2 = 1 ∧ Binary P p.1
  short : r.coefs.length ≤ 1000

instance (P : Prob) (j : Nat) : Decidable (Binary P j) := by unfold Binary; infer_instance
instance (r : Row) (j : Nat) : Decidable (Row.Has r j) := by unfold Row.Has; infer_instance
instance (P : Prob) (r : Row) : Decidable (SetRow P r) :=
  decidable_of_iff (r.ub = 1 ∧ (r.lb ≤ 0 ∨ r.lb = 1) ∧ (∀ p ∈ r.coefs, p.2 = 1 ∧ Binary P p.1) ∧
      r.coefs.length ≤ 1000)
    ⟨fun h => ⟨h.1, h.2.1, h.2.2.1, h.2.2.2⟩, fun h => ⟨h.1, h.2, h.3, h.4⟩⟩

/-- A clique row all of whose columns are in at least two clique rows. -/
def Used (P : Prob) (r : Row) : Prop :=
  SetRow P r ∧ ∀ p ∈ r.coefs, 2 ≤ P.rows.countP fun s => decide (SetRow P s ∧ Row.Has s p.1)

/-- Two different columns of the same used clique row: at most one of them can be 1. -/
def Conflict (P : Prob) (u v : Nat) : Prop := u ≠ v ∧ ∃ r ∈ P.rows, Used P r ∧ Row.Has r u ∧ Row.Has r v

/-- A set of pairwise conflicting columns to which no column can be added. -/
structure MaximalClique (P : Prob) (C : Finset Nat) : Prop where
  conflict : ∀ u ∈ C, ∀ v ∈ C, u ≠ v → Conflict P u v
  maximal : ∀ w, w ∉ C → ∃ u ∈ C, ¬ Conflict P u w

/-- Any two clique rows (at different positions) have at most one column in common. -/
def SharesOne (P : Prob) : Prop :=
  P.rows.Pairwise fun r s => SetRow P r → SetRow P s →
    ∀ p ∈ r.coefs, ∀ q ∈ r.coefs, Row.Has s p.1 → Row.Has s q.1 → p.1 = q.1

instance (P : Prob) : Decidable (SharesOne P) := by unfold SharesOne; infer_instance

end Cgl.PreClique
