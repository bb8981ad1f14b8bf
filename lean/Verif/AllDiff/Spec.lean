import Verif.Spec
import Mathlib.Data.List.Dedup

/-!
# What `CglAllDifferent` is asked for

The user declares sets of columns; inside each set the (integer) values must differ.
-/

namespace Cgl.AllDiff

/-- An assignment the user accepts: integers within the column bounds, pairwise different in every declared set. -/
structure Assignment (P : Prob) (sets : List (List Nat)) (x : Nat → ℚ) : Prop where
  lower : ∀ c ∈ sets.flatten, lbOk P.inf (P.colLower c) (x c)
  upper : ∀ c ∈ sets.flatten, ubOk P.inf (P.colUpper c) (x c)
  int : ∀ c ∈ sets.flatten, IsInteger (x c)
  diff : ∀ s ∈ sets, (s.map x).Nodup

/-- The lower bound of a column after column cuts are applied to bounds `L`. -/
def lowerAfter (cuts : List ColCut) (L : Nat → ℚ) (c : Nat) : ℚ :=
  match (cuts.flatMap ColCut.lbs).find? fun p => decide (p.1 = c) with
  | some p => p.2
  | none => L c

/-- The upper bound of a column after column cuts are applied to bounds `U`. -/
def upperAfter (cuts : List ColCut) (U : Nat → ℚ) (c : Nat) : ℚ :=
  match (cuts.flatMap ColCut.ubs).find? fun p => decide (p.1 = c) with
  | some p => p.2
  | none => U c

/-- The columns' ranges are small enough for all sets to be looked at: number of values times number of columns is at
most ten million. -/
def Small (P : Prob) (sets : List (List Nat)) (a b : ℤ) : Prop :=
  (∀ c ∈ sets.flatten, (a : ℚ) ≤ P.colLower c ∧ P.colUpper c ≤ b) ∧ a ≤ b ∧ -(2 ^ 31 - 1) ≤ a ∧ b ≤ 2 ^ 31 - 1 ∧
    (b - a + 1) * (sets.flatten.dedup.length : ℤ) ≤ 10 ^ 7

instance (P : Prob) (sets : List (List Nat)) (a b : ℤ) : Decidable (Small P sets a b) := by unfold Small; infer_instance

end Cgl.AllDiff
