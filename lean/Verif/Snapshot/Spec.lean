import Verif.Snapshot.Model

/-!
# Specification for `snapshot`
-/

namespace Cgl.Snapshot
open Cgl.Probing

/-- What is asked of the caller: a proper matrix without explicit zeros, an infinity of at least 1.0e20, integral
bounds of integer columns, an array `possible` with an entry for every row. -/
structure Data (P : Prob) (possible : Option (List Bool)) : Prop where
  wf : P.WF
  nonzero : ∀ r ∈ P.rows, ∀ p ∈ r.coefs, p.2 ≠ 0
  inf : 10 ^ 20 ≤ P.inf
  int : ∀ c < P.nCols, P.isInt c = true → IsInteger (P.colLower c) ∧ IsInteger (P.colUpper c)
  len : ∀ l ∈ possible, l.length = P.rows.length

instance (P : Prob) (possible : Option (List Bool)) : Decidable (Data P possible) :=
  decidable_of_iff (P.WF ∧ (∀ r ∈ P.rows, ∀ p ∈ r.coefs, p.2 ≠ 0) ∧ 10 ^ 20 ≤ P.inf ∧
      (∀ c < P.nCols, P.isInt c = true → IsInteger (P.colLower c) ∧ IsInteger (P.colUpper c)) ∧
      ∀ l ∈ possible, l.length = P.rows.length)
    ⟨fun h => ⟨h.1, h.2.1, h.2.2.1, h.2.2.2.1, h.2.2.2.2⟩, fun h => ⟨h.1, h.2, h.3, h.4, h.5⟩⟩

/-- The row is one the caller wants: there is no array, or its entry is 1. -/
def Wanted (possible : Option (List Bool)) (i : Nat) : Prop := ∀ l ∈ possible, l[i]? = some true

instance (possible : Option (List Bool)) (i : Nat) : Decidable (Wanted possible i) := by
  unfold Wanted; infer_instance

/-- A point of the problem made of the wanted rows, with numbers that are not astronomical. -/
structure Point (P : Prob) (possible : Option (List Bool)) (x : Nat → ℚ) : Prop where
  rows : ∀ p ∈ P.rows.zipIdx, Wanted possible p.2 → p.1.Sat P.inf x
  lower : ∀ j < P.nCols, lbOk P.inf (P.colLower j) (x j)
  upper : ∀ j < P.nCols, ubOk P.inf (P.colUpper j) (x j)
  int : ∀ j < P.nCols, P.isInt j = true → IsInteger (x j)
  size : ∀ j < P.nCols, |x j| ≤ 10 ^ 20
  rowSize : ∀ r ∈ P.rows, |r.coefs.dot x| ≤ 10 ^ 20

instance (P : Prob) (possible : Option (List Bool)) (x : Nat → ℚ) : Decidable (Point P possible x) :=
  decidable_of_iff ((∀ p ∈ P.rows.zipIdx, Wanted possible p.2 → p.1.Sat P.inf x) ∧
      (∀ j < P.nCols, lbOk P.inf (P.colLower j) (x j)) ∧ (∀ j < P.nCols, ubOk P.inf (P.colUpper j) (x j)) ∧
      (∀ j < P.nCols, P.isInt j = true → IsInteger (x j)) ∧ (∀ j < P.nCols, |x j| ≤ 10 ^ 20) ∧
      ∀ r ∈ P.rows, |r.coefs.dot x| ≤ 10 ^ 20)
    ⟨fun h => ⟨h.1, h.2.1, h.2.2.1, h.2.2.2.1, h.2.2.2.2.1, h.2.2.2.2.2⟩, fun h => ⟨h.1, h.2, h.3, h.4, h.5, h.6⟩⟩

/-- The point is within the column bounds of the copy. -/
def InBounds (n : Nat) (C : Copy) (x : Nat → ℚ) : Prop := ∀ j < n, C.colLower j ≤ x j ∧ x j ≤ C.colUpper j

instance (n : Nat) (C : Copy) (x : Nat → ℚ) : Decidable (InBounds n C x) := by unfold InBounds; infer_instance

/-- The point satisfies the rows of the copy (those whose bounds were written). -/
def InRows (C : Copy) (x : Nat → ℚ) : Prop :=
  ∀ p ∈ C.rows.zip C.bounds, ∀ b ∈ p.2, b.1 ≤ p.1.dot x ∧ p.1.dot x ≤ b.2

instance (C : Copy) (x : Nat → ℚ) : Decidable (InRows C x) := by unfold InRows; infer_instance

/-- Up to `slack` the row holds (a bound beyond 1.0e30 is no bound). -/
def Nearly (slack : ℚ) (r : Row) (x : Nat → ℚ) : Prop :=
  (-10 ^ 30 ≤ r.lb → r.lb - slack ≤ r.coefs.dot x) ∧ (r.ub ≤ 10 ^ 30 → r.coefs.dot x ≤ r.ub + slack)

instance (slack : ℚ) (r : Row) (x : Nat → ℚ) : Decidable (Nearly slack r x) := by unfold Nearly; infer_instance

/-- Ten times the primal tolerance of 1.1e-7, and 1.0e-4 for every unit of a coefficient of an integer column. -/
def slackOf (isInt : Nat → Bool) (r : Row) : ℚ :=
  11 / 10 ^ 7 + (r.coefs.map fun p => |p.2| * if isInt p.1 then 1 / 10 ^ 4 else 0).sum

/-- The object after the call is a copy of the problem: it has the rows of the problem and, if asked for, the objective,
and every row has bounds. -/
structure Whole (P : Prob) (withObjective : Bool) (C : Copy) : Prop where
  number : C.numberRows = P.rows.length + if withObjective then 1 else 0
  rows : C.rows.length = C.numberRows
  same : ∀ i < P.rows.length, ∀ r ∈ P.rows[i]?, ∀ v ∈ C.rows[i]?, v.Perm r.coefs
  bounds : ∀ i < C.numberRows, ∃ b, C.bounds[i]? = some (some b)

end Cgl.Snapshot
