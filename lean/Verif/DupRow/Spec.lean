import Verif.DupRow.Pair

/-!
# What the claims about `CglDuplicateRow` assume
-/

namespace Cgl.DupRow

/-- The object was last refreshed from a solver with this matrix (the bounds of the solver may have changed since). -/
structure Loaded (o : Obj) (P : Prob) : Prop where
  cols : o.nCols = P.nCols
  mat : o.mat = P.rows.map Row.coefs

instance (o : Obj) (P : Prob) : Decidable (Loaded o P) :=
  decidable_of_iff (o.nCols = P.nCols ∧ o.mat = P.rows.map Row.coefs) ⟨fun h => ⟨h.1, h.2⟩, fun h => ⟨h.1, h.2⟩⟩

/-- The row as a "less or equal" row, without its fixed columns. -/
def leEls (P : Prob) (r : Row) : SVec :=
  if 10 ^ 20 < r.ub then (openEls P r.coefs).map fun p => (p.1, -p.2) else openEls P r.coefs

/-- A pair of inequalities with the same two columns, of which one is not a 0-1 column, has only positive coefficients.
(For other such pairs the generator runs into the loop that counts the wrong variable.) -/
def NoSlip (P : Prob) : Prop :=
  ∀ i < P.rows.length, ∀ k < P.rows.length, i ≠ k →
    match P.rows[i]?, P.rows[k]? with
    | some r, some r' =>
      r.lb ≠ r.ub → r'.lb ≠ r'.ub → (openEls P r.coefs).length = 2 →
      ((openEls P r.coefs).map Prod.fst).Perm ((openEls P r'.coefs).map Prod.fst) →
      (∀ p ∈ openEls P r.coefs, isBin P p.1 = true) ∨ ((∀ p ∈ leEls P r, 0 < p.2) ∧ ∀ p ∈ leEls P r', 0 < p.2)
    | _, _ => True

instance (P : Prob) : Decidable (NoSlip P) := by
  unfold NoSlip
  refine @Nat.decidableBallLT _ _ fun i _ => @Nat.decidableBallLT _ _ fun k _ => ?_
  have : Decidable (match P.rows[i]?, P.rows[k]? with
    | some r, some r' =>
      r.lb ≠ r.ub → r'.lb ≠ r'.ub → (openEls P r.coefs).length = 2 →
      ((openEls P r.coefs).map Prod.fst).Perm ((openEls P r'.coefs).map Prod.fst) →
      (∀ p ∈ openEls P r.coefs, isBin P p.1 = true) ∨ ((∀ p ∈ leEls P r, 0 < p.2) ∧ ∀ p ∈ leEls P r', 0 < p.2)
    | _, _ => True) := by split <;> infer_instance
  infer_instance

/-- The problems for which mode 4 is claimed to be sound: integer columns have integral bounds, columns that are bounded
below are bounded above, rows are not free, and the activities of the rows without columns that are unbounded below stay
below `1e30` within the bounds. -/
structure Tame4 (P : Prob) : Prop where
  inf : 10 ^ 20 < P.inf
  int : ∀ j < P.nCols, P.isInt j = true → IsInteger (P.colLower j) ∧ IsInteger (P.colUpper j)
  bounded : ∀ j < P.nCols, -10 ^ 20 ≤ P.colLower j →
    P.colUpper j < P.inf ∧ P.colUpper j - P.colLower j ≤ 10 ^ 30
  rows : ∀ r ∈ P.rows, r.lb < P.inf ∧ -P.inf < r.ub ∧ (-P.inf < r.lb ∨ r.ub ≤ 10 ^ 20)
  size : ∀ r ∈ P.rows, (∀ p ∈ r.coefs, -10 ^ 20 ≤ P.colLower p.1) → size P (openEls P r.coefs) ≤ 10 ^ 30
  noSlip : NoSlip P

instance (P : Prob) : Decidable (Tame4 P) :=
  decidable_of_iff (10 ^ 20 < P.inf ∧
      (∀ j < P.nCols, P.isInt j = true → IsInteger (P.colLower j) ∧ IsInteger (P.colUpper j)) ∧
      (∀ j < P.nCols, -10 ^ 20 ≤ P.colLower j → P.colUpper j < P.inf ∧ P.colUpper j - P.colLower j ≤ 10 ^ 30) ∧
      (∀ r ∈ P.rows, r.lb < P.inf ∧ -P.inf < r.ub ∧ (-P.inf < r.lb ∨ r.ub ≤ 10 ^ 20)) ∧
      (∀ r ∈ P.rows, (∀ p ∈ r.coefs, -10 ^ 20 ≤ P.colLower p.1) → DupRow.size P (openEls P r.coefs) ≤ 10 ^ 30) ∧ NoSlip P)
    ⟨fun h => ⟨h.1, h.2.1, h.2.2.1, h.2.2.2.1, h.2.2.2.2.1, h.2.2.2.2.2⟩,
      fun h => ⟨h.inf, h.int, h.bounded, h.rows, h.size, h.noSlip⟩⟩

/-- The column cut holds at `x`, but for `1e-8` on columns that are not integer. -/
def ColCut.Almost (P : Prob) (c : ColCut) (x : Nat → ℚ) : Prop :=
  (∀ p ∈ c.lbs, p.2 - 1 / 10 ^ 8 ≤ x p.1 ∧ (P.isInt p.1 = true → p.2 ≤ x p.1)) ∧
  ∀ p ∈ c.ubs, x p.1 ≤ p.2 + 1 / 10 ^ 8 ∧ (P.isInt p.1 = true → x p.1 ≤ p.2)

end Cgl.DupRow
