import Mathlib.Algebra.Order.Floor.Ring
import Mathlib.Data.Rat.Floor
import Mathlib.Algebra.BigOperators.Group.List.Basic
import Mathlib.Tactic.Linarith
import Mathlib.Tactic.Ring
import Mathlib.Tactic.NormNum
import Mathlib.Tactic.LinearCombination

/-!
# Specification layer

What a user of Cgl sees: a mixed-integer problem held by an `OsiSolverInterface`, points, cuts, and what it
means for a cut to be valid.  Nothing here depends on any cut generator.
`double` data are read as exact rationals.
-/

namespace Cgl

/-- A sparse vector: (column, coefficient) pairs, as `CoinPackedVector` / a row of `CoinPackedMatrix`. -/
abbrev SVec := List (Nat × ℚ)

/-- Value of a sparse linear form at a point. -/
def SVec.dot (v : SVec) (x : Nat → ℚ) : ℚ := (v.map fun p => p.2 * x p.1).sum

/-- `COIN_DBL_MAX`: the largest IEEE double. -/
@[irreducible] def dblMax : ℚ := ((2 ^ 1024 - 2 ^ 971 : ℕ) : ℚ)

set_option exponentiation.threshold 2000 in
theorem dblMax_pos : 0 < dblMax := by
  unfold dblMax
  exact Nat.cast_pos.mpr (Nat.sub_pos_of_lt (Nat.pow_lt_pow_right (by decide) (Nat.lt_of_sub_pos (by decide))))

set_option exponentiation.threshold 2000 in
theorem one_le_dblMax : 1 ≤ dblMax := by
  unfold dblMax
  exact Nat.one_le_cast.mpr (Nat.sub_pos_of_lt (Nat.pow_lt_pow_right (by decide) (Nat.lt_of_sub_pos (by decide))))

/-- A row of the problem: `lb ≤ coefs · x ≤ ub`. -/
structure Row where
  lb : ℚ
  ub : ℚ
  coefs : SVec

/-- The mixed-integer problem as seen through `OsiSolverInterface`.  `inf` is `getInfinity()`: a bound at or
beyond it is no bound. -/
structure Prob where
  nCols : Nat
  inf : ℚ
  colLower : Nat → ℚ
  colUpper : Nat → ℚ
  /-- `isInteger(j)` -/
  isInt : Nat → Bool
  rows : List Row

/-- `x` is at least `lb` unless `lb` is minus infinity. -/
def lbOk (inf lb v : ℚ) : Prop := -inf < lb → lb ≤ v
/-- `x` is at most `ub` unless `ub` is plus infinity. -/
def ubOk (inf ub v : ℚ) : Prop := ub < inf → v ≤ ub

/-- A rational that is an integer. -/
def IsInteger (q : ℚ) : Prop := ∃ z : ℤ, q = z

theorem isInteger_iff_den (q : ℚ) : IsInteger q ↔ q.den = 1 := by
  constructor
  · rintro ⟨z, rfl⟩; exact Rat.den_intCast z
  · intro h; exact ⟨q.num, ((Rat.den_eq_one_iff q).mp h).symm⟩

instance (q : ℚ) : Decidable (IsInteger q) := decidable_of_iff _ (isInteger_iff_den q).symm
instance (inf lb v : ℚ) : Decidable (lbOk inf lb v) := by unfold lbOk; infer_instance
instance (inf ub v : ℚ) : Decidable (ubOk inf ub v) := by unfold ubOk; infer_instance

/-- The row holds at `x`. -/
def Row.Sat (inf : ℚ) (r : Row) (x : Nat → ℚ) : Prop :=
  lbOk inf r.lb (r.coefs.dot x) ∧ ubOk inf r.ub (r.coefs.dot x)

instance (inf : ℚ) (r : Row) (x : Nat → ℚ) : Decidable (r.Sat inf x) := by unfold Row.Sat; infer_instance

/-- The feasible points of the mixed-integer problem: all rows, all column bounds, integrality. -/
structure Prob.Feasible (P : Prob) (x : Nat → ℚ) : Prop where
  rows : ∀ r ∈ P.rows, r.Sat P.inf x
  lower : ∀ j < P.nCols, lbOk P.inf (P.colLower j) (x j)
  upper : ∀ j < P.nCols, ubOk P.inf (P.colUpper j) (x j)
  int : ∀ j < P.nCols, P.isInt j = true → IsInteger (x j)

instance (P : Prob) (x : Nat → ℚ) : Decidable (P.Feasible x) :=
  decidable_of_iff ((∀ r ∈ P.rows, r.Sat P.inf x) ∧ (∀ j < P.nCols, lbOk P.inf (P.colLower j) (x j)) ∧
      (∀ j < P.nCols, ubOk P.inf (P.colUpper j) (x j)) ∧ ∀ j < P.nCols, P.isInt j = true → IsInteger (x j))
    ⟨fun h => ⟨h.1, h.2.1, h.2.2.1, h.2.2.2⟩, fun h => ⟨h.1, h.2, h.3, h.4⟩⟩

/-- Column indices of the rows are column numbers, and no row mentions a column twice. -/
structure Prob.WF (P : Prob) : Prop where
  cols : ∀ r ∈ P.rows, ∀ p ∈ r.coefs, p.1 < P.nCols
  nodup : ∀ r ∈ P.rows, (r.coefs.map Prod.fst).Nodup

instance (P : Prob) : Decidable P.WF :=
  decidable_of_iff ((∀ r ∈ P.rows, ∀ p ∈ r.coefs, p.1 < P.nCols) ∧
      ∀ r ∈ P.rows, (r.coefs.map Prod.fst).Nodup)
    ⟨fun h => ⟨h.1, h.2⟩, fun h => ⟨h.1, h.2⟩⟩

/-- `OsiRowCut` (bounds and row). -/
structure RowCut where
  lb : ℚ
  ub : ℚ
  row : SVec
deriving DecidableEq, Repr

/-- The row cut holds at `x` (`±COIN_DBL_MAX` bounds are no bounds). -/
def RowCut.Sat (c : RowCut) (x : Nat → ℚ) : Prop :=
  lbOk dblMax c.lb (c.row.dot x) ∧ ubOk dblMax c.ub (c.row.dot x)

instance (c : RowCut) (x : Nat → ℚ) : Decidable (c.Sat x) := by unfold RowCut.Sat; infer_instance

/-- A row cut is valid for a problem: no feasible point violates it. -/
def RowCut.Valid (P : Prob) (c : RowCut) : Prop := ∀ x, P.Feasible x → c.Sat x

/-- The row cut holds at `x` in a solver whose infinity is `inf` (some generators write `±getInfinity()` instead of
`±COIN_DBL_MAX` for "no bound"). -/
def RowCut.SatIn (inf : ℚ) (c : RowCut) (x : Nat → ℚ) : Prop :=
  lbOk inf c.lb (c.row.dot x) ∧ ubOk inf c.ub (c.row.dot x)

instance (inf : ℚ) (c : RowCut) (x : Nat → ℚ) : Decidable (c.SatIn inf x) := by unfold RowCut.SatIn; infer_instance

/-- A row cut is valid when added to the solver that holds the problem: no feasible point violates it. -/
def RowCut.ValidIn (P : Prob) (c : RowCut) : Prop := ∀ x, P.Feasible x → c.SatIn P.inf x

/-- `OsiColCut`: new lower and upper bounds for some columns. -/
structure ColCut where
  lbs : SVec
  ubs : SVec
deriving DecidableEq, Repr

/-- The column cut holds at `x`. -/
def ColCut.Sat (c : ColCut) (x : Nat → ℚ) : Prop :=
  (∀ p ∈ c.lbs, p.2 ≤ x p.1) ∧ (∀ p ∈ c.ubs, x p.1 ≤ p.2)

instance (c : ColCut) (x : Nat → ℚ) : Decidable (c.Sat x) := by unfold ColCut.Sat; infer_instance

/-- A column cut is valid for a problem. -/
def ColCut.Valid (P : Prob) (c : ColCut) : Prop := ∀ x, P.Feasible x → c.Sat x

/-! ### Basic facts about `dot` -/

@[simp] theorem SVec.dot_nil (x : Nat → ℚ) : SVec.dot [] x = 0 := rfl
@[simp] theorem SVec.dot_cons (p : Nat × ℚ) (v : SVec) (x : Nat → ℚ) :
    SVec.dot (p :: v) x = p.2 * x p.1 + SVec.dot v x := by simp [SVec.dot]
@[simp] theorem SVec.dot_append (v w : SVec) (x : Nat → ℚ) :
    SVec.dot (v ++ w) x = SVec.dot v x + SVec.dot w x := by simp [SVec.dot]

theorem SVec.dot_perm {v w : SVec} (h : v.Perm w) (x : Nat → ℚ) : SVec.dot v x = SVec.dot w x := by
  unfold SVec.dot; exact (h.map _).sum_eq

theorem SVec.dot_smul (k : ℚ) (v : SVec) (x : Nat → ℚ) :
    SVec.dot (v.map fun p => (p.1, k * p.2)) x = k * SVec.dot v x := by
  induction v with
  | nil => simp
  | cons p v ih => simp only [List.map_cons, SVec.dot_cons, ih]; ring

theorem SVec.dot_neg (v : SVec) (x : Nat → ℚ) :
    SVec.dot (v.map fun p => (p.1, - p.2)) x = - SVec.dot v x := by
  induction v with
  | nil => simp
  | cons p v ih => simp only [List.map_cons, SVec.dot_cons, ih]; ring

end Cgl
