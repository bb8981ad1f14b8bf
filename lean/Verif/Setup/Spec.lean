import Verif.Setup.Model

/-! # What is assumed about the data, and what "the same problem" means -/

namespace Cgl.Setup

/-- Column bounds and integrality. -/
structure Box (P : Prob) (x : Nat → ℚ) : Prop where
  lower : ∀ j < P.nCols, lbOk P.inf (P.colLower j) (x j)
  upper : ∀ j < P.nCols, ubOk P.inf (P.colUpper j) (x j)
  int : ∀ j < P.nCols, P.isInt j = true → IsInteger (x j)

/-- Sum of the sizes of the coefficients. -/
def size (v : SVec) : ℚ := (v.map fun p => |p.2|).sum

/-- The number is not recognised as a fraction, or it is the fraction it is recognised as, with a numerator less than 1e12. -/
def Known (rat : ℚ → ℤ × ℕ) (v : ℚ) : Prop :=
  (rat v).1 = 0 ∨ (0 < (rat v).2 ∧ v = ((rat v).1 : ℚ) / (rat v).2 ∧ |(rat v).1| < 10 ^ 12)

instance (rat : ℚ → ℤ × ℕ) (v : ℚ) : Decidable (Known rat v) := by unfold Known; infer_instance

/-- The coefficients and the finite bounds of the rows are known. -/
def Tidy (rat : ℚ → ℤ × ℕ) (P : Prob) : Prop := ∀ r ∈ P.rows, ∀ v ∈ numbers r, Known rat v

instance (rat : ℚ → ℤ × ℕ) (P : Prob) : Decidable (Tidy rat P) := by unfold Tidy; infer_instance

/-- The bounds of the row are infinite or at most `c` in size. -/
def Bounded (inf c : ℚ) (r : Row) : Prop := (r.lb ≤ -inf ∨ |r.lb| ≤ c) ∧ (inf ≤ r.ub ∨ |r.ub| ≤ c)

instance (inf c : ℚ) (r : Row) : Decidable (Bounded inf c r) := by unfold Bounded; infer_instance

/-- What is assumed about the sizes of numbers: infinity is an integer between 1e30 and the largest `double`; the bounds of rows
are infinite or moderate, and the lower bound is not above the upper one; the coefficients of a row are moderate; columns that
pass for fixed after the rounding of bounds are fixed exactly, at moderate values. -/
structure Neat (P : Prob) : Prop where
  wf : P.WF
  inf : 10 ^ 30 ≤ P.inf
  infMax : P.inf ≤ dblMax
  infInt : IsInteger P.inf
  rowBounds : ∀ r ∈ P.rows, Bounded P.inf (10 ^ 15) r
  ordered : ∀ r ∈ P.rows, r.lb ≤ r.ub
  sized : ∀ r ∈ P.rows, size r.coefs ≤ 10 ^ 8
  fixedCols : ∀ j < P.nCols, (clean P).colUpper j - (clean P).colLower j < 1 / 10 ^ 8 →
    (clean P).colUpper j ≤ (clean P).colLower j ∧ |(clean P).colLower j| ≤ 10 ^ 9 ∧ |(clean P).colUpper j| ≤ 10 ^ 9

/-- A number within 1e-5 of an integer is an integer. -/
def Crisp (v : ℚ) : Prop := |v - (⌊v + 1 / 2⌋ : ℚ)| ≤ 1 / 10 ^ 5 → v = (⌊v + 1 / 2⌋ : ℚ)

instance (v : ℚ) : Decidable (Crisp v) := by unfold Crisp; infer_instance

/-- The bounds after a row has been looked at. -/
def next (P : Prob) (a : Row × SVec) : Prob :=
  if 10 ^ 6 ≤ (look P a).up ∨ (look P a).lo ≤ -10 ^ 6 then P
  else if kind (look P a) = .fix then fixAll P (look P a) else P

/-- The right hand sides that are left when fixed columns are taken off are crisp. -/
def CrispRun : List (Row × SVec) → Prob → Prop
  | [], _ => True
  | a :: l, P => Crisp (look P a).up ∧ Crisp (look P a).lo ∧ CrispRun l (next P a)

instance decCrispRun : ∀ (l : List (Row × SVec)) (P : Prob), Decidable (CrispRun l P)
  | [], _ => isTrue trivial
  | a :: l, P => by
    have := decCrispRun l (next P a)
    unfold CrispRun; infer_instance

/-- The right hand sides are crisp for the rows as they are after the scaling. -/
def CrispRhs (rat : ℚ → ℤ × ℕ) (types : Bool) (P : Prob) : Prop :=
  ∀ rows, scaled rat types P = .ok rows → CrispRun rows (clean (withRows P rows))

/-- The product of the denominators of the numbers in a row fits into 64 bits. -/
def Denoms (rat : ℚ → ℤ × ℕ) (P : Prob) : Prop :=
  ∀ r ∈ P.rows, (∀ v ∈ numbers r, 0 < (rat v).2) ∧ ((numbers r).map fun v => (rat v).2).prod < 2 ^ 63

instance (rat : ℚ → ℤ × ℕ) (P : Prob) : Decidable (Denoms rat P) := by unfold Denoms; infer_instance

/-- No coefficient that is stored is zero. -/
def NoZero (P : Prob) : Prop := ∀ r ∈ P.rows, ∀ p ∈ r.coefs, p.2 ≠ 0

instance (P : Prob) : Decidable (NoZero P) := by unfold NoZero; infer_instance

/-- The points of `S`, cut down to the columns of `P`, are the points of `P`: what is feasible for `S` is feasible for `P`, and
every feasible point of `P` has an extension to the further columns of `S` that is feasible for `S`. -/
def Extends (S P : Prob) : Prop :=
  (∀ y, S.Feasible y → P.Feasible y) ∧ ∀ x, P.Feasible x → ∃ y, (∀ j < P.nCols, y j = x j) ∧ S.Feasible y

/-- The row is satisfied with equality only. -/
def Equation (r : Row) : Prop := r.lb = r.ub

instance (r : Row) : Decidable (Equation r) := by unfold Equation; infer_instance

end Cgl.Setup
