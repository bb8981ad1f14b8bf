import Verif.Triple.Model

/-! # What is assumed when rows of two or three entries are compared -/

namespace Cgl.Triple

/-- Coefficient of a column in a row. -/
def coefOf (v : SVec) (k : Nat) : ℚ := (v.map fun p => if p.1 = k then p.2 else 0).sum

/-- What is assumed about the problem: stored coefficients are not zero and at most 1e20 in size, infinity is between 1e250
and the largest `double`. -/
structure Sized (P : Prob) : Prop where
  wf : P.WF
  inf : 10 ^ 250 ≤ P.inf
  infMax : P.inf ≤ dblMax
  coefs : ∀ r ∈ P.rows, ∀ p ∈ r.coefs, p.2 ≠ 0 ∧ |p.2| ≤ 10 ^ 20

/-- A point without values beyond 1e200. -/
def Within (P : Prob) (x : Nat → ℚ) : Prop := ∀ j < P.nCols, |x j| ≤ 10 ^ 200

/-- A row of at most three entries. -/
def short (r : Row) : Bool := decide (r.coefs.length ≤ 3)

/-- Scale factors that can occur: 0 (never set) or one over the root of the product of two coefficients of a short row. -/
def scales (root : ℚ → ℚ) (P : Prob) : List ℚ :=
  0 :: (P.rows.filter short).flatMap fun r => r.coefs.flatMap fun p => r.coefs.map fun q => 1 / root (|p.2| * |q.2|)

/-- Numbers of a short row that can be compared after scaling, up to sign: its coefficients, and its bounds, or no bound, with
or without one of its coefficients subtracted. -/
def numbers (r : Row) : List ℚ :=
  r.coefs.map Prod.snd ++ [r.lb, r.ub, dblMax].flatMap fun b =>
    b :: r.coefs.map fun p => b - p.2

/-- Scaled numbers of short rows that differ by at most 1e-7 in value, or up to sign, are equal. -/
def Separated (root : ℚ → ℚ) (P : Prob) : Prop :=
  ∀ s ∈ scales root P, ∀ t ∈ scales root P, ∀ r1 ∈ P.rows.filter short, ∀ r2 ∈ P.rows.filter short,
    ∀ u ∈ 0 :: numbers r1, ∀ v ∈ 0 :: numbers r2,
      (|s * u - t * v| ≤ 1 / 10 ^ 7 → s * u = t * v) ∧ (|s * u + t * v| ≤ 1 / 10 ^ 7 → s * u = - (t * v))

/-- Two short rows with the same columns that agree, up to scale factors and signs, in a column they have and in another column
`i`, agree in all.  Only columns `i` are meant that occur in a short row together with all the columns of the two rows. -/
def Harmonious (root : ℚ → ℚ) (P : Prob) : Prop :=
  ∀ s ∈ scales root P, ∀ t ∈ scales root P, ∀ r1 ∈ P.rows.filter short, ∀ r2 ∈ P.rows.filter short,
    (∀ k < P.nCols, (coefOf r1.coefs k = 0 ↔ coefOf r2.coefs k = 0)) → ∀ sign ∈ [(1 : ℚ), -1],
    ∀ i < P.nCols, (∃ r3 ∈ P.rows.filter short, coefOf r3.coefs i ≠ 0 ∧
      ∀ k < P.nCols, coefOf r1.coefs k ≠ 0 → coefOf r3.coefs k ≠ 0) →
    ∀ j < P.nCols,
      (i ≠ j ∧ coefOf r1.coefs j ≠ 0 ∧ s * coefOf r1.coefs i = sign * (t * coefOf r2.coefs i) ∧
        s * coefOf r1.coefs j = sign * (t * coefOf r2.coefs j)) →
      ∀ k < P.nCols, s * coefOf r1.coefs k = sign * (t * coefOf r2.coefs k)

/-- What is assumed for the second half of the equivalence: bounds of integer columns are integers, bounds of rows are at most
1e20 in size or infinite, the root of a positive number is positive, numbers taken for equal are equal, and rows taken for
the same are the same. -/
structure Exact (root : ℚ → ℚ) (P : Prob) : Prop where
  sized : Sized P
  intBounds : ∀ j < P.nCols, P.isInt j = true → IsInteger (P.colLower j) ∧ IsInteger (P.colUpper j)
  rowBounds : ∀ r ∈ P.rows, (r.lb < -10 ^ 20 → r.lb ≤ -P.inf) ∧ (10 ^ 20 < r.ub → P.inf ≤ r.ub)
  rootPos : ∀ v, 0 < v → 0 < root v
  separated : Separated root P
  harmonious : Harmonious root P

end Cgl.Triple
