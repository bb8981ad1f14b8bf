import Verif.Twomir.Model

/-!
# Conditions under which no tolerance of CglTwomir changes a constraint

`CglTwomir` treats numbers that differ by less than a tolerance as equal in several places, without correcting the
right-hand side.  These predicates say that this does not happen in a call: each of them is decidable for a given call.
-/

namespace Cgl.Twomir

/-- Nothing is beyond the infinity of the solver: neither a column, nor the activity or the slack of a row. -/
structure Representable (P : Prob) (x : Nat → ℚ) : Prop where
  cols : ∀ j < P.nCols, |x j| ≤ P.inf
  act : ∀ i < P.rows.length, - P.inf ≤ P.activity x i
  slk : ∀ i < P.rows.length, slack P x i ≤ P.inf

instance (P : Prob) (x : Nat → ℚ) : Decidable (Representable P x) :=
  decidable_of_iff ((∀ j < P.nCols, |x j| ≤ P.inf) ∧ (∀ i < P.rows.length, - P.inf ≤ P.activity x i) ∧
      ∀ i < P.rows.length, slack P x i ≤ P.inf)
    ⟨fun h => ⟨h.1, h.2.1, h.2.2⟩, fun h => ⟨h.1, h.2, h.3⟩⟩

/-- A number within `1e-10` above an integer is that integer. -/
def NotNearInt (q : ℚ) : Prop := q - ⌊q⌋ ≤ 1 / 10 ^ 10 → IsInteger q

instance (q : ℚ) : Decidable (NotNearInt q) := by unfold NotNearInt; infer_instance

/-- The data of the problem: a row whose bounds are within `1e-6` is an equality; sides and coefficients of rows within
`1e-10` above an integer are integers; infinity is an integer (as `COIN_DBL_MAX` is). -/
structure Clear (P : Prob) : Prop where
  eq : ∀ r ∈ P.rows, |r.ub - r.lb| ≤ 1 / 10 ^ 6 → r.ub = r.lb ∧ r.ub < P.inf ∧ -P.inf < r.lb
  ub : ∀ r ∈ P.rows, NotNearInt r.ub
  lb : ∀ r ∈ P.rows, NotNearInt r.lb
  coef : ∀ r ∈ P.rows, ∀ p ∈ r.coefs, NotNearInt p.2
  inf : IsInteger P.inf

instance (P : Prob) : Decidable (Clear P) :=
  decidable_of_iff ((∀ r ∈ P.rows, |r.ub - r.lb| ≤ 1 / 10 ^ 6 → r.ub = r.lb ∧ r.ub < P.inf ∧ -P.inf < r.lb) ∧
      (∀ r ∈ P.rows, NotNearInt r.ub) ∧ (∀ r ∈ P.rows, NotNearInt r.lb) ∧
      (∀ r ∈ P.rows, ∀ p ∈ r.coefs, NotNearInt p.2) ∧ IsInteger P.inf)
    ⟨fun h => ⟨h.1, h.2.1, h.2.2.1, h.2.2.2.1, h.2.2.2.2⟩, fun h => ⟨h.1, h.2, h.3, h.4, h.5⟩⟩

/-- `DGG_nicefyConstraint` meets no positive coefficient below `1e-13`, and no coefficient within `1e-7` above an integer
(integer variables) or above zero (continuous ones) of a variable with a negative lower bound. -/
def NiceOk (P : Prob) (c : Con) : Prop :=
  ∀ p ∈ c.es, ¬ (0 < p.2 ∧ p.2 < 1 / 10 ^ 13) ∧
    (isIntD P p.1 = true → 0 < frac p.2 → frac p.2 < 1 / 10 ^ 7 → 0 ≤ lbD P p.1) ∧
    (isIntD P p.1 = false → 0 < p.2 → p.2 < 1 / 10 ^ 7 → 0 ≤ lbD P p.1)

instance (P : Prob) (c : Con) : Decidable (NiceOk P c) := by unfold NiceOk; infer_instance

/-- `DGG_substituteSlacks` drops only coefficients that are zero. -/
def SubstExact (P : Prob) (c : Con) : Prop := ∀ j < P.nCols, |lcut P c j| ≤ 1 / 10 ^ 12 → lcut P c j = 0

instance (P : Prob) (c : Con) : Decidable (SubstExact P c) := by unfold SubstExact; infer_instance

/-- The constraint `DGG_nicefyConstraint` is applied to. -/
def niceArg (par : Par) (c : Con) (t : ℤ) : Con := if early par c then c else scale t c

/-- No tolerance changes anything in a call of `DGG_generateCutsFromBase` with `b`. -/
def BaseClean (D : Data) (par : Par) (b : Con) : Prop :=
  (∀ t ∈ steps (minStep b.sense par.tMin) par.tMax ++ steps (minStep b.sense par.qMin) par.qMax,
    NiceOk D.P (niceArg par (transform D b) t)) ∧
  ∀ c ∈ rawCuts D par (transform D b), SubstExact D.P (unTransform D c)

instance (D : Data) (par : Par) (b : Con) : Decidable (BaseClean D par b) := by unfold BaseClean; infer_instance

/-- What the documentation of the factorization promises, and what `DGG_getTableauConstraint` relies on: the entries of
the row of the tableau in the other basic columns are zero, and so are entries of at most `1e-12`. -/
def TabClean (D : Data) (par : Par) (fact : Option (Nat → SVec)) : Prop :=
  match fact with
  | none => True
  | some ρ => ∀ k < D.P.nCols, tabColumn D par k = true →
      (∀ p ∈ ρ k, p.1 < D.P.rows.length) ∧
      ∀ j < D.P.nCols, (D.basic j = true ∧ j ≠ k ∨ |tabEntry D.P (ρ k) j| ≤ 1 / 10 ^ 12) → tabEntry D.P (ρ k) j = 0

instance (D : Data) (par : Par) (fact : Option (Nat → SVec)) : Decidable (TabClean D par fact) := by
  unfold TabClean
  cases fact <;> infer_instance

/-- No tolerance changes anything in a call of `generateCuts`. -/
structure Clean (D : Data) (prm : Prm) (info : Info) (fact : Option (Nat → SVec)) (draw : Nat → Nat → ℚ) : Prop where
  clear : Clear D.P
  tab : TabClean D (mkPar D.P prm info) fact
  base : ∀ b ∈ (bases D prm info fact draw).getD [], BaseClean D (mkPar D.P prm info) b

instance (D : Data) (prm : Prm) (info : Info) (fact : Option (Nat → SVec)) (draw : Nat → Nat → ℚ) :
    Decidable (Clean D prm info fact draw) :=
  decidable_of_iff (Clear D.P ∧ TabClean D (mkPar D.P prm info) fact ∧
      ∀ b ∈ (bases D prm info fact draw).getD [], BaseClean D (mkPar D.P prm info) b)
    ⟨fun h => ⟨h.1, h.2.1, h.2.2⟩, fun h => ⟨h.1, h.2, h.3⟩⟩

/-- The LP solution is at the bound of every fixed column. -/
def FixedAtBound (D : Data) : Prop :=
  ∀ j < D.P.nCols, D.P.colUpper j = D.P.colLower j → D.sol j = D.P.colLower j

instance (D : Data) : Decidable (FixedAtBound D) := by unfold FixedAtBound; infer_instance

end Cgl.Twomir
