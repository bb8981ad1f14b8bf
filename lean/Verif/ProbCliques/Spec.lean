import Verif.ProbCliques.Model

/-! # What the clique tables should say -/

namespace Cgl.ProbCliques

/-- The entry is at the value that fixes the others. -/
def Entry.Strong (e : Entry) (x : Nat → ℚ) : Prop := x e.col = if e.one then 1 else 0

instance (e : Entry) (x : Nat → ℚ) : Decidable (e.Strong x) := by unfold Entry.Strong; infer_instance

/-- The clique holds at a point: its columns are 0 or 1, at most one entry is at its strong value, and exactly one if the
clique is an equality. -/
structure Clique.Holds (c : Clique) (x : Nat → ℚ) : Prop where
  binary : ∀ e ∈ c.entries, x e.col = 0 ∨ x e.col = 1
  atMost : c.entries.countP (fun e => decide (e.Strong x)) ≤ 1
  exact : c.equality = true → c.entries.countP (fun e => decide (e.Strong x)) = 1

/-- The contribution of a fixed column, or of a column that may get fixed. -/
def weight (P : Prob) (p : Nat × ℚ) : ℚ :=
  if fixedCol P p.1 then |P.colLower p.1 * p.2|
  else if P.colLower p.1 = 0 ∧ P.colUpper p.1 = 1 then |p.2|
  else 0

/-- The numbers are of moderate size: a column that counts as fixed has finite bounds and no room between them, and the
contributions of fixed columns do not make an infinite row bound finite. -/
structure Moderate (P : Prob) : Prop where
  inf : 10 ^ 10 ≤ P.inf
  fixed : ∀ j < P.nCols, fixedCol P j = true → P.colUpper j ≤ P.colLower j ∧ -P.inf < P.colLower j ∧ P.colUpper j < P.inf
  rows : ∀ r ∈ P.rows, (r.coefs.map (weight P)).sum + 10 ^ 10 ≤ P.inf
  length : ∀ r ∈ P.rows, (r.coefs.length : ℤ) < intMax

/-- The columns of a row that are not fixed, with coefficient 1 or -1. -/
def plus (P : Prob) (r : Row) : List Nat := (r.coefs.filter fun p => !fixedCol P p.1 && decide (0 < p.2)).map Prod.fst
def minus (P : Prob) (r : Row) : List Nat := (r.coefs.filter fun p => !fixedCol P p.1 && !decide (0 < p.2)).map Prod.fst

/-- The contribution of the fixed columns. -/
def fixedSum (P : Prob) (r : Row) : ℚ :=
  ((r.coefs.filter fun p => fixedCol P p.1).map fun p => P.colLower p.1 * p.2).sum

/-- All columns that are not fixed are binary and have coefficient 1 or -1. -/
def UnitRow (P : Prob) (r : Row) : Prop :=
  ∀ p ∈ r.coefs, fixedCol P p.1 = false → P.isInt p.1 = true ∧ P.colLower p.1 = 0 ∧ P.colUpper p.1 = 1 ∧ |p.2| = 1

/-- At most one of the columns can be at its strong value because of the upper bound of the row. -/
def UpperClique (P : Prob) (r : Row) : Prop :=
  UnitRow P r ∧ r.ub - fixedSum P r = 1 - (minus P r).length

/-- At most one of the columns can be at its strong value because of the lower bound of the row. -/
def LowerClique (P : Prob) (r : Row) : Prop :=
  UnitRow P r ∧ r.lb - fixedSum P r = (plus P r).length - 1

/-- The numbers of the cliques that contain a column with a given flag, in order. -/
def cliquesWith (cs : List Clique) (j : Nat) (one : Bool) : List Nat :=
  (List.range cs.length).filter fun k => (cs[k]?).any fun c => decide (⟨j, one⟩ ∈ c.entries)

/-- The elements of the array between two positions. -/
def between (l : List (Option Nat)) (a b : ℤ) : List (Option Nat) := (l.drop a.toNat).take (b - a).toNat

end Cgl.ProbCliques
