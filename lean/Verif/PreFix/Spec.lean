import Verif.PreFix.Model

/-! # What the functions that fix columns and keep track of indices should do -/

namespace Cgl.PreFix

/-- The objective value of a point. -/
def value (P : Prob) (O : Objective) (x : Nat → ℚ) : ℚ := ((List.range P.nCols).map fun j => O.coef j * x j).sum

/-- The coefficient of a column in a row. -/
def coefIn (r : Row) (j : Nat) : ℚ := ((r.coefs.filter fun p => p.1 == j).map Prod.snd).sum

/-- The solver has found an optimal solution of the continuous relaxation with row prices `y`: the reduced costs are the
costs minus the prices of the rows, and a nonzero price or reduced cost has the sign of the bound that holds with
equality. -/
structure Optimal (P : Prob) (O : Objective) (L : Answers) (y : Nat → ℚ) : Prop where
  objValue : L.objValue = value P O L.solution
  dj : ∀ j < P.nCols, L.dj j = O.coef j - (P.rows.zipIdx.map fun q => y q.2 * coefIn q.1 j).sum
  rows : ∀ i r, P.rows[i]? = some r →
    (0 < O.direction * y i → -P.inf < r.lb ∧ r.coefs.dot L.solution = r.lb) ∧
    (O.direction * y i < 0 → r.ub < P.inf ∧ r.coefs.dot L.solution = r.ub)
  columns : ∀ j < P.nCols,
    (0 < O.direction * L.dj j → -P.inf < P.colLower j ∧ L.solution j = P.colLower j) ∧
    (O.direction * L.dj j < 0 → P.colUpper j < P.inf ∧ L.solution j = P.colUpper j)

/-- The bounds of the integer columns are integers. -/
def IntegralBounds (P : Prob) : Prop :=
  ∀ j < P.nCols, P.isInt j = true → IsInteger (P.colLower j) ∧ IsInteger (P.colUpper j)

/-- A sorting algorithm for pairs: `CoinSort_2`. -/
def Sorts (order : List (ℚ × Nat) → List (ℚ × Nat)) : Prop :=
  ∀ l, (order l).Perm l ∧ (order l).Pairwise fun a b => a.1 ≤ b.1

/-- A column that `someFixed` may fix. -/
def eligible (P : Prob) (fixCont : Bool) (keep : Option (Nat → ℤ)) (j : Nat) : Prop :=
  j < P.nCols ∧ (P.isInt j = true ∨ fixCont = true) ∧ keepOf keep j ≠ 1

/-- A chain of passes (the latest first) sends index `i` of the last model to index `k` of the original model: in every
pass the index is looked up in the map of that pass. -/
inductive Leads (map : Pass → Option (List ℤ)) : List Pass → ℤ → ℤ → Prop
  | nil (i : ℤ) : Leads map [] i i
  | cons {p : Pass} {ps : List Pass} {l : List ℤ} {i j k : ℤ} (hm : map p = some l) (hi : 0 ≤ i)
      (hj : l[i.toNat]? = some j) (hk : Leads map ps j k) : Leads map (p :: ps) i k

/-- The map of the columns of a pass, and of the rows. -/
def colMap (p : Pass) : Option (List ℤ) := p.presolve.map Prod.fst
def rowMap (p : Pass) : Option (List ℤ) := p.presolve.map Prod.snd

/-- The number of columns of the model before a chain of passes (the latest first). -/
def before (nCols : Nat) : List Pass → Nat
  | [] => nCols
  | q :: _ => q.nCols

/-- The maps of a chain of passes (the latest first) fit: the columns of every model are columns of the one before. -/
def Fits (nCols : Nat) : List Pass → Prop
  | [] => True
  | p :: ps => (∃ cs rs, p.presolve = some (cs, rs) ∧ cs.length = p.nCols ∧ rs.length = p.nRows ∧
      ∀ c ∈ cs, 0 ≤ c ∧ c < (before nCols ps : ℤ)) ∧ Fits nCols ps

/-- The columns stay in the same order. -/
def Ordered (ps : List Pass) : Prop := ∀ p ∈ ps, ∀ cs, colMap p = some cs → cs.Pairwise (· < ·)

end Cgl.PreFix
