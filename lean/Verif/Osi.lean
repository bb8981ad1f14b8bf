import Verif.Spec

/-!
# Models of the external Osi/CoinUtils pieces used by several generators
-/

namespace Cgl

/-- Row sense characters of `OsiSolverInterface::getRowSense` (documented: L, G, E, R, N). -/
inductive Sense | L | G | E | R | N
deriving DecidableEq, Repr

/-- `OsiSolverInterface::convertBoundToSense`: sense and right-hand side of a row from its two bounds (documented
behaviour of `getRowSense`/`getRightHandSide`: L and R rows have the upper bound, G rows the lower bound, E rows
the common value, N rows 0). -/
def Row.senseRhs (inf : ℚ) (r : Row) : Sense × ℚ :=
  if -inf < r.lb then
    if r.ub < inf then
      if r.ub = r.lb then (.E, r.ub) else (.R, r.ub)
    else (.G, r.lb)
  else if r.ub < inf then (.L, r.ub) else (.N, 0)

/-- `OsiCuts::insertIfNotDuplicate`: append unless the same cut is there.  Simplification: "same" is equality of
bounds and of the (column, coefficient) list; Osi sorts the row first. -/
def insertIfNotDuplicate (cs : List RowCut) (c : RowCut) : List RowCut :=
  if c ∈ cs then cs else cs ++ [c]

theorem mem_insertIfNotDuplicate {cs : List RowCut} {c d : RowCut} :
    d ∈ insertIfNotDuplicate cs c ↔ d ∈ cs ∨ d = c := by
  unfold insertIfNotDuplicate; split
  · constructor
    · exact Or.inl
    · rintro (h | rfl) <;> assumption
  · simp

/-- `OsiSolverInterface::getColType(true)` (external, documented): 0 continuous, 1 binary (integer with both bounds
in {0,1}), 2 general integer. -/
def colType (P : Prob) (j : Nat) : Nat :=
  if P.isInt j then
    if (P.colUpper j = 1 ∨ P.colUpper j = 0) ∧ (P.colLower j = 0 ∨ P.colLower j = 1) then 1 else 2
  else 0

/-- Largest `int`. -/
def intMax : ℤ := 2147483647
/-- Smallest `int`. -/
def intMin : ℤ := -2147483648

/-- Truncation toward zero. -/
def truncQ (q : ℚ) : ℤ := if 0 ≤ q then ⌊q⌋ else ⌈q⌉

/-- `static_cast<int>(double)`: truncation toward zero, undefined behaviour (`none`) if the result does not fit. -/
def castInt (q : ℚ) : Option ℤ :=
  if intMin ≤ truncQ q ∧ truncQ q ≤ intMax then some (truncQ q) else none

end Cgl
