import Verif.Spec

/-!
# Rows with a singleton column and an integer column in `CglPreProcess::preProcessNonDefault`

`/repo/src/CglPreProcess/CglPreProcess.cpp`, lines 3492-3598, done before each presolve.  A continuous column that is in no other row
and is pushed against the row by its cost makes the row an equation, or becomes integer.  `double` is `ℚ`; row bounds and
integrality are read from the problem as changed so far.
-/

namespace Cgl.Vub

/-- `columnLength[iColumn]`. -/
def colLength (P : Prob) (j : Nat) : Nat := P.rows.countP fun r => (r.coefs.map Prod.fst).contains j

/-- The row as `value1 * x1 + value2 * x2 <= upper`, with the singleton first. -/
structure Pair where
  j1 : Nat
  v1 : ℚ
  j2 : Nat
  v2 : ℚ
  upper : ℚ
deriving DecidableEq, Repr

/-- `debug > 0`, and which column is first, :3531-3557. -/
def pick (P : Prob) (c1 : Nat) (v1 : ℚ) (c2 : Nat) (v2 upper : ℚ) : Option Pair :=
  if colLength P c1 = 1 then
    if P.isInt c1 = true then none else if P.isInt c2 = true then some ⟨c1, v1, c2, v2, upper⟩ else none
  else if colLength P c2 = 1 then
    if P.isInt c2 = true then none else if P.isInt c1 = true then some ⟨c2, v2, c1, v1, upper⟩ else none
  else none

/-- The row as it is read, :3513-3557. -/
def read (P : Prob) (r : Row) : Option Pair :=
  match r.coefs with
  | [p, q] =>
    if r.lb < -10 ^ 20 then
      if r.ub < 10 ^ 20 then pick P p.1 p.2 q.1 q.2 r.ub else none
    else if 10 ^ 20 < r.ub then pick P p.1 (-p.2) q.1 (-q.2) (-r.lb)
    else none
  | _ => none

/-- `upper` after :3569-3573. -/
def rhs (P : Prob) (v : Pair) : ℚ :=
  if 0 < v.v2 then v.upper - v.v2 * P.colLower v.j2 else v.upper - v.v2 * P.colUpper v.j2

/-- What is done with the row. -/
inductive Act where
  | nothing
  | equation
  | integer
deriving DecidableEq, Repr

/-- The decision, :3567-3592. -/
def act (P : Prob) (cost : Nat → ℚ) (dir : ℚ) (v : Pair) : Act :=
  if 0 < v.v1 ∧ cost v.j1 * dir < 0 then
    if 10 ^ 20 < P.colUpper v.j1 ∨ rhs P v ≤ P.colUpper v.j1 * v.v1 then .equation
    else if rhs P v = ⌊rhs P v⌋ ∧ v.v2 = ⌊v.v2⌋ ∧ v.v1 = ⌊v.v1⌋ ∧ cost v.j1 = ⌊cost v.j1⌋ then .integer
    else .nothing
  else .nothing

/-- The row as an equation, :3577-3580. -/
def equate (r : Row) : Row := if r.lb < -10 ^ 20 then { r with lb := r.ub } else { r with ub := r.lb }

/-- One row, :3512-3596. -/
def step (cost : Nat → ℚ) (dir : ℚ) (P : Prob) (i : Nat) : Prob :=
  match P.rows[i]? with
  | none => P
  | some r =>
    match read P r with
    | none => P
    | some v =>
      match act P cost dir v with
      | .nothing => P
      | .equation => { P with rows := P.rows.set i (equate r) }
      | .integer => { P with isInt := fun j => decide (j = v.j1) || P.isInt j }

/-- All rows, :3512-3596. -/
def vubs (cost : Nat → ℚ) (dir : ℚ) (P : Prob) : Prob := (List.range P.rows.length).foldl (step cost dir) P

end Cgl.Vub
