import Mathlib.Tactic.Linarith
import Mathlib.Data.List.Basic

/-!
# The arrays of a `CglProbing` object over its life

`src/CglProbing/CglProbing.cpp`: constructors and assignment (10267-10317, 10322-10438, 10488-10628), destructor
(10452-10483), `generateCuts` (1326-1399), `generateCutsAndModify` (1400-1487), `gutsOfGenerateCuts` (1961-1970, 2147-2172,
2244-2247, 2257-2270, 2317-2370, 3157-3170), `tighten` (360-376), `snapshot` (9934-10083) and `deleteSnapshot`
(10086-10108), as far as they allocate, copy, use and free `lookedAt_`, `rowCopy_`, `rowLower_`, `rowUpper_`, `colLower_`,
`colUpper_`, `lookColumn_`, and change `numberRows_`, `numberColumns_` and `numberThisTime_`.

Only sizes are modelled.  Not modelled: cliques (`numberCliques_` is 0), `tightenBounds_`, `cutVector_`, the option 2048, and
the places of `probe` that put `lookedAt_` into another order.
-/

namespace Cgl.ProbingLife

/-- What may go wrong. -/
inductive Fault where
  /-- entries behind the end of an array are read or written -/
  | overrun
  /-- entries of an array that is `NULL` are read -/
  | nullRead
  /-- a failed `assert` -/
  | assertion
  /-- `CoinPackedMatrix::setDimensions` is asked to make a matrix smaller and throws (CoinUtils) -/
  | throws
deriving DecidableEq, Repr

/-- The object: sizes of arrays (`none` for `NULL`) and numbers. -/
structure Obj where
  /-- `lookedAt_` -/
  lookedAt : Option Nat
  /-- `numberThisTime_` -/
  thisTime : Nat
  /-- `numberRows_` -/
  numRows : Nat
  /-- `numberColumns_` -/
  numCols : Nat
  /-- number of rows of `rowCopy_` -/
  copy : Option Nat
  /-- `rowLower_` and `rowUpper_` -/
  rowB : Option Nat
  /-- `colLower_` and `colUpper_` -/
  colB : Option Nat
  /-- `lookColumn_`, after the columns: room for two lists of so many rows -/
  look : Option Nat
deriving DecidableEq, Repr

/-- The default constructor (10267-10317). -/
def fresh : Obj := ⟨none, 0, 0, 0, none, none, none, none⟩

/-- A problem and what a call of a generator does with it: `m` rows, `n` columns, `left` rows after the removal of long and
free ones, `k` columns to be probed, `mode0` if the mode is 0. -/
structure Call where
  m : Nat
  n : Nat
  left : Nat
  k : Nat
  mode0 : Bool
deriving DecidableEq, Repr

/-- An array has at least `need` entries (reading or writing). -/
def access (a : Option Nat) (need : Nat) : Except Fault Unit :=
  if need = 0 then .ok ()
  else match a with
    | none => .error .nullRead
    | some z => if z < need then .error .overrun else .ok ()

/-- "use snapshot" (1959-1970). -/
def useCopy (c : Call) (o : Obj) : Except Fault Unit :=
  match o.copy with
  | none => .ok ()
  | some r => if c.n ≠ o.numCols ∨ r ≠ o.numRows then .error .assertion else access o.rowB o.numRows

/-- The start of `tighten` (360-374): the room for rows is made, or used as it was left, for `numberRows_` rows; then
`numberRows_` is 0.  (What is read there may be old; what is written later to the second list is not modelled.) -/
def tightenStart (nRows : Nat) (o : Obj) : Except Fault Obj :=
  match o.look with
  | none => .ok { o with look := some nRows }
  | some z => if 2 * z < o.numRows then .error .overrun else .ok { o with numRows := 0 }

/-- `gutsOfGenerateCuts`.  Mode 0 without a snapshot is mode 1 (1926-1927). -/
def guts (c : Call) (o : Obj) : Except Fault Obj := do
  useCopy c o
  if c.left = 0 then return o
  let o := { o with lookedAt := some (o.lookedAt.getD c.n) }
  let o ← if c.mode0 && o.copy.isSome then pure o else tightenStart c.left o
  access o.lookedAt c.k
  return { o with thisTime := c.k, look := none }

/-- `generateCuts` (1362-1398). -/
def generate (c : Call) (o : Obj) : Except Fault Obj := do
  let o ← guts c (if o.copy.isSome then o else { o with numRows := c.m, numCols := c.n })
  return { o with colB := none }

/-- `generateCutsAndModify` (1446-1487); `mode3` if the mode is 3. -/
def modify (c : Call) (mode3 : Bool) (o : Obj) : Except Fault Obj := do
  let o ← guts c o
  return { o with
    rowB := if mode3 then some (c.m + 1) else o.rowB
    colB := some c.n }

/-- `deleteSnapshot` (10086-10108). -/
def deleteSnapshot (o : Obj) : Obj := { o with copy := none, rowB := none, colB := none }

/-- `snapshot` (9934-10083) for a problem with `m` rows and `n` columns. -/
def snapshot (m n : Nat) (withObjective : Bool) (o : Obj) : Except Fault Obj := do
  let o := { deleteSnapshot o with numRows := m, numCols := n, rowB := some (m + 1), colB := some n }
  let o ← tightenStart m o
  let w := if withObjective then 1 else 0
  let o := { o with copy := some (m + w), numRows := o.numRows + w }
  if o.numRows < m + w then .error .throws else .ok o

/-- The copy constructor (10322-10438), and the assignment to an object with nothing in it. -/
def clone (o : Obj) : Except Fault Obj := do
  if o.copy.isSome then
    access o.rowB o.numRows
    access o.colB o.numCols
  if o.lookedAt.isSome then access o.lookedAt o.numCols
  return {
    lookedAt := if o.numCols = 0 then none else o.lookedAt.map fun _ => o.numCols
    thisTime := o.thisTime
    numRows := o.numRows
    numCols := o.numCols
    copy := o.copy
    rowB := if o.copy.isSome then some o.numRows else none
    colB := if o.copy.isSome then some o.numCols else none
    look := none }

/-- The destructor (10452-10483): the assertions. -/
def destroy (o : Obj) : Except Fault Unit := if o.look.isSome then .error .assertion else .ok ()

/-- What a user does with an object. -/
inductive Op where
  | generate (c : Call)
  | modify (c : Call) (mode3 : Bool)
  | snapshot (m n : Nat) (withObjective : Bool)
  | deleteSnapshot
  /-- a copy is made and destroyed -/
  | peek
  /-- a copy is made, the original is destroyed, and the copy is used from then on -/
  | replace
deriving DecidableEq, Repr

/-- One operation. -/
def step (o : Obj) : Op → Except Fault Obj
  | .generate c => generate c o
  | .modify c b => modify c b o
  | .snapshot m n w => snapshot m n w o
  | .deleteSnapshot => .ok (deleteSnapshot o)
  | .peek => do
    let o' ← clone o
    destroy o'
    return o
  | .replace => do
    let o' ← clone o
    destroy o
    return o'

/-- A history. -/
def run : List Op → Obj → Except Fault Obj
  | [], o => .ok o
  | a :: l, o => do
    let o ← step o a
    run l o

end Cgl.ProbingLife
