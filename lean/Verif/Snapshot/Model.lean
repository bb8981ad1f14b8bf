import Verif.Probing.Model

/-!
# `CglProbing::snapshot`

`src/CglProbing/CglProbing.cpp`, 9930-10083.  The copy of the matrix that `generateCuts` uses afterwards.

Modelled: the copies of the bounds and rows, the choice of rows by `possible`, the order of the elements, the call of
`tighten` with five passes (its model is the one of `Verif/Probing/Model.lean`), the return code, the update of
`possible`, the row for the objective, and `numberRows_`.  A call on an object that was used before is `snapshotAgain`.
Not modelled: the counts of integer columns and `cutVector_` (9961-9973, 10022-10031), the copy by columns (10074-10082),
and `tighten` with cliques (`cliqueRowStart_`, which only `createCliques` sets).
-/

namespace Cgl.Snapshot
open Cgl.Probing

/-- `possible[i]` before the call; without an array all rows are selected (9952-9959). -/
def selected (possible : Option (List Bool)) (i : Nat) : Bool := (possible.map fun l => l.getD i true).getD true

/-- One row of the copy: negative elements first (9983-10004), no bounds if it is not selected (9955-9956). -/
def splitRow (sel : Bool) (r : Row) : PRow where
  neg := r.coefs.filter fun p => decide (p.2 < 0)
  pos := r.coefs.filter fun p => !decide (p.2 < 0)
  lb := if sel then r.lb else -dblMax
  ub := if sel then r.ub else dblMax

/-- `rowCopy_`, `rowLower_` and `rowUpper_` before the call of `tighten` (9946-10006). -/
def copyRows (P : Prob) (possible : Option (List Bool)) : List PRow :=
  P.rows.zipIdx.map fun p => splitRow (selected possible p.2) p.1

/-- `tighten` before its first pass (340-444), with the rows to look at. -/
def startSt (rows : List PRow) (lo up : Nat → ℚ) (next : List Nat) : TSt where
  lo := lo
  up := up
  lb := fun i => (rows[i]?.map PRow.lb).getD 0
  ub := fun i => (rows[i]?.map PRow.ub).getD 0
  change := true
  infeas := false
  cols := []
  markR := fun _ => 0
  next := next

/-- The rows that bound something (396-440). -/
def firstRows (rows : List PRow) : List Nat :=
  (List.range rows.length).filter fun i =>
    (rows[i]?.map fun r => decide (-10 ^ 20 < r.lb ∨ r.ub < 10 ^ 20)).getD false

/-- The call of `tighten` in `snapshot` (10010-10014), with the rows to look at first. -/
def tightened (P : Prob) (possible : Option (List Bool)) (next : List Nat) : TSt :=
  tLoop (copyRows P possible) P.isInt 5 true (startSt (copyRows P possible) P.colLower P.colUpper next)

/-- The row has no bounds any more (10038, 10045). -/
def freed (s : TSt) (i : Nat) : Bool := decide (s.lb i < -10 ^ 30) && decide (10 ^ 30 < s.ub i)

/-- What a call leaves in the object and returns.  `rows` is `rowCopy_`; an entry of `bounds` is `none` if
`rowLower_[i]` and `rowUpper_[i]` were never written; `numberRows` is `numberRows_`. -/
structure Copy where
  code : Nat
  colLower : Nat → ℚ
  colUpper : Nat → ℚ
  rows : List SVec
  bounds : List (Option (ℚ × ℚ))
  possible : Option (List Bool)
  numberRows : Nat

/-- The row for the objective (10057-10070). -/
def objRow (n : Nat) (obj : Nat → ℚ) (sense : ℚ) : SVec :=
  ((List.range n).filter fun c => decide (obj c ≠ 0)).map fun c => (c, if sense = -1 then -obj c else obj c)

/-- `snapshot` on an object that has not been used since it was made or last generated cuts: `lookColumn_` is `NULL`, so
`tighten` collects the rows itself (361-368, 395-444). -/
def snapshot (P : Prob) (obj : Nat → ℚ) (sense : ℚ) (possible : Option (List Bool)) (withObjective : Bool) : Copy :=
  let s := tightened P possible (firstRows (copyRows P possible))
  { code := if s.infeas then 1 else 0
    colLower := s.lo
    colUpper := s.up
    rows := (copyRows P possible).map PRow.els ++ if withObjective then [objRow P.nCols obj sense] else []
    bounds := ((List.range P.rows.length).map fun i => some (s.lb i, s.ub i)) ++ if withObjective then [none] else []
    possible := possible.map fun l => l.zipIdx.map fun p => p.1 && !freed s p.2
    numberRows := P.rows.length + if withObjective then 1 else 0 }

/-- `snapshot` on an object whose last call was `snapshot` (or `refreshSolver`, 10631-10639): `deleteSnapshot` leaves
`lookColumn_`, so `tighten` takes the rows to look at from what is left in it (`old`; numbers that are no rows are
skipped, in C++ they are read), and sets `numberRows_` to 0 (369-374).  All loops over the rows after it are empty.
(At the end `setDimensions` of CoinUtils throws, as the matrix has more rows: `Verif/ProbingLife`.) -/
def snapshotAgain (old : List Nat) (P : Prob) (obj : Nat → ℚ) (sense : ℚ) (possible : Option (List Bool))
    (withObjective : Bool) : Copy :=
  let s := tightened P possible (old.take P.rows.length)
  { code := if s.infeas then 1 else 0
    colLower := s.lo
    colUpper := s.up
    rows := (copyRows P possible).map PRow.els ++ if withObjective then [objRow P.nCols obj sense] else []
    bounds := ((List.range P.rows.length).map fun i => some (s.lb i, s.ub i)) ++ if withObjective then [none] else []
    possible := possible
    numberRows := if withObjective then 1 else 0 }

end Cgl.Snapshot
