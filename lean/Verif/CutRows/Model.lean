import Verif.DupRow.Model

/-!
# Clique cuts in place of rows in `CglPreProcess::modified`

`/repo/src/CglPreProcess/CglPreProcess.cpp`, lines 7538-7650: the cuts of the clique generator are added to a copy of the model as
rows, `CglDuplicateRow` in mode 8 is run on the copy (`/repo/src/CglDuplicateRow/CglDuplicateRow.cpp`, lines 2651-3103), and if
this makes more rows superfluous than there are useful cuts, the cuts take the place of these rows.  The cuts are the ones
in `cs` (all of them are taken to have a nonnegative effectiveness, so that `applyCuts` applies all); the column cuts
that the generator finds in the copy are not used by the code either.  The call of `resolve()` at the end is left out.
-/

namespace Cgl.CutRows

open DupRow

/-- A cut as a row (`applyCuts`, 7545). -/
def cutRow (c : RowCut) : Row := ⟨c.lb, c.ub, c.row⟩

/-- The copy of the model with the cuts as rows at the end (7543-7545). -/
def withCuts (P : Prob) (cuts : List RowCut) : Prob := { P with rows := P.rows ++ cuts.map cutRow }

/-- The second half of `duplicate()` after mode 8 (`CglDuplicateRow.cpp` 3078-3098), where `l` are the cliques and `used` the
numbers that `outDupsEtc` found: for a clique row the row of the clique `used`, if this is one, otherwise the
number of cliques; -1 for other rows. -/
def usedRow (l : List Clq) (used : Nat → Nat) (row : Nat) : ℤ :=
  match l.findIdx? fun c => c.row = row with
  | none => -1
  | some k =>
    match l[used k]? with
    | some c => c.row
    | none => used k

/-- The second half of `duplicate()` after mode 8 for a problem. -/
def used8 (P : Prob) : Nat → ℤ :=
  match rows8 P 0 P.rows with
  | .error _ => fun _ => -1
  | .ok (l, _) =>
    match run8 P.nCols (l.map fun c => c.cols.insertionSort (· ≤ ·)) (fun k => (l[k]?.map Clq.eq).getD false) with
    | none => fun _ => -1
    | some s => usedRow l s.used

/-- `duplicate[e]` (7575), where `used` follows directly after `duplicate`. -/
def dupAt (dup : List ℤ) (used : Nat → ℤ) (e : Nat) : ℤ :=
  if e < dup.length then dup[e]?.getD 0 else used (e - dup.length)

/-- `while (earliest >= numberRows)` (7574-7579); `none` if it still runs after the given number of steps. -/
def chase (nRows : Nat) (dup : List ℤ) (used : Nat → ℤ) : Nat → ℤ → Option ℤ
  | 0, _ => none
  | f + 1, e =>
    if (nRows : ℤ) ≤ e then
      if dupAt dup used e.toNat = -2 then chase nRows dup used f (used e.toNat) else some e
    else some e

/-- A cut is kept (7583-7586). -/
def keeps (nRows : Nat) (dup : List ℤ) (row : Nat) (earliest : ℤ) : Bool :=
  ! decide (dup[row]?.getD 0 = -2 ∨ earliest = -1 ∨ (nRows : ℤ) ≤ earliest)

/-- The loop over the cuts (7571-7587): the cuts that are left.  The code goes from the last cut to the first; the decisions do not
depend on each other. -/
def keptCuts (nRows : Nat) (dup : List ℤ) (used : Nat → ℤ) (steps : Nat) : Nat → List RowCut → Option (List RowCut)
  | _, [] => some []
  | row, c :: cs =>
    match chase nRows dup used steps (used row), keptCuts nRows dup used steps (row + 1) cs with
    | some e, some l => some (if keeps nRows dup row e then c :: l else l)
    | _, _ => none

/-- The rows that are not dropped (7564-7569, 7607). -/
def leftRows (P : Prob) (dup : List ℤ) : List Row := ((P.rows.zip dup).filter fun p => p.2 ≠ -2).map Prod.fst

/-- The model at the end (7588-7610). -/
def exchange (P : Prob) (dup : List ℤ) (special : Bool) (l : List RowCut) : Prob :=
  if l.length ≤ P.rows.length - (leftRows P dup).length ∨ special then { P with rows := leftRows P dup ++ l.map cutRow }
  else P

/-- The treatment of clique cuts (7538-7650): the model at the end, or `none` if one of the `while` loops still runs after the given
number of steps.  `special` is `cliqueGen->getMinViolation() == -3.0`. -/
def treat (P : Prob) (cuts : List RowCut) (special : Bool) (steps : Nat) : Except Fault (Option Prob) :=
  if cuts = [] then .ok (some P)
  else
    match Obj.new.refresh (withCuts P cuts) with
    | .error f => .error f
    | .ok o =>
      match generate (o.setMode 8) (withCuts P cuts) false ⟨[], []⟩ with
      | .error f => .error f
      | .ok (o', _) =>
        .ok ((keptCuts P.rows.length o'.dup (used8 (withCuts P cuts)) steps P.rows.length cuts).map
          (exchange P o'.dup special))

end Cgl.CutRows
