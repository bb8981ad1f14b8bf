import Verif.Spec

/-!
# The end of `CglPreProcess::preProcessNonDefault`

`/repo/src/CglPreProcess/CglPreProcess.cpp`: sets of type 1 from equations (3916-4126), rows that become cuts (4260-4297) and right hand
sides that are made integer (4475-4529), on the model that is returned.  `double` is `ℚ`.
-/

namespace Cgl.Finish

/-! ### Sets -/

/-- What a row is found to be: `goodRow`, what is added to `numberOverlap`, and `nObj`. -/
structure Look where
  good : Bool
  overlap : Nat
  nObj : Nat
deriving DecidableEq, Repr

/-- The entries of a row, :3954-3966.  `mark` says that the column is in a set. -/
def lookRow (P : Prob) (cost : Nat → ℚ) (gub : Bool) (mark : Nat → Bool) : SVec → Look → Look
  | [], s => s
  | p :: l, s =>
    if p.2 ≠ 1 ∨ P.isInt p.1 = false ∨ P.colLower p.1 ≠ 0 then { s with good := false }
    else if mark p.1 = true ∧ gub = false then
      lookRow P cost gub mark l ⟨false, s.overlap + 1, if cost p.1 ≠ 0 then s.nObj + 1 else s.nObj⟩
    else lookRow P cost gub mark l { s with nObj := if cost p.1 ≠ 0 then s.nObj + 1 else s.nObj }

/-- The sets so far (columns of `sosRow`), `mark`, `numberOverlap`, `numberInSOS`. -/
structure Found where
  sets : List (List Nat)
  mark : Nat → Bool
  overlap : Nat
  inSOS : Nat

/-- One row, :3949-3980. -/
def findRow (P : Prob) (cost : Nat → ℚ) (ones gub : Bool) (s : Found) (r : Row) : Found :=
  if r.lb = 1 ∧ r.ub = 1 then
    if (r.coefs.length < 5 ∧ ones = false) ∨ (r.coefs.length < 20 ∧ gub = true) then s
    else
      let k := lookRow P cost gub s.mark r.coefs ⟨true, 0, 0⟩
      if k.good = true ∧ ¬ (ones = true ∧ (k.nObj = 0 ∨ (k.nObj : ℤ) < (r.coefs.length : ℤ) - 1)) then
        ⟨s.sets ++ [r.coefs.map Prod.fst], fun j => (r.coefs.map Prod.fst).contains j || s.mark j, s.overlap + k.overlap,
          s.inSOS + r.coefs.length⟩
      else { s with overlap := s.overlap + k.overlap }
  else s

/-- All rows, :3940-3981. -/
def findAll (P : Prob) (cost : Nat → ℚ) (ones gub : Bool) : Found :=
  P.rows.foldl (findRow P cost ones gub) ⟨[], fun _ => false, 0, 0⟩

/-- `numberIntegers`, :3916-3924. -/
def numberIntegers (P : Prob) : Nat := (List.range P.nCols).countP P.isInt

/-- The sets that are reported, :3925-4126, as lists of columns in the order of the row (`whichSOS_` between two entries of
`startSOS_`; the weights are positions, all types are 1; the sorted copies are not used by the code). -/
def sos (P : Prob) (cost : Nat → ℚ) (makeEquality : ℤ) (numberCliques : Nat) (ones gub : Bool) : List (List Nat) :=
  if (makeEquality = 2 ∨ makeEquality = 3) ∧ numberCliques ≠ 0 then
    let s := findAll P cost ones gub
    if makeEquality = 2 ∧ (s.overlap ≠ 0 ∨ s.inSOS + 1 < numberIntegers P) then [] else s.sets
  else []

/-! ### Rows that become cuts -/

/-- Rows of type 1 leave the model and are stored, :4260-4297.  `rowType_` is total here (a null pointer is the type 0 for all rows);
if no type is positive the code leaves `cuts_` as it was, which is the empty list here. -/
def takeCuts (P : Prob) (rowType : Nat → ℤ) : Prob × List RowCut :=
  if (List.range P.rows.length).any (fun i => decide (0 < rowType i)) = true then
    ({ P with rows := (P.rows.zipIdx.filter fun q => !decide (rowType q.2 = 1)).map Prod.fst },
      (P.rows.zipIdx.filter fun q => decide (rowType q.2 = 1)).map fun q => ⟨q.1.lb, q.1.ub, q.1.coefs⟩)
  else (P, [])

/-! ### Right hand sides -/

/-- `floor(value+0.5)`. -/
def round (v : ℚ) : ℚ := ⌊v + 1 / 2⌋

/-- `allInteger`, :4491-4502. -/
def allInteger (P : Prob) (r : Row) : Bool :=
  r.coefs.all fun p => P.isInt p.1 && !decide (1 / 10 ^ 13 < |p.2| - round |p.2|)

/-- `lowerNew`, :4504-4512 (without 4505, 4507). -/
def newLower (v : ℚ) : ℚ := if -10 ^ 15 < v ∧ v ≠ round v ∧ |v - round v| < 1 / 10 ^ 13 then round v else v

/-- `upperNew`, :4505, 4507, 4513-4517. -/
def newUpper (v : ℚ) : ℚ := if v < 10 ^ 15 ∧ v ≠ round v ∧ |v - round v| < 1 / 10 ^ 13 then round v else v

/-- One row, :4488-4527. -/
def cleanRow (P : Prob) (r : Row) : Row :=
  if allInteger P r = true ∧ newLower r.lb ≤ newUpper r.ub then { r with lb := newLower r.lb, ub := newUpper r.ub } else r

/-- All rows, :4475-4529. -/
def clean (P : Prob) : Prob := { P with rows := P.rows.map (cleanRow P) }

end Cgl.Finish
