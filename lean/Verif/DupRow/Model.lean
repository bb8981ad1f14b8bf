import Verif.Osi
import Verif.TreeInfo.Analyze
import Mathlib.Data.List.Sort

/-!
# Model of `CglDuplicateRow` (`src/CglDuplicateRow/CglDuplicateRow.cpp`)

`generateCuts12` (49-794) is never called (its call, 41, is commented out) and is not modelled; so `storedCuts_` is
always NULL and `rhs_`, `lower_`, `maximumRhs_`, `maximumDominated_` and `sizeDynamic_` have no effect.
-/

namespace Cgl.DupRow

/-- What can go wrong in a call. -/
inductive Fault
  /-- conversion of a `double` that does not fit into `int` -/
  | cast
  /-- a failed `assert` -/
  | assertion
  /-- a read or write outside an array, or of a part of it that was never written -/
  | memory
  /-- `abort()` -/
  | aborted
deriving DecidableEq, Repr

/-- The object: `matrix_`/`matrixByRow_` by rows, the number of its columns, `duplicate_` and `mode_` (taken as not
negative).  `duplicate_` is NULL and the matrix empty before the first `refreshSolver`; here `[]`. -/
structure Obj where
  nCols : Nat
  mat : List SVec
  dup : List ℤ
  mode : Nat
deriving DecidableEq, Repr

/-- Default constructor (3105-3119). -/
def Obj.new : Obj := ⟨0, [], [], 3⟩

/-- `setMode` (`CglDuplicateRow.hpp`). -/
def Obj.setMode (o : Obj) (m : Nat) : Obj := { o with mode := m }

/-- The conversions in `refreshSolver` for one row (3253-3272): `floor(rowUpper)` if it is below 100, and the lower
bound if the row has positive integer coefficients on integer columns. -/
def refreshCasts (P : Prob) (r : Row) : Bool :=
  if r.ub < 100 then
    if intMin ≤ ⌊r.ub⌋ then
      if r.coefs.all fun p => P.isInt p.1 && decide (IsInteger p.2) && decide (1 ≤ p.2) then decide (⌈r.lb⌉ ≤ intMax)
      else true
    else false
  else true

/-- `refreshSolver` (3220-3302). -/
def Obj.refresh (o : Obj) (P : Prob) : Except Fault Obj :=
  if P.rows.all (refreshCasts P) then
    .ok { o with nCols := P.nCols, mat := P.rows.map Row.coefs, dup := P.rows.map fun _ => -1 }
  else .error .cast

/-- Copy constructor, `clone` and assignment (3139-3216): `CoinCopyOfArray(duplicate_, matrix_.getNumRows())` reads
past the end if the array is shorter than the matrix has rows (an array from `generateCuts8`, which has room for twice
the rows of the solver it was called with, the second half of which is `CutRows.usedRow`). -/
def Obj.copy (o : Obj) : Except Fault Obj :=
  if o.dup.length < o.mat.length ∧ o.dup ≠ [] then .error .memory else .ok { o with dup := o.dup.take o.mat.length }

/-! ### Mode 4: pairs of rows with at most three columns -/

/-- A column whose rows are not looked at (860-864). -/
def freeBelow (P : Prob) (j : Nat) : Bool := decide (P.colLower j < -10 ^ 20 ∧ -10 ^ 20 < P.colUpper j)
/-- A column with both bounds "infinite below" leads to `abort()` (869-875). -/
def aborts (P : Prob) (j : Nat) : Bool := decide (P.colLower j < -10 ^ 20 ∧ ¬ -10 ^ 20 < P.colUpper j)
/-- A column that is not fixed (876). -/
def unfixed (P : Prob) (j : Nat) : Bool := decide (P.colLower j < P.colUpper j)
/-- `(columnFlag & (2+4)) == 2`: a 0-1 column (878-886); the test is on the width only. -/
def isBin (P : Prob) (j : Nat) : Bool := P.isInt j && ! decide (P.colLower j + 3 / 2 < P.colUpper j)

/-- A row of the small matrix: its number, whether it is an equality, whether it was negated, its columns that are not
fixed in increasing order with their (perhaps negated) elements. -/
structure SRow where
  orig : Nat
  eqn : Bool
  ge : Bool
  els : SVec
deriving DecidableEq, Repr

/-- The entries in columns that are not fixed. -/
def openEls (P : Prob) (v : SVec) : SVec := v.filter fun p => unfixed P p.1

/-- Whether a row is looked at (901-917); a row whose bounds are equal is an equality, whatever they are. -/
def usable (P : Prob) (v : SVec) (lb ub : ℚ) : Bool :=
  ! (v.any fun p => freeBelow P p.1) &&
  decide (((openEls P v).filter fun p => ! isBin P p.1).length ≤ 1) &&
  decide (((openEls P v).filter fun p => isBin P p.1).length ≠ 0) &&
  (decide (lb = ub) || ! decide (-10 ^ 20 < lb ∧ ub < 10 ^ 20))

/-- `rowFlag & 2` (914-915, 927-928). -/
def isGe (lb ub : ℚ) : Bool := decide (lb ≠ ub) && decide (10 ^ 20 < ub)

/-- The small row and its right-hand side (1006-1042). -/
def smallRow (P : Prob) (i : Nat) (v : SVec) (lb ub : ℚ) : SRow × ℚ :=
  let e := (openEls P v).insertionSort fun a b => a.1 ≤ b.1
  let r2 := v.dot P.colLower
  if isGe lb ub then (⟨i, decide (lb = ub), true, e.map fun p => (p.1, -p.2)⟩, -(lb - r2))
  else (⟨i, decide (lb = ub), false, e⟩, ub - r2)

/-- The small rows of a list of rows of the matrix with the rows of the solver, in the order of the matrix. -/
def smallRows (P : Prob) : Nat → List SVec → List Row → List (SRow × ℚ)
  | i, v :: vs, r :: rs =>
    if usable P v r.lb r.ub then smallRow P i v r.lb r.ub :: smallRows P (i + 1) vs rs else smallRows P (i + 1) vs rs
  | _, _, _ => []

/-- The small rows sorted by their length (920); `CoinSort_2` is outside `/repo`, ties are kept in order here. -/
def sortedRows (l : List (SRow × ℚ)) : List (SRow × ℚ) :=
  l.insertionSort fun a b => a.1.els.length ≤ b.1.els.length

/-- State of the comparison: `trueLower`, `newBound`, flag 16, by number of the column in the problem;
`effectiveRhs` and `duplicate_` by small row; `infeasible`. -/
structure St where
  tl : Nat → ℚ
  nb : Nat → ℚ
  tch : Nat → Bool
  rhs : List ℚ
  dup : List ℤ
  infeas : Bool

/-- Element of a row in a column (the sum, if a column is there twice). -/
def coefAt (v : SVec) (c : Nat) : ℚ := ((v.filter fun p => p.1 = c).map Prod.snd).sum

/-- New lower bound `tl + lo` and width for a column, with the right-hand sides (1260-1268, 1761-1769, 1887-1894). -/
def shift (rows : List SRow) (c : Nat) (lo width : ℚ) (s : St) : St :=
  { s with
    tl := Function.update s.tl c (s.tl c + lo)
    nb := Function.update s.nb c width
    tch := Function.update s.tch c true
    rhs := List.zipWith (fun r q => q - lo * coefAt r.els c) rows s.rhs }

/-- `duplicate_[k] = -2`. -/
def drop (k : Nat) (s : St) : St := { s with dup := s.dup.set k (-2) }

/-- `tolerance` (1101). -/
def tol (rhs : ℚ) : ℚ := max (1 / 10 ^ 5) (|rhs| / 10 ^ 10)

/-- `loRhs` (1100). -/
def loRhs (eqn : Bool) (rhs : ℚ) : ℚ := if eqn then rhs else -10 ^ 30

/-- All 0-1 assignments of `n` columns. -/
def bits : Nat → List (List ℚ)
  | 0 => [[]]
  | n + 1 => (bits n).flatMap fun l => [0 :: l, 1 :: l]

/-- Value of elements at an assignment. -/
def lin : List ℚ → List ℚ → ℚ
  | e :: es, a :: as => e * a + lin es as
  | _, _ => 0

/-- `allowed0[put]` for a row with 0-1 columns only (1102-1111, 1319-1331). -/
def allowed (els : List ℚ) (rhs : ℚ) (eqn : Bool) (a : List ℚ) : Bool :=
  decide (lin els a < rhs + tol rhs) && decide (loRhs eqn rhs - tol rhs < lin els a)

/-- What the comparison of two rows found (1130-1172). -/
structure Verdict where
  same : Bool
  tighter0 : Bool
  tighter1 : Bool
  feasible : Bool
  redundant : Bool
  /-- per 0-1 column: `some` value if it can only have that value -/
  fixed : List (Option ℚ)
deriving DecidableEq, Repr

/-- `fixed[jj]` (1153-1172, 1374-1402). -/
def fixedAt (both : List ℚ → Bool) (n j : Nat) : Option ℚ :=
  if ! (bits n).any fun a => both a && decide (a[j]? = some 0) then some 1
  else if ! (bits n).any fun a => both a && decide (a[j]? = some 1) then some 0
  else none

/-- The verdict from the two tables (1130-1172, 1358-1402). -/
def verdict (n : Nat) (a0 a1 : List ℚ → Bool) : Verdict :=
  let both := fun a => a0 a && a1 a
  { same := (bits n).all fun a => a0 a == a1 a
    tighter0 := (bits n).all fun a => ! a0 a || a1 a
    tighter1 := (bits n).all fun a => ! a1 a || a0 a
    feasible := (bits n).any both
    redundant := (bits n).all both
    fixed := if (bits n).any both then (List.range n).map (fixedAt both n) else [] }

/-- Fixing the columns (1240-1273). -/
def applyFix (rows : List SRow) : List (Nat × Option ℚ) → St → St
  | [], s => s
  | (c, some v) :: l, s => applyFix rows l (shift rows c v 0 s)
  | (_, none) :: l, s => applyFix rows l s

/-- What is done with the verdict if the two rows are not "the same" for the rest (1232-1290, 1470-1522, 1863-1920):
`none` in the last case, in which `same` holds or nothing is done. -/
def act (rows : List SRow) (cols : List Nat) (i k : Nat) (v : Verdict) (s : St) : Option St :=
  if ! v.feasible then some { s with infeas := true }
  else if v.fixed.any Option.isSome then some (applyFix rows (cols.zip v.fixed) s)
  else if ! v.same && (v.tighter0 || v.tighter1) then some (if v.tighter0 then drop k s else drop i s)
  else if v.redundant then some (drop k (drop i s))
  else none

/-- Two rows with the same 0-1 columns (1097-1541). -/
def purePair (rows : List SRow) (r0 : SRow) (i k : Nat) (flag0 : Bool) (r1 : SRow) (q0 q1 : ℚ) (s : St) : St :=
  let e0 := r0.els.map Prod.snd
  let e1 := r1.els.map Prod.snd
  let v := verdict e0.length (allowed e0 q0 flag0) (allowed e1 q1 r1.eqn)
  match act rows (r0.els.map Prod.fst) i k v s with
  | some s => s
  | none => if v.same && decide (|q0 - q1| < 1 / 10 ^ 7) && decide (e0 = e1) then drop k s else s

/-- One cell of the table for rows with one other column: allowed, and the interval for that column (1580-1614). -/
structure Cell where
  ok : Bool
  lo : ℚ
  up : ℚ
deriving DecidableEq, Repr

/-- A cell (1580-1614); `value` is the part of the 0-1 columns, `el` the element of the other column.  If `el` is 0 and
a division is reached the cell is not allowed and the result is not used. -/
def cell (bound el rhs : ℚ) (eqn : Bool) (value : ℚ) : Cell :=
  let gap := bound * el
  let vLo := if 0 < gap then value else value + gap
  let vHi := if 0 < gap then value + gap else value
  let lo := loRhs eqn rhs
  let t := tol rhs
  { ok := decide (vLo < rhs + t) && decide (lo - t < vHi)
    lo := if 0 < gap then (if vLo < lo - t then (lo - vLo) / el else 0)
          else (if rhs + t < vHi then (rhs - vHi) / el else 0)
    up := if 0 < gap then (if rhs + t < vHi then bound - (vHi - rhs) / el else bound)
          else (if vLo < lo - t then bound - (vLo - lo) / el else bound) }

/-- The 0-1 elements of a row (1556-1565). -/
def binEls (P : Prob) (v : SVec) : List ℚ := (v.filter fun p => isBin P p.1).map Prod.snd
/-- Columns of these (1559). -/
def binCols (P : Prob) (v : SVec) : List Nat := (v.filter fun p => isBin P p.1).map Prod.fst
/-- The other column and its element (1560-1564). -/
def otherEl (P : Prob) (v : SVec) : Nat × ℚ := ((v.filter fun p => ! isBin P p.1).head?).getD (0, 0)

/-- `newLo` (1694-1749). -/
def newLo (bound : ℚ) (both : List ℚ → Bool) (c0 c1 : List ℚ → Cell) (l : List (List ℚ)) : ℚ :=
  l.foldl (fun q a => if both a then min q (max (c0 a).lo (c1 a).lo) else q) bound
/-- `newUp` (1695-1749). -/
def newUp (both : List ℚ → Bool) (c0 c1 : List ℚ → Cell) (l : List (List ℚ)) : ℚ :=
  l.foldl (fun q a => if both a then max q (min (c0 a).up (c1 a).up) else q) 0

/-- The intervals after the new bounds (1720-1748, 1774-1779). -/
def clip (bound nLo nUp : ℚ) (both : List ℚ → Bool) (c : List ℚ → Cell) (a : List ℚ) : ℚ × ℚ :=
  if both a then (max (c a).lo nLo, min (c a).up nUp) else (max 0 nLo, min bound nUp)

/-- The verdict with the intervals (1657-1799). -/
def mixedVerdict (n : Nat) (bound nLo nUp : ℚ) (c0 c1 : List ℚ → Cell) : Verdict :=
  let v := verdict n (fun a => (c0 a).ok) fun a => (c1 a).ok
  let both := fun a => (c0 a).ok && (c1 a).ok
  let i0 := clip bound nLo nUp both c0
  let i1 := clip bound nLo nUp both c1
  let wide0 := fun a => decide ((i0 a).1 < (i1 a).1 - 1 / 10 ^ 12) || decide ((i1 a).2 + 1 / 10 ^ 12 < (i0 a).2)
  let wide1 := fun a => decide ((i1 a).1 < (i0 a).1 - 1 / 10 ^ 12) || decide ((i0 a).2 + 1 / 10 ^ 12 < (i1 a).2)
  { v with
    same := v.same && (bits n).all fun a =>
      ! (decide (1 / 10 ^ 8 < |(i0 a).1 - (i1 a).1|) || decide (1 / 10 ^ 8 < |(i0 a).2 - (i1 a).2|))
    tighter0 := v.tighter0 && (bits n).all fun a => ! wide0 a
    tighter1 := v.tighter1 && (bits n).all fun a => ! wide1 a
    redundant := v.redundant && (bits n).all fun a => ! (wide0 a || wide1 a ||
      decide (1 / 10 ^ 12 < |nLo - (i0 a).1|) || decide (1 / 10 ^ 12 < |nLo - (i1 a).1|) ||
      decide (1 / 10 ^ 12 < |nUp - (i0 a).2|) || decide (1 / 10 ^ 12 < |nUp - (i1 a).2|)) }

/-- One sample point: the intervals of the other column there (1951-1970, 2050-2072).  If an element is 0 the code
divides by zero; here the quotient is 0. -/
def sampleAt (rhs el : ℚ) : ℚ × ℚ :=
  if 0 < el then (0, rhs / el) else (max 0 (rhs / el), 10 ^ 30)

/-- Comparison at one sample point (1971-2015): the new `which`; -2 leaves the loop. -/
def sampleStep (w : ℤ) (a b : ℚ × ℚ) : ℤ :=
  let e : ℚ := 1 / 10 ^ 8
  let to0 := if w = 1 then -2 else -1
  let to1 := if w = -1 then -2 else 1
  if e < |a.1 - b.1| ∨ e * (1 + |b.2|) < |a.2 - b.2| then
    if b.1 + e < a.1 then (if a.2 < b.2 - e then to0 else if b.2 + e < a.2 then -2 else w)
    else if a.1 < b.1 - e then (if b.2 < a.2 - e then to1 else if a.2 + e < b.2 then -2 else w)
    else (if b.2 < a.2 - e then to1 else if a.2 + e < b.2 then to0 else w)
  else w

/-- The sampling loop for two 0-1 columns (2043-2107). -/
def sample2 (q0 q1 : ℚ) (e0 e1 : List ℚ) (o0 o1 : ℚ) : List (ℚ × ℚ) → ℤ → ℤ
  | [], w => w
  | (v0, v1) :: l, w =>
    let w' := sampleStep w (sampleAt (q0 - lin e0 [v0, v1]) o0) (sampleAt (q1 - lin e1 [v0, v1]) o1)
    if w' = -2 then -2 else sample2 q0 q1 e0 e1 o0 o1 l w'

/-- The points `0.05*i0`, `0.05*i1`. -/
def grid : List (ℚ × ℚ) :=
  (List.range 11).flatMap fun (i : Nat) => (List.range 11).map fun (j : Nat) => ((i : ℚ) / 20, (j : ℚ) / 20)

/-- The sampling loop for one 0-1 column (1950-2016) as it is written: `for (int i0=0;i<=10;i++)` counts the number `i`
of the base row, not `i0`, so the point is always 0, `effectiveRhs[i]` is read for other rows, and `i` is changed.  The
result is `which` and the new `i`; reading a right-hand side that was never written is `Fault.memory`. -/
def sample1 (rhs : List ℚ) (q1 : ℚ) (o0 o1 : ℚ) : Nat → Nat → ℤ → Except Fault (ℤ × Nat)
  | 0, i, w => .ok (w, i)
  | f + 1, i, w =>
    if i ≤ 10 then
      match rhs[i]? with
      | none => .error .memory
      | some q0 =>
        let w' := sampleStep w (sampleAt q0 o0) (sampleAt q1 o1)
        if w' = -2 then .ok (-2, i) else sample1 rhs q1 o0 o1 f (i + 1) w'
    else .ok (w, i)

/-- Dropping a row after sampling (2017-2034, 2108-2125); writing past `duplicate_` is a fault. -/
def dropBy (which : ℤ) (i k : Nat) (s : St) : Except Fault St :=
  if which = 0 ∨ which = -1 then .ok (drop k s)
  else if which = 1 then (if i < s.dup.length then .ok (drop i s) else .error .memory)
  else .ok s

/-- Two rows that are the same at all integer points (1921-2135): the new base row and state. -/
def sameRows (P : Prob) (r0 r1 : SRow) (i k : Nat) (flag0 : Bool) (s : St) : Except Fault (Nat × St) :=
  let e0 := binEls P r0.els
  let e1 := binEls P r1.els
  let o0 := (otherEl P r0.els).2
  let o1 := (otherEl P r1.els).2
  let q0 := s.rhs[i]?.getD 0
  let q1 := s.rhs[k]?.getD 0
  if |q0 - q1| < 1 / 10 ^ 7 ∧ o0 = o1 ∧ e0 = e1 then .ok (i, drop k s)
  else if flag0 || r1.eqn then .ok (i, s)
  else if e0.length = 1 then
    if 0 < o0 ∧ 0 < o1 ∧ 0 < e0.headD 0 ∧ 0 < e1.headD 0 then
      .ok (i, if (q0 - e0.headD 0) / o0 < (q1 - e1.headD 0) / o1 then drop k s else drop i s)
    else
      match sample1 s.rhs q1 o0 o1 11 i 0 with
      | .error f => .error f
      | .ok (w, i') => (dropBy w i' k s).map fun s => (i', s)
  else (dropBy (sample2 q0 q1 e0 e1 o0 o1 grid 0) i k s).map fun s => (i, s)

/-- The new bounds of the other column (1750-1773). -/
def tighten (rows : List SRow) (c : Nat) (bound nLo nUp : ℚ) (s : St) : St :=
  if 0 < nLo ∨ nUp < bound then shift rows c nLo (nUp - nLo) s else s

/-- The comparison of two tables of cells `c0`, `c1` for rows with the other column `c` (1655-2135). -/
def mixedCore (P : Prob) (rows : List SRow) (r0 : SRow) (i k : Nat) (flag0 : Bool) (r1 : SRow) (c n : Nat) (bound : ℚ)
    (c0 c1 : List ℚ → Cell) (s : St) : Except Fault (Nat × St) :=
  let both := fun a => (c0 a).ok && (c1 a).ok
  let nLo := newLo bound both c0 c1 (bits n)
  let nUp := newUp both c0 c1 (bits n)
  let s1 := tighten rows c bound nLo nUp s
  let v := mixedVerdict n bound nLo nUp c0 c1
  match act rows (binCols P r0.els) i k v s1 with
  | some s2 => .ok (i, s2)
  | none => if v.same then sameRows P r0 r1 i k flag0 s1 else .ok (i, s1)

/-- Two rows with the same columns, one of which is not 0-1 (1543-2135). -/
def mixedPair (P : Prob) (rows : List SRow) (r0 : SRow) (i k : Nat) (flag0 : Bool) (r1 : SRow) (q0 q1 : ℚ) (s : St) :
    Except Fault (Nat × St) :=
  let e0 := binEls P r0.els
  let e1 := binEls P r1.els
  let c := (otherEl P r0.els).1
  let bound := min (s.nb c) (10 ^ 30)
  mixedCore P rows r0 i k flag0 r1 c e0.length bound
    (fun a => cell bound (otherEl P r0.els).2 q0 flag0 (lin e0 a))
    (fun a => cell bound (otherEl P r1.els).2 q1 r1.eqn (lin e1 a)) s

/-- `nMatch == n && n == n1` (1086-1093). -/
def sameCols (r0 r1 : SRow) : Bool :=
  decide (r1.els.length = r0.els.length) &&
  decide ((r1.els.filter fun p => (r0.els.map Prod.fst).contains p.1).length = r0.els.length)

/-- One pair of rows (1078-2140).  `r0` is the row whose columns and elements are at hand (`column0`, `element0`), `i`
the row whose right-hand side, flag and mark in `duplicate_` are used; they are the same row unless `sample1` has
changed `i`.  `assert (nInt == 3)` fails for rows with a single column (1315). -/
def pair (P : Prob) (rows : List SRow) (r0 : SRow) (i k : Nat) (s : St) : Except Fault (Nat × St) :=
  match rows[i]?, s.rhs[i]?, rows[k]?, s.rhs[k]? with
  | some ri, some q0, some r1, some q1 =>
    if sameCols r0 r1 then
      if r0.els.all fun p => isBin P p.1 then
        if r0.els.length = 2 ∨ r0.els.length = 3 then .ok (i, purePair rows r0 i k ri.eqn r1 q0 q1 s)
        else .error .assertion
      else mixedPair P rows r0 i k ri.eqn r1 q0 q1 s
    else .ok (i, s)
  | _, _, _, _ => .error .memory

/-- The loop over the rows to compare with (1077-2142). -/
def inner (P : Prob) (rows : List SRow) (r0 : SRow) : List Nat → Nat → St → Except Fault (Nat × St)
  | [], i, s => .ok (i, s)
  | k :: ks, i, s =>
    match s.dup[k]?, s.dup[i]? with
    | some dk, some di =>
      if dk = -2 then inner P rows r0 ks i s
      else if di = -2 then .ok (i, s)
      else
        match pair P rows r0 i k s with
        | .error f => .error f
        | .ok (i', s') => inner P rows r0 ks i' s'
    | _, _ => .error .memory

/-- The loop over the base rows (1065-2145). -/
def outer (P : Prob) (rows : List SRow) (nLook : Nat) : Nat → Nat → St → Except Fault St
  | 0, _, s => .ok s
  | f + 1, i, s =>
    if i < nLook then
      match rows[i]? with
      | none => .error .memory
      | some r0 =>
        match inner P rows r0 (List.range' (i + 1) (nLook - (i + 1))) i s with
        | .error f => .error f
        | .ok (i', s') => outer P rows nLook f (i' + 1) s'
    else .ok s

/-- `nRowLook`, which is also the new `nRow2` (1044-1060): rows with at most three columns. -/
def nLook (rows : List SRow) : Nat := (rows.takeWhile fun r => decide (r.els.length ≤ 3)).length
/-- `nRowStart` (1046-1050, 1061): the first row with two columns or more, if one is met before the loop is left. -/
def nStart (rows : List SRow) : Nat :=
  let k := (rows.takeWhile fun r => decide (r.els.length < 2)).length
  if k < rows.length then k else 0

/-- Rounding a bound that is almost an integer (2186-2189). -/
def snap (q : ℚ) : ℚ := if |q - ⌊q + 1 / 2⌋| < 1 / 10 ^ 8 then ⌊q + 1 / 2⌋ else q

/-- New bounds for a column that is not fixed, and whether they cross (2180-2220). -/
def finalBounds (P : Prob) (s : St) (j : Nat) : Option ℚ × Option ℚ × Bool :=
  let lo := snap (s.tl j)
  let up := snap (s.tl j + s.nb j)
  let newL := P.colLower j + 1 / 10 ^ 7 < lo
  let newU := up < P.colUpper j - 1 / 10 ^ 7
  let lo' : ℚ := if newL ∧ P.isInt j then ⌈lo⌉ else lo
  let up' : ℚ := if newU ∧ P.isInt j then ⌊up⌋ else up
  (if newL then some lo' else none, if newU then some up' else none, decide (up' + 1 / 10 ^ 7 < lo'))

/-- What one call finds: new bounds, infeasibility, `duplicate_`. -/
structure Out where
  lbs : SVec
  ubs : SVec
  infeas : Bool
  dup : List ℤ
deriving DecidableEq, Repr

/-- The columns with new bounds (2179). -/
def touched (P : Prob) (n : Nat) (s : St) : List Nat :=
  (List.range n).filter fun j => unfixed P j && ! freeBelow P j && s.tch j

/-- Moving the flags to the original rows (2240-2246). -/
def moveFlags (n : Nat) (rows : List SRow) (dup : List ℤ) : List ℤ :=
  (rows.zip dup).foldl (fun t p => t.set p.1.orig p.2) (List.replicate n (-1))

/-- The state at the start of the comparison. -/
def start (P : Prob) (rhs : List ℚ) (dup : List ℤ) : St :=
  ⟨P.colLower, fun j => P.colUpper j - P.colLower j, fun _ => false, rhs, dup, false⟩

/-- The end of `generateCuts4` (2173-2246). -/
def finish (P : Prob) (o : Obj) (rows : List SRow) (s : St) : Out :=
  let t := touched P o.nCols s
  { lbs := t.filterMap fun j => (finalBounds P s j).1.map fun q => (j, q)
    ubs := t.filterMap fun j => (finalBounds P s j).2.1.map fun q => (j, q)
    infeas := s.infeas || t.any fun j => (finalBounds P s j).2.2
    dup := moveFlags o.mat.length (rows.take (nLook rows)) s.dup }

/-- `generateCuts4` (832-2266).  The bounds are those of the solver, the matrix is the one of `refreshSolver`; a solver
with fewer rows or columns than that is read past the end. -/
def cuts4 (o : Obj) (P : Prob) : Except Fault Out :=
  if P.nCols < o.nCols ∨ P.rows.length < o.mat.length ∨ o.dup.length < o.mat.length then .error .memory
  else if (List.range o.nCols).any (aborts P) then .error .aborted
  else
    let l := sortedRows (smallRows P 0 o.mat P.rows)
    let rows := l.map Prod.fst
    match outer P rows (nLook rows) (nLook rows) (nStart rows) (start P (l.map Prod.snd) o.dup) with
    | .error f => .error f
    | .ok s => .ok (finish P o rows s)

/-! ### Mode 8: clique rows -/

/-- Reading a row (2971-2997): whether it has only 0-1 columns (bounds 0 and 1) with element 1 besides fixed ones, the
bounds without the fixed columns, and the 0-1 columns.  The code numbers the 0-1 columns; as the numbers are in the order
of the columns, the columns themselves are used here. -/
def read8 (P : Prob) : SVec → Bool → ℚ → ℚ → List Nat → Bool × ℚ × ℚ × List Nat
  | [], good, lo, up, cols => (good, lo, up, cols)
  | (j, v) :: l, good, lo, up, cols =>
    if P.colUpper j - P.colLower j < 1 / 10 ^ 8 then
      read8 P l good (lo - P.colLower j * v) (up - P.colLower j * v) cols
    else if ¬ (P.colLower j = 0 ∧ P.colUpper j = 1) then (false, lo, up, cols)
    else if v ≠ 1 then read8 P l false lo up cols
    else read8 P l good lo up (cols ++ [j])

/-- A clique row: its number, its columns, whether it is of type 'E'. -/
structure Clq where
  row : Nat
  cols : List Nat
  eq : Bool
deriving DecidableEq, Repr

/-- What a row gives (2998-3055). -/
inductive Kind
  | nothing
  | infeasible
  | clique (cols : List Nat) (eq : Bool)
deriving DecidableEq, Repr

/-- `iUpper` (2998); `none` if the conversion is undefined. -/
def iUpper (up : ℚ) : Option ℤ :=
  if (intMax : ℚ) < up then some intMax else castInt ⌊up + 1 / 10 ^ 5⌋
/-- `iLower` (2999). -/
def iLower (lo : ℚ) : Option ℤ :=
  if lo < (intMin : ℚ) then some intMin else castInt ⌈lo - 1 / 10 ^ 5⌉

/-- The state of a row (3000-3055); only positive states have an effect, so the part that looks at the lower bound
(3011-3020) is left out. -/
def kindOf (good : Bool) (iUp iLo : ℤ) (up : ℚ) (cols : List Nat) : Kind :=
  if good ∧ up < 10 ^ 6 ∧ ¬ 1 / 10 ^ 9 < |(iUp : ℚ) - up| ∧ ¬ cols.length < 2 then
    if iUp = 1 then .clique cols (decide (iLo = iUp)) else if iUp < 0 then .infeasible else .nothing
  else .nothing

/-- One row (2968-3055). -/
def row8 (P : Prob) (r : Row) : Except Fault Kind :=
  let d := read8 P r.coefs true r.lb r.ub []
  match iUpper d.2.2.1, iLower d.2.1 with
  | some u, some l => .ok (kindOf d.1 u l d.2.2.1 d.2.2.2)
  | _, _ => .error .cast

/-- The loop over the rows (2967-3058): the cliques, and whether it was left because a row is infeasible. -/
def rows8 (P : Prob) : Nat → List Row → Except Fault (List Clq × Bool)
  | _, [] => .ok ([], true)
  | i, r :: rs =>
    match row8 P r with
    | .error f => .error f
    | .ok .infeasible => .ok ([], false)
    | .ok .nothing => rows8 P (i + 1) rs
    | .ok (.clique c e) =>
      match rows8 P (i + 1) rs with
      | .error f => .error f
      | .ok (l, b) => .ok (⟨i, c, e⟩ :: l, b)

open TreeInfo in
/-- The clique kept among equal ones (2723-2738): the lowest number, but once one of type 'E' was met the others only
count if they are 'E' too. -/
def pickE (n : Nat) (eq : Nat → Bool) (fin : List Nat) : Nat :=
  (fin.foldl (fun p k => if eq k then (min p.1 k, true) else if p.2 then p else (min p.1 k, false)) (n, false)).1

/-- `while (iColumn < kColumn)` (2832-2839): the place where it stops (`none` at the end of the larger clique), and the
columns passed.  The outer `none` is a read past the array. -/
def skip8 (flat : List Nat) (stop kCol : Nat) : Nat → Nat → Option (Option Nat × List Nat)
  | 0, _ => none
  | f + 1, idx =>
    match flat[idx]? with
    | none => none
    | some iCol =>
      if iCol < kCol then
        if idx + 1 < stop then (skip8 flat stop kCol f (idx + 1)).map fun r => (r.1, iCol :: r.2)
        else some (none, [iCol])
      else some (some idx, [])

/-- The subset test (2824-2844) over the columns of the smaller clique; `idx` is `j + offset`, a place in the array of
all entries, `stop` is the end of the larger clique (only looked at while skipping).  With the columns that were passed,
which are those that the second loop (2881-2903) fixes. -/
def subset8 (flat : List Nat) (stop : Nat) : List Nat → Nat → Option (Bool × List Nat)
  | [], _ => some (true, [])
  | kCol :: ks, idx =>
    match skip8 flat stop kCol (flat.length + 1) idx with
    | none => none
    | some (none, l) => some (false, l)
    | some (some idx', l) =>
      if flat[idx']? = some kCol then (subset8 flat stop ks (idx' + 1)).map fun r => (r.1, l ++ r.2) else some (false, l)

/-- State of the subset search. -/
structure Sub8 where
  scan : TreeInfo.Scan
  startLooking : Nat
  nOut : Nat
  fixed : List Nat
  used : Nat → Nat

/-- `used[iClique] = min(used[iClique], kClique)` and the other way round (2871-2872). -/
def mark8 (used : Nat → Nat) (k i : Nat) : Nat → Nat :=
  fun j => if j = k then min (used k) i else if j = i then min (used i) k else used j

/-- What a subset leads to (2845-2912). -/
def found8 (eq : Nat → Bool) (k i : Nat) (passed : List Nat) (s : Sub8) : Sub8 :=
  if eq k then { s with fixed := s.fixed ++ passed, used := mark8 s.used k i }
  else { s with
    scan := { s.scan with val := TreeInfo.setAt s.scan.val k (-2) }
    nOut := s.nOut + 1
    used := mark8 s.used k i }

open TreeInfo in
/-- The inner loop (2789-2915) for the clique `k`. -/
def subInner8 (N : Nat) (cl : Nat → List Nat) (eq : Nat → Bool) (flat : List Nat) (start : Nat → Nat) (k : Nat) (kVal : ℤ) :
    List (Nat × Nat) → Sub8 → Option Sub8
  | [], s => some s
  | (ii, i) :: l, s =>
    if s.scan.val i = -2 ∨ s.scan.val i = N then
      subInner8 N cl eq flat start k kVal l
        (if ii = s.startLooking then { s with startLooking := s.startLooking + 1 } else s)
    else
      match (cl i).getLast? with
      | none => none
      | some last =>
        if (last : ℤ) < kVal then
          subInner8 N cl eq flat start k kVal l { s with scan := { s.scan with val := setAt s.scan.val i N } }
        else
          let p := catchUp N (cl i) kVal ((cl i).length + 1) (s.scan.pos i, s.scan.val i)
          let s := { s with scan := ⟨setAt s.scan.pos i p.1, setAt s.scan.val i p.2⟩ }
          if kVal < p.2 then subInner8 N cl eq flat start k kVal l s
          else if (cl k).length < (cl i).length - p.1 then
            match subset8 flat (start (i + 1)) (cl k) (start i) with
            | none => none
            | some (b, passed) =>
              if b ∧ s.nOut ≤ 2000000 then some (found8 eq k i passed s) else subInner8 N cl eq flat start k kVal l s
          else subInner8 N cl eq flat start k kVal l s

open TreeInfo in
/-- The outer loop (2778-2916). -/
def subOuter8 (N : Nat) (cl : Nat → List Nat) (eq : Nat → Bool) (flat : List Nat) (start : Nat → Nat) :
    List (Nat × Nat) → List (Nat × Nat) → Sub8 → Option Sub8
  | _, [], s => some s
  | before, (jj, k) :: l, s =>
    if s.scan.val k = -2 then
      subOuter8 N cl eq flat start (before ++ [(jj, k)]) l
        { s with
          nOut := s.nOut + 1
          startLooking := if jj = s.startLooking then s.startLooking + 1 else s.startLooking }
    else
      match subInner8 N cl eq flat start k (s.scan.val k) (before.drop s.startLooking) s with
      | none => none
      | some s => subOuter8 N cl eq flat start (before ++ [(jj, k)]) l s

/-- Sorted columns of the clique with a number (2671-2677). -/
def clAt (cs : List (List Nat)) (k : Nat) : List Nat := cs[k]?.getD []
/-- `cliqueStart`. -/
def startAt (cs : List (List Nat)) (i : Nat) : Nat := ((cs.take i).map List.length).sum

open TreeInfo in
/-- `outDupsEtc` (2651-2916): the state at the end. -/
def run8 (N : Nat) (cs : List (List Nat)) (eq : Nat → Bool) : Option Sub8 :=
  let n := cs.length
  let cl := clAt cs
  let first := fun k => colAt N (cl k) 0
  let which := (List.range n).insertionSort fun a b => first a ≤ first b
  match dupLoop N (pickE n eq) cl (n + startAt cs n + 1) [] which ⟨fun _ => 0, first⟩ with
  | none => none
  | some (which, d) =>
    subOuter8 N cl eq cs.flatten (startAt cs) [] ((List.range n).zip which)
      ⟨⟨fun _ => 0, fun k => if d.val k = -2 then -2 else first k⟩, 0, 0, [], fun _ => n⟩

/-- `outDupsEtc` (2651-2927): for each clique whether it goes, and the columns to fix at zero. -/
def outDups8 (N : Nat) (cs : List (List Nat)) (eq : Nat → Bool) : Option (List Bool × List Nat) :=
  match run8 N cs eq with
  | none => none
  | some s => some ((List.range cs.length).map fun k => decide (s.scan.val k = -2), s.fixed)

/-- `duplicate_` at the end (3073-3095). -/
def flags8 (n : Nat) (l : List Clq) (gone : List Bool) : List ℤ :=
  (l.zip gone).foldl (fun t p => t.set p.1.row (if p.2 then -2 else -1)) (List.replicate n (-3))

/-- `generateCuts8` (2929-3103). -/
def cuts8 (o : Obj) (P : Prob) : Except Fault Out :=
  if P.rows = [] ∨ P.nCols = 0 then .error .assertion
  else if o.dup.length < P.rows.length then .error .memory
  else
    match rows8 P 0 P.rows with
    | .error f => .error f
    | .ok (l, feas) =>
      match outDups8 P.nCols (l.map fun c => c.cols.insertionSort (· ≤ ·)) (fun k => (l[k]?.map Clq.eq).getD false) with
      | none => .error .memory
      | some (gone, fixed) =>
        .ok ⟨[], ((List.range P.nCols).filter fun j => fixed.contains j).map fun j => (j, 0), ! feas,
          flags8 P.rows.length l gone⟩

/-! ### The calls -/

/-- The cuts of a call. -/
structure Cuts where
  cols : List ColCut
  rows : List RowCut
deriving DecidableEq, Repr

/-- The infeasible cut (2259-2264, 3096-3102). -/
def badCut : RowCut := ⟨dblMax, 0, []⟩

/-- Adding what was found to the cuts (2247-2265, 3089-3102). -/
def Cuts.add (cs : Cuts) (u : Out) : Cuts :=
  { cols := if u.lbs = [] ∧ u.ubs = [] then cs.cols else cs.cols ++ [⟨u.lbs, u.ubs⟩]
    rows := if u.infeas then insertIfNotDuplicate cs.rows badCut else cs.rows }

/-- `generateCuts` (24-48). -/
def generate (o : Obj) (P : Prob) (inTree : Bool) (cs : Cuts) : Except Fault (Obj × Cuts) :=
  if inTree then .ok (o, cs)
  else if o.mode % 4 ≠ 0 then .ok (o, cs)
  else
    match (if o.mode / 4 % 2 = 1 then cuts4 o P else if o.mode / 8 % 2 = 1 then cuts8 o P else .error .assertion) with
    | .error f => .error f
    | .ok u => .ok ({ o with dup := u.dup }, cs.add u)

/-- `setColLower` for the lower bounds of a column cut, if they are tighter (3377-3381). -/
def raiseLower (P : Prob) : SVec → Prob
  | [] => P
  | (j, q) :: l =>
    raiseLower (if P.colLower j < q then { P with colLower := Function.update P.colLower j q } else P) l
/-- The same for upper bounds (3382-3389). -/
def dropUpper (P : Prob) : SVec → Prob
  | [] => P
  | (j, q) :: l =>
    dropUpper (if q < P.colUpper j then { P with colUpper := Function.update P.colUpper j q } else P) l

/-- `outDuplicates` (3330-3392): rows flagged -2 or with a number are deleted, the bounds of column cuts are applied,
row cuts are thrown away. -/
def outDuplicates (o : Obj) (P : Prob) : Except Fault (Obj × Prob) :=
  match generate o P false ⟨[], []⟩ with
  | .error f => .error f
  | .ok (o', cs) =>
    if o'.dup.length < P.rows.length then .error .memory
    else
      let P' := { P with rows := ((P.rows.zip o'.dup).filter fun p => ! decide (p.2 = -2 ∨ 0 ≤ p.2)).map Prod.fst }
      .ok (o', cs.cols.foldl (fun P c => dropUpper (raiseLower P c.lbs) c.ubs) P')

end Cgl.DupRow
