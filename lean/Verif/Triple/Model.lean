import Verif.Spec
import Mathlib.Algebra.Order.Group.Unbundled.Abs
import Mathlib.Algebra.Order.Group.MinMax

/-!
# Model of the "triple stuff" in `CglPreProcess::modified`

src/CglPreProcess/CglPreProcess.cpp:6478-7094, the first part of every call of `modified` in the first big pass of
`preProcess`.  It rounds the bounds of integer columns and then looks, for every binary column, at rows of two or three entries
with the same columns: from two rows of two entries it takes bounds, and of two rows one of which is stronger the other is made
free.  Left out: printing (`CBC_USEFUL_PRINTING`), the block under `#if 0`.  Simplifications: the arrays `rowLower`, `rowUpper`,
`columnLower`, `columnUpper` follow the changes (they are pointers into the solver); the column copy lists the rows of a column
in increasing order; `sqrt` is a parameter; `markRow` is left out (it is only written).
-/

namespace Cgl.Triple

inductive Fault
  /-- `abort()` (line 6731) -/
  | abort
  /-- an `assert` that fails -/
  | assert
  /-- an element of `el` that was not set is read -/
  | unset
  /-- an index beyond the end of an array -/
  | overflow
deriving DecidableEq, Repr

/-! ### Cleaning the bounds -/

/-- CglPreProcess.cpp:6558-6564. -/
def cleanLower (v : ℚ) : ℚ :=
  if v ≠ (⌈v⌉ : ℤ) then
    if |v - (⌊v + 1 / 2⌋ : ℤ)| < 1 / 10 ^ 6 then (⌊v + 1 / 2⌋ : ℤ) else (⌈v⌉ : ℤ)
  else v

/-- CglPreProcess.cpp:6565-6571. -/
def cleanUpper (v : ℚ) : ℚ :=
  if v ≠ (⌊v⌋ : ℤ) then
    if |v - (⌊v + 1 / 2⌋ : ℤ)| < 1 / 10 ^ 6 then (⌊v + 1 / 2⌋ : ℤ) else (⌊v⌋ : ℤ)
  else v

/-- The bounds of integer columns are rounded (CglPreProcess.cpp:6551-6571). -/
def clean (P : Prob) : Prob :=
  { P with
    colLower := fun j => if P.isInt j then cleanLower (P.colLower j) else P.colLower j
    colUpper := fun j => if P.isInt j then cleanUpper (P.colUpper j) else P.colUpper j }

/-- `feasible` after that (CglPreProcess.cpp:6572-6582). -/
def cleanFeasible (P : Prob) : Bool :=
  (List.range P.nCols).all fun j => !P.isInt j || decide ((clean P).colLower j ≤ (clean P).colUpper j)

/-- `type` is not zero (CglPreProcess.cpp:6530-6547). -/
def typed (r : Row) : Bool := decide (r.lb = r.ub) || decide (-10 ^ 30 < r.lb) || decide (r.ub < 10 ^ 30)

/-- `rowTypeAll` is not zero (CglPreProcess.cpp:6529-6601): not free, not a possible cut (`cut`, the array `rowType_`), only
integer columns with lower bounds of at least 0.  `Q` is the cleaned problem. -/
def usable (Q : Prob) (cut : Nat → Bool) (i : Nat) : Bool :=
  match Q.rows[i]? with
  | none => false
  | some r => typed r && !cut i && r.coefs.all fun p => Q.isInt p.1 && decide (0 ≤ Q.colLower p.1)

/-! ### Rows with the same columns -/

/-- The rows of a column. -/
def colRows (P : Prob) (j : Nat) : List Nat :=
  (List.range P.rows.length).filter fun i =>
    match P.rows[i]? with
    | none => false
    | some r => r.coefs.any fun p => p.1 == j

/-- `0xffffffff`. -/
def full : Nat := 2 ^ 32 - 1

/-- One entry of a row: mark its column and set its bit (CglPreProcess.cpp:6635-6651).  `st.1` is `which` up to `nMarked`,
`st.2` the mask of the row. -/
def markEntry (st : List Nat × Nat) (k : Nat) : List Nat × Nat :=
  if k ∈ st.1 then (st.1, st.2 ||| (1 <<< st.1.idxOf k))
  else if st.1.length = 32 then (st.1, full)
  else if st.2 = full then st
  else (st.1 ++ [k], st.2 ||| (1 <<< st.1.length))

/-- The mask of one row (CglPreProcess.cpp:6618-6625, 6630-6653). -/
def markRow (which : List Nat) (ok : Bool) (r : Row) : List Nat × Nat :=
  if r.coefs.length ≤ 3 then (r.coefs.map Prod.fst).foldl markEntry (which, if ok then 0 else full)
  else (which, if ok then 0 else full)

/-- The masks of all rows of the column: `whichRow` with `bitMask`, and `which` (CglPreProcess.cpp:6611-6654). -/
def markRows (P : Prob) (use : Nat → Bool) : List Nat → List Nat → List Nat × List (Nat × Nat)
  | which, [] => (which, [])
  | which, i :: l =>
    match P.rows[i]? with
    | none => markRows P use which l
    | some r =>
      ((markRows P use (markRow which (use i) r).1 l).1,
        (i, (markRow which (use i) r).2) :: (markRows P use (markRow which (use i) r).1 l).2)

/-- `nBits` (CglPreProcess.cpp:6660-6666). -/
def countBits (nMarked mask : Nat) : Nat := (List.range nMarked).countP fun s => mask.testBit s

/-- `jColumn1`, `jColumn2`, and the elements of the row at hand: `none` is not set. -/
structure Gather where
  j1 : Option Nat
  j2 : Option Nat
  e0 : Option ℚ
  e1 : Option ℚ
  e2 : Option ℚ
deriving DecidableEq, Repr

/-- One entry (CglPreProcess.cpp:6703-6732). -/
def gatherEntry (i : Nat) (g : Gather) (p : Nat × ℚ) : Except Fault Gather :=
  if p.1 = i then .ok { g with e0 := some p.2 }
  else if g.j1 = some p.1 then .ok { g with e1 := some p.2 }
  else if g.j2 = some p.1 then .ok { g with e2 := some p.2 }
  else if g.j1 = none then .ok { g with j1 := some p.1, e1 := some p.2 }
  else if g.j2 = none then .ok { g with j2 := some p.1, e2 := some p.2 }
  else .error .abort

/-- The entries of one row. -/
def gatherRow (i : Nat) : SVec → Gather → Except Fault Gather
  | [], g => .ok g
  | p :: v, g =>
    match gatherEntry i g p with
    | .error e => .error e
    | .ok g' => gatherRow i v g'

/-- A row of the comparison: `lower`, `upper`, `el[0..2]`, `rowNumber`. -/
structure Line where
  row : Nat
  lo : ℚ
  up : ℚ
  e0 : ℚ
  e1 : ℚ
  e2 : ℚ
deriving DecidableEq, Repr

/-- The elements that are read later: two or three of them.  With two columns `el[2]` is not used and is 0 here. -/
def readLine (nBits row : Nat) (lo up : ℚ) (g : Gather) : Except Fault Line :=
  match g.e0, g.e1 with
  | some a, some b =>
    if nBits = 2 then .ok ⟨row, lo, up, a, b, 0⟩
    else match g.e2 with
      | some c => .ok ⟨row, lo, up, a, b, c⟩
      | none => .error .unset
  | _, _ => .error .unset

/-! ### Two rows of two entries -/

/-- What a row `l ≤ e * x ≤ u` says about the lower bound of `x`. -/
def implLo (l u e : ℚ) : ℚ := if 0 < e then l / e else u / e

/-- What it says about the upper bound. -/
def implUp (l u e : ℚ) : ℚ := if 0 < e then u / e else l / e

/-- `lower1[b]` (CglPreProcess.cpp:6761-6804). -/
def lower1 (b cl : ℚ) (A B : Line) : ℚ :=
  max (max cl (implLo (A.lo - b * A.e0) (A.up - b * A.e0) A.e1)) (implLo (B.lo - b * B.e0) (B.up - b * B.e0) B.e1)

/-- `upper1[b]`. -/
def upper1 (b cu : ℚ) (A B : Line) : ℚ :=
  min (min cu (implUp (A.lo - b * A.e0) (A.up - b * A.e0) A.e1)) (implUp (B.lo - b * B.e0) (B.up - b * B.e0) B.e1)

/-- `setColLower`. -/
def setLower (P : Prob) (j : Nat) (v : ℚ) : Prob :=
  { P with colLower := fun k => if k = j then v else P.colLower k }

/-- `setColUpper`. -/
def setUpper (P : Prob) (j : Nat) (v : ℚ) : Prob :=
  { P with colUpper := fun k => if k = j then v else P.colUpper k }

/-- The new lower bound of `jColumn1` (CglPreProcess.cpp:6805-6820). -/
def newLower (isInt : Bool) (cl lo0 lo1 : ℚ) : ℚ :=
  if cl + 1 / 10 ^ 6 < min lo0 lo1 then
    if isInt then (⌈min lo0 lo1 - 1 / 10 ^ 5⌉ : ℤ) else min lo0 lo1
  else cl

/-- The new upper bound of `jColumn1` (CglPreProcess.cpp:6821-6836). -/
def newUpper (isInt : Bool) (cu up0 up1 : ℚ) : ℚ :=
  if max up0 up1 < cu - 1 / 10 ^ 6 then
    if isInt then (⌊max up0 up1 + 1 / 10 ^ 5⌋ : ℤ) else max up0 up1
  else cu

/-- The binary column cannot have the value for which these bounds of `jColumn1` were computed. -/
def crossed (lo up nl nu : ℚ) : Bool := decide (nu + 1 / 10 ^ 6 < lo) || decide (up < nl - 1 / 10 ^ 6)

/-- The binary column is fixed (CglPreProcess.cpp:6837-6856): at 1 with `setColLower(iColumn, 1.0)`, at 0 with
`setColLower(iColumn, 0.0)`. -/
def fixBinary (P : Prob) (i : Nat) (not0 not1 : Bool) : Prob :=
  let P1 := if not0 then setLower P i 1 else P
  if not1 then setLower P1 i 0 else P1

/-- The new problem, `nMarkRow = 0`, and whether `feasible` becomes false (CglPreProcess.cpp:6747-6863). -/
def twoColumns (P : Prob) (i j : Nat) (A B : Line) : Prob × Bool × Bool :=
  let lo0 := lower1 0 (P.colLower j) A B
  let lo1 := lower1 1 (P.colLower j) A B
  let up0 := upper1 0 (P.colUpper j) A B
  let up1 := upper1 1 (P.colUpper j) A B
  let nl := newLower (P.isInt j) (P.colLower j) lo0 lo1
  let nu := newUpper (P.isInt j) (P.colUpper j) up0 up1
  let not0 := crossed lo0 up0 nl nu
  let not1 := crossed lo1 up1 nl nu
  (fixBinary (setUpper (setLower P j nl) j nu) i not0 not1, not0 || not1,
    decide ((if not1 then (0 : ℚ) else 1) + 1 / 10 ^ 6 < if not0 then 1 else 0) || decide (nu + 1 / 10 ^ 6 < nl))

/-! ### Comparing rows -/

/-- A row of two entries, in `jColumn1` and `jColumn2` (CglPreProcess.cpp:6881-6897). -/
def doubleton (P : Prob) (use : Nat → Bool) (j1 j2 i : Nat) : Option Line :=
  match P.rows[i]? with
  | none => none
  | some r =>
    match r.coefs with
    | [p, q] =>
      if use i then
        if p.1 = j1 ∧ q.1 = j2 then some ⟨i, r.lb, r.ub, 0, p.2, q.2⟩
        else if q.1 = j1 ∧ p.1 = j2 then some ⟨i, r.lb, r.ub, 0, q.2, p.2⟩
        else none
      else none
    | _ => none

/-- Up to two of them: `TRIPLE_ROWS` is 4 (CglPreProcess.cpp:6877-6916). -/
def doubletons (P : Prob) (use : Nat → Bool) (j1 j2 : Nat) : List Line :=
  ((colRows P j1).filterMap (doubleton P use j1 j2)).take 2

/-- A row in `<=` form: `rowNumber`, `rowType`, `el`, `rhs`. -/
structure Ineq where
  row : Nat
  type : ℤ
  e0 : ℚ
  e1 : ℚ
  e2 : ℚ
  rhs : ℚ
deriving DecidableEq, Repr

/-- A row put in `<=` form in place (CglPreProcess.cpp:6922-6950). -/
def primary (l : Line) : Ineq :=
  if l.lo < -10 ^ 20 then ⟨l.row, 1, l.e0, l.e1, l.e2, l.up⟩
  else if 10 ^ 20 < l.up then ⟨l.row, -1, -l.e0, -l.e1, -l.e2, -l.lo⟩
  else if l.lo = l.up then ⟨l.row, 2, l.e0, l.e1, l.e2, l.up⟩
  else ⟨l.row, 3, l.e0, l.e1, l.e2, l.up⟩

/-- The other half of an equation or a range, put at the end. -/
def twin (l : Line) : Option Ineq :=
  if l.lo < -10 ^ 20 then none
  else if 10 ^ 20 < l.up then none
  else if l.lo = l.up then some ⟨l.row, -2, -l.e0, -l.e1, -l.e2, -l.up⟩
  else some ⟨l.row, -3, -l.e0, -l.e1, -l.e2, -l.lo⟩

/-- All of them: the first ones are the rows in place, then come the other halves. -/
def ineqs (ls : List Line) : List Ineq := ls.map primary ++ ls.filterMap twin

/-- The elements that count for scaling and comparison: `el[k]` for `1 <= k < nBits`. -/
def els (nBits : Nat) (q : Ineq) : List ℚ := if nBits = 2 then [q.e1] else [q.e1, q.e2]

/-- `scaleFactor[i]` (CglPreProcess.cpp:6953-6964). -/
def factor (root : ℚ → ℚ) (nBits : Nat) (q : Ineq) : ℚ :=
  let vs := ((els nBits q).map fun v => |v|).filter fun v => decide (v ≠ 0)
  1 / root (vs.foldl max 0 * vs.foldl min dblMax)

/-- `scaleFactor` after the loop: entries beyond `nRow` keep the value of an earlier time. -/
def scaled (root : ℚ → ℚ) (nBits nRow : Nat) (qs : List Ineq) (old : Nat → ℚ) (k : Nat) : ℚ :=
  match qs[k]? with
  | none => old k
  | some q => if k < nRow then factor root nBits q else old k

/-- `modifiedRhs` (CglPreProcess.cpp:6974-6975). -/
def modifiedRhs (s b : ℚ) (q : Ineq) : ℚ := s * (q.rhs - b * q.e0)

/-- Four bits of `result[k1][k2]` (CglPreProcess.cpp:6979-7001): `b` is the value of the binary column. -/
def stronger (nBits : Nat) (b s1 s2 : ℚ) (q1 q2 : Ineq) : Nat :=
  if modifiedRhs s2 b q2 + 1 / 10 ^ 7 < modifiedRhs s1 b q1 then 0
  else if ((els nBits q1).zip (els nBits q2)).any fun p => decide (s1 * p.1 < s2 * p.2 - 1 / 10 ^ 9) then 0
  else (if modifiedRhs s2 b q2 - 1 / 10 ^ 7 < modifiedRhs s1 b q1 then 4 else 8) +
    if ((els nBits q1).zip (els nBits q2)).any fun p => decide (s1 * p.1 < s2 * p.2 + 1 / 10 ^ 9) then 1 else 2

/-- Which of two rows is dropped: `some true` for the first (CglPreProcess.cpp:7011-7047). -/
def verdict (state0 state1 : Nat) (type1 : ℤ) : Option Bool :=
  if state0 = 0 ∨ state1 = 0 then none
  else if state0 = 5 then
    if state1 = 5 then some (decide (|type1| = 1))
    else if state1 = 9 then some false
    else none
  else if state0 = 9 then some false
  else none

/-- The row that is dropped because of one pair. -/
def dropPair (nBits : Nat) (sc : Nat → ℚ) (qs : List Ineq) (k1 k2 : Nat) : Option Nat :=
  match qs[k1]?, qs[k2]? with
  | some q1, some q2 =>
    if k1 ≠ k2 ∧ q1.row ≠ q2.row then
      (verdict (stronger nBits 0 (sc k1) (sc k2) q1 q2) (stronger nBits 1 (sc k1) (sc k2) q1 q2) q1.type).map fun first =>
        if first then q1.row else q2.row
    else none
  | _, _ => none

/-- The row that is dropped (CglPreProcess.cpp:7006-7055). -/
def dropped (nBits : Nat) (sc : Nat → ℚ) (qs : List Ineq) : Option Nat :=
  (List.range qs.length).findSome? fun k1 => (List.range qs.length).findSome? fun k2 => dropPair nBits sc qs k1 k2

/-- A row without bounds. -/
def freed (r : Row) : Row := { r with lb := -dblMax, ub := dblMax }

/-- The dropped row is made free, unless it has two bounds (CglPreProcess.cpp:7056-7071). -/
def dropRow (P : Prob) (d : Option Nat) : Prob :=
  match d with
  | none => P
  | some i => { P with rows := P.rows.modify i fun r => if r.lb < -10 ^ 30 ∨ 10 ^ 30 < r.ub then freed r else r }

/-! ### The loops -/

/-- What the loops change. -/
structure St where
  P : Prob
  feasible : Bool
  scale : Nat → ℚ

/-- From the `<=` forms to the end of the treatment of a match (CglPreProcess.cpp:6919-7071). -/
def compare (root : ℚ → ℚ) (nBits : Nat) (ls : List Line) (s : St) : Except Fault St :=
  if 8 < (ineqs ls).length then .error .overflow
  else .ok { s with
    P := dropRow s.P (dropped nBits (scaled root nBits ls.length (ineqs ls) s.scale) (ineqs ls))
    scale := scaled root nBits ls.length (ineqs ls) s.scale }

/-- The two rows have been read (CglPreProcess.cpp:6743-7071): the new state, and `nMarkRow = 0`. -/
def treat (root : ℚ → ℚ) (use : Nat → Bool) (i nBits j1 : Nat) (j2 : Option Nat) (A B : Line) (s : St) :
    Except Fault (St × Bool) :=
  if s.P.colLower i ≠ 0 ∨ s.P.colUpper i ≠ 1 then .error .assert
  else if nBits = 2 then
    let t := twoColumns s.P i j1 A B
    match compare root nBits [A, B] { s with P := t.1, feasible := s.feasible && !t.2.2 } with
    | .error e => .error e
    | .ok s' => .ok (s', t.2.1)
  else if 3 < nBits then .error .assert
  else match j2 with
    | none => .error .unset
    | some j2 =>
      match compare root nBits (A :: B :: doubletons s.P use j1 j2) s with
      | .error e => .error e
      | .ok s' => .ok (s', false)

/-- One match of two rows (CglPreProcess.cpp:6681-7071).  `none` is the `continue` of line 6738. -/
def matched (root : ℚ → ℚ) (use : Nat → Bool) (i nBits i1 i2 : Nat) (r1 r2 : Row) (s : St) :
    Except Fault (Option (St × Bool)) :=
  if 3 < r1.coefs.length then .error .assert
  else match gatherRow i r1.coefs ⟨none, none, none, none, none⟩ with
    | .error e => .error e
    | .ok g1 =>
      match gatherRow i r2.coefs { g1 with e0 := none, e1 := none, e2 := none } with
      | .error e => .error e
      | .ok g2 =>
        match g2.j1 with
        | none => .ok none
        | some j1 =>
          match readLine nBits i1 r1.lb r1.ub g1, readLine nBits i2 r2.lb r2.ub g2 with
          | .ok A, .ok B =>
            match treat root use i nBits j1 g2.j2 A B s with
            | .error e => .error e
            | .ok t => .ok (some t)
          | .error e, _ => .error e
          | .ok _, .error e => .error e

/-- The loop over `iLook` (CglPreProcess.cpp:6656-7078).  `done` are the masks whose entries have been set to zero. -/
def look (root : ℚ → ℚ) (use : Nat → Bool) (i nMarked : Nat) : List (Nat × Nat) → List Nat → St → Except Fault St
  | [], _, s => .ok s
  | (i1, m) :: l, done, s =>
    if m = 0 ∨ m = full ∨ m ∈ done then look root use i nMarked l done s
    else match l.find? fun p => p.2 == m with
      | none => look root use i nMarked l done s
      | some (i2, _) =>
        match s.P.rows[i1]?, s.P.rows[i2]? with
        | some r1, some r2 =>
          match matched root use i (countBits nMarked m) i1 i2 r1 r2 s with
          | .error e => .error e
          | .ok none => look root use i nMarked l done s
          | .ok (some (s', stop)) => if stop then .ok s' else look root use i nMarked l (m :: done) s'
        | _, _ => .error .overflow

/-- One column (CglPreProcess.cpp:6608-7085). -/
def column (root : ℚ → ℚ) (use : Nat → Bool) (s : St) (i : Nat) : Except Fault St :=
  if s.P.isInt i = true ∧ (colRows s.P i).length ≤ 20 ∧ 1 < (colRows s.P i).length ∧ s.P.colLower i = 0 ∧
      s.P.colUpper i = 1 then
    look root use i (markRows s.P use [i] (colRows s.P i)).1.length (markRows s.P use [i] (colRows s.P i)).2 [] s
  else .ok s

/-- The loop over the columns (CglPreProcess.cpp:6605-7087). -/
def columns (root : ℚ → ℚ) (use : Nat → Bool) : List Nat → St → Except Fault St
  | [], s => .ok s
  | i :: l, s =>
    if s.feasible then
      match column root use s i with
      | .error e => .error e
      | .ok s' => columns root use l s'
    else .ok s

/-- The whole part (CglPreProcess.cpp:6478-7094): the new problem and `feasible`. -/
def triple (root : ℚ → ℚ) (cut : Nat → Bool) (P : Prob) : Except Fault (Prob × Bool) :=
  match columns root (usable (clean P) cut) (List.range P.nCols) ⟨clean P, cleanFeasible P, fun _ => 0⟩ with
  | .error e => .error e
  | .ok s => .ok (s.P, s.feasible)

end Cgl.Triple
