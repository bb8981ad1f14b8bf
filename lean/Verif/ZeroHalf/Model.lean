import Verif.Osi

/-!
# Zero-half cuts: `src/CglZeroHalf/CglZeroHalf.cpp`, `src/CglZeroHalf/Cgl012cut.cpp`

`refreshSolver` turns the rows with integer columns, integer coefficients and integer bounds into an integer
program; `generateCuts` adds some of its rows up, makes odd coefficients even with column bounds, halves and rounds.

Modelled: the loading, the parity information of columns and rows, the sum of the rows of a cycle, the choice of the
bounds (`best_weakening`), the cut and its checks, the list of cuts, copies and assignments.

Not modelled: which rows are added up.  The separation graph, the auxiliary graph, the shortest paths and the
extraction of cycles (Cgl012cut.cpp 1040–2005, 2667–2887) are a search whose only product is, for every node, a list
of cycles, that is lists of row numbers (`Env.cycles`, edges of column bounds left out).  The theorems hold for every
such list.  The tabu search and the pool are not compiled (`TABU_SEARCH`, `POOL` undefined).  The clock is the
function `Env.late`.  `int` arithmetic is exact and leaves the model with the fault `overflow` as soon as a result
does not fit; `double` arithmetic is exact.
-/

namespace Cgl.ZeroHalf

/-- Ways a call can go wrong. -/
inductive Fault
  /-- `static_cast<int>` of a number that does not fit -/
  | cast
  /-- signed overflow -/
  | overflow
  /-- read outside an array -/
  | memory
  /-- failed `assert` -/
  | assertion
  /-- division by zero -/
  | divZero
  /-- `exit(0)` after "Error 1" or "Error 2" -/
  | exit
  /-- `abort()` -/
  | abort
deriving DecidableEq, Repr

/-- One row of the integer program: `mtind_`, `mtval_`, `mrhs_`, `msense_ == 'G'` (CglZeroHalf.hpp 108–122). -/
structure IRow where
  coefs : List (Nat × ℤ)
  rhs : ℤ
  ge : Bool
deriving DecidableEq, Repr

/-- The integer program: `vlb_`/`vub_` (one pair for each column, `mc_` of them) and the rows (`mr_`).
CglZeroHalf.hpp 104–122. -/
structure Ilp where
  bnds : List (ℤ × ℤ)
  rows : List IRow
deriving DecidableEq, Repr

/-- The bounds of a column. -/
def bnd (L : List (ℤ × ℤ)) (j : Nat) : ℤ × ℤ := L.getD j (0, 0)

/-- The generator (CglZeroHalf.hpp 102–130): `ilp` is `none` when `mnz_` is zero; `loaded` says that
`cutInfo_.inp_ilp` is not NULL.  Simplification: the three limits of the search and `maxSeconds_` are left out. -/
structure Obj where
  ilp : Option Ilp := none
  loaded : Bool := false
  flags : ℤ := 0
deriving DecidableEq, Repr

/-- `flags_ & 1`. -/
def Obj.glob (o : Obj) : Bool := o.flags % 2 ≠ 0

/-! ### `refreshSolver` -/

/-- `static_cast<int>` of an integral `double`. -/
def castZ (z : ℤ) : Except Fault ℤ := if intMin ≤ z ∧ z ≤ intMax then .ok z else .error .cast

/-- Integer bounds of an integer column.  CglZeroHalf.cpp 33–42 and 318–326. -/
def intBounds (lo up : ℚ) : Except Fault (ℤ × ℤ) := do
  let ilo ← castZ ⌈if lo < -intMax then (-intMax : ℚ) else lo⌉
  let iup ← castZ ⌊if up > intMax then (intMax : ℚ) else up⌋
  return (ilo, iup)

/-- CglZeroHalf.cpp 316–333. -/
def colBounds (P : Prob) (j : Nat) : Except Fault (ℤ × ℤ) :=
  if P.isInt j then intBounds (P.colLower j) (P.colUpper j) else .ok (intMax, -intMax)

/-- Rounding to the nearest integer, `floor(v+0.5)`. -/
def rnd (v : ℚ) : ℤ := ⌊v + 1 / 2⌋

/-- `fabs(v-floor(v+0.5)) <= eps`. -/
def nearInt (eps v : ℚ) : Bool := |v - rnd v| ≤ eps

/-- The bounds of the row are integers that fit.  CglZeroHalf.cpp 354–384 (a free row has `rhs` 1e20). -/
def rhsOk (r : Row) : Bool :=
  if -(10 ^ 20 : ℚ) < r.lb then
    nearInt (1 / 10 ^ 15) r.lb &&
      (if r.ub < 10 ^ 20 then nearInt (1 / 10 ^ 12) r.ub && decide (max |r.lb| |r.ub| < intMax)
       else decide (|r.lb| < intMax))
  else if r.ub < 10 ^ 20 then nearInt (1 / 10 ^ 12) r.ub && decide (|r.ub| < intMax)
  else false

/-- The row is taken.  CglZeroHalf.cpp 336–353 and 385. -/
def rowGood (L : List (ℤ × ℤ)) (r : Row) : Bool :=
  !r.coefs.isEmpty &&
    r.coefs.all (fun p => decide ((bnd L p.1).1 ≠ intMax) && nearInt (1 / 10 ^ 15) p.2 &&
      decide (|p.2| < intMax)) &&
    rhsOk r

/-- A row with two different finite bounds is stored twice.  CglZeroHalf.cpp 354–366 (`iType`). -/
def ranged (r : Row) : Bool := decide (-(10 ^ 20 : ℚ) < r.lb ∧ r.ub < 10 ^ 20 ∧ r.lb ≠ r.ub)

/-- The stored entries.  CglZeroHalf.cpp 447–458. -/
def entries (r : Row) : List (Nat × ℤ) :=
  (r.coefs.map fun p => (p.1, rnd p.2)).filter fun p => p.2 ≠ 0

/-- The stored copies of a row.  CglZeroHalf.cpp 459–482. -/
def storedRows (r : Row) : List IRow :=
  if ranged r then [⟨entries r, rnd r.lb, true⟩, ⟨entries r, rnd r.ub, false⟩]
  else if -(10 ^ 20 : ℚ) < r.lb then [⟨entries r, rnd r.lb, true⟩]
  else [⟨entries r, rnd r.ub, false⟩]

/-- Entries counted in the first pass.  CglZeroHalf.cpp 385–388. -/
def countNz (L : List (ℤ × ℤ)) (P : Prob) : Nat :=
  ((P.rows.filter (rowGood L)).map fun r => (if ranged r then 2 else 1) * r.coefs.length).sum

/-- Rows stored in the second pass.  CglZeroHalf.cpp 402–483. -/
def storeAll (L : List (ℤ × ℤ)) (P : Prob) : List IRow := (P.rows.filter (rowGood L)).flatMap storedRows

/-- Entries stored in the second pass. -/
def storedNz (rows : List IRow) : Nat := (rows.map fun r => r.coefs.length).sum

/-- CglZeroHalf.cpp 390–499, once the bounds are known. -/
def load (P : Prob) (o : Obj) (L : List (ℤ × ℤ)) : Except Fault Obj :=
  if countNz L P = 0 then .ok { o with ilp := none, loaded := false }
  else if countNz L P ≠ storedNz (storeAll L P) then .error .assertion
  else .ok { o with ilp := some ⟨L, storeAll L P⟩, loaded := true }

/-- `refreshSolver` (CglZeroHalf.cpp 273–499).  Without rows nothing happens. -/
def refresh (P : Prob) (o : Obj) : Except Fault Obj :=
  if P.rows.isEmpty then .ok o
  else do
    let L ← (List.range P.nCols).mapM (colBounds P)
    load P o L

/-! ### Parity information -/

/-- `LOWER_BOUND`, `UPPER_BOUND`. -/
inductive Side | lower | upper
deriving DecidableEq, Repr

/-- What a column offers to make its coefficient even: `possible_weak` with the types and losses for an even and for
an odd change of the right-hand side. -/
inductive Weak
  | none
  | even (t : Side) (loss : ℚ)
  | odd (t : Side) (loss : ℚ)
  | both (te : Side) (le : ℚ) (to' : Side) (lo : ℚ)
deriving DecidableEq, Repr

/-- `mod2(I) == ODD`. -/
def isOdd (z : ℤ) : Bool := z % 2 ≠ 0

/-- `ZERO`. -/
def zeroTol : ℚ := 1 / 10 ^ 6
/-- `EPS`. -/
def epsTol : ℚ := 1 / 10 ^ 4
/-- `MAX_SLACK - EPS`. -/
def maxSlack : ℚ := 1 - epsTol
/-- `INF`. -/
def bigInf : ℚ := 10 ^ 9

/-- One kind of change only. -/
def oneWeak (b : ℤ) (t : Side) (loss : ℚ) : Weak := if isOdd b then .odd t loss else .even t loss

/-- The possible changes of a column with value `x` and bounds `lb`, `ub`.  Cgl012cut.cpp 778–888. -/
def possWeak (x : ℚ) (lb ub : ℤ) : Weak :=
  if x > ub - zeroTol then oneWeak ub .upper 0
  else if x < lb + zeroTol then oneWeak lb .lower 0
  else if ub - x > 1 ∧ x - lb > 1 then .none
  else if ub - x > 1 then oneWeak lb .lower (x - lb)
  else if x - lb > 1 then oneWeak ub .upper (ub - x)
  else if isOdd ub = isOdd lb then
    if x - lb ≤ ub - x then oneWeak lb .lower (x - lb) else oneWeak ub .upper (ub - x)
  else if isOdd ub then .both .lower (x - lb) .upper (ub - x)
  else .both .upper (ub - x) .lower (x - lb)

/-- `gcd` of the right-hand side and the coefficients.  Cgl012cut.cpp 570–582, 907–914. -/
def rowGcd (r : IRow) : ℤ := r.coefs.foldl (fun g p => ((Int.gcd g p.2 : ℕ) : ℤ)) r.rhs

/-- Value of an integer row at a point. -/
def idot (v : List (Nat × ℤ)) (x : Nat → ℚ) : ℚ := (v.map fun p => (p.2 : ℚ) * x p.1).sum

/-- `p_ilp->slack[i]`.  Cgl012cut.cpp 906–933. -/
def rowSlack (x : Nat → ℚ) (r : IRow) : ℚ :=
  let s := if r.ge then -(r.rhs - idot r.coefs x) else r.rhs - idot r.coefs x
  if s < -zeroTol then bigInf else s

/-! ### The sum of some rows -/

/-- The result of an `int` operation. -/
def ck (z : ℤ) : Except Fault ℤ := if intMin ≤ z ∧ z ≤ intMax then .ok z else .error .overflow

/-- `ccoef[j] = v`. -/
def upd (c : Nat → ℤ) (j : Nat) (v : ℤ) : Nat → ℤ := fun k => if k = j then v else c k

/-- What a row adds for an entry or for its right-hand side. -/
def share (r : IRow) (a : ℤ) : ℤ := if r.ge then -(a.tdiv (rowGcd r)) else a.tdiv (rowGcd r)

/-- `ccoef[..] += mtval / gcdi` over a row.  Cgl012cut.cpp 2046–2052, 2058–2064. -/
def addEntries (r : IRow) : List (Nat × ℤ) → (Nat → ℤ) → Except Fault (Nat → ℤ)
  | [], c => .ok c
  | p :: t, c => do
    let v ← ck (c p.1 + share r p.2)
    addEntries r t (upd c p.1 v)

/-- One row.  Cgl012cut.cpp 2041–2066. -/
def addRow (r : IRow) (s : (Nat → ℤ) × ℤ) : Except Fault ((Nat → ℤ) × ℤ) := do
  let c ← addEntries r r.coefs s.1
  let b ← ck (s.2 + share r r.rhs)
  return (c, b)

/-- All the rows.  Cgl012cut.cpp 2038–2067. -/
def addRows : List IRow → (Nat → ℤ) × ℤ → Except Fault ((Nat → ℤ) × ℤ)
  | [], s => .ok s
  | r :: t, s => do
    let s' ← addRow r s
    addRows t s'

/-- The fast check: a partial sum of the slacks is too large.  Cgl012cut.cpp 2026–2032. -/
def slackFails (x : Nat → ℚ) : List IRow → ℚ → Bool
  | [], _ => false
  | r :: t, s => decide (s + rowSlack x r > maxSlack) || slackFails x t (s + rowSlack x r)

/-- `get_ori_cut_coef` with `only_viol` (Cgl012cut.cpp 2011–2069). -/
def oriCut (x : Nat → ℚ) (rs : List IRow) : Except Fault (Option ((Nat → ℤ) × ℤ)) :=
  if slackFails x rs 0 then .ok none
  else do
    let s ← addRows rs (fun _ => 0, 0)
    return some s

/-! ### `best_weakening` -/

/-- `type_even_weak`, `switch_even_weak`, `type_odd_weak`, `switch_odd_weak` of one variable. -/
structure Step where
  te : Side
  se : Bool
  to' : Side
  so : Bool
deriving DecidableEq, Repr

/-- One variable: the recorded choices and the new best slacks (even, odd).  Cgl012cut.cpp 2526–2575. -/
def wstep (w : Weak) (b : ℚ × ℚ) : Option (Step × (ℚ × ℚ)) :=
  match w with
  | .none => none
  | .even t l => some (⟨t, false, t, false⟩, (b.1 + l, b.2 + l))
  | .odd t l => some (⟨t, true, t, true⟩, (b.2 + l, b.1 + l))
  | .both te le to' lo =>
    let ee := b.1 + le
    let eo := b.2 + lo
    let oe := b.2 + le
    let oo := b.1 + lo
    some (⟨if ee ≤ eo then te else to', !decide (ee ≤ eo), if oe ≤ oo then te else to', !decide (oe ≤ oo)⟩,
      (if ee ≤ eo then ee else eo, if oe ≤ oo then oe else oo))

/-- The first loop with `only_viol`.  Cgl012cut.cpp 2519–2587. -/
def forward : List Weak → ℚ × ℚ → Option (List Step × (ℚ × ℚ))
  | [], b => some ([], b)
  | w :: t, b =>
    match wstep w b with
    | none => none
    | some (s, b') =>
      if b'.1 > maxSlack ∧ b'.2 > maxSlack then none
      else
        match forward t b' with
        | none => none
        | some (ss, b'') => some (s :: ss, b'')

/-- The way back, last variable first: the type taken and the parity before it.  Cgl012cut.cpp 2631–2650. -/
def back : List Step → Bool → List Side
  | [], _ => []
  | s :: t, odd => (if odd then s.to' else s.te) :: back t (if odd then (if s.so then false else true) else s.se)

/-- The best slacks before the loop.  Cgl012cut.cpp 2510–2517. -/
def startSlacks (odd : Bool) (slack : ℚ) : ℚ × ℚ := if odd then (bigInf, slack) else (slack, bigInf)

/-- `best_weakening` with `only_odd` and `only_viol`: the types of the best odd change and its slack
(Cgl012cut.cpp 2473–2662; the even half of the way back is not run with `only_odd`). -/
def bestWeakening (ws : List Weak) (odd : Bool) (slack : ℚ) : Option (List Side × ℚ) :=
  match forward ws (startSlacks odd slack) with
  | none => none
  | some (ss, b) => if b.2 ≤ maxSlack then some ((back ss.reverse true).reverse, b.2) else none

/-! ### `best_cut`, `define_cut`, `get_cut` -/

/-- One change.  Cgl012cut.cpp 2131–2148. -/
def applyOne (L : List (ℤ × ℤ)) (j : Nat) (t : Side) (s : (Nat → ℤ) × ℤ) : Except Fault ((Nat → ℤ) × ℤ) :=
  match t with
  | .lower => do
    let v ← ck (s.1 j - 1)
    let b ← ck (s.2 - (bnd L j).1)
    return (upd s.1 j v, b)
  | .upper => do
    let v ← ck (s.1 j + 1)
    let b ← ck (s.2 + (bnd L j).2)
    return (upd s.1 j v, b)

/-- The changes of all odd coefficients.  Cgl012cut.cpp 2129–2149. -/
def applyAll (L : List (ℤ × ℤ)) : List (Nat × Side) → (Nat → ℤ) × ℤ → Except Fault ((Nat → ℤ) × ℤ)
  | [], s => .ok s
  | p :: t, s => do
    let s' ← applyOne L p.1 p.2 s
    applyAll L t s'

/-- Halving with the two checks.  Cgl012cut.cpp 2150–2168. -/
def halve (mc : Nat) (s : (Nat → ℤ) × ℤ) : Except Fault ((Nat → ℤ) × ℤ) :=
  if (List.range mc).any (fun j => isOdd (s.1 j)) then .error .exit
  else if !isOdd s.2 then .error .exit
  else .ok (fun j => (s.1 j).tdiv 2, (s.2 - 1).tdiv 2)

/-- Value of the coefficients at a point, over all columns. -/
def lin (mc : Nat) (c : Nat → ℤ) (x : Nat → ℚ) : ℚ := ((List.range mc).map fun j => (c j : ℚ) * x j).sum

/-- The columns with an odd coefficient (`vars_to_weak`).  Cgl012cut.cpp 2101–2113. -/
def oddCols (mc : Nat) (c : Nat → ℤ) : List Nat := (List.range mc).filter fun j => isOdd (c j)

/-- `best_cut` with `update` and `only_viol`: the cut and its violation (Cgl012cut.cpp 2074–2174). -/
def bestCut (I : Ilp) (x : Nat → ℚ) (s : (Nat → ℤ) × ℤ) : Except Fault (Option (((Nat → ℤ) × ℤ) × ℚ)) :=
  if s.2 - lin I.bnds.length s.1 x > maxSlack then .ok none
  else
    match bestWeakening ((oddCols I.bnds.length s.1).map fun j => possWeak (x j) (bnd I.bnds j).1 (bnd I.bnds j).2)
        (isOdd s.2) (s.2 - lin I.bnds.length s.1 x) with
    | none => .ok none
    | some (ts, slack) => do
      let s' ← applyAll I.bnds ((oddCols I.bnds.length s.1).zip ts) s
      let s'' ← halve I.bnds.length s'
      return some (s'', (1 - slack) / 2)

/-- A cut of the list (`cut`: `cind`, `cval`, `crhs`; the sense is always `'L'`). -/
structure ZCut where
  coefs : List (Nat × ℤ)
  rhs : ℤ
deriving DecidableEq, Repr

/-- `violation` of `define_cut`.  Cgl012cut.cpp 2201–2218. -/
def ZCut.violation (c : ZCut) (x : Nat → ℚ) : ℚ := idot c.coefs x - c.rhs

/-- `define_cut` (Cgl012cut.cpp 2179–2221): the nonzero coefficients by column. -/
def defineCut (mc : Nat) (s : (Nat → ℤ) × ℤ) : ZCut where
  coefs := ((List.range mc).map fun j => (j, s.1 j)).filter fun p => p.2 ≠ 0
  rhs := s.2

/-- What `get_cut` gives: a cut, NULL, or NULL with `errorNo` set. -/
inductive Got
  | cut (c : ZCut)
  | null
  | bad
deriving DecidableEq, Repr

/-- The rows of a cycle, each once, in the order of first appearance.  Cgl012cut.cpp 2276–2292. -/
def comb : List Nat → List Nat → List Nat
  | [], acc => acc
  | i :: t, acc => if i ∈ acc then comb t acc else comb t (acc ++ [i])

/-- The check of the violation.  Cgl012cut.cpp 2311–2334. -/
def checkCut (x : Nat → ℚ) (c : ZCut) (viol : ℚ) : Got :=
  if c.violation x > viol + epsTol ∨ c.violation x < viol - epsTol then .bad else .cut c

/-- `get_cut` (Cgl012cut.cpp 2226–2345). -/
def getCut (I : Ilp) (x : Nat → ℚ) (cyc : List Nat) : Except Fault Got := do
  let o ← oriCut x ((comb cyc []).filterMap fun i => I.rows[i]?)
  match o with
  | none => return .null
  | some s => do
    let b ← bestCut I x s
    match b with
    | none => return .null
    | some (s', viol) => return checkCut x (defineCut I.bnds.length s') viol

/-! ### The list of cuts -/

/-- What the search and the clock answer: for every node the cycles found, and whether the time is up at the k-th
call of `get_cut`. -/
structure Env where
  cycles : List (List (List Nat))
  late : Nat → Bool

/-- State of the separation: the cuts found, `errorNo`, number of `get_cut` calls, stop. -/
structure Sep where
  cuts : List ZCut := []
  err : Bool := false
  calls : Nat := 0
  stop : Bool := false
deriving DecidableEq, Repr

/-- `MIN_VIOLATION + EPS`. -/
def minViol : ℚ := 1 / 1000 + epsTol
/-- `MAX_CUTS`. -/
def maxCuts : Nat := 10000000

/-- `add_cut_to_list` (Cgl012cut.cpp 2391–2408). -/
def addCut (cuts : List ZCut) (c : ZCut) : List ZCut := if c ∈ cuts then cuts else cuts ++ [c]

/-- A cut that came out of `get_cut`.  Cgl012cut.cpp 2914–2930. -/
def takeCut (x : Nat → ℚ) (s : Sep) (c : ZCut) : Sep :=
  if c.violation x > minViol then
    { s with cuts := addCut s.cuts c, calls := s.calls + 1, stop := decide ((addCut s.cuts c).length ≥ maxCuts) }
  else { s with calls := s.calls + 1 }

/-- The cycles of a node.  Cgl012cut.cpp 2899–2931. -/
def nodeLoop (env : Env) (I : Ilp) (x : Nat → ℚ) : List (List Nat) → Sep → Except Fault Sep
  | [], s => .ok s
  | cyc :: t, s =>
    if env.late s.calls then .ok { s with stop := true }
    else do
      let g ← getCut I x cyc
      match g with
      | .null => if s.err then return { s with calls := s.calls + 1 } else nodeLoop env I x t { s with calls := s.calls + 1 }
      | .bad => return { s with err := true, calls := s.calls + 1 }
      | .cut c => if (takeCut x s c).stop then return takeCut x s c else nodeLoop env I x t (takeCut x s c)

/-- The nodes.  Cgl012cut.cpp 2885–2935. -/
def sepLoop (env : Env) (I : Ilp) (x : Nat → ℚ) : List (List (List Nat)) → Sep → Except Fault Sep
  | [], s => .ok s
  | cycs :: t, s => do
    let s' ← nodeLoop env I x cycs s
    if s'.stop then return s' else sepLoop env I x t s'

/-- `sep_012_cut` (Cgl012cut.cpp 4174–4338) after the test of `inp_ilp`; the parity information divides by the gcd of
every row (937, 943). -/
def separate (env : Env) (I : Ilp) (x : Nat → ℚ) : Except Fault (List ZCut) :=
  if I.rows.any (fun r => rowGcd r = 0) then .error .divZero
  else do
    let s ← sepLoop env I x env.cycles {}
    return s.cuts

/-! ### `generateCuts` -/

/-- The row cut of a cut of the list.  CglZeroHalf.cpp 101–124. -/
def toRowCut (c : ZCut) : RowCut where
  lb := -dblMax
  ub := c.rhs
  row := c.coefs.map fun p => (p.1, (p.2 : ℚ))

/-- The bounds of the call.  CglZeroHalf.cpp 27–47. -/
def redoBounds (P : Prob) (L : List (ℤ × ℤ)) : Except Fault (List (ℤ × ℤ)) :=
  (List.range P.nCols).mapM fun j =>
    if (bnd L j).1 = intMax then .ok (bnd L j) else intBounds (P.colLower j) (P.colUpper j)

/-- The bounds used in a call. -/
def callBounds (P : Prob) (o : Obj) (L : List (ℤ × ℤ)) : Except Fault (List (ℤ × ℤ)) :=
  if o.glob then .ok L else redoBounds P L

/-- The cuts of a call, once the bounds are set. -/
def callCuts (env : Env) (o : Obj) (I : Ilp) (x : Nat → ℚ) (cs : List RowCut) : Except Fault (List RowCut) :=
  if o.loaded then do
    let zs ← separate env I x
    return (zs.map toRowCut).foldl insertIfNotDuplicate cs
  else .ok cs

/-- `generateCuts` (CglZeroHalf.cpp 17–131).  Simplification: a problem with a number of columns other than that of the
last `refreshSolver` is a fault at once (with more columns `vlb_` is read past its end, with fewer the solution). -/
def generate (env : Env) (o : Obj) (P : Prob) (x : Nat → ℚ) (cs : List RowCut) :
    Except Fault (List RowCut × Obj) :=
  match o.ilp with
  | none => .ok (cs, o)
  | some I =>
    if P.nCols ≠ I.bnds.length then .error .memory
    else do
      let L ← callBounds P o I.bnds
      let cs' ← callCuts env o ⟨L, I.rows⟩ x cs
      return (cs', { o with ilp := some ⟨L, I.rows⟩ })

/-! ### Copies -/

/-- Copy constructor and `clone` (CglZeroHalf.cpp 163–205): `cutInfo_` starts empty. -/
def copy (o : Obj) : Obj := { o with loaded := false }

/-- `operator=` (CglZeroHalf.cpp 222–272): `cutInfo_ = Cgl012Cut()` aborts if the target has an integer program
(Cgl012cut.cpp 4478–4479).  The object assigned to is not the source itself. -/
def assign (tgt src : Obj) : Except Fault Obj :=
  if tgt.loaded then .error .abort else .ok (copy src)

/-! ### Histories -/

/-- What can happen to a generator. -/
inductive Op
  | refresh (P : Prob)
  | generate (env : Env) (P : Prob) (x : Nat → ℚ) (cs : List RowCut)
  | setFlags (f : ℤ)
  | copy

/-- One operation; the cuts of a call go to the caller. -/
def step (o : Obj) : Op → Except Fault Obj
  | .refresh P => ZeroHalf.refresh P o
  | .generate env P x cs => do
    let r ← ZeroHalf.generate env o P x cs
    return r.2
  | .setFlags f => .ok { o with flags := f }
  | .copy => .ok (ZeroHalf.copy o)

/-- A history. -/
def run : Obj → List Op → Except Fault Obj
  | o, [] => .ok o
  | o, op :: t => do
    let o' ← step o op
    run o' t

end Cgl.ZeroHalf
