import Verif.Osi
import Mathlib.Logic.Function.Basic

/-!
# Model of `CglPreProcess::tightenPrimalBounds` and `tighten` (src/CglPreProcess/CglPreProcess.cpp)

`tightenPrimalBounds` changes a model in place: it tightens column bounds, makes redundant rows free and reduces
coefficients of integer columns.  It first calls the static function `tighten` on copies of the bounds.

`double` is `ℚ`.  The preprocessor symbol `CBC_PREPROCESS_EXPERIMENT` is not defined (so `tightenRowBounds` is not used)
and `scBound` is `NULL` (with any other value the function returns 0 at once).  The pointers `colLower`, `colUpper`,
`rowLower`, `rowUpper` are taken before the model is changed and read afterwards; they are modelled as showing the
current bounds, as they do for the solver the function is written for.  The counters are taken not to overflow.  The
division by a coefficient 0 stored explicitly in the matrix is not given a meaning: the theorems assume that there is
none.
-/

namespace Cgl.PreTighten

/-- `double large = 1.0e100` (CglPreProcess.cpp:4655). -/
@[irreducible] def large : ℚ := ((10 ^ 100 : ℕ) : ℚ)

/-- The model, and what the run takes from its environment: the primal tolerance, and what `CoinSort_2` does to the
entries of a row (by increasing coefficient; the order of equal coefficients is not specified). -/
structure Call where
  P : Prob
  tol : ℚ
  srt : SVec → SVec

/-! ### `tighten` -/

/-- Variables of `tighten`: `colLower`, `colUpper`, `nchange`, `ninfeas`. -/
structure TState where
  lo : Nat → ℚ
  up : Nat → ℚ
  nchange : Nat
  ninfeas : Nat

/-- The entries before `rowStartPos` (CglPreProcess.cpp:4710-4715). -/
def negs (es : SVec) : SVec := es.takeWhile fun p => decide (¬ 0 < p.2)
/-- The entries from `rowStartPos` on. -/
def poss (es : SVec) : SVec := es.dropWhile fun p => decide (¬ 0 < p.2)

/-- A column upper bound times a coefficient, `none` if the bound is `big` or more
(CglPreProcess.cpp:5420, 5432; 4777, 4787). -/
def atUp (big : ℚ) (up : Nat → ℚ) (p : Nat × ℚ) : Option ℚ := if up p.1 < big then some (up p.1 * p.2) else none
/-- A column lower bound times a coefficient, `none` if the bound is `-big` or less
(CglPreProcess.cpp:5424, 5436; 4782, 4792). -/
def atLo (big : ℚ) (lo : Nat → ℚ) (p : Nat × ℚ) : Option ℚ := if -big < lo p.1 then some (lo p.1 * p.2) else none

/-- Number of infinite terms. -/
def flags (l : List (Option ℚ)) : Nat := l.countP fun o => o.isNone
/-- Sum of the finite terms. -/
def total (l : List (Option ℚ)) : ℚ := (l.map fun o => o.getD 0).sum

/-- Terms of `dmaxup`, `iflagu` (CglPreProcess.cpp:5417-5440). -/
def hiTerms (lo up : Nat → ℚ) (es : SVec) : List (Option ℚ) :=
  (negs es).map (atLo 1000000000000 lo) ++ (poss es).map (atUp 1000000000000 up)
/-- Terms of `dmaxdown`, `iflagl` (CglPreProcess.cpp:5417-5440). -/
def loTerms (lo up : Nat → ℚ) (es : SVec) : List (Option ℚ) :=
  (negs es).map (atUp 1000000000000 up) ++ (poss es).map (atLo 1000000000000 lo)

/-- `dmaxup` (CglPreProcess.cpp:5441-5442). -/
def dmaxup (lo up : Nat → ℚ) (es : SVec) : ℚ :=
  if flags (hiTerms lo up es) ≠ 0 then ((10 ^ 31 : ℕ) : ℚ) else total (hiTerms lo up es)
/-- `dmaxdown` (CglPreProcess.cpp:5443-5444). -/
def dmaxdown (lo up : Nat → ℚ) (es : SVec) : ℚ :=
  if flags (loTerms lo up es) ≠ 0 then -((10 ^ 31 : ℕ) : ℚ) else total (loTerms lo up es)

/-- The check for crossed bounds after a change (CglPreProcess.cpp:5495-5502 and three copies). -/
def crossed (tol lo up : ℚ) : Nat := if up - lo ≤ tol ∧ up - lo < -100 * tol then 1 else 0

/-- A possible new lower bound (CglPreProcess.cpp:5476-5503, 5537-5548). -/
def TState.setLo (tol : ℚ) (s : TState) (j : Nat) (b : ℚ) : TState :=
  if s.lo j + 1/100000000 < b then
    { s with
      lo := Function.update s.lo j b
      nchange := s.nchange + 1
      ninfeas := s.ninfeas + crossed tol b (s.up j) }
  else s

/-- A possible new upper bound (CglPreProcess.cpp:5508-5519, 5552-5563). -/
def TState.setUp (tol : ℚ) (s : TState) (j : Nat) (b : ℚ) : TState :=
  if b < s.up j - 1/100000000 then
    { s with
      up := Function.update s.up j b
      nchange := s.nchange + 1
      ninfeas := s.ninfeas + crossed tol (s.lo j) b }
  else s

/-- One entry in the loop for a finite row lower bound (CglPreProcess.cpp:5471-5522). -/
def lowerEntry (tol rl dmax : ℚ) (s : TState) (p : Nat × ℚ) : TState :=
  if 0 < p.2 then
    if s.up p.1 < 1000000000000 then s.setLo tol p.1 (s.up p.1 + (rl - dmax) / p.2) else s
  else
    if -1000000000000 < s.lo p.1 then s.setUp tol p.1 (s.lo p.1 + (rl - dmax) / p.2) else s

/-- One entry in the loop for a finite row upper bound (CglPreProcess.cpp:5529-5566). -/
def upperEntry (tol ru dmin : ℚ) (s : TState) (p : Nat × ℚ) : TState :=
  if p.2 < 0 then
    if s.up p.1 < 1000000000000 then s.setLo tol p.1 (s.up p.1 + (ru - dmin) / p.2) else s
  else
    if -1000000000000 < s.lo p.1 then s.setUp tol p.1 (s.lo p.1 + (ru - dmin) / p.2) else s

/-- Both row bounds could be used: only one is, depending on the pass (CglPreProcess.cpp:5463-5469). -/
def both (lo up : Nat → ℚ) (r : Row) : Bool :=
  decide (flags (hiTerms lo up r.coefs) = 0) && decide (0 < r.lb) &&
    decide (flags (loTerms lo up r.coefs) = 0) && decide (r.ub < 1000000000000000)

/-- The row lower bound is used (CglPreProcess.cpp:5463-5470). -/
def useLower (dol : Bool) (lo up : Nat → ℚ) (r : Row) : Bool :=
  decide (flags (hiTerms lo up r.coefs) = 0) && decide (-1000000000000000 < r.lb) && ! (both lo up r && dol)
/-- The row upper bound is used (CglPreProcess.cpp:5463-5469, 5528). -/
def useUpper (dol : Bool) (lo up : Nat → ℚ) (r : Row) : Bool :=
  decide (flags (loTerms lo up r.coefs) = 0) && decide (r.ub < 1000000000000000) && ! (both lo up r && ! dol)

/-- The row is made free. -/
def freed (r : Row) : Row := ⟨- dblMax, dblMax, r.coefs⟩

/-- The row is looked at by `tighten` (CglPreProcess.cpp:5400). -/
def active (r : Row) : Bool := decide (-((10 ^ 20 : ℕ) : ℚ) < r.lb) || decide (r.ub < ((10 ^ 20 : ℕ) : ℚ))

/-- The row says nothing (CglPreProcess.cpp:5445). -/
def redundant (tol : ℚ) (lo up : Nat → ℚ) (r : Row) : Bool :=
  decide (dmaxup lo up r.coefs ≤ r.ub + tol) && decide (r.lb - tol ≤ dmaxdown lo up r.coefs)

/-- The row cannot hold (CglPreProcess.cpp:5458). -/
def hopeless (tol : ℚ) (lo up : Nat → ℚ) (r : Row) : Bool :=
  decide (dmaxup lo up r.coefs < r.lb - tol) || decide (r.ub + tol < dmaxdown lo up r.coefs)

/-- The loop over the entries of a row for its lower bound. -/
def lowerLoop (tol : ℚ) (dol : Bool) (r : Row) (s : TState) : TState :=
  if useLower dol s.lo s.up r then r.coefs.foldl (lowerEntry tol r.lb (dmaxup s.lo s.up r.coefs)) s else s

/-- Both loops over the entries of a row (CglPreProcess.cpp:5463-5568); `dmaxdown` and the flags are those computed
before the first loop. -/
def bothLoops (tol : ℚ) (dol : Bool) (r : Row) (s : TState) : TState :=
  if useUpper dol s.lo s.up r then
    r.coefs.foldl (upperEntry tol r.ub (dmaxdown s.lo s.up r.coefs)) (lowerLoop tol dol r s)
  else lowerLoop tol dol r s

/-- The loop over the rows (CglPreProcess.cpp:5399-5571); it is left at a row that cannot hold. -/
def tightenRows (tol : ℚ) (dol : Bool) : List Row → TState → List Row × TState
  | [], s => ([], s)
  | r :: rs, s =>
    if active r then
      if redundant tol s.lo s.up r then
        (freed r :: (tightenRows tol dol rs { s with nchange := s.nchange + 1 }).1,
          (tightenRows tol dol rs { s with nchange := s.nchange + 1 }).2)
      else if hopeless tol s.lo s.up r then (r :: rs, { s with ninfeas := s.ninfeas + 1 })
      else
        (r :: (tightenRows tol dol rs (bothLoops tol dol r s)).1, (tightenRows tol dol rs (bothLoops tol dol r s)).2)
    else (r :: (tightenRows tol dol rs s).1, (tightenRows tol dol rs s).2)

/-- `floor(colUpper[j]+1.0e-4)`. -/
def floor4 (u : ℚ) : ℚ := ⌊u + 1/10000⌋
/-- `ceil(colLower[j]-1.0e-4)`. -/
def ceil4 (l : ℚ) : ℚ := ⌈l - 1/10000⌉

/-- The counts for one integer column (CglPreProcess.cpp:5574-5594). -/
def roundCount (s : TState) (j : Nat) : Nat :=
  if 1/100000000 < s.up j - s.lo j then
    (if floor4 (s.up j) < s.up j then 1 else 0) + (if s.lo j < ceil4 (s.lo j) then 1 else 0)
  else 0

/-- The loop over the columns: the bounds of integer columns are rounded (CglPreProcess.cpp:5572-5596). -/
def roundCols (P : Prob) (s : TState) : TState where
  lo := fun j => if j < P.nCols ∧ P.isInt j = true then ceil4 (s.lo j) else s.lo j
  up := fun j => if j < P.nCols ∧ P.isInt j = true then floor4 (s.up j) else s.up j
  nchange := s.nchange + (((List.range P.nCols).filter P.isInt).map (roundCount s)).sum
  ninfeas := s.ninfeas + ((List.range P.nCols).filter P.isInt).countP fun j =>
    decide (floor4 (s.up j) < ceil4 (s.lo j))

/-- The passes of `tighten` (CglPreProcess.cpp:5392-5598): at most `maxpass`, until nothing changes or an infeasibility
is seen. `k` is the number of passes left, `dol` is `dolrows` of the next pass. -/
def tightenPasses (P : Prob) (tol : ℚ) : Nat → Bool → List Row → TState → List Row × TState
  | 0, _, rows, s => (rows, s)
  | k + 1, dol, rows, s =>
    if (roundCols P (tightenRows tol dol rows { s with nchange := 0 }).2).ninfeas ≠ 0 ∨
        (roundCols P (tightenRows tol dol rows { s with nchange := 0 }).2).nchange = 0 then
      ((tightenRows tol dol rows { s with nchange := 0 }).1,
        roundCols P (tightenRows tol dol rows { s with nchange := 0 }).2)
    else
      tightenPasses P tol k (! dol) (tightenRows tol dol rows { s with nchange := 0 }).1
        (roundCols P (tightenRows tol dol rows { s with nchange := 0 }).2)

/-- The row copy with sorted rows (CglPreProcess.cpp:4647, 4706-4716). -/
def sorted (c : Call) : List Row := c.P.rows.map fun r => ⟨r.lb, r.ub, c.srt r.coefs⟩

/-- The call of `tighten` on copies of the bounds (CglPreProcess.cpp:4717-4719).  Its return value is not used. -/
def tightened (c : Call) : List Row × TState :=
  tightenPasses c.P c.tol 20 true (sorted c) ⟨c.P.colLower, c.P.colUpper, 0, 0⟩

/-- `rLower[iRow]<-1.0e20&&rUpper[iRow]>1.0e20` (CglPreProcess.cpp:4722). -/
def isFree (r : Row) : Bool := decide (r.lb < -((10 ^ 20 : ℕ) : ℚ)) && decide (((10 ^ 20 : ℕ) : ℚ) < r.ub)

/-- The rows of the model after the call of `tighten` (CglPreProcess.cpp:4721-4726): rows that are free in the copy are
made free, no other row bound is changed. -/
def rows1 (c : Call) : List Row :=
  List.zipWith (fun r t => if isFree t then freed r else r) (sorted c) (tightened c).1

/-- `columnLower` (CglPreProcess.cpp:4728-4732). -/
def lo1 (c : Call) (j : Nat) : ℚ :=
  if c.P.colLower j < (tightened c).2.lo j then (tightened c).2.lo j else c.P.colLower j
/-- `columnUpper` (CglPreProcess.cpp:4733-4737). -/
def up1 (c : Call) (j : Nat) : ℚ :=
  if (tightened c).2.up j < c.P.colUpper j then (tightened c).2.up j else c.P.colUpper j

/-! ### The main loop -/

/-- Variables of the loop over the entries of a row: `infiniteUpper`, `infiniteLower`, `maximumUp`, `maximumDown`,
`newLower`, `newUpper`, `anyChange`, `numberChanged`, `numberInfeasible`. -/
structure LState where
  infU : ℤ
  infL : ℤ
  maxU : ℚ
  maxD : ℚ
  lo : Nat → ℚ
  up : Nat → ℚ
  any : Bool
  changed : Nat
  infeas : Nat

/-- Term of an entry in `maximumUp`, `infiniteUpper` (CglPreProcess.cpp:4775-4798). -/
def hiTerm (lo up : Nat → ℚ) (p : Nat × ℚ) : Option ℚ :=
  if 0 < p.2 then atUp large up p else if p.2 < 0 then atLo large lo p else some 0
/-- Term of an entry in `maximumDown`, `infiniteLower` (CglPreProcess.cpp:4775-4798). -/
def loTerm (lo up : Nat → ℚ) (p : Nat × ℚ) : Option ℚ :=
  if 0 < p.2 then atLo large lo p else if p.2 < 0 then atUp large up p else some 0

/-- `maximumUp` with the margin (CglPreProcess.cpp:4801). -/
def maxUp0 (lo up : Nat → ℚ) (es : SVec) : ℚ :=
  total (es.map (hiTerm lo up)) + 1/100000000 * |total (es.map (hiTerm lo up))|
/-- `maximumDown` with the margin (CglPreProcess.cpp:4802). -/
def maxDown0 (lo up : Nat → ℚ) (es : SVec) : ℚ :=
  total (es.map (loTerm lo up)) - 1/100000000 * |total (es.map (loTerm lo up))|

/-- `maxUp` (CglPreProcess.cpp:4803). -/
def maxUp (lo up : Nat → ℚ) (es : SVec) : ℚ :=
  if flags (es.map (hiTerm lo up)) = 0 then maxUp0 lo up es else dblMax
/-- `maxDown` (CglPreProcess.cpp:4804). -/
def maxDown (lo up : Nat → ℚ) (es : SVec) : ℚ :=
  if flags (es.map (loTerm lo up)) = 0 then maxDown0 lo up es else - dblMax

/-- "relax if original was large", downwards (CglPreProcess.cpp:4876-4877 and three copies). -/
def relaxDown (m b : ℚ) : ℚ := if 100000000 < |m| then b - 1/1000000000000 * |m| else b
/-- "relax if original was large", upwards (CglPreProcess.cpp:4909-4910 and three copies). -/
def relaxUp (m b : ℚ) : ℚ := if 100000000 < |m| then b + 1/1000000000000 * |m| else b

/-- `newBound` for a lower bound (CglPreProcess.cpp:4872-4886 with `infiniteUpper`, `maximumUp` and the row lower bound;
4977-4991 with `infiniteLower`, `maximumDown` and the row upper bound).  The assertions on `large2` are left out. -/
def newLoBound (inf : ℤ) (m rhs v u : ℚ) : ℚ :=
  if inf = 0 then relaxDown m (u + (rhs - m) / v)
  else if inf = 1 ∧ large < u then relaxDown m ((rhs - m) / v)
  else - dblMax

/-- `newBound` for an upper bound (CglPreProcess.cpp:4905-4919, 4941-4955). -/
def newUpBound (inf : ℤ) (m rhs v l : ℚ) : ℚ :=
  if inf = 0 then relaxUp m (l + (rhs - m) / v)
  else if inf = 1 ∧ l < -large then relaxUp m ((rhs - m) / v)
  else dblMax

/-- "Tighten the lower bound" (CglPreProcess.cpp:4887-4905 for a positive coefficient: `maximumDown` is adjusted;
4992-5016 for a negative one: `maximumUp`). -/
def LState.raise (tol : ℚ) (s : LState) (j : Nat) (v b : ℚ) : LState :=
  if s.lo j + 1/1000000000000 < b ∧ -large < b then
    if 0 < v then
      { s with
        lo := Function.update s.lo j b
        any := true
        infeas := s.infeas + (if s.up j - b < -100 * tol then 1 else 0)
        infL := if s.lo j < -large then s.infL - 1 else s.infL
        maxD := s.maxD + (b - if s.lo j < -large then 0 else s.lo j) * v }
    else
      { s with
        lo := Function.update s.lo j b
        any := true
        infeas := s.infeas + (if s.up j - b < -100 * tol then 1 else 0)
        infU := if s.lo j < -large then s.infU - 1 else s.infU
        maxU := s.maxU + (b - if s.lo j < -large then 0 else s.lo j) * v }
  else s

/-- "Tighten the upper bound" (CglPreProcess.cpp:4920-4938 for a positive coefficient: `maximumUp` is adjusted;
4956-4974 for a negative one: `maximumDown`). -/
def LState.cut (tol : ℚ) (s : LState) (j : Nat) (v b : ℚ) : LState :=
  if b < s.up j - 1/1000000000000 ∧ b < large then
    if 0 < v then
      { s with
        up := Function.update s.up j b
        any := true
        infeas := s.infeas + (if b - s.lo j < -100 * tol then 1 else 0)
        infU := if large < s.up j then s.infU - 1 else s.infU
        maxU := s.maxU + (b - if large < s.up j then 0 else s.up j) * v }
    else
      { s with
        up := Function.update s.up j b
        any := true
        infeas := s.infeas + (if b - s.lo j < -100 * tol then 1 else 0)
        infL := if large < s.up j then s.infL - 1 else s.infL
        maxD := s.maxD + (b - if large < s.up j then 0 else s.up j) * v }
  else s

/-- The use of the row lower bound for an entry (CglPreProcess.cpp:4870-4903, 4939-4974). -/
def lowerMove (tol rl : ℚ) (s : LState) (p : Nat × ℚ) : LState :=
  if -large < rl then
    if 0 < p.2 then s.raise tol p.1 p.2 (newLoBound s.infU s.maxU rl p.2 (s.up p.1))
    else s.cut tol p.1 p.2 (newUpBound s.infU s.maxU rl p.2 (s.lo p.1))
  else s

/-- The use of the row upper bound for an entry (CglPreProcess.cpp:4904-4938, 4975-5016). -/
def upperMove (tol ru : ℚ) (s : LState) (p : Nat × ℚ) : LState :=
  if ru < large then
    if 0 < p.2 then s.cut tol p.1 p.2 (newUpBound s.infL s.maxD ru p.2 (s.lo p.1))
    else s.raise tol p.1 p.2 (newLoBound s.infL s.maxD ru p.2 (s.up p.1))
  else s

/-- `numberChanged` after an entry (CglPreProcess.cpp:5019-5020). -/
def LState.count (s : LState) : LState := { s with changed := s.changed + (if s.any then 1 else 0) }

/-- One entry of a row (CglPreProcess.cpp:4862-5020). -/
def entry (tol rl ru : ℚ) (s : LState) (p : Nat × ℚ) : LState :=
  (upperMove tol ru (lowerMove tol rl { s with any := false } p) p).count

/-- Variables of the loop over the rows: `newLower`, `newUpper`, `numberChanged`, `numberInfeasible`. -/
structure MState where
  lo : Nat → ℚ
  up : Nat → ℚ
  changed : Nat
  infeas : Nat

/-- The variables at the start of the loop over the entries of a row. -/
def start (s : MState) (es : SVec) : LState where
  infU := flags (es.map (hiTerm s.lo s.up))
  infL := flags (es.map (loTerm s.lo s.up))
  maxU := maxUp0 s.lo s.up es
  maxD := maxDown0 s.lo s.up es
  lo := s.lo
  up := s.up
  any := false
  changed := s.changed
  infeas := s.infeas

/-- The loop over the entries of a row (CglPreProcess.cpp:4862-5020). -/
def entries (tol : ℚ) (r : Row) (s : MState) : LState := r.coefs.foldl (entry tol r.lb r.ub) (start s r.coefs)

/-- What is kept after the loop over the entries. -/
def entriesState (tol : ℚ) (r : Row) (s : MState) : MState where
  lo := (entries tol r s).lo
  up := (entries tol r s).up
  changed := (entries tol r s).changed
  infeas := (entries tol r s).infeas

/-- The row is not free (CglPreProcess.cpp:4761, 5195). -/
def active2 (r : Row) : Bool := decide (-large < r.lb) || decide (r.ub < large)

/-- "Row is redundant" (CglPreProcess.cpp:4805). -/
def redundant2 (tol : ℚ) (lo up : Nat → ℚ) (r : Row) : Bool :=
  decide (maxUp lo up r.coefs ≤ r.ub + tol) && decide (r.lb - tol ≤ maxDown lo up r.coefs)

/-- "problem is infeasible" (CglPreProcess.cpp:4811). -/
def hopeless2 (tol : ℚ) (lo up : Nat → ℚ) (r : Row) : Bool :=
  decide (maxUp lo up r.coefs < r.lb - 100 * tol) || decide (r.ub + 100 * tol < maxDown lo up r.coefs)

/-- The loop over the rows (CglPreProcess.cpp:4759-5127). -/
def mainRows (tol : ℚ) : List Row → MState → List Row × MState
  | [], s => ([], s)
  | r :: rs, s =>
    if active2 r then
      if redundant2 tol s.lo s.up r then (freed r :: (mainRows tol rs s).1, (mainRows tol rs s).2)
      else if hopeless2 tol s.lo s.up r then (r :: rs, { s with infeas := s.infeas + 1 })
      else (r :: (mainRows tol rs (entriesState tol r s)).1, (mainRows tol rs (entriesState tol r s)).2)
    else (r :: (mainRows tol rs s).1, (mainRows tol rs s).2)

/-- What the passes produce: the rows, `newLower`, `newUpper`, `totalTightened`, `numberInfeasible`. -/
structure Passes where
  rows : List Row
  lo : Nat → ℚ
  up : Nat → ℚ
  total : Nat
  infeas : Nat

/-- The passes (CglPreProcess.cpp:4752-5132), `k` of which are left; `check` is `numberCheck`, `none` before the first
pass is over (when it is -1). -/
def mainPasses (tol : ℚ) : Nat → Option Nat → List Row → (Nat → ℚ) → (Nat → ℚ) → Nat → Passes
  | 0, _, rows, lo, up, tot => ⟨rows, lo, up, tot, 0⟩
  | k + 1, check, rows, lo, up, tot =>
    if (mainRows tol rows ⟨lo, up, 0, 0⟩).2.infeas ≠ 0 ∨
        (mainRows tol rows ⟨lo, up, 0, 0⟩).2.changed ≤
          check.getD ((mainRows tol rows ⟨lo, up, 0, 0⟩).2.changed / 16) then
      ⟨(mainRows tol rows ⟨lo, up, 0, 0⟩).1, (mainRows tol rows ⟨lo, up, 0, 0⟩).2.lo,
        (mainRows tol rows ⟨lo, up, 0, 0⟩).2.up, tot + (mainRows tol rows ⟨lo, up, 0, 0⟩).2.changed,
        (mainRows tol rows ⟨lo, up, 0, 0⟩).2.infeas⟩
    else
      mainPasses tol k (some (check.getD ((mainRows tol rows ⟨lo, up, 0, 0⟩).2.changed / 16)))
        (mainRows tol rows ⟨lo, up, 0, 0⟩).1 (mainRows tol rows ⟨lo, up, 0, 0⟩).2.lo
        (mainRows tol rows ⟨lo, up, 0, 0⟩).2.up (tot + (mainRows tol rows ⟨lo, up, 0, 0⟩).2.changed)

/-- The main loop with `MAXPASS` 10. -/
def passes (c : Call) : Passes := mainPasses c.tol 10 none (rows1 c) (lo1 c) (up1 c) 0

/-! ### The new column bounds -/

/-- `floor(x+0.5)`. -/
def nearest (q : ℚ) : ℚ := ⌊q + 1/2⌋

/-- Lower bound of an integer column (CglPreProcess.cpp:5142-5145). -/
def intLo (l : ℚ) : ℚ := if |l - nearest l| < 1/100000 then nearest l else ⌈l⌉
/-- Upper bound of an integer column (CglPreProcess.cpp:5146-5149). -/
def intUp (u : ℚ) : ℚ := if |u - nearest u| < 1/100000 then nearest u else ⌊u⌋
/-- Both bounds are 0 up to 1e-8 (CglPreProcess.cpp:5153). -/
def tiny (l u : ℚ) : Bool := decide (|u| < 1/100000000) && decide (|l| < 1/100000000)
/-- Lower bound of a continuous column (CglPreProcess.cpp:5153-5155, 5171-5176). -/
def contLo (cl l u : ℚ) : ℚ :=
  if tiny l u then 0 else max cl (if 1/1000000000 < |l - nearest l| then l - 1/100000 else nearest l)
/-- Upper bound of a continuous column (CglPreProcess.cpp:5153-5156, 5177-5181). -/
def contUp (cu l u : ℚ) : ℚ :=
  if tiny l u then 0 else min cu (if 1/1000000000 < |u - nearest u| then u + 1/100000 else nearest u)

/-- The column gets new bounds (CglPreProcess.cpp:5138). -/
def moves (c : Call) (j : Nat) : Bool := decide (j < c.P.nCols) && decide (lo1 c j < up1 c j)

/-- `newLower` after the loop over the columns (CglPreProcess.cpp:5137-5190). -/
def newLo (c : Call) (j : Nat) : ℚ :=
  if moves c j then
    if c.P.isInt j then intLo ((passes c).lo j) else contLo (lo1 c j) ((passes c).lo j) ((passes c).up j)
  else (passes c).lo j
/-- `newUpper` after the loop over the columns (CglPreProcess.cpp:5137-5190). -/
def newUp (c : Call) (j : Nat) : ℚ :=
  if moves c j then
    if c.P.isInt j then intUp ((passes c).up j) else contUp (up1 c j) ((passes c).lo j) ((passes c).up j)
  else (passes c).up j

/-- The lower bound in the model, if the problem is not found to be infeasible (CglPreProcess.cpp:5183). -/
def modelLo (c : Call) (j : Nat) : ℚ := if moves c j then newLo c j else lo1 c j
/-- The upper bound in the model, if the problem is not found to be infeasible (CglPreProcess.cpp:5184). -/
def modelUp (c : Call) (j : Nat) : ℚ := if moves c j then newUp c j else up1 c j

/-- The column shows that the problem is infeasible (CglPreProcess.cpp:5150-5151, 5187-5188). -/
def badCol (c : Call) (j : Nat) : Bool :=
  if moves c j then c.P.isInt j && decide (newUp c j < newLo c j) else decide (up1 c j < lo1 c j - 1/10000000)

/-- `numberInfeasible` after the loop over the columns. -/
def badCols (c : Call) : Nat := (List.range c.P.nCols).countP (badCol c)

/-! ### "common bad formulations" -/

/-- Term of an entry in `maximumUp`; a column whose bounds meet counts as fixed at its lower bound
(CglPreProcess.cpp:5212-5245). -/
def hiTerm3 (lo up : Nat → ℚ) (p : Nat × ℚ) : Option ℚ :=
  if lo p.1 < up p.1 then hiTerm lo up p else some (lo p.1 * p.2)
/-- Term of an entry in `maximumDown` (CglPreProcess.cpp:5212-5245). -/
def loTerm3 (lo up : Nat → ℚ) (p : Nat × ℚ) : Option ℚ :=
  if lo p.1 < up p.1 then loTerm lo up p else some (lo p.1 * p.2)

/-- `maximumUp` with `sumFixed` (CglPreProcess.cpp:5247). -/
def sumUp (lo up : Nat → ℚ) (es : SVec) : ℚ := total (es.map (hiTerm3 lo up))
/-- `maximumDown` with `sumFixed` (CglPreProcess.cpp:5248). -/
def sumDown (lo up : Nat → ℚ) (es : SVec) : ℚ := total (es.map (loTerm3 lo up))
/-- `infiniteUpper`. -/
def infUp (lo up : Nat → ℚ) (es : SVec) : Nat := flags (es.map (hiTerm3 lo up))
/-- `infiniteLower`. -/
def infDown (lo up : Nat → ℚ) (es : SVec) : Nat := flags (es.map (loTerm3 lo up))

/-- `largest` (CglPreProcess.cpp:5201, 5221). -/
def largest (lo up : Nat → ℚ) (es : SVec) : ℚ :=
  es.foldl (fun m p => if lo p.1 < up p.1 then max m |p.2| else m) 0

/-- `1.0e30`. -/
def e30 : ℚ := ((10 ^ 30 : ℕ) : ℚ)

/-- The test for the lower bound of the row (CglPreProcess.cpp:5253). -/
def lowGap (lo up : Nat → ℚ) (r : Row) : Bool :=
  decide (sumDown lo up r.coefs < r.lb) && decide (r.lb - sumDown lo up r.coefs < largest lo up r.coefs) &&
    (decide (sumUp lo up r.coefs ≤ r.ub ∧ infUp lo up r.coefs = 0) || decide (e30 ≤ r.ub))

/-- The test for the upper bound of the row (CglPreProcess.cpp:5257). -/
def upGap (lo up : Nat → ℚ) (r : Row) : Bool :=
  decide (r.ub < sumUp lo up r.coefs) && decide (sumUp lo up r.coefs - r.ub < largest lo up r.coefs) &&
    (decide (r.lb ≤ sumDown lo up r.coefs ∧ infDown lo up r.coefs = 0) || decide (r.lb ≤ - e30))

/-- `gap` (CglPreProcess.cpp:5252-5261). -/
def gapOf (lo up : Nat → ℚ) (r : Row) : ℚ :=
  if lowGap lo up r then if infDown lo up r.coefs ≠ 0 then 0 else r.lb - sumDown lo up r.coefs
  else if upGap lo up r then if infUp lo up r.coefs ≠ 0 then 0 else -(sumUp lo up r.coefs - r.ub)
  else 0

/-- `newValue` (CglPreProcess.cpp:5266-5273); `d` is `difference`. -/
def newValue (isInt : Bool) (gap d v : ℚ) : ℚ :=
  if 0 < d ∧ d ≤ 1 ∧ 0 < v * gap ∧ isInt = true ∧ |gap| < |v * d| then gap / d else v

/-- The coefficient is changed (CglPreProcess.cpp:5274). -/
def differs (v w : ℚ) : Bool := decide (1/1000000000000 < |v - w|)

/-- `rhsAdjust` (CglPreProcess.cpp:5277-5299); the column bounds are those of the model.  (The test that the bound is
not 0 makes no difference to the product.) -/
def adjust (gap cl cu v w : ℚ) : ℚ :=
  if 0 < gap then (if 0 < v then cl * (v - w) else cu * (v - w))
  else (if v < 0 then cl * (v - w) else cu * (v - w))

/-- The new lower bound of the row (CglPreProcess.cpp:5300-5308). -/
def adjustLb (l a : ℚ) : ℚ := if a ≠ 0 ∧ -((10 ^ 20 : ℕ) : ℚ) < l then l - a else l
/-- The new upper bound of the row (CglPreProcess.cpp:5309-5310). -/
def adjustUb (u a : ℚ) : ℚ := if a ≠ 0 ∧ u < ((10 ^ 20 : ℕ) : ℚ) then u - a else u

/-- The loop over the entries of a row (CglPreProcess.cpp:5263-5339): the new row and `numberChanges`.  `gap` is
computed before the loop; `done` are the entries already looked at. -/
def strengthenLoop (isInt : Nat → Bool) (nl nu ml mu : Nat → ℚ) (gap : ℚ) : SVec → SVec → ℚ → ℚ → Nat → Row × Nat
  | [], done, l, u, n => (⟨l, u, done⟩, n)
  | p :: es, done, l, u, n =>
    if differs p.2 (newValue (isInt p.1) gap (nu p.1 - nl p.1) p.2) then
      strengthenLoop isInt nl nu ml mu gap es
        (done ++ [(p.1, newValue (isInt p.1) gap (nu p.1 - nl p.1) p.2)])
        (adjustLb l (adjust gap (ml p.1) (mu p.1) p.2 (newValue (isInt p.1) gap (nu p.1 - nl p.1) p.2)))
        (adjustUb u (adjust gap (ml p.1) (mu p.1) p.2 (newValue (isInt p.1) gap (nu p.1 - nl p.1) p.2)))
        (n + 1)
    else strengthenLoop isInt nl nu ml mu gap es (done ++ [p]) l u n

/-- One row (CglPreProcess.cpp:5194-5340). -/
def strengthenRow (c : Call) (r : Row) : Row × Nat :=
  if active2 r ∧ 1/100000000 < |gapOf (newLo c) (newUp c) r| then
    strengthenLoop c.P.isInt (newLo c) (newUp c) (modelLo c) (modelUp c) (gapOf (newLo c) (newUp c) r)
      r.coefs [] r.lb r.ub 0
  else (r, 0)

/-- The rows with the changed coefficients and bounds. -/
def strengthened (c : Call) : List Row := (passes c).rows.map fun r => (strengthenRow c r).1
/-- `numberChanges`. -/
def numberChanges (c : Call) : Nat := ((passes c).rows.map fun r => (strengthenRow c r).2).sum
/-- `nFreed` (CglPreProcess.cpp:5343). -/
def nFreed (c : Call) : Nat := (passes c).rows.countP fun r => ! active2 r

/-- The matrix of the model keeps the order of its entries unless `replaceMatrixOptional` is called
(CglPreProcess.cpp:5346-5350); the row bounds are those of the run. -/
def withBounds (rs ts : List Row) : List Row := List.zipWith (fun r t => ⟨t.lb, t.ub, r.coefs⟩) rs ts

/-- What the caller sees: the changed model and the return value. -/
structure Out where
  prob : Prob
  ret : ℤ

/-- The model when the problem was found to be infeasible (CglPreProcess.cpp:5353-5358). -/
def restored (c : Call) (n : Nat) : Out where
  prob := { c.P with
    colLower := lo1 c
    colUpper := up1 c
    rows := withBounds c.P.rows (passes c).rows }
  ret := -(n : ℤ)

/-- The return value of a run that finds no infeasibility (CglPreProcess.cpp:5369-5371). -/
def retValue (c : Call) : ℤ :=
  if nFreed c ≠ 0 then (passes c).total + 1073741824 + nFreed c else (passes c).total

/-- The model after a run that finds no infeasibility. -/
def finished (c : Call) : Out where
  prob := { c.P with
    colLower := modelLo c
    colUpper := modelUp c
    rows := if numberChanges c ≠ 0 then strengthened c else withBounds c.P.rows (strengthened c) }
  ret := retValue c

/-- `tightenPrimalBounds` (CglPreProcess.cpp:4640-5373). -/
def tightenPrimalBounds (c : Call) : Out :=
  if (passes c).infeas ≠ 0 then restored c (passes c).infeas
  else if badCols c ≠ 0 then restored c (badCols c)
  else finished c

end Cgl.PreTighten
