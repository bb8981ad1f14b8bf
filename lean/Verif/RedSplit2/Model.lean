import Verif.RedSplit.Row
import Verif.Param.Strategies
import Mathlib.Data.List.Sort

/-!
# Model of CglRedSplit2

`src/CglRedSplit2/CglRedSplit2.cpp` with its default macros: `RS_FAST_INT`, `RS_FAST_CONT` and `RS_FAST_WORK` are 2,
`RS2_USE_LAPACK`, `CHECK_SPLIT_TIME` and the tracing macros are off.  Without `CHECK_SPLIT_TIME` the function `checkTime`
(`CglRedSplit2.hpp` 321-323) is constantly true, so the time limit plays no part.  `double` is read as exact rational
arithmetic, the tolerances are kept.  An index below `ncol` is a column, `ncol + i` is the slack of row `i`.  What is
shared with `CglRedSplit` (statuses, tableau entries, flipping) is taken from `Verif.RedSplit`.
-/

namespace Cgl.RedSplit2

open RedSplit (stat indices nonBasic goodModel flip tabv Dense)

/-- The numeric parameters. -/
abbrev Prm := Param.RedSplit2.Obj

/-- How a call can fail. -/
inductive Fault
  /-- an array is accessed outside its bounds -/
  | outside
  /-- memory that was never written is read -/
  | uninitialised
  /-- failed assertion -/
  | assertion
  /-- arithmetic on `int` out of range -/
  | overflow
  /-- the program is ended by `exit(1)` -/
  | exit
deriving DecidableEq, Repr

/-- What the generator reads from the LP solver besides the problem; the members of `CglRedSplit`, reduced costs and row
prices. -/
structure Lp extends RedSplit.Lp where
  redCost : Nat → ℚ
  price : Nat → ℚ

/-- What a call works with: parameters, lists of strategies, problem, LP data, the library function `sqrt`, and the
solution of linear systems.  Simplification: the LU decomposition (`ludcmp`, `lubksb`, `CglRedSplit2.cpp` 259-339) is any
function of the system; `none` if it reports a singular matrix.  Its result is rounded and checked before it is used. -/
structure Call where
  prm : Prm
  strat : Param.Strat.Obj
  P : Prob
  lp : Lp
  sqrt : ℚ → ℚ
  solve : Nat → (Nat → Nat → ℚ) → (Nat → ℚ) → Option (Nat → ℚ)

/-- The getters of `CglRedSplit2Param`. -/
abbrev Call.par (c : Call) : Param.RedSplit2.Name → ℚ := Param.RedSplit2.get c.prm

/-- `TINY` (`CglRedSplit2.cpp` 47). -/
def tiny : ℚ := 1 / 10^20

/-- `rs2round` (`CglRedSplit2.cpp` 49). -/
def rround (v : ℚ) : ℤ := ⌊v + 1 / 2⌋

/-- `rs_above_integer` (`CglRedSplit2.cpp` 87-94). -/
def aboveInteger (c : Call) (v : ℚ) : ℚ :=
  if |(rround v : ℚ) - v| < c.par .EPS * (|(rround v : ℚ)| + 1) then 0 else v - ⌊v⌋

/-- `compute_is_integer` (`CglRedSplit2.cpp` 2194-2213). -/
def isInteger (c : Call) (j : Nat) : Bool :=
  if c.P.isInt j then true
  else decide (c.P.colUpper j - c.P.colLower j < c.par .EPS) && decide (aboveInteger c (c.P.colUpper j) < c.par .EPS)

/-- Member of `intNonBasicVar` (`CglRedSplit2.cpp` 1692-1695, 1710-1713). -/
def intNB (c : Call) (j : Nat) : Bool :=
  nonBasic c.P c.lp.toLp j && decide (j < c.P.nCols) && isInteger c j

/-- Member of `contNonBasicVar` (`CglRedSplit2.cpp` 1696-1699, 1714-1717, 1745-1755). -/
def contNB (c : Call) (j : Nat) : Bool := nonBasic c.P c.lp.toLp j && ! intNB c j

/-- `intNonBasicVar`. -/
def intVars (c : Call) : List Nat := (indices c.P).filter (intNB c)

/-- `contNonBasicVar`. -/
def contVars (c : Call) : List Nat := (indices c.P).filter (contNB c)

/-- `cv_intBasicVar` (`CglRedSplit2.cpp` 1662, 1665-1680). -/
def isIntBasic (c : Call) (j : Nat) : Bool := decide (c.lp.cstat j = 1) && isInteger c j

/-- `cv_intBasicVar_frac` (`CglRedSplit2.cpp` 1668-1673). -/
def isFrac (c : Call) (j : Nat) : Bool :=
  isIntBasic c j && decide (c.par .away < aboveInteger c (c.lp.xlp j)) &&
    decide (aboveInteger c (c.lp.xlp j) < 1 - c.par .away)

/-- `mTab` (`CglRedSplit2.cpp` 1677, 1799): all integer basic columns. -/
def mTab (c : Call) : Nat := ((List.range c.P.nCols).filter (isIntBasic c)).length

/-- `effective_rhs` (`CglRedSplit2.cpp` 1733-1757). -/
def effRhs (c : Call) (i : Nat) : ℚ :=
  if c.lp.rstat i = 2 then (c.P.row i).lb else if c.lp.rstat i = 3 then (c.P.row i).ub else c.P.rhs i

/-- The assertion of line 1766. -/
def rhsOk (c : Call) : Bool := (List.range c.P.rows.length).all fun i => decide (|effRhs c i| < 10^100)

/-! ### The rows of the tableau that are kept -/

/-- `nonzeroes` (`CglRedSplit2.cpp` 1844-1870). -/
def nonzeroes (c : Call) (r : Nat) : Nat :=
  ((contVars c ++ intVars c).filter fun j => decide (tiny < |tabv c.P c.lp.toLp r j|)).length

/-- The row belongs to an integer basic column (`CglRedSplit2.cpp` 1824-1828). -/
def usable (c : Call) (r : Nat) : Bool := decide (c.lp.basis r < c.P.nCols) && isIntBasic c (c.lp.basis r)

/-- The loop of lines 1820-1883: the rows whose data are in the slots of `rhsTab` and of the two tableaus.  A row with too
many nonzeros is written into the next slot but does not advance the counter, so the next row overwrites it; `pending` is
such a row. -/
def fill (c : Call) : List Nat → List Nat → Option Nat → List Nat
  | [], kept, pending => kept ++ pending.toList
  | r :: l, kept, pending =>
    if usable c r then
      if (nonzeroes c r : ℚ) < c.par .maxNonzeroesTab then fill c l (kept ++ [r]) none
      else fill c l kept (some r)
    else fill c l kept pending

/-- The slots that are written. -/
def slots (c : Call) : List Nat := fill c (List.range c.P.rows.length) [] none

/-- Entry of the tableau in slot `k`; slots that are not written are zero (`calloc`). -/
def tab (c : Call) (k j : Nat) : ℚ :=
  match (slots c)[k]? with
  | none => 0
  | some r => tabv c.P c.lp.toLp r j

/-- An entry of an integer column as the sparse copy has it (`CglRedSplit2.cpp` 1898-1902). -/
def cut0 (v : ℚ) : ℚ := if tiny < |v| then v else 0

/-! ### The working columns -/

/-- Bounds of the loop of strategy `CS(k+1)` over the `n` sorted columns (`CglRedSplit2.cpp` 752-1039). -/
def csRange (k n : Nat) : Nat × Nat :=
  match k with
  | 0 => (0, n / 3)
  | 1 => (n / 3, 2 * n / 3)
  | 2 => (2 * n / 3, n)
  | 3 => (0, n / 5)
  | 4 => (n / 5, 2 * n / 5)
  | 5 => (2 * n / 5, 3 * n / 5)
  | 6 => (3 * n / 5, 4 * n / 5)
  | 7 => (4 * n / 5, n)
  | 8 => (0, 2 * n / 3)
  | 9 => (0, 2 * n / 3)
  | 10 => (0, 4 * n / 5)
  | 11 => (0, 4 * n / 5)
  | 12 => (0, n / 2)
  | 13 => (0, n / 2)
  | _ => (0, n)

/-- Pattern of strategy `CS(k+1)`, same lines. -/
def csPattern (k i : Nat) : Bool :=
  match k with
  | 8 => decide (i % 6 = 0 ∨ i % 6 = 1 ∨ i % 6 = 4)
  | 9 => decide (i % 6 = 2 ∨ i % 6 = 3 ∨ i % 6 = 5)
  | 10 => decide (i % 8 = 0 ∨ i % 8 = 4 ∨ i % 8 = 5 ∨ i % 8 = 6)
  | 11 => decide (i % 8 = 1 ∨ i % 8 = 2 ∨ i % 8 = 3 ∨ i % 8 = 7)
  | 12 => decide (i % 4 = 0 ∨ i % 4 = 3)
  | 13 => decide (i % 4 = 1 ∨ i % 4 = 2)
  | 14 => decide (i % 3 = 0)
  | 15 => decide (i % 3 = 1)
  | 16 => decide (i % 3 = 2)
  | 17 => decide (i % 8 = 0 ∨ i % 8 = 2)
  | 18 => decide (i % 8 = 1 ∨ i % 8 = 6)
  | 19 => decide (i % 8 = 3 ∨ i % 8 = 7)
  | 20 => decide (i % 8 = 4 ∨ i % 8 = 5)
  | _ => true

/-- Positions that strategy `CS(k+1)` takes. -/
def csPositions (k n : Nat) : List Nat :=
  (List.range n).filter fun i => decide ((csRange k n).1 ≤ i) && decide (i < (csRange k n).2) && csPattern k i

/-- Cost of a column (`CglRedSplit2.cpp` 741-744). -/
def colCost (c : Call) (j : Nat) : ℚ := if j < c.P.nCols then |c.lp.redCost j| else |c.lp.price (j - c.P.nCols)|

/-- Order of `rs2_compareElements` (`CglRedSplit2.cpp` 69-82). -/
def before (a b : Nat × ℚ) : Prop := a.2 < b.2 ∨ (a.2 = b.2 ∧ a.1 ≤ b.1)

instance : DecidableRel before := fun a b => by unfold before; infer_instance

/-- `qsort` with that order. -/
def qsort (l : List (Nat × ℚ)) : List (Nat × ℚ) := l.insertionSort before

/-- The continuous nonbasic columns, sorted (`CglRedSplit2.cpp` 724-747). -/
def sortedCont (c : Call) : List Nat :=
  (qsort ((List.range (contVars c).length).map fun i => (i, colCost c ((contVars c).getD i 0)))).map
    fun e => (contVars c).getD e.1 0

/-- `fill_workNonBasicTab` (`CglRedSplit2.cpp` 707-1077) without list of columns to ignore: the columns of
`workNonBasicTab`. -/
def workCols (c : Call) : Param.Strat.CS → List Nat
  | .allcont => contVars c
  | .cs k => (csPositions k.val (sortedCont c).length).map fun i => (sortedCont c).getD i 0
  | _ => []

/-- `rs_dotProd` over some columns (`CglRedSplit2.cpp` 216-246). -/
def dotOn (W : List Nat) (u v : Nat → ℚ) : ℚ := (W.map fun j => u j * v j).sum

/-- `norm` (`CglRedSplit2.cpp` 1062-1074). -/
def norm (c : Call) (W : List Nat) (k : Nat) : ℚ := dotOn W (tab c k) (tab c k)

/-! ### Choice of the rows to combine -/

/-- Not taken as zero. -/
def big (c : Call) (v : ℚ) : Bool := decide (c.par .EPS_COEFF < |v|)

/-- Which columns a rule looks at: `whichTab` (`CglRedSplit2.cpp` 391-408): 0 integer, 1 working, 2 both. -/
def ruleCols (c : Call) (W : List Nat) (which : Nat) : List Nat :=
  (if which = 0 ∨ which = 2 then intVars c else []) ++ (if which = 1 ∨ which = 2 then W else [])

/-- `cost` (`CglRedSplit2.cpp` 390-408): how many nonzeros row `i` brings into row `k`. -/
def newNonzeros (c : Call) (W : List Nat) (which k i : Nat) : ℚ :=
  ((ruleCols c W which).filter fun j => ! big c (tab c k j) && big c (tab c i j)).length

/-- Row `i` is considered (`CglRedSplit2.cpp` 375-388). -/
def candidate (c : Call) (W : List Nat) (k i : Nat) : Bool :=
  decide (i ≠ k) && decide (c.par .normIsZero < norm c W i) && W.any fun j => big c (tab c k j) && big c (tab c i j)

/-- Exchange two entries. -/
def swap {α : Type} (l : List α) (i j : Nat) : List α :=
  match l[i]?, l[j]? with
  | some a, some b => (l.set i b).set j a
  | _, _ => l

/-- The loop of `sort_rows_by_nonzeroes` (`CglRedSplit2.cpp` 363-417): `arr` is `array`, `nz` is `numZeroCost`. -/
def nzLoop (c : Call) (W : List Nat) (which k maxRows : Nat) : List Nat → List (Nat × ℚ) → Nat → List (Nat × ℚ)
  | [], arr, _ => arr
  | i :: l, arr, nz =>
    if nz = maxRows then arr.take nz
    else if candidate c W k i then
      if newNonzeros c W which k i = 0 then
        nzLoop c W which k maxRows l (swap (arr ++ [(i, 0)]) nz arr.length) (nz + 1)
      else nzLoop c W which k maxRows l (arr ++ [(i, newNonzeros c W which k i)]) nz
    else nzLoop c W which k maxRows l arr nz

/-- `sort_rows_by_nonzeroes` (`CglRedSplit2.cpp` 358-422). -/
def byNonzeros (c : Call) (W : List Nat) (which k maxRows : Nat) : List (Nat × ℚ) :=
  let arr := nzLoop c W which k maxRows (List.range (mTab c)) [] 0
  if maxRows < arr.length then qsort arr else arr

/-- How many of the positions `z` row `i` fills (`CglRedSplit2.cpp` 479-489). -/
def fills (c : Call) (z : List Nat) (i : Nat) : ℚ := (z.filter fun j => big c (tab c i j)).length

/-- The search of lines 472-499 from position `i` on: the array with the costs updated, the best position and its cost. -/
def greedyScan (c : Call) (z : List Nat) (maxNz : ℚ) : Nat → Nat → List (Nat × ℚ) → Nat → ℚ → List (Nat × ℚ) × Nat
  | 0, _, arr, best, _ => (arr, best)
  | fuel + 1, i, arr, best, minNz =>
    match arr[i]? with
    | none => (arr, best)
    | some e =>
      if e.2 < maxNz then
        let v := fills c z e.1
        let arr' := arr.set i (e.1, v)
        if v = 0 then (arr', if v < minNz then i else best)
        else if v < minNz then greedyScan c z maxNz fuel (i + 1) arr' i v
        else greedyScan c z maxNz fuel (i + 1) arr' best minNz
      else (arr, best)

/-- The loops of lines 509-520: a filled position is replaced by the last one, which is then not looked at. -/
def prune (p : Nat → Bool) : Nat → Nat → List Nat → List Nat
  | 0, _, z => z
  | fuel + 1, j, z =>
    match z[j]? with
    | none => z
    | some a => if p a then prune p fuel (j + 1) ((z.set j (z.getLastD 0)).dropLast) else prune p fuel (j + 1) z

/-- The loop of lines 467-522: `counter` rows are chosen, `zi` and `zw` are `z_int` and `z_cont`. -/
def greedyLoop (c : Call) (maxRows : Nat) : Nat → Nat → List (Nat × ℚ) → List Nat → List Nat → List (Nat × ℚ)
  | 0, counter, arr, _, _ => arr.take counter
  | fuel + 1, counter, arr, zi, zw =>
    if counter < maxRows ∧ counter < arr.length then
      let maxNz := (arr.getD counter (0, 0)).2 + (arr.getD (counter - 1) (0, 0)).2
      let s := greedyScan c (zi ++ zw) maxNz arr.length counter arr counter (zi.length + zw.length : Nat)
      let row := (s.1.getD s.2 (0, 0)).1
      greedyLoop c maxRows fuel (counter + 1) (swap s.1 counter s.2)
        (prune (fun j => big c (tab c row j)) zi.length 0 zi) (prune (fun j => big c (tab c row j)) zw.length 0 zw)
    else arr.take counter

/-- Columns in which row `k` is taken as zero (`CglRedSplit2.cpp` 444-457). -/
def zeros (c : Call) (k : Nat) (l : List Nat) : List Nat := l.filter fun j => ! big c (tab c k j)

/-- `sort_rows_by_nonzeroes_greedy` (`CglRedSplit2.cpp` 424-529). -/
def greedy (c : Call) (W : List Nat) (which k maxRows : Nat) : List (Nat × ℚ) :=
  let arr := byNonzeros c W which k maxRows
  if maxRows < arr.length then
    greedyLoop c maxRows maxRows 1 arr (zeros c k (if which = 0 ∨ which = 2 then intVars c else []))
      (zeros c k (if which = 1 ∨ which = 2 then W else []))
  else arr

/-- Inner product over the columns of a rule.  Simplification: entries of integer columns up to `TINY` count as zero in
both factors (the code drops them in the factor with fewer entries); this only affects the order of the rows. -/
def ruleDot (c : Call) (W : List Nat) (which k i : Nat) : ℚ × ℚ :=
  (if which = 2 then dotOn (intVars c) (fun j => cut0 (tab c k j)) (fun j => cut0 (tab c i j)) else 0,
    dotOn W (tab c k) (tab c i))

/-- `cost` of a row (`CglRedSplit2.cpp` 571-640). -/
def cosine (c : Call) (W : List Nat) (which k i : Nat) : ℚ :=
  (- |(ruleDot c W which k i).1| - |(ruleDot c W which k i).2|) /
    c.sqrt (((ruleDot c W which k k).1 + norm c W k) * ((ruleDot c W which i i).1 + norm c W i))

/-- `sort_rows_by_cosine` (`CglRedSplit2.cpp` 532-650) for `whichTab` 1 and 2, the values it is called with. -/
def byCosine (c : Call) (W : List Nat) (which k maxRows : Nat) : List (Nat × ℚ) :=
  let arr := (((List.range (mTab c)).filter fun i =>
    decide (i ≠ k) && decide (c.par .normIsZero < norm c W i)).map fun i => (i, cosine c W which k i)).filter fun e =>
      decide (e.2 ≠ 0)
  if maxRows ≤ arr.length then qsort arr else arr

/-- The rows in order of preference (`CglRedSplit2.cpp` 663-696). -/
def ranked (c : Call) (W : List Nat) (k maxRows : Nat) : Param.Strat.RS → List (Nat × ℚ)
  | .rs 0 => byNonzeros c W 0 k maxRows
  | .rs 1 => byNonzeros c W 1 k maxRows
  | .rs 2 => byNonzeros c W 2 k maxRows
  | .rs 3 => greedy c W 0 k maxRows
  | .rs 4 => greedy c W 1 k maxRows
  | .rs 5 => greedy c W 2 k maxRows
  | .rs 6 => byCosine c W 2 k maxRows
  | .rs 7 => byCosine c W 1 k maxRows
  | _ => []

/-- `get_list_rows_reduction` (`CglRedSplit2.cpp` 653-705) for at most `n ≥ 2` rows. -/
def rowList (c : Call) (W : List Nat) (n k : Nat) (rs : Param.Strat.RS) : List Nat :=
  k :: ((ranked c W k (n - 1) rs).take (n - 1)).map Prod.fst

/-! ### Multipliers -/

/-- Matrix of the linear system (`CglRedSplit2.cpp` 1128-1160). -/
def sysA (c : Call) (W l : List Nat) (k : Nat) (normalize : Bool) (i j : Nat) : ℚ :=
  if l.getD i 0 = k ∨ l.getD j 0 = k then (if l.getD i 0 = k ∧ i = j then 1 else 0)
  else dotOn W (tab c (l.getD i 0)) (tab c (l.getD j 0)) +
    if normalize ∧ i = j then norm c W k * c.par .normalization else 0

/-- Right-hand side (`CglRedSplit2.cpp` 1153-1166). -/
def sysB (c : Call) (W l : List Nat) (k i : Nat) : ℚ :=
  if l.getD i 0 = k then 1 else - dotOn W (tab c (l.getD i 0)) (tab c k)

/-- `sumnorm` (`CglRedSplit2.cpp` 1187-1194): the sum stops when it exceeds the limit. -/
def sumNorm (limit : ℚ) : List ℤ → ℚ → ℚ
  | [], s => s
  | b :: l, s => if limit < s + |(b : ℚ)| then s + |(b : ℚ)| else sumNorm limit l (s + |(b : ℚ)|)

/-- The squared norm of a combination of the rows in a list (`CglRedSplit2.cpp` 342-355). -/
def comboNorm (c : Call) (W l : List Nat) (b : List ℤ) : ℚ :=
  (W.map fun j => ((List.range l.length).map fun i => (b.getD i 0 : ℚ) * tab c (l.getD i 0) j).sum ^ 2).sum

/-- What a round for one row leads to: nothing, the same row again with normalization, or multipliers for the rows of the
list. -/
inductive Outcome
  | nothing (flag : Bool)
  | again
  | found (l : List Nat) (b : List ℤ)

/-- The round for row `k` (`CglRedSplit2.cpp` 1114-1225); the flag is `resolveWithNormalization`, which is left on when
the system is singular or its solution is useless. -/
def rowRound (c : Call) (W : List Nat) (n k : Nat) (rs : Param.Strat.RS) (flag : Bool) : Outcome :=
  if norm c W k ≤ c.par .normIsZero then .nothing flag
  else
    let l := rowList c W n k rs
    if l.length ≤ 1 then .nothing flag
    else
      match c.solve l.length (sysA c W l k flag) (sysB c W l k) with
      | none => .nothing flag
      | some sol =>
        let b := (List.range l.length).map fun i => rround (sol i)
        let s := sumNorm (c.par .maxSumMultipliers) b 0
        if s = 1 then .nothing flag
        else if c.par .maxSumMultipliers < s then (if flag then .nothing false else .again)
        else if comboNorm c W l b - norm c W k ≤ - norm c W k * c.par .minNormReduction then .found l b
        else .nothing false

/-- Write multipliers into row `k` of `pi_mat` (`CglRedSplit2.cpp` 1220-1222). -/
def setPi (pi : Nat → Nat → ℤ) (k : Nat) (l : List Nat) (b : List ℤ) : Nat → Nat → ℤ :=
  Function.update pi k fun r => if r ∈ l then b.getD (l.idxOf r) 0 else pi k r

/-- The loop of lines 1108-1226 over the rows. -/
def reduceLoop (c : Call) (W : List Nat) (n : Nat) (rs : Param.Strat.RS) : List Nat → Bool → (Nat → Nat → ℤ) →
    (Nat → Nat → ℤ)
  | [], _, pi => pi
  | k :: l, flag, pi =>
    match rowRound c W n k rs flag with
    | .nothing f => reduceLoop c W n rs l f pi
    | .found li b => reduceLoop c W n rs l false (setPi pi k li b)
    | .again =>
      match rowRound c W n k rs true with
      | .nothing f => reduceLoop c W n rs l f pi
      | .found li b => reduceLoop c W n rs l false (setPi pi k li b)
      | .again => reduceLoop c W n rs l true pi

/-- `reduce_workNonBasicTab` (`CglRedSplit2.cpp` 1079-1246).  With a limit of 0 rows, which
`addNumRowsReduction` accepts, `list` has no elements and `list[0]` is written. -/
def reduce (c : Call) (W : List Nat) (numRows : ℤ) (rs : Param.Strat.RS) (pi : Nat → Nat → ℤ) :
    Except Fault (Nat → Nat → ℤ) :=
  let n := min numRows (mTab c)
  if n = 1 then .ok pi
  else if n ≤ 0 then
    if (List.range (mTab c)).any fun k => decide (c.par .normIsZero < norm c W k) then .error .outside else .ok pi
  else .ok (reduceLoop c W n.toNat rs (List.range (mTab c)) false pi)

/-! ### The cut of one combination -/

/-- `generate_row` (`CglRedSplit2.cpp` 1334-1358). -/
def comboRow (c : Call) (m : Nat → ℤ) (j : Nat) : ℚ :=
  if contNB c j then ((List.range (mTab c)).map fun k => (m k : ℚ) * tab c k j).sum
  else if intNB c j then ((List.range (mTab c)).map fun k => (m k : ℚ) * cut0 (tab c k j)).sum
  else 0

/-- `rhsTab` (`CglRedSplit2.cpp` 1842) in a slot that is written. -/
def rhsTab (c : Call) (k : Nat) : ℚ := c.lp.xlp (c.lp.basis ((slots c).getD k 0))

/-- `tabrowrhs` (`CglRedSplit2.cpp` 2045). -/
def comboRhs (c : Call) (m : Nat → ℤ) : ℚ := ((List.range (mTab c)).map fun k => (m k : ℚ) * rhsTab c k).sum

/-- Coefficient in `generate_cgcut` (`CglRedSplit2.cpp` 1394-1414). -/
def cgCoef (f0 : ℚ) (int cont : Bool) (f v : ℚ) : ℚ :=
  if int then (if f0 < f then - ((1 - f) * f0) else - (f * (1 - f0)))
  else if cont then (if v < 0 then v * f0 else - (v * (1 - f0)))
  else v

/-- `generate_cgcut` (`CglRedSplit2.cpp` 1363-1423); `none` if it returns 0. -/
def cgCut (c : Call) (d : Dense) : Option Dense :=
  let f0 := aboveInteger c d.rhs
  if f0 < c.par .away ∨ 1 - f0 < c.par .away then none
  else some ⟨fun j => cgCoef f0 (intNB c j) (contNB c j) (aboveInteger c (d.row j)) (d.row j), - f0 * (1 - f0)⟩

/-- The row after `flip` (`CglRedSplit2.cpp` 1447-1453), with its right-hand side. -/
def flipped (c : Call) (m : Nat → ℤ) : Dense := ⟨flip c.P c.lp.toLp (comboRow c m), comboRhs c m⟩

/-- `unflip` (`CglRedSplit2.cpp` 1456-1473): only columns are shifted. -/
def unflip (c : Call) (d : Dense) : Dense :=
  ⟨flip c.P c.lp.toLp d.row,
   d.rhs + ((List.range c.P.nCols).map fun j =>
    if stat c.P c.lp.toLp j = 3 then d.row j * c.P.colLower j
    else if stat c.P c.lp.toLp j = 2 then - d.row j * c.P.colUpper j else 0).sum⟩

/-- `eliminate_slacks` (`CglRedSplit2.cpp` 1426-1444). -/
def eliminate (c : Call) (d : Dense) : Dense :=
  let l := (List.range c.P.rows.length).filter fun i => decide (c.par .EPS_ELIM < |d.row (c.P.nCols + i)|)
  ⟨fun j => d.row j - (l.map fun i => d.row (c.P.nCols + i) * (c.P.row i).coef j).sum,
   d.rhs - (l.map fun i => d.row (c.P.nCols + i) * effRhs c i).sum⟩

/-- `check_dynamism` (`CglRedSplit2.cpp` 1476-1500). -/
def dynOk (c : Call) (row : Nat → ℚ) : Bool :=
  let cols := List.range c.P.nCols
  let maxVal := cols.foldl (fun m j => max m |row j|) 0
  let minVal := (cols.filter fun j => big c (row j)).foldl (fun m j => min m |row j|) (c.par .INFINIT)
  decide (maxVal < c.par .MAXDYN * minVal ∧ minVal ≤ maxVal)

/-- `max_support` (`CglRedSplit2.cpp` 1509-1510). -/
def maxSupport (c : Call) : Except Fault ℤ :=
  match castInt (c.P.nCols * c.par .MAX_SUPP_REL) with
  | none => .error .overflow
  | some v => if RedSplit.fitsInt (⌊c.par .MAX_SUPPORT⌋ + v) then .ok (⌊c.par .MAX_SUPPORT⌋ + v) else .error .overflow

/-- What is taken off the right-hand side for a coefficient that is dropped (`CglRedSplit2.cpp` 1533-1540). -/
def taken (c : Call) (j : Nat) (v : ℚ) : ℚ :=
  if 0 < v then v * max (c.P.colLower j) (-10^20) else v * min (c.P.colUpper j) (10^20)

/-- The coefficients of the packed row (`CglRedSplit2.cpp` 1521-1526). -/
def packed (c : Call) (d : Dense) : SVec :=
  ((List.range c.P.nCols).filter fun j => big c (d.row j)).map fun j => (j, d.row j)

/-- Its right-hand side (`CglRedSplit2.cpp` 1533-1540). -/
def packedRhs (c : Call) (d : Dense) : ℚ :=
  d.rhs - (((List.range c.P.nCols).filter fun j => ! big c (d.row j)).map fun j => taken c j (d.row j)).sum

/-- `generate_packed_row` (`CglRedSplit2.cpp` 1503-1560); `ok none` if it returns 0. -/
def packRow (c : Call) (d : Dense) : Except Fault (Option (SVec × ℚ)) :=
  match maxSupport c with
  | .error e => .error e
  | .ok s =>
    .ok (if dynOk c d.row = false then none
      else if s < (packed c d).length then none
      else if packedRhs c d < SVec.dot (packed c d) c.lp.xlp ∧
        SVec.dot (packed c d) c.lp.xlp - packedRhs c d < c.par .MINVIOL * (packed c d).length then none
      else some (packed c d, packedRhs c d))

/-- `adjust` (`CglRedSplit2.cpp` 2108-2111). -/
def adjust (c : Call) (rhs : ℚ) : ℚ :=
  if 0 < c.par .EPS_RELAX_REL then c.par .EPS_RELAX_ABS + |rhs| * c.par .EPS_RELAX_REL else c.par .EPS_RELAX_ABS

/-- A cut that was found: the cut, its `quality` (`CglRedSplit2.cpp` 2090-2099) and its multipliers by row of the
problem. -/
structure Found where
  cut : RowCut
  quality : ℚ
  lambda : List ℤ

/-- `cost` of a cut (`CglRedSplit2.cpp` 2092-2098). -/
def qualityOf (c : Call) (es : SVec) (rhs : ℚ) : ℚ := (rhs - SVec.dot es c.lp.xlp) / (es.map fun p => p.2 * p.2).sum

/-- The vector of multipliers by row of the problem (`CglRedSplit2.cpp` 2066-2069). -/
def lambdaOf (c : Call) (m : Nat → ℤ) : List ℤ :=
  (List.range c.P.rows.length).map fun r => if r ∈ slots c then m ((slots c).idxOf r) else 0

/-- The multipliers of a single row (`CglRedSplit2.cpp` 2054-2055). -/
def unit (i k : Nat) : ℤ := if k = i then 1 else 0

/-- The combination a cut is made from (`CglRedSplit2.cpp` 2036-2061): the one that was found, or row `i` alone. -/
def chosen (c : Call) (m : Nat → ℤ) (i : Nat) : Option ((Nat → ℤ) × Dense) :=
  match cgCut c (flipped c m) with
  | some d => some (m, d)
  | none =>
    if c.par .skipGomory = 0 then (cgCut c (flipped c (unit i))).map fun d => (unit i, d) else none

/-- What the caller asks for: `cs != NULL` and `lambda != NULL`. -/
structure Wanted where
  cuts : Bool
  lambda : Bool

/-- The buffer of cuts and what was found so far; `numCuts` is the length of `found`. -/
structure Acc where
  cuts : List RowCut
  found : List Found

/-- Lines 2090-2122: record a cut. -/
def record (w : Wanted) (a : Acc) (f : Found) : Acc :=
  if w.cuts then
    if f.cut ∈ a.cuts then a else ⟨insertIfNotDuplicate a.cuts f.cut, a.found ++ [f]⟩
  else ⟨a.cuts, a.found ++ [f]⟩

/-- The cut of row `i` of `pi_mat` (`CglRedSplit2.cpp` 2034-2126).  Computing the right-hand side reads all of `rhsTab`.
`insertIfNotDuplicateAndClean` is outside `/repo` and read as `insertIfNotDuplicate`. -/
def oneCut (c : Call) (w : Wanted) (m : Nat → ℤ) (i : Nat) (a : Acc) : Except Fault Acc :=
  if m i = 0 then .ok a
  else if (slots c).length < mTab c then .error .uninitialised
  else
    match chosen c m i with
    | none => .ok a
    | some (m', d) =>
      if w.lambda ∧ ∃ f ∈ a.found, f.lambda = lambdaOf c m' then .ok a
      else
        match packRow c (eliminate c (unflip c d)) with
        | .error e => .error e
        | .ok none => .ok a
        | .ok (some (es, rhs)) =>
          .ok (record w a ⟨⟨- c.par .INFINIT, rhs + adjust c rhs, es⟩, qualityOf c es rhs, lambdaOf c m'⟩)

/-- The loop of lines 2033-2127. -/
def cutLoop (c : Call) (w : Wanted) (pi : Nat → Nat → ℤ) : List Nat → Acc → Except Fault Acc
  | [], a => .ok a
  | i :: l, a =>
    if (a.found.length : ℚ) < c.par .maxNumComputedCuts then
      match oneCut c w (pi i) i a with
      | .error e => .error e
      | .ok b => cutLoop c w pi l b
    else .ok a

/-- `pi_mat` at the start of a round (`CglRedSplit2.cpp` 2025-2030). -/
def startPi (c : Call) (i j : Nat) : ℤ := if c.par .skipGomory = 0 ∧ i = j then 1 else 0

/-- The rounds in order (`CglRedSplit2.cpp` 1998-2020): columns, number of rows, row strategy. -/
def rounds (c : Call) : List (Param.Strat.CS × ℤ × Param.Strat.RS) :=
  c.strat.cols.flatMap fun s => c.strat.rows.flatMap fun n => c.strat.rsel.map fun r => (s, n, r)

/-- The loops of lines 1998-2130. -/
def mainLoop (c : Call) (w : Wanted) : List (Param.Strat.CS × ℤ × Param.Strat.RS) → Acc → Except Fault Acc
  | [], a => .ok a
  | (s, n, r) :: l, a =>
    if (a.found.length : ℚ) < c.par .maxNumComputedCuts then
      match reduce c (workCols c s) n r (startPi c) with
      | .error e => .error e
      | .ok pi =>
        match cutLoop c w pi (List.range (mTab c)) a with
        | .error e => .error e
        | .ok b => mainLoop c w l b
    else .ok a

/-- The cuts that are kept, best first, if fewer are wanted than were computed (`CglRedSplit2.cpp` 2132-2149). -/
def best (found : List Found) (maxNum : Nat) : List Found :=
  if maxNum < found.length then
    ((qsort ((List.range found.length).map fun i => (i, (found.getD i ⟨⟨0, 0, []⟩, 0, []⟩).quality))).take maxNum).map
      fun e => found.getD e.1 ⟨⟨0, 0, []⟩, 0, []⟩
  else found

/-- Lines 2132-2155: what the caller gets. -/
def finish (c : Call) (w : Wanted) (maxNum : Nat) (cs : List RowCut) (a : Acc) : List RowCut × List Found :=
  if (maxNum : ℚ) < c.par .maxNumComputedCuts then
    (if w.cuts then (best a.found maxNum).foldl (fun l f => insertIfNotDuplicate l f.cut) cs else cs, best a.found maxNum)
  else (a.cuts, a.found)

/-- The size of the array of multipliers is computed as an `int` (`CglRedSplit2.cpp` 1956-1980). -/
def lambdaFits (c : Call) (w : Wanted) (maxNum : Nat) : Bool :=
  ! w.lambda || RedSplit.fitsInt (max (maxNum : ℤ) ⌊c.par .maxNumComputedCuts⌋ * c.P.rows.length)

/-- `generateCuts(OsiCuts*, int, int*)` (`CglRedSplit2.cpp` 1622-2186) for `maxNum` cuts at most: the cuts, and what was
found with the multipliers. -/
def run (c : Call) (w : Wanted) (maxNum : Nat) (cs : List RowCut) : Except Fault (List RowCut × List Found) :=
  if rhsOk c = false then .error .assertion
  else if (contVars c).length = 0 ∨ ((List.range c.P.nCols).filter (isFrac c)).length = 0 ∨
    goodModel c.P c.lp.toLp = false then .ok (cs, [])
  else if mTab c < (slots c).length then .error .outside
  else if lambdaFits c w maxNum = false then .error .overflow
  else
    match mainLoop c w (rounds c) ⟨if (maxNum : ℚ) < c.par .maxNumComputedCuts then [] else cs, []⟩ with
    | .error e => .error e
    | .ok a => .ok (finish c w maxNum cs a)

/-- `generateCuts(const OsiSolverInterface&, OsiCuts&, CglTreeInfo)` (`CglRedSplit2.cpp` 1576-1619) when an optimal basis
is available. -/
def generateCuts (c : Call) (cs : List RowCut) : Except Fault (List RowCut) :=
  (run c ⟨true, false⟩ ⌊c.par .maxNumCuts⌋.toNat cs).map Prod.fst

/-- `generateMultipliers` (`CglRedSplit2.cpp` 2434-2484) when an optimal basis is available; `cs` is `none` for a null
pointer.  The rows of `lambda` up to the returned number. -/
def generateMultipliers (c : Call) (maxNum : Nat) (cs : Option (List RowCut)) :
    Except Fault (Option (List RowCut) × List (List ℤ)) :=
  (run c ⟨cs.isSome, true⟩ maxNum (cs.getD [])).map fun r => (cs.map fun _ => r.1, r.2.map Found.lambda)

/-! ### Tilting a lift-and-project cut -/

/-- Rows of the tableau in `tiltLandPcut`: one more if the row to be tilted is not among them. -/
def tiltRows (c : Call) (rownumber : ℤ) : Nat := if 0 ≤ rownumber then mTab c else mTab c + 1

/-- `tiltLandPcut` (`CglRedSplit2.cpp` 2488-2957) for row `rownumber` (negative if the row is not in the tableau), up to the
point where every call that goes on fails: `pi_mat` is one row of `mTab` numbers (2795-2796), and for each column strategy
the two functions `fill_workNonBasicTab` write (1062-1073) and read (3095-3098) `pi_mat[0]` at positions beyond `mTab`.
The numbers that are computed before do not matter.  `ok` is the returned number. -/
def tilt (c : Call) (rownumber : ℤ) : Except Fault Nat :=
  if (List.range c.P.nCols).any fun j => ! (c.lp.cstat j == 1 || c.lp.cstat j == 2 || c.lp.cstat j == 3) then .error .exit
  else if rhsOk c = false then .error .assertion
  else if (contVars c).length = 0 ∨ mTab c = 0 then .ok 0
  else if tiltRows c rownumber <
    1 + ((List.range c.P.rows.length).filter fun (r : Nat) => usable c r && decide ((r : ℤ) ≠ rownumber)).length then
    .error .outside
  else if c.strat.colsLAP = [] then .ok 0
  else .error .outside

end Cgl.RedSplit2
