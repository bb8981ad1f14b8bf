import Verif.Osi
import Mathlib.Data.List.Nodup

/-!
# Model of `CglPreProcess::cliqueIt` and `CglBK` (src/CglPreProcess/CglPreProcess.cpp)

`cliqueIt` collects the set-packing and set-partitioning rows of the problem, enumerates the maximal cliques of the
conflict graph they define with the Bron-Kerbosch search of the class `CglBK`, and returns a copy of the model in which
the rows "dominated" by the new cliques have been replaced by the cliques.

`double` is `ℚ`.  The random numbers of the constructor of `CglBK` and the tie-breaking of `CoinSort_2` are parameters
(`Call.rnd`, `Call.srt`).  What depends only on `CBC_USEFUL_PRINTING` (the rows `x - y <= 0`, type -2) is left out.
-/

namespace Cgl.PreClique

/-- Undefined behaviour the two functions can run into: a conversion of a `double` that does not fit in `int`, and an
`int` product that overflows. -/
inductive Fault | cast | overflow
deriving DecidableEq, Repr

/-- Arguments of `cliqueIt` and what the run takes from its environment.
`rnd j` is the `j`-th number of `CoinThreadRandom(987654321)` (CglPreProcess.cpp:9731-9733), `srt` is what `CoinSort_2`
does to the list of (key, row) pairs (9750). -/
structure Call where
  P : Prob
  /-- `cliquesNeeded` -/
  needed : ℚ
  rnd : Nat → ℚ
  srt : List (ℚ × Nat) → List (ℚ × Nat)

/-- Row `i` of the row copy. -/
def rowAt (P : Prob) (i : Nat) : Row := P.rows.getD i ⟨0, 0, []⟩

/-- The columns of a row. -/
def cols (r : Row) : List Nat := r.coefs.map Prod.fst

/-- `upper[iColumn] == 1.0 && lower[iColumn] == 0.0 && model.isInteger(iColumn)` (CglPreProcess.cpp:9558, 9795). -/
def binary (P : Prob) (j : Nat) : Bool :=
  decide (P.colUpper j = 1) && decide (P.colLower j = 0) && P.isInt j

/-- The rows that get a type `>= 0` in the first pass (CglPreProcess.cpp:9549-9582): upper bound 1, lower bound
nonpositive or 1, all coefficients 1 on binary columns, at most 1000 entries. -/
def isClique (P : Prob) (r : Row) : Bool :=
  decide (r.ub = 1) && decide (r.lb ≤ 0 ∨ r.lb = 1) &&
    (r.coefs.all fun p => binary P p.1 && decide (p.2 = 1)) && decide (r.coefs.length ≤ 1000)

/-- `numberInColumn[j]` after the first pass: a counter that stops at 100 (CglPreProcess.cpp:9569-9573). -/
def numberIn (P : Prob) (j : Nat) : Nat :=
  min 100 ((P.rows.filter (isClique P)).map fun r => (cols r).count j).sum

/-- The rows that keep a type `>= 0` in the second pass (CglPreProcess.cpp:9628-9653): every column is in at least two
clique rows. -/
def used (P : Prob) (r : Row) : Bool := isClique P r && (cols r).all fun j => decide (2 ≤ numberIn P j)

/-- `type[i]` after both passes (CglPreProcess.cpp:9547-9653): 1 for an equality, 0 for an inequality, -1 otherwise. -/
def rowType (P : Prob) (i : Nat) : ℤ :=
  if used P (rowAt P i) then (if 0 < (rowAt P i).lb then 1 else 0) else -1

/-- `numberCliques` after the first pass (CglPreProcess.cpp:9574). -/
def cliques1 (P : Prob) : Nat := (P.rows.filter (isClique P)).length
/-- `numberCliques` after the second pass (CglPreProcess.cpp:9646). -/
def cliques2 (P : Prob) : Nat := (P.rows.filter (used P)).length
/-- `numberElements` (CglPreProcess.cpp:9645). -/
def elements (P : Prob) : Nat :=
  ((P.rows.filter (used P)).map fun r => r.coefs.length * (r.coefs.length - 1)).sum

/-! ### `CglBK::CglBK(model, rowType, numberElements)` -/

/-- The two entries of a doubleton row in the order of their columns (CglPreProcess.cpp:9737-9741, 9759-9764). -/
def ordered (r : Row) : List (Nat × ℚ) :=
  match r.coefs with
  | [a, b] => if b.1 < a.1 then [b, a] else [a, b]
  | _ => []

/-- The rows that are looked at for duplicates (CglPreProcess.cpp:9736). -/
def doubleton (P : Prob) (i : Nat) : Bool :=
  decide ((rowAt P i).coefs.length = 2) && decide ((rowAt P i).ub = 1)

/-- `sort[nSort]`, `which[nSort]` (CglPreProcess.cpp:9735-9749). -/
def keys (c : Call) : List (ℚ × Nat) :=
  ((List.range c.P.rows.length).filter (doubleton c.P)).map fun i =>
    (((ordered (rowAt c.P i)).map fun p => p.2 * c.rnd p.1).sum, i)

/-- The test that row `i2` repeats row `i1` (CglPreProcess.cpp:9757-9775). -/
def sameRow (P : Prob) (i1 i2 : Nat) : Bool :=
  decide ((rowAt P i1).lb = (rowAt P i2).lb) && decide (ordered (rowAt P i1) = ordered (rowAt P i2))

/-- The rows marked in `dominated_` by the constructor: every row that repeats its predecessor in the sorted list
(CglPreProcess.cpp:9751-9781).  `sort[0]` is read even if there is no doubleton row; the value is then not used. -/
def duplicates (P : Prob) : List (ℚ × Nat) → List Nat
  | a :: b :: l => (if b.1 = a.1 ∧ sameRow P a.2 b.2 then [b.2] else []) ++ duplicates P (b :: l)
  | _ => []

/-- `dominated_` when the constructor is done. -/
def dups (c : Call) : List Nat := duplicates c.P (c.srt (keys c))

/-- The pairs (`otherColumn_`, `originalRow_`) of column `j` (CglPreProcess.cpp:9790-9815).  The column copy of the
matrix lists the rows of a column in increasing order. -/
def links (c : Call) (j : Nat) : List (Nat × Nat) :=
  if binary c.P j then
    (List.range c.P.rows.length).flatMap fun i =>
      if 0 ≤ rowType c.P i ∧ i ∉ dups c ∧ j ∈ cols (rowAt c.P i) then
        ((cols (rowAt c.P i)).filter fun k => decide (k ≠ j)).map fun k => (k, i)
      else []
  else []

/-- `otherColumn_` of column `j`; a column is listed once for every row it shares with `j`. -/
def adj (c : Call) (j : Nat) : List Nat := (links c j).map Prod.fst

/-- The initial candidates (CglPreProcess.cpp:9817-9819). -/
def possible (c : Call) : List Nat := (List.range c.P.nCols).filter fun j => decide (links c j ≠ [])

/-! ### `CglBK::bronKerbosch` -/

/-- Number of entries of column `v` that are marked, when the candidates are marked
(CglPreProcess.cpp:9963-9968, 9976-9981).  Entries, not columns: a column that shares two rows with `v` counts twice. -/
def marked (adj : Nat → List Nat) (cand : List Nat) (v : Nat) : Nat := (adj v).countP fun k => decide (k ∈ cand)

/-- One step of the search for the largest number of marked entries (CglPreProcess.cpp:9969-9972, 9982-9985). -/
def better (adj : Nat → List Nat) (cand : List Nat) (s : Nat × Nat) (v : Nat) : Nat × Nat :=
  if s.1 < marked adj cand v then (marked adj cand v, v) else s

/-- The search among the "not" columns, from the end of the array (CglPreProcess.cpp:9958-9973); `iChoose` starts at
position 0. -/
def pickNot (adj : Nat → List Nat) (cand nots : List Nat) : Nat × Nat :=
  nots.reverse.foldl (better adj cand) (0, cand.headD 0)

/-- `nMax` and `candidates_[iChoose]` (CglPreProcess.cpp:9954-9993).  `numberCandidates_ - 1` is an `int`. -/
def pick (adj : Nat → List Nat) (cand nots : List Nat) : Nat × Nat :=
  if (pickNot adj cand nots).1 + 1 < cand.length ∨ (pickNot adj cand nots).1 = 0 then
    cand.foldl (better adj cand) (pickNot adj cand nots)
  else pickNot adj cand nots

/-- The columns to branch on (CglPreProcess.cpp:9994-10011): the candidates outside the neighbourhood of the chosen
column, or none if `nMax` is the number of candidates or more. -/
def temp (adj : Nat → List Nat) (cand nots : List Nat) : List Nat :=
  if (pick adj cand nots).1 < cand.length then
    cand.filter fun k => decide (k ∉ adj (pick adj cand nots).2)
  else []

/-- The loop over the columns to branch on (CglPreProcess.cpp:10014-10067); `rec` is the recursive call on the copy
`bk2`. -/
def branch (adj : Nat → List Nat) (rec : List Nat → List Nat → List Nat → List (List Nat)) :
    List Nat → List Nat → List Nat → List Nat → List (List Nat)
  | [], _, _, _ => []
  | v :: t, cand, nots, inn =>
    rec ((cand.filter fun k => decide (k ≠ v)).filter fun k => decide (k ∈ adj v))
        (nots.filter fun k => decide (k ∈ adj v)) (inn ++ [v]) ++
      branch adj rec t (cand.filter fun k => decide (k ≠ v)) (v :: nots) inn

/-- `bronKerbosch` (CglPreProcess.cpp:9908-10070): the cliques it arrives at, in order.  `cand` are the first
`numberCandidates_` entries of `candidates_`, `nots` those from `firstNot_` on, `inn` those from `numberPossible_` on.
Each call has a smaller candidate list; the first argument bounds the depth (`bk_depth` shows that the bound is never
reached).  What is done with a clique (`saved`, `dominated`) does not influence the search, so it is separated from
it. -/
def bk (adj : Nat → List Nat) : Nat → List Nat → List Nat → List Nat → List (List Nat)
  | 0 => fun _ _ _ => []
  | f + 1 => fun cand nots inn =>
    if cand = [] ∧ nots = [] then [inn]
    else branch adj (bk adj f) (temp adj cand nots) cand nots inn

/-- The rows of `cliqueMatrix_`: the cliques with more than two columns (CglPreProcess.cpp:9919, 9949). -/
def saved (c : Call) : List (List Nat) :=
  (bk (adj c) ((possible c).length + 1) (possible c) [] []).filter fun q => decide (2 < q.length)

/-- Row `i` is marked by the clique `q` (CglPreProcess.cpp:9927-9943): it is an inequality and links two columns of
the clique. -/
def marks (c : Call) (q : List Nat) (i : Nat) : Bool :=
  decide (rowType c.P i = 0) && q.any fun u => (links c u).any fun e => decide (e.1 ∈ q) && decide (e.2 = i)

/-- `dominated_[i] != 0` at the end (the counter itself is only compared with 0). -/
def dominated (c : Call) (i : Nat) : Bool := decide (i ∈ dups c) || (saved c).any fun q => marks c q i

/-! ### `CglBK::newSolver` and `CglPreProcess::cliqueIt` -/

/-- `deleted` (CglPreProcess.cpp:10076-10082). -/
def deleted (c : Call) : List Nat := (List.range c.P.rows.length).filter (dominated c)

/-- The row added for a clique (CglPreProcess.cpp:10093-10103). -/
def newRow (q : List Nat) : Row := ⟨- dblMax, 1, q.map fun j => (j, 1)⟩

/-- The rows that are not deleted, in order. -/
def keptRows (c : Call) : List Row :=
  ((List.range c.P.rows.length).filter fun i => ! dominated c i).map (rowAt c.P)

/-- `newSolver` (CglPreProcess.cpp:10073-10117): a clone without the dominated rows and with the cliques, if that makes
the model smaller; otherwise `NULL`. -/
def newSolver (c : Call) : Option Prob :=
  if (saved c).length < (deleted c).length then
    some { c.P with rows := keptRows c ++ (saved c).map newRow }
  else none

/-- `std::max(1, static_cast<int>(cliquesNeeded * numberRows))` (CglPreProcess.cpp:9627, 9656). -/
def threshold (c : Call) : Option ℤ := (castInt (c.needed * c.P.rows.length)).map (max 1)

/-- `cliqueIt` (CglPreProcess.cpp:9505-9671). -/
def cliqueIt (c : Call) : Except Fault (Option Prob) :=
  match threshold c with
  | none => .error .cast
  | some t =>
    if (cliques1 c.P : ℤ) ≤ t then .ok none
    else if (cliques2 c.P : ℤ) ≤ t then .ok none
    else if 50000000 ≤ elements c.P then .ok none
    else if intMax < 100 * cliques2 c.P then .error .overflow
    else if 100 * cliques2 c.P ≤ elements c.P then .ok none
    else .ok (newSolver c)

end Cgl.PreClique
