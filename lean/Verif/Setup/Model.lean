import Verif.Spec
import Mathlib.Data.Int.GCD

/-!
# The start of `CglPreProcess::preProcessNonDefault`

Models /repo/src/CglPreProcess/CglPreProcess.cpp:1214-1253 and 1710-2600: rows are scaled to integer coefficients, bounds of
integer columns are rounded, rows that are cliques are looked for (columns are fixed, infeasibility is found), and slack columns
are added to make inequalities equations (`makeEquality`).

Two problems come out of it: the user's model, which is changed in place (`originalModel_`), and `startModel_`, the copy that
the rest of the preprocessing works on.  The copy is made *after* the scaling and *before* the bounds are rounded.

Simplifications: `double` is ℚ; `CoinRational` is the parameter `rat` (numerator, denominator); `makeEquality` 4 (accumulation
variables, :2020-2303) is not modelled; the warm start, messages and `prohibited_` are left out.
-/

namespace Cgl.Setup

/-- Undefined behaviour and failed assertions. -/
inductive Fault where
  /-- A 64-bit product or a conversion to `int` overflows. -/
  | overflow
  /-- One of the assertions :1831, :1833 fails. -/
  | assert
deriving DecidableEq, Repr

/-! ### Scaling of rows -/

/-- The loop over the further numbers in `scaleRowIntegral`, :1228-1238: greatest common divisor of the numerators and least
common multiple of the denominators, `none` if a number is not recognised.  The sign that `computeGcd` (:1187-1213) may give
to the divisor is dropped: only |scale| is used (:1243). -/
def ratLoop (rat : ℚ → ℤ × ℕ) : List ℚ → ℕ × ℕ → Except Fault (Option (ℕ × ℕ))
  | [], s => .ok (some s)
  | v :: l, s =>
    if v = 0 then ratLoop rat l s
    else if (rat v).1 = 0 then .ok none
    else if 2 ^ 63 ≤ s.2 * ((rat v).2 / Nat.gcd s.2 (rat v).2) then .error .overflow
    else ratLoop rat l (Nat.gcd s.1 (rat v).1.natAbs, s.2 * ((rat v).2 / Nat.gcd s.2 (rat v).2))

/-- The factor, unless it is more than 1000, :1239-1243. -/
def factor : Option (ℕ × ℕ) → Option ℚ
  | none => none
  | some s => if 1000 < (s.2 : ℚ) / s.1 then none else some ((s.2 : ℚ) / s.1)

/-- The factor of `scaleRowIntegral`, :1221-1243. -/
def scaling (rat : ℚ → ℤ × ℕ) : List ℚ → Except Fault (Option ℚ)
  | [] => .ok none
  | v :: l =>
    if (rat v).1 = 0 then .ok none
    else (ratLoop rat l ((rat v).1.natAbs, (rat v).2)).map factor

/-- Scaling in place, which stops at the first number that does not become an integer, :1245-1250. -/
def scaleAll (s : ℚ) : List ℚ → List ℚ × Bool
  | [] => ([], true)
  | v :: l =>
    if 1 / 10 ^ 10 < |(⌊v * s + 1 / 2⌋ : ℚ) - v * s| then ((⌊v * s + 1 / 2⌋ : ℚ) :: l, false)
    else ((⌊v * s + 1 / 2⌋ : ℚ) :: (scaleAll s l).1, (scaleAll s l).2)

/-- What `scaleRowIntegral` does once the factor is known. -/
def applyFactor (l : List ℚ) : Option ℚ → List ℚ × Bool
  | none => (l, false)
  | some s => scaleAll s l

/-- `scaleRowIntegral`, :1214-1253. -/
def scaleRowIntegral (rat : ℚ → ℤ × ℕ) (l : List ℚ) : Except Fault (List ℚ × Bool) :=
  (scaling rat l).map (applyFactor l)

/-- The majority is made positive unless the right hand side is 1, :1744-1750. -/
def sign (r : Row) : ℚ :=
  if r.coefs.length < 2 * r.coefs.countP (fun p => p.2 < 0) ∧ r.ub ≠ 1 then -1 else 1

/-- The smallest size of a coefficient, :1753-1769. -/
def smallest : SVec → ℚ
  | [] => dblMax
  | p :: v => min |p.2| (smallest v)

/-- `temp` before the scaling: the coefficients and the finite bounds, :1754-1776. -/
def numbers (r : Row) : List ℚ :=
  (r.coefs.map fun p => sign r * p.2) ++
    ((if -10 ^ 20 < r.lb then [sign r * r.lb] else []) ++ (if r.ub < 10 ^ 20 then [sign r * r.ub] else []))

/-- `mult` is rounded if it is close to an integer, :1781-1782. -/
def snap (m : ℚ) : ℚ := if |m - (⌊m + 1 / 10⌋ : ℚ)| < 1 / 10 ^ 12 then (⌊m + 1 / 10⌋ : ℚ) else m

/-- The double check, :1779-1792. -/
def checked (m : ℚ) (l : List ℚ) : Bool :=
  l.all fun v => decide (m * v = 0 ∨ |m * v - (⌊m * v + 1 / 100⌋ : ℚ)| < 1 / 10 ^ 9)

/-- The multiplier and the row copy after `scaleRowIntegral`, :1777-1799. -/
def afterScaling (r : Row) (t : List ℚ × Bool) : ℚ × List ℚ :=
  if t.2 = true ∧ checked (snap (t.1.headD 0 / (r.coefs.headD (0, 0)).2)) (numbers r) = true then
    (snap (t.1.headD 0 / (r.coefs.headD (0, 0)).2), t.1.take r.coefs.length)
  else (sign r, t.1.take r.coefs.length)

/-- The multiplier of a row and `temp`, :1739-1795. -/
def multiplier (rat : ℚ → ℤ × ℕ) (r : Row) : Except Fault (ℚ × List ℚ) :=
  if smallest r.coefs ≠ 1 then (scaleRowIntegral rat (numbers r)).map (afterScaling r)
  else .ok (sign r, r.coefs.map fun p => sign r * p.2)

/-- The bounds of a changed row, :1800-1811. -/
def newBounds (m : ℚ) (r : Row) : ℚ × ℚ :=
  ((if -10 ^ 20 < (if m < 0 then -r.ub else r.lb) then (if m < 0 then -r.ub else r.lb) * |m| else (if m < 0 then -r.ub else r.lb)),
   (if (if m < 0 then -r.lb else r.ub) < 10 ^ 20 then (if m < 0 then -r.lb else r.ub) * |m| else (if m < 0 then -r.lb else r.ub)))

/-- A new coefficient in the matrix by columns, :1824-1836. -/
def newElement (m e : ℚ) : Except Fault ℚ :=
  if |m| ≠ 1 then
    if |m * e - (⌊m * e + 1 / 100⌋ : ℚ)| < 1 / 10 ^ 9 ∧ 9 / 10 < |(⌊m * e + 1 / 100⌋ : ℚ)| then .ok (⌊m * e + 1 / 100⌋ : ℚ)
    else .error .assert
  else if m = -1 then .ok (-e) else .ok e

/-- The coefficients of a row in the matrix by columns. -/
def newElements (m : ℚ) : SVec → Except Fault SVec
  | [] => .ok []
  | p :: v => (newElement m p.2).bind fun e => (newElements m v).map fun w => (p.1, e) :: w

/-- A changed row of the model and of the row copy. -/
def changeRow (r : Row) (t : ℚ × List ℚ) : Except Fault (Row × SVec) :=
  if t.1 = 1 then .ok (r, r.coefs)
  else (newElements t.1 r.coefs).map fun v => (⟨(newBounds t.1 r).1, (newBounds t.1 r).2, v⟩, (r.coefs.map Prod.fst).zip t.2)

/-- A row after the scaling (the row of the model and the row of the local row copy); empty rows stay, :1740-1741. -/
def scaleRow (rat : ℚ → ℤ × ℕ) (r : Row) : Except Fault (Row × SVec) :=
  if r.coefs = [] then .ok (r, r.coefs) else (multiplier rat r).bind (changeRow r)

/-- All rows. -/
def scaleRows (rat : ℚ → ℤ × ℕ) : List Row → Except Fault (List (Row × SVec))
  | [] => .ok []
  | r :: l => (scaleRow rat r).bind fun a => (scaleRows rat l).map fun b => a :: b

/-- Rows are scaled only if no types of rows were passed in, :1723. -/
def scaled (rat : ℚ → ℤ × ℕ) (types : Bool) (P : Prob) : Except Fault (List (Row × SVec)) :=
  if types = true then .ok (P.rows.map fun r => (r, r.coefs)) else scaleRows rat P.rows

/-! ### Bounds -/

/-- Bounds of integer columns are rounded, :1895-1908. -/
def clean (P : Prob) : Prob :=
  { P with
    colLower := fun j => if P.isInt j = true then max (P.colLower j) (⌈P.colLower j - 1 / 10 ^ 6⌉ : ℚ) else P.colLower j
    colUpper := fun j => if P.isInt j = true then min (P.colUpper j) (⌊P.colUpper j + 1 / 10 ^ 6⌋ : ℚ) else P.colUpper j }

/-- `feasible` after the rounding, :1905-1906. -/
def cleanOk (P : Prob) : Bool :=
  (List.range P.nCols).all fun j => !P.isInt j || decide ((clean P).colLower j ≤ (clean P).colUpper j)

/-! ### Sets of columns -/

/-- What the look for sets has found so far: marked columns, number of sets, overlaps, columns in sets. -/
structure Sets where
  mark : List ℕ
  number : ℕ
  overlap : ℕ
  inSets : ℕ

/-- The entries of a row of length at least 5 with right hand side 1, until one is not good, :1935-1947: (good row, overlaps). -/
def setRow (P : Prob) (mark : List ℕ) : SVec → Bool × ℕ
  | [] => (true, 0)
  | p :: v =>
    if p.2 ≠ 1 ∨ P.isInt p.1 = false ∨ P.colLower p.1 ≠ 0 then (false, 0)
    else ((setRow P mark v).1, (setRow P mark v).2 + if p.1 ∈ mark then 1 else 0)

/-- One row, :1931-1957. -/
def setStep (P : Prob) (s : Sets) (a : Row × SVec) : Sets :=
  if a.1.ub = 1 ∧ 5 ≤ a.2.length then
    if (setRow P s.mark a.2).1 = true ∧ (setRow P s.mark a.2).2 = 0 then
      ⟨s.mark ++ a.2.map Prod.fst, s.number + 1, s.overlap, s.inSets + a.2.length⟩
    else { s with overlap := s.overlap + (setRow P s.mark a.2).2 }
  else s

/-- All rows. -/
def sets (P : Prob) (rows : List (Row × SVec)) : Sets := rows.foldl (setStep P) ⟨[], 0, 0, 0⟩

/-- `makeEquality` after the look for sets, :1909-1915 and :2305-2318. -/
def mode (P : Prob) (rows : List (Row × SVec)) (makeEquality : ℤ) : ℤ :=
  if makeEquality = 2 ∨ makeEquality = 3 ∨ makeEquality = 5 then
    if (sets P rows).number = 0 then 0
    else if makeEquality = 2 then
      if 0 < (sets P rows).overlap ∨ (sets P rows).inSets * 5 + 1 < ((List.range P.nCols).filter fun j => P.isInt j).length * 4 then 0
      else 2
    else 3
  else makeEquality

/-! ### Clique rows -/

/-- What the entries of a row add up to: right hand sides without fixed columns, columns with coefficient 1 and -1, `good`. -/
structure Look where
  up : ℚ
  lo : ℚ
  plus : List ℕ
  minus : List ℕ
  good : Bool

/-- `OsiSolverInterface::isBinary`. -/
def isBinary (P : Prob) (j : ℕ) : Bool :=
  P.isInt j && decide (P.colUpper j = 1 ∨ P.colUpper j = 0) && decide (P.colLower j = 0 ∨ P.colLower j = 1)

/-- One entry, :2337-2364. -/
def lookEntry (P : Prob) (k : Look) (p : ℕ × ℚ) : Look :=
  if P.colUpper p.1 - P.colLower p.1 < 1 / 10 ^ 8 then
    { k with up := k.up - P.colLower p.1 * p.2, lo := k.lo - P.colLower p.1 * p.2 }
  else if |p.2| ≠ 1 then { k with good := false }
  else if 0 < p.2 then { k with plus := k.plus ++ [p.1], good := k.good && isBinary P p.1 }
  else { k with minus := k.minus ++ [p.1], good := k.good && isBinary P p.1 }

/-- The row, :2328-2364. -/
def look (P : Prob) (a : Row × SVec) : Look := a.2.foldl (lookEntry P) ⟨a.1.ub, a.1.lb, [], [], true⟩

/-- What is to be done with a row. -/
inductive Kind where
  | nothing
  | infeasible
  | fix
  | clique
deriving DecidableEq, Repr

/-- The conversions to `int`, :2383-2384. -/
def fits (k : Look) : Bool :=
  decide (|(⌊k.up + 1 / 10 ^ 5⌋ : ℤ)| < 2 ^ 31) && decide (|(⌈k.lo - 1 / 10 ^ 5⌉ : ℤ)| < 2 ^ 31)

/-- `state`, :2379-2407.  The negative states, which are found from the lower side, are not used (`state > 0`). -/
def kind (k : Look) : Kind :=
  if k.good = false ∨ 1 / 10 ^ 9 < |(⌊k.up + 1 / 10 ^ 5⌋ : ℚ) - k.up| then .nothing
  else if ⌊k.up + 1 / 10 ^ 5⌋ = 1 - (k.minus.length : ℤ) then .clique
  else if ⌊k.up + 1 / 10 ^ 5⌋ = -(k.minus.length : ℤ) then .fix
  else if ⌊k.up + 1 / 10 ^ 5⌋ < -(k.minus.length : ℤ) then .infeasible
  else .nothing

/-- All columns with coefficient 1 go to 0, all with coefficient -1 to 1, :2412-2421. -/
def fixAll (P : Prob) (k : Look) : Prob :=
  { P with
    colUpper := fun j => if j ∈ k.plus then 0 else P.colUpper j
    colLower := fun j => if j ∈ k.minus then 1 else P.colLower j }

/-- A clique row gets a slack column, :2430-2440.  Only `makeEquality` 2 uses the list. -/
def wanted (m : ℤ) (k : Look) : Bool :=
  decide (m = 2) && decide (k.minus = []) && decide (5 ≤ k.plus.length) && decide (⌈k.lo - 1 / 10 ^ 5⌉ ≠ ⌊k.up + 1 / 10 ^ 5⌋)

/-- The look for clique rows, :2325-2451, from row number `i` on: the user's model (its bounds), and the rows that get slack
columns; `none` if the problem is found infeasible. -/
def cliques (m : ℤ) : List (Row × SVec) → ℕ → Prob → Except Fault (Option (Prob × List ℕ))
  | [], _, P => .ok (some (P, []))
  | a :: l, i, P =>
    if 10 ^ 6 ≤ (look P a).up ∨ (look P a).lo ≤ -10 ^ 6 then cliques m l (i + 1) P
    else if fits (look P a) = false then .error .overflow
    else match kind (look P a) with
      | .infeasible => .ok none
      | .fix => cliques m l (i + 1) (fixAll P (look P a))
      | .clique =>
        (cliques m l (i + 1) P).map fun o => o.map fun q => (q.1, if wanted m (look P a) = true then i :: q.2 else q.2)
      | .nothing => cliques m l (i + 1) P

/-! ### Slack columns -/

/-- A slack column: its row, coefficient, upper bound, integrality. -/
structure Slack where
  row : ℕ
  coef : ℚ
  upper : ℚ
  int : Bool
deriving DecidableEq, Repr

/-- The slack column of a clique row, :2438, :2529, :2587. -/
def cliqueSlack (k : ℕ) : Slack := ⟨k, 1, 1, true⟩

/-- Is the row worth a slack column if all inequalities are to become equations, :2485-2486? -/
def inequality (r : Row) : Bool := decide (r.lb < r.ub) && (decide (-10 ^ 30 < r.lb) || decide (r.ub < 10 ^ 30))

/-- `allInteger`, :2487-2506. -/
def allInteger (P : Prob) (r : Row) : Bool :=
  !(decide (-10 ^ 20 < r.lb) && decide ((⌊r.lb⌋ : ℚ) ≠ r.lb)) && !(decide (r.ub < 10 ^ 20) && decide ((⌊r.ub⌋ : ℚ) ≠ r.ub)) &&
    r.coefs.all fun p => P.isInt p.1 && decide ((⌊p.2⌋ : ℚ) = p.2)

/-- The slack column of an inequality, :2529-2548. -/
def rowSlack (P : Prob) (r : Row) (k : ℕ) : Slack :=
  ⟨k, if |r.lb| < |r.ub| then -1 else 1, if 10 ^ 20 < r.ub - r.lb then dblMax else r.ub - r.lb, allInteger P r⟩

/-- The slack columns of all inequalities from row number `i` on, :2474-2510. -/
def allSlacks (P : Prob) : List Row → ℕ → List Slack
  | [], _ => []
  | r :: l, i => if inequality r = true then rowSlack P r i :: allSlacks P l (i + 1) else allSlacks P l (i + 1)

/-- A row gets its slack column and becomes an equation, :2554, :2588-2592. -/
def equation (n : ℕ) (s : Slack) (r : Row) : Row :=
  ⟨if 0 < s.coef then r.ub else r.lb, if 0 < s.coef then r.ub else r.lb, r.coefs ++ [(n, s.coef)]⟩

/-- One slack column, :2547-2592. -/
def addSlack (S : Prob) (s : Slack) : Prob :=
  { S with
    nCols := S.nCols + 1
    colLower := fun j => if j = S.nCols then 0 else S.colLower j
    colUpper := fun j => if j = S.nCols then s.upper else S.colUpper j
    isInt := fun j => if j = S.nCols then s.int else S.isInt j
    rows := S.rows.modify s.row (equation S.nCols s) }

/-- All slack columns. -/
def addSlacks (S : Prob) (l : List Slack) : Prob := l.foldl addSlack S

/-- The slack columns that are added, :2474-2512. -/
def slackList (m : ℤ) (S : Prob) (ks : List ℕ) : List Slack :=
  if m = -2 then allSlacks S S.rows 0 else if m = 2 then ks.map cliqueSlack else []

/-- From the scaled rows on: the user's model and `startModel_`, or `none` if `NULL` is returned, :1850-2593.  An infeasible
bound does not stop the look for cliques (:1905). -/
def fromScaled (makeEquality : ℤ) (P : Prob) (rows : List (Row × SVec)) : Except Fault (Option (Prob × Prob)) :=
  (cliques (mode (clean P) rows makeEquality) rows 0 (clean P)).map fun o =>
    if cleanOk P = true then
      o.map fun q => (q.1, addSlacks P (slackList (mode (clean P) rows makeEquality) P q.2))
    else none

/-- The problem with other rows. -/
def withRows (P : Prob) (rows : List (Row × SVec)) : Prob := { P with rows := rows.map Prod.fst }

/-- The start of `preProcessNonDefault`: (the user's model afterwards, `startModel_`), `none` for `NULL`, :1710-2593. -/
def setup (rat : ℚ → ℤ × ℕ) (types : Bool) (makeEquality : ℤ) (P : Prob) : Except Fault (Option (Prob × Prob)) :=
  (scaled rat types P).bind fun rows => fromScaled makeEquality (withRows P rows) rows

end Cgl.Setup
