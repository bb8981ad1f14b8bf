import Verif.Spec

/-!
# Dominated columns in `CglPreProcess::preProcessNonDefault`

`/repo/src/CglPreProcess/CglPreProcess.cpp`, lines 3236-3490, done with option 512.  Columns with lower bound 0 in rows with one
bound are compared in pairs, and a column that is worse than another gets the upper bound 0.  `double` is `ℚ`: an infinite bound
is `COIN_DBL_MAX` as a number, also in products.
-/

namespace Cgl.DomCols

/-- What the code reads: the problem, the costs (`getObjCoefficients`) and `prohibited_`. -/
structure Input where
  P : Prob
  cost : Nat → ℚ
  prohibited : Nat → Bool

/-- The kind of a row at first, :3273-3277. -/
def side (r : Row) : ℤ :=
  if r.ub < dblMax ∧ -dblMax < r.lb then 0 else if r.ub = dblMax then -1 else 1

/-- `flip[iRow]`, :3272-3323: 0 is of no use, positive a row with an upper bound, negative one with a lower bound, 2 or -2 if all
columns are integer and each at its upper bound satisfies the row. -/
def flip (P : Prob) (r : Row) : ℤ :=
  if side r ≠ 0 ∧ r.coefs.all (fun p => P.isInt p.1) = true then
    if 0 < side r then
      if r.coefs.all (fun p => !decide (0 < p.2) && !decide (r.ub < p.2 * P.colUpper p.1)) = true then 2 else side r
    else
      if r.coefs.all (fun p => !decide (p.2 < 0) && !decide (p.2 * P.colUpper p.1 < r.lb)) = true then -2 else side r
  else side r

/-- `flip` by the number of the row. -/
def flipAt (P : Prob) (i : Nat) : ℤ := match P.rows[i]? with | some r => flip P r | none => 0

/-- The stored element of a row and a column, if any. -/
def entry (P : Prob) (i j : Nat) : Option ℚ := match P.rows[i]? with | some r => r.coefs.lookup j | none => none

/-- The rows of a column in the column copy. -/
def rowsOf (P : Prob) (j : Nat) : List Nat := (List.range P.rows.length).filter fun i => (entry P i j).isSome

/-- The element with the sign of a row with an upper bound (`if (flip[iRow]<0) value = -value`), 0 if there is none: `compEls`,
:3376-3388. -/
def val (P : Prob) (j i : Nat) : ℚ := if flipAt P i < 0 then -(entry P i j).getD 0 else (entry P i j).getD 0

/-- The elements of a column, :3333-3354: `none` if not `ok`, otherwise `checkFurther`. -/
def scanCol (P : Prob) (j : Nat) : List Nat → Bool → Option Bool
  | [], further => some further
  | i :: l, further =>
    if flipAt P i = 0 then none
    else if val P j i < 0 ∧ |flipAt P i| = 1 ∧ P.colUpper j < 10 ^ 20 then none
    else scanCol P j l (further || decide (|flipAt P i| = 1))

/-- `variableType`, without the change of `columnType` to 3. -/
structure Cand where
  col : Nat
  type : Nat
  int : Bool
deriving DecidableEq, Repr

/-- One column, :3326-3364. -/
def cand (I : Input) (j : Nat) : Option Cand :=
  if I.P.colLower j = 0 ∧ I.prohibited j = false then
    match scanCol I.P j (rowsOf I.P j) false with
    | none => none
    | some further => some ⟨j, if further = true then (if I.cost j < 0 then 2 else 1) else 0, I.P.isInt j⟩
  else none

/-- `possible`, :3324-3366. -/
def cands (I : Input) : List Cand := (List.range I.P.nCols).filterMap (cand I)

/-- `thisTest`, :3382-3383 and :3390 (bits of a natural number; the shift into the sign bit of `int` is taken to give that bit). -/
def mask (P : Prob) (j : Nat) : Nat := (rowsOf P j).foldl (fun m i => m ||| (1 <<< (i % 32))) 0

/-- The test by bits and kinds, :3395-3401. -/
def maybe (P : Prob) (c d : Cand) : Bool :=
  (decide (mask P d.col ||| mask P c.col = mask P d.col) || decide (mask P d.col ||| mask P c.col = mask P c.col)) &&
    decide (c.int = d.int)

/-- The elements of `jColumn`, :3410-3435, with `choose`, `nNegUnmatched` and `nPosUnmatched`. -/
def compare (P : Prob) (c d : Nat) : List Nat → ℤ → ℤ → ℤ → ℤ × ℤ × ℤ
  | [], ch, n, p => (ch, n, p)
  | i :: l, ch, n, p =>
    let n' := if val P c i < 0 then n - 1 else n
    let p' := if 0 < val P c i then p - 1 else p
    if val P d i < val P c i then
      if ch = 0 then compare P c d l (-1) n' p'
      else if 0 < ch then (2, n', p')
      else compare P c d l ch n' p'
    else if val P c i < val P d i then
      if ch = 0 then compare P c d l 1 n' p'
      else if ch < 0 then (2, n', p')
      else compare P c d l ch n' p'
    else compare P c d l ch n' p'

/-- `choose` from the costs, :3403-3407. -/
def costSide (I : Input) (c d : Nat) : ℤ :=
  if I.cost c < I.cost d then 1 else if I.cost d < I.cost c then -1 else 0

/-- `nNeg`, :3385-3386. -/
def nNeg (P : Prob) (c : Nat) : Nat := (rowsOf P c).countP fun i => decide (val P c i < 0)

/-- `choose` after the elements, :3436-3450. -/
def decideOn : ℤ × ℤ × ℤ → ℤ
  | (ch, n, p) =>
    if n ≠ 0 ∧ p ≠ 0 then 2
    else if ch = 2 then 2
    else if ch = 0 then (if n ≠ 0 then 1 else if p ≠ 0 then -1 else 0)
    else if ch = 1 then (if p ≠ 0 then 2 else 1)
    else (if n ≠ 0 then 2 else -1)

/-- `choose` for `iColumn` and `jColumn`, :3403-3450: 1 for `jColumn` worse, -1 for `iColumn` worse, 0 for equal, 2 for neither. -/
def choose (I : Input) (c d : Nat) : ℤ :=
  decideOn (compare I.P c d (rowsOf I.P d) (costSide I c d) (nNeg I.P c) (((rowsOf I.P c).length : ℤ) - nNeg I.P c))

/-- `possible[..].columnType<2`, with 3 for a column that is fixed. -/
def mayFix (f : Nat → Bool) (c : Cand) : Bool := !f c.col && decide (c.type < 2)

/-- `setColUpper(.., 0.0)` and `columnType=3`. -/
def mark (f : Nat → Bool) (j : Nat) : Nat → Bool := fun k => decide (k = j) || f k

/-- All columns before, :3394-3470. -/
def inner (I : Input) (c : Cand) : List Cand → (Nat → Bool) → (Nat → Bool)
  | [], f => f
  | d :: l, f =>
    if f c.col = true then inner I c l f
    else if maybe I.P c d = true then
      if choose I c.col d.col = 1 ∧ mayFix f d = true then inner I c l (mark f d.col)
      else if choose I c.col d.col = -1 ∧ mayFix f c = true then mark f c.col
      else if choose I c.col d.col = 0 ∧ mayFix f d = true then inner I c l (mark f d.col)
      else inner I c l f
    else inner I c l f

/-- All candidates, :3371-3475. -/
def outer (I : Input) : List Cand → List Cand → (Nat → Bool) → (Nat → Bool)
  | _, [], f => f
  | done, c :: l, f => outer I (done ++ [c]) l (inner I c done f)

/-- The columns that are fixed at 0. -/
def dominated (I : Input) : Nat → Bool := outer I [] (cands I) fun _ => false

/-- The problem after the block, :3236-3490. -/
def fixDominated (I : Input) : Prob :=
  { I.P with colUpper := fun j => if dominated I j = true then 0 else I.P.colUpper j }

end Cgl.DomCols
