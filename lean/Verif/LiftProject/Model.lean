import Verif.Tableau

/-!
# Model of CglLiftAndProject (src/CglLiftAndProject/CglLiftAndProject.cpp)

The generator builds the cone problem of Balas, Ceria and Cornuéjols, solves it once per fractional column and turns
the multipliers into a cut.  All of `generateCuts` is modelled, with the layout of the arrays that describe the cone
problem; the LP solver is an arbitrary function (its contract is in `Spec.lean`).  `double` is exact rational
arithmetic.  Not modelled: warm starts (they only affect the solver), `generateCpp`.
-/

namespace Cgl.LiftProject

/-- How a call can fail. -/
inductive Fault
  /-- an array is read outside its bounds -/
  | outside
  /-- an array element that was never written is read -/
  | uninitialised
  /-- `CoinError` -/
  | exception
deriving DecidableEq, Repr

/-- What the call gets: the problem, where the rows start in the row-ordered matrix (`getVectorStarts()`, which may
leave gaps), and the LP solution. -/
structure Input where
  P : Prob
  starts : Nat → Nat
  x : Nat → ℚ

/-- `m`, line 54. -/
def Input.m (I : Input) : Nat := I.P.rows.length
/-- `n`, line 55. -/
def Input.n (I : Input) : Nat := I.P.nCols

/-- What the round for row `i` writes at positions `k`, lines 121-132. -/
def uBlock (I : Input) (i : Nat) : SVec := (I.P.row i).coefs ++ [(I.n, (I.P.row i).lb)]

/-- What it writes at positions `k+offset`, lines 121-132. -/
def vBlock (I : Input) (i : Nat) : SVec :=
  ((I.P.row i).coefs.map fun p => (p.1, - p.2)) ++ [(I.n + 1, (I.P.row i).lb)]

/-- `offset`, line 119. -/
def offset (I : Input) : Nat := I.starts I.m + I.m

/-- The arrays `BIndices` and `BElements` after the loop of lines 120-139, `none` for an element that was not written.
As `k` runs through consecutive positions the writes are given as two lists. -/
def memory (I : Input) (p : Nat) : Option (Nat × ℚ) :=
  if p < offset I then ((List.range I.m).flatMap (uBlock I))[p]?
  else ((List.range I.m).flatMap (vBlock I))[p - offset I]?

/-- `BStarts`, lines 133-134. -/
def bStart (I : Input) (c : Nat) : Nat :=
  if c < I.m then I.starts c + c else offset I + (I.starts (c - I.m) + (c - I.m))

/-- `BLengths`, lines 135-136. -/
def bLength (I : Input) (c : Nat) : Nat := (I.P.row (if c < I.m then c else c - I.m)).coefs.length + 1

/-- Column `c < 2m` of the matrix that is built from the arrays, lines 187-191. -/
def bColumn (I : Input) (c : Nat) : Option SVec := (List.range (bLength I c)).mapM fun t => memory I (bStart I c + t)

/-- An LP: columns, objective, right-hand sides of the rows (all equations), and how many of the columns are
nonnegative (the others, at the end, are free). -/
structure Lp where
  cols : List SVec
  obj : List ℚ
  rhs : List ℚ
  nonneg : Nat
deriving DecidableEq

/-- Value of row `r` at `w`. -/
def Lp.row (L : Lp) (w : Nat → ℚ) (r : Nat) : ℚ :=
  ((List.range L.cols.length).map fun c => denseAt (L.cols.getD c []) r * w c).sum

/-- Value of the objective. -/
def Lp.value (L : Lp) (w : Nat → ℚ) : ℚ := ((List.range L.obj.length).map fun c => L.obj.getD c 0 * w c).sum

/-- The first `2m` columns of the cone problem.  With no rows line 141 reads `BStarts[-1]`. -/
def base (I : Input) : Except Fault (List SVec) :=
  if I.m = 0 then .error .outside
  else
    match (List.range (2 * I.m)).mapM (bColumn I) with
    | none => .error .uninitialised
    | some l => .ok l

/-- The cone problem for column `j`, lines 148-181 and 277-284: the columns for `v_0` and `u_0` come last. -/
def cone (I : Input) (beta : ℚ) (cols : List SVec) (j : Nat) : Lp where
  cols := cols ++ [[(j, -1), (I.n + 1, 1)], [(j, 1)]]
  obj := (List.range I.m).map (I.P.activity I.x) ++ List.replicate I.m 0 ++ [0, I.x j]
  rhs := List.replicate I.n 0 ++ [beta, beta]
  nonneg := 2 * I.m

/-- `CoinRelFltEq` (external, documented) with its default tolerance. -/
def relEq (a b : ℚ) : Bool := decide (|a - b| ≤ 1/10^10 * (1 + max |a| |b|))

/-- `alpha`, lines 303-305: `wstar` has `u` first and `u_0` last. -/
def alpha (I : Input) (j : Nat) (w : Nat → ℚ) (k : Nat) : ℚ :=
  ((List.range I.m).map fun i => (I.P.row i).coef k * w i).sum + if k = j then w (2 * I.m + 1) else 0

/-- The cut, lines 319-322: all columns are listed. -/
def cutOf (I : Input) (beta : ℚ) (j : Nat) (w : Nat → ℚ) : RowCut where
  lb := beta
  ub := I.P.inf
  row := (List.range I.n).map fun k => (k, alpha I j w k)

/-- The LP solver: `none` unless it proves optimality. -/
abbrev Solver := Lp → Option (Nat → ℚ)

/-- One round of the loop over the columns, lines 262-329.  Line 263 asks for the type of column `i`, which is left
over from the loop of lines 120-139, that is of column `m`. -/
def round (I : Input) (beta : ℚ) (solve : Solver) (cols : List SVec) (cs : List RowCut) (j : Nat) :
    Except Fault (List RowCut) :=
  if I.n ≤ I.m then .error .outside
  else if colType I.P I.m ≠ 1 then .ok cs
  else if relEq (I.x j) 0 || relEq (I.x j) 1 then .ok cs
  else
    match solve (cone I beta cols j) with
    | none => .ok cs
    | some w => .ok (insertIfNotDuplicate cs (cutOf I beta j w))

/-- The members of the object. -/
structure Obj where
  beta : ℚ
  epsilon : ℚ
  onetol : ℚ
deriving DecidableEq

/-- `generateCuts`, lines 22-343.  The object is not changed. -/
def generateCuts (o : Obj) (I : Input) (solve : Solver) (cs : List RowCut) : Except Fault (List RowCut) :=
  match base I with
  | .error f => .error f
  | .ok cols => (List.range I.n).foldlM (round I o.beta solve cols) cs

/-- Default constructor, lines 348-356. -/
def Obj.new : Obj := ⟨1, 1/10^8, 1 - 1/10^8⟩

/-- Copy constructor and `clone`, lines 361-378. -/
def Obj.copy (o : Obj) : Obj := ⟨o.beta, o.epsilon, o.onetol⟩

/-- `operator=`, lines 391-402. -/
def Obj.assign (_this o : Obj) : Obj := ⟨o.beta, o.epsilon, o.onetol⟩

/-- `setBeta`, CglLiftAndProject.hpp:37-45. -/
def Obj.setBeta (o : Obj) (b : ℤ) : Except Fault Obj :=
  if b = 1 ∨ b = -1 then .ok { o with beta := b } else .error .exception

end Cgl.LiftProject
