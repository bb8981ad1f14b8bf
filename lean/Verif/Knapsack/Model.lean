import Verif.Osi
import Mathlib.Logic.Function.Basic

/-!
# Model of `CglKnapsackCover`

`/repo/src/CglKnapsackCover/CglKnapsackCover.cpp`.  The preprocessor symbol `GUBCOVER` is not defined in the build, so
the clique code (`gubifyCut`, `createCliques` and the `#ifdef GUBCOVER` blocks) is compiled out and is not modelled.

`none : Option _` is undefined behaviour (an out-of-range read).  All the arrays that the code keeps for a row
(`complement`, the complemented entries of `xstar`) are put back after every attempt (lines 441-449, 493-502, 690-710,
716-727), so here they are local to an attempt.
-/

namespace Cgl.Knapsack

/-- `epsilon_` (line 3639). -/
def eps : ℚ := 1 / 10000000
/-- `epsilon2_` (line 3640). -/
def eps2 : ℚ := 1 / 100000
/-- `onetol_` (line 3641). -/
def onetol : ℚ := 1 - eps

/-- `std::sort` with a "decreasing key" comparison (`CoinPackedVector::sort(CoinDecrSolutionOrdered)`,
`sortDecrElement`).  The order of entries with equal keys is not specified by the standard library, so the model is
parametrised by any function that permutes the entries into decreasing order. -/
structure Sorter where
  run : {α : Type} → (α → ℚ) → List α → List α
  perm : ∀ {α : Type} (k : α → ℚ) (l : List α), (run k l).Perm l
  sorted : ∀ {α : Type} (k : α → ℚ) (l : List α), (run k l).Pairwise fun a b => k b ≤ k a

/-- User-settable state of the generator (`CglKnapsackCover.hpp`; constructor lines 3635-3658): `setMaxInKnapsack`,
`switchOnExpensive`, `setTestedRowIndices` (lines 799-810; `none` until it is called). -/
structure Params where
  maxInKnapsack : ℤ := 50
  expensive : Bool := false
  rowsToCheck : Option (List ℤ) := none

/-! ## Derivation of a canonical knapsack row -/

/-- `OsiSolverInterface::isFreeBinary` (external, documented): integer with bounds exactly 0 and 1. -/
def freeBinary (P : Prob) (j : Nat) : Bool := P.isInt j && decide (P.colUpper j = 1) && decide (P.colLower j = 0)

/-- Lines 966-1016: net out every column that is not a free binary at the bound that relaxes the row; `none` if that
bound is infinite. -/
def netOut (P : Prob) : SVec → ℚ → Option (SVec × ℚ)
  | [], b => some ([], b)
  | (j, a) :: t, b =>
    if freeBinary P j then
      match netOut P t b with
      | none => none
      | some (k, b') => some ((j, a) :: k, b')
    else if a < -eps then
      if P.colUpper j < P.inf then netOut P t (b - a * P.colUpper j) else none
    else if eps < a then
      if -P.inf < P.colLower j then netOut P t (b - a * P.colLower j) else none
    else netOut P t b

/-- Lines 1007-1010: largest absolute coefficient (`-COIN_DBL_MAX` if there is none). -/
def maxAbs (k : SVec) : ℚ := k.foldl (fun m p => if m < |p.2| then |p.2| else m) (-dblMax)
/-- Lines 1011-1012: smallest absolute coefficient. -/
def minAbs (k : SVec) : ℚ := k.foldl (fun m p => if |p.2| < m then |p.2| else m) dblMax

/-- Lines 1002-1003: fractional in the LP solution. -/
def unsat (xs : Nat → ℚ) (j : Nat) : Bool := decide (eps < xs j) && decide (xs j < onetol)

/-- A canonical knapsack row: entries, right-hand side, complemented columns and the LP point in complemented space. -/
structure Knap where
  krow : SVec
  b : ℚ
  comp : List Nat
  xs : Nat → ℚ

/-- Lines 1058-1071: complement the columns with a negative coefficient. -/
def flip (k : SVec) : SVec := k.map fun p => if p.2 < -eps then (p.1, -p.2) else p
/-- Columns complemented by `flip`. -/
def flipped (k : SVec) : List Nat := (k.filter fun p => decide (p.2 < -eps)).map Prod.fst
/-- What `flip` adds to the right-hand side. -/
def flipSum (k : SVec) : ℚ := ((k.filter fun p => decide (p.2 < -eps)).map fun p => -p.2).sum

/-- `deriveAKnapsack` (lines 913-1137): the column cut it may insert and the canonical row, if there is one.  The block
for two-element rows (lines 1031-1051) cannot be reached, because rows with fewer than three binaries are rejected just
before it.  The fixing cut built at lines 1103-1134 is never inserted. -/
def derive (P : Prob) (xs : Nat → ℚ) (isL : Bool) (row : SVec) (rhs : ℚ) : List ColCut × Option Knap :=
  if row = [] then ([], none)
  else
    let le := if isL then row else row.map fun p => (p.1, -p.2)
    let b0 := if isL then rhs else -rhs
    match netOut P le b0 with
    | none => ([], none)
    | some (k, b1) =>
      if k.length < 3 ∨ (k.filter fun p => unsat xs p.1).length = 0 ∨ maxAbs k - minAbs k < 1 / 1000 * maxAbs k then
        ([], none)
      else
        let kr := flip k
        let b := b1 + flipSum k
        let comp := flipped k
        let cc : List ColCut :=
          if b < 0 then
            match kr with
            | [] => []
            | p :: _ => [⟨[(p.1, P.colUpper p.1 + 1)], [(p.1, P.colUpper p.1 + 1)]⟩]
          else []
        if kr.any fun p => decide (b < p.2) then (cc, none)
        else (cc, some ⟨kr, b, comp, fun j => if j ∈ comp then 1 - xs j else xs j⟩)

/-! ## Finding covers -/

/-- Sum of the coefficients (`CoinPackedVector::sum`). -/
def total (v : SVec) : ℚ := (v.map Prod.snd).sum

/-- The loop of `findGreedyCover` (lines 2115-2128). State: coefficient sum, LP sum, found. -/
def greedyLoop (xs : Nat → ℚ) (b : ℚ) : SVec → ℚ → ℚ → Bool → SVec → SVec → (ℚ × Bool × SVec × SVec)
  | [], _, xsum, got, cover, rem => (xsum, got, cover, rem)
  | (j, a) :: t, asum, xsum, got, cover, rem =>
    if eps ≤ xs j ∧ xs j ≤ onetol ∧ got = false then
      greedyLoop xs b t (asum + a) (xsum + xs j) (decide (b + eps2 < asum + a)) (cover ++ [(j, a)]) rem
    else greedyLoop xs b t asum xsum got cover (rem ++ [(j, a)])

/-- `findGreedyCover` (lines 2080-2156): `krow` is left sorted; cover and remainder if a violated cover is found. -/
def findGreedy (S : Sorter) (krow : SVec) (b : ℚ) (xs : Nat → ℚ) : SVec × Option (SVec × SVec) :=
  let kr := S.run Prod.snd krow
  match greedyLoop xs b kr 0 0 false [] [] with
  | (xsum, got, cover, rem) =>
    (kr, if xsum ≤ ((cover.length : ℚ) - 1) + eps2 ∨ got = false ∨ cover.length < 2 then none else some (cover, rem))

/-- Lines 1355-1364, 1532-1541, 1745-1753: move the smallest cover elements to the remainder while the others still
exceed `lim`.  `rcover` is the cover from its last element to its first, `one` the sum of all but the last.  `none`: the
last element of an empty cover is read. -/
def tossSmallest (lim : ℚ) : (rcover : SVec) → (one : ℚ) → (rem : SVec) → Option (SVec × SVec)
  | [], _, _ => none
  | p :: t, one, rem =>
    if lim < one then
      match t with
      | [] => none
      | q :: t' => tossSmallest lim (q :: t') (one - q.2) (rem ++ [p])
    else some ((p :: t).reverse, rem)

/-- Sort a cover by decreasing coefficient and toss its smallest elements (`sum` is the sum of its coefficients). -/
def minimise (S : Sorter) (lim : ℚ) (sum : ℚ) (cover rem : SVec) : Option (SVec × SVec) :=
  match (S.run Prod.snd cover).reverse with
  | [] => none
  | p :: t => tossSmallest lim (p :: t) (sum - p.2) rem

/-- Ratio used to order the knapsack in the two most-violated-cover searches (lines 1256-1265, 1461-1472). -/
def coverRatio (xs : Nat → ℚ) (p : Nat × ℚ) : ℚ := if eps < |p.2| then (1 - xs p.1) / p.2 else 0

/-- Lines 1272-1277: the critical element; `none` if the read goes past the end. -/
def critical (lim : ℚ) : SVec → ℚ → Nat → Option Nat
  | [], _, _ => none
  | p :: t, sum, r => if sum + p.2 ≤ lim then critical lim t (sum + p.2) (r + 1) else some r

/-- `findLPMostViolatedMinCover` (lines 1184-1412): the re-ordered knapsack and the cover, if found. -/
def findLP (S : Sorter) (krow : SVec) (b : ℚ) (xs : Nat → ℚ) : Option (SVec × Option (SVec × SVec)) :=
  if total krow < b + eps then some (krow, none)
  else
    let kr := S.run (coverRatio xs) krow
    match critical (total krow - b - eps) kr 0 0 with
    | none => none
    | some r =>
      let ipofv := ((kr.drop r).map fun p => 1 - xs p.1).sum
      if 1 - eps < ipofv then some (kr, none)
      else
        let cover := kr.drop r
        let rem := kr.take r
        if total cover ≤ b + 1 / 100000000 * (1 + |b|) then some (kr, none)
        else
          match minimise S (b + 1 / 1000000000000) (total cover) cover rem with
          | none => none
          | some (c, rm) => some (kr, if c.length < 2 then none else some (c, rm))

/-! ### `exactSolveKnapsack` -/

/-- State of the Horowitz-Sahni search: the items before `j` with their current value in `xhat`, last one first; the
items from `j` on; residual capacity; value of `xhat` ; best value and best solution so far. -/
structure KS where
  done : List (ℚ × ℚ × Bool)
  rest : List (ℚ × ℚ)
  chat : ℚ
  zhat : ℚ
  z : ℚ
  best : List Bool

/-- Lines 3562-3581: the bound `u` on the value of the items from `j` on.  Item `n+1` has profit 0 and weight
`COIN_DBL_MAX`. -/
def ubound : List (ℚ × ℚ) → ℚ → ℚ
  | [], _ => 0
  | (p, w) :: t, c => if w ≤ c then p + ubound t (c - w) else (⌊c * p / w⌋ : ℤ)

/-- Lines 3585-3597: forward steps. -/
def forward : List (ℚ × ℚ × Bool) → List (ℚ × ℚ) → ℚ → ℚ → List (ℚ × ℚ × Bool) × List (ℚ × ℚ) × ℚ × ℚ
  | done, [], c, v => (done, [], c, v)
  | done, (p, w) :: t, c, v =>
    if w ≤ c then forward ((p, w, true) :: done) t (c - w) (v + p)
    else if t.length = 1 then forward ((p, w, false) :: done) t c v
    else ((p, w, false) :: done, t, c, v)

/-- Lines 3621-3637: backtrack to the last item taken and leave it out; `none` when there is none (the search is over). -/
def back : List (ℚ × ℚ × Bool) → List (ℚ × ℚ) → ℚ → ℚ → Option (List (ℚ × ℚ × Bool) × List (ℚ × ℚ) × ℚ × ℚ)
  | [], _, _, _ => none
  | (p, w, true) :: d, rest, c, v => some ((p, w, false) :: d, rest, c + w, v - p)
  | (p, w, false) :: d, rest, c, v => back d ((p, w) :: rest) c v

/-- Lines 3603-3618: record a better solution and take the last item out again. -/
def record (s : KS) : KS :=
  let s1 := if s.z < s.zhat then { s with z := s.zhat, best := (s.done.map fun i => i.2.2).reverse } else s
  match s1.done with
  | [] => s1
  | (p, w, true) :: d => { s1 with done := d, rest := (p, w) :: s1.rest, chat := s1.chat + w, zhat := s1.zhat - p }
  | (p, w, false) :: d => { s1 with done := d, rest := (p, w) :: s1.rest }

/-- One pass of the outer loop (lines 3561-3640): the next state, or the final state. -/
def ksStep (s : KS) : KS ⊕ KS :=
  let bt (s : KS) : KS ⊕ KS :=
    match back s.done s.rest s.chat s.zhat with
    | none => .inr s
    | some (d, r, c, v) => .inl { s with done := d, rest := r, chat := c, zhat := v }
  if s.zhat + ubound s.rest s.chat ≤ s.z then bt s
  else
    match forward s.done s.rest s.chat s.zhat with
    | (d, r, c, v) =>
      if 2 ≤ r.length then .inl { s with done := d, rest := r, chat := c, zhat := v }
      else bt (record { s with done := d, rest := r, chat := c, zhat := v })

/-- Iterate `ksStep`; `none` if the fuel runs out. -/
def ksLoop : Nat → KS → Option KS
  | 0, _ => none
  | n + 1, s => match ksStep s with
    | .inl s' => ksLoop n s'
    | .inr s' => some s'

/-- `exactSolveKnapsack` (lines 3520-3640): optimal value and solution of `max p·x` subject to `w·x ≤ c` (the code
uses the capacity `c + epsilon2_`).  The loop is unbounded in the code; the fuel here is shown to be enough. -/
def exactSolve (items : List (ℚ × ℚ)) (c : ℚ) : Option (ℚ × List Bool) :=
  match ksLoop (2 ^ items.length) ⟨[], items, c + eps2, 0, 0, items.map fun _ => false⟩ with
  | none => none
  | some s => some (s.z, s.best)

/-- Entries whose flag is `f`. -/
def pick (f : Bool) : SVec → List Bool → SVec
  | p :: t, s :: bs => if s = f then p :: pick f t bs else pick f t bs
  | _, _ => []

/-- `findExactMostViolatedMinCover` (lines 1421-1568). -/
def findExact (S : Sorter) (krow : SVec) (b : ℚ) (xs : Nat → ℚ) : Option (SVec × Option (SVec × SVec)) :=
  if total krow < b + eps then some (krow, none)
  else
    let kr := S.run (coverRatio xs) krow
    match exactSolve (kr.map fun p => (1 - xs p.1, p.2)) (total krow - b - eps) with
    | none => none
    | some (opt, sol) =>
      if (kr.map fun p => 1 - xs p.1).sum - opt < 1 then
        match minimise S b (total (pick false kr sol)) (pick false kr sol) (pick true kr sol) with
        | none => none
        | some (c, rm) => some (kr, some (c, rm))
      else some (kr, none)

/-! ### The John-and-Ellis covers -/

/-- Lines 1632-1644, 1868-1880: columns at one, fractional columns and the others. -/
def atOnes (xs : Nat → ℚ) (k : SVec) : SVec := k.filter fun p => decide (onetol < xs p.1)
/-- Fractional columns. -/
def fracs (xs : Nat → ℚ) (k : SVec) : SVec := k.filter fun p => !decide (onetol < xs p.1) && decide (eps ≤ xs p.1)
/-- Columns at zero. -/
def zeros (xs : Nat → ℚ) (k : SVec) : SVec := k.filter fun p => !decide (onetol < xs p.1) && !decide (eps ≤ xs p.1)

/-- Lines 1659-1667, 1684-1693: largest positive coefficient among the entries and its position (0 and 0 if there is
none); `k` is the position of the first entry. -/
def bigFrom : SVec → Nat → ℚ → Nat → ℚ × Nat
  | [], _, c, i => (c, i)
  | p :: t, k, c, i => if c < p.2 then bigFrom t (k + 1) p.2 k else bigFrom t (k + 1) c i

/-- Lines 1677-1699, 1913-1935: subtract the coefficients in order until the largest one left exceeds the margin.
`u` is what is left of the list at position `i`.  Result: `i` and the margin. -/
def scanCover : SVec → Nat → ℚ → ℚ → Nat → Option (Nat × ℚ)
  | [], _, _, _, _ => none
  | p :: t, i, margin, big, bigI =>
    let margin' := margin - p.2
    let (big', bigI') := if i = bigI then bigFrom t (i + 1) 0 0 else (big, bigI)
    if margin' + eps2 < big' then some (i + 1, margin') else scanCover t (i + 1) margin' big' bigI'

/-- Lines 1705-1707: first entry that is not below the margin, with what precedes and follows it. -/
def firstFill (margin : ℚ) : SVec → Option (SVec × (Nat × ℚ) × SVec)
  | [] => none
  | p :: t => if p.2 < margin then
      match firstFill margin t with
      | none => none
      | some (l, q, r) => some (p :: l, q, r)
    else some ([], p, t)

/-- Result of `swap(i, j)` on the list from position `i` on. -/
def swapFirst : SVec → (Nat × ℚ) → SVec → SVec
  | [], q, r => q :: r
  | p :: l, q, r => q :: (l ++ p :: r)

/-- Lines 1646-1711 and 1882-1947: order the fractional columns by decreasing LP value and pick a prefix plus one
element that exceed the right-hand side.  Result: chosen and not chosen; `none` inside if there is no cover. -/
def johnEllis (S : Sorter) (xs : Nat → ℚ) (us : SVec) (unsatRhs : ℚ) : Option (Option (SVec × SVec)) :=
  let un := S.run (fun p => xs p.1) us
  let (big, bigI) := bigFrom un 0 0 0
  match scanCover un 0 unsatRhs big bigI with
  | none => some none
  | some (i, margin) =>
    if i < un.length then
      match firstFill margin (un.drop i) with
      | none => none
      | some (l, q, r) =>
        let un' := un.take i ++ swapFirst l q r
        some (some (un'.take (i + 1), un'.drop (i + 1)))
    else some (some (un.take i, un.drop i))

/-- `findPseudoJohnAndEllisCover` (lines 1577-1790): cover and remainder. -/
def findPseudoJE (S : Sorter) (krow : SVec) (b : ℚ) (xs : Nat → ℚ) : Option (Option (SVec × SVec)) :=
  let one := atOnes xs krow
  let unsatRhs := b - total one
  match johnEllis S xs (fracs xs krow) unsatRhs with
  | none => none
  | some none => some none
  | some (some (c, r)) =>
    if (c.length : ℚ) - 1 < (c.map fun p => xs p.1).sum ∧ unsatRhs + eps2 < total c then
      match minimise S b (total c + total one) (c ++ one) (zeros xs krow ++ r) with
      | none => none
      | some (cover, rem) => some (if cover.length < 2 then none else some (cover, rem))
    else some none

/-- `findJohnAndEllisCover` (lines 1805-2068): fractional cover, columns at one and remainder. -/
def findJE (S : Sorter) (krow : SVec) (b : ℚ) (xs : Nat → ℚ) : Option (Option (SVec × SVec × SVec)) :=
  let one := atOnes xs krow
  let unsatRhs := b - total one
  match johnEllis S xs (fracs xs krow) unsatRhs with
  | none => none
  | some none => some none
  | some (some (c, r)) =>
    if unsatRhs + eps2 < total c then
      some (if c.length < 2 then none else some (S.run Prod.snd c, one, zeros xs krow ++ r))
    else some none

/-! ## Lifting -/

/-- Lines 3215-3220: `muMinusLambda[i]`. -/
def muML (lam : ℚ) (cover : SVec) (i : Nat) : ℚ := total (cover.take i) - lam

/-- Lines 3229-3260: lifted coefficient of a remainder coefficient `a` when `f` is superadditive: `some 0` means that
nothing is stored, `none` that no coefficient is found.  `n` is the cover size, `k` counts the positions left. -/
def fCoef (lam : ℚ) (cover : SVec) (a : ℚ) : Nat → Nat → Option ℚ
  | 0, _ => none
  | k + 1, i => if a ≤ muML lam cover i then some ((i : ℚ) - 1) else fCoef lam cover a k (i + 1)

/-- Lines 3265-3270: `rho[i]`. -/
def rho (lam : ℚ) (cover : SVec) (i : Nat) : ℚ :=
  if i = 0 then lam
  else if i = cover.length then 0
  else max 0 ((cover.map Prod.snd).getD i 0 - muML lam cover 1)

/-- Lines 3275-3303: lifted coefficient with the superadditive function `g` (0: nothing is stored). -/
def gCoef (lam : ℚ) (cover : SVec) (a : ℚ) : Nat → Nat → ℚ
  | 0, _ => 0
  | k + 1, i =>
    if a ≤ muML lam cover (i + 1) then (i : ℚ)
    else if a < muML lam cover (i + 1) + rho lam cover (i + 1) then
      let c := (i : ℚ) + 1 - (muML lam cover (i + 1) + rho lam cover (i + 1) - a) / rho lam cover 1
      if eps < |c| then c else 0
    else gCoef lam cover a k (i + 1)

/-- The loop of lines 3229-3260 over the remainder; `none` if some coefficient is not found. -/
def fLift (lam : ℚ) (cover : SVec) : SVec → Option SVec
  | [] => some []
  | (j, a) :: t =>
    match fLift lam cover t with
    | none => none
    | some l =>
      if a ≤ muML lam cover 1 + eps then some l
      else
        match fCoef lam cover a (cover.length - 1) 2 with
        | none => none
        | some c => some ((j, c) :: l)

/-- The loop of lines 3272-3304. -/
def gLift (lam : ℚ) (cover : SVec) : SVec → SVec
  | [] => []
  | (j, a) :: t =>
    let c := gCoef lam cover a cover.length 0
    if c = 0 then gLift lam cover t else (j, c) :: gLift lam cover t

/-- `liftCoverCut` (lines 3163-3398): `none` inside if no cut is made, `none` outside if the second element of a
one-element cover is read. -/
def liftCoverCut (b : ℚ) (cover rem : SVec) : Option (Option SVec) :=
  let lam := total cover - b
  if lam < eps2 then some none
  else
    match cover with
    | _ :: p1 :: _ =>
      if p1.2 - eps ≤ muML lam cover 1 then
        match fLift lam cover rem with
        | none => some none
        | some l => some (some (cover.map (fun p => (p.1, 1)) ++ l))
      else some (some (cover.map (fun p => (p.1, 1)) ++ gLift lam cover rem))
    | _ => none

/-- Uncomplement (lines 845-855, 2899-2910): negate the coefficients of complemented columns and move the constants to
the right-hand side. -/
def uncomp (comp : List Nat) : SVec → ℚ → SVec × ℚ
  | [], rhs => ([], rhs)
  | (j, c) :: t, rhs =>
    if j ∈ comp then
      match uncomp comp t (rhs + -c) with
      | (v, r) => ((j, -c) :: v, r)
    else
      match uncomp comp t rhs with
      | (v, r) => ((j, c) :: v, r)

/-- `liftAndUncomplementAndAdd` (lines 815-903): the cut, if one is made. -/
def liftAndUncomp (k : Knap) (cover rem : SVec) : Option (Option RowCut) :=
  let rhs := (cover.length : ℚ) - 1
  let fin (cut : SVec) : RowCut := match uncomp k.comp cut rhs with | (v, r) => ⟨-dblMax, r, v⟩
  if 0 < rem.length then
    match liftCoverCut k.b cover rem with
    | none => none
    | some none => some none
    | some (some cut) => some (some (fin cut))
  else some (some (fin (cover.map fun p => (p.1, 1))))

/-- An entry of the parallel vectors `a` and `alpha` of `liftUpDownAndUncomplementAndAdd` with its sort key `ratio`.
The code sorts the two vectors separately with the same keys. -/
structure Lifted where
  col : Nat
  a : ℚ
  alpha : ℚ
  ratio : ℚ

/-- State of the lifting loops. -/
structure LS where
  items : List Lifted
  cut : SVec
  rhs : ℚ
  unsatRhs : ℚ

/-- Call of `exactSolveKnapsack` with the lifted entries. -/
def psi (items : List Lifted) (c : ℚ) : Option ℚ :=
  (exactSolve (items.map fun i => (i.alpha, i.a)) c).map Prod.fst

/-- Lines 2571-2756: lift up the remainder columns in order. -/
def liftUp (S : Sorter) : SVec → LS → Option LS
  | [], s => some s
  | (j, a) :: t, s =>
    match (if eps ≤ s.unsatRhs - a then psi s.items (s.unsatRhs - a) else some s.rhs) with
    | none => none
    | some ps =>
      if eps < s.rhs - ps then
        liftUp S t { s with
          items := S.run Lifted.ratio (s.items ++ [⟨j, a, s.rhs - ps, (s.rhs - ps) / a⟩])
          cut := s.cut ++ [(j, s.rhs - ps)] }
      else liftUp S t s

/-- Lines 2759-2800: lift down the columns at one; `some none` when the loop is left with the right-hand side
`COIN_DBL_MAX` (so that no cut is added). -/
def liftDown (S : Sorter) : SVec → LS → Option (Option LS)
  | [], s => some (some s)
  | (j, a) :: t, s =>
    match psi s.items (s.unsatRhs + a) with
    | none => none
    | some ps =>
      if |a| ≤ eps then some none
      else
        liftDown S t
          { items := S.run Lifted.ratio (s.items ++ [⟨j, a, ps - s.rhs, (ps - s.rhs) / a⟩])
            cut := if eps < |ps - s.rhs| then s.cut ++ [(j, ps - s.rhs)] else s.cut
            rhs := ps
            unsatRhs := s.unsatRhs + a }

/-- Lines 2527-2563: the fractional cover with coefficients one. -/
def firstItems (S : Sorter) (frac : SVec) : List Lifted :=
  S.run Lifted.ratio (frac.map fun p => ⟨p.1, p.2, 1, if eps < |p.2| then 1 / p.2 else 0⟩)

/-- `liftUpDownAndUncomplementAndAdd` (lines 2184-2948): the cut, if it is violated by the LP point. -/
def liftUpDown (S : Sorter) (k : Knap) (frac one rem : SVec) : Option (Option RowCut) :=
  let s0 : LS := ⟨firstItems S frac, frac.map (fun p => (p.1, 1)), (frac.length : ℚ) - 1, k.b - total one⟩
  let lifted : Option (Option LS) :=
    if 0 < s0.unsatRhs ∧ 0 < rem.length + one.length then
      match liftUp S (S.run (fun p => k.xs p.1) rem) s0 with
      | none => none
      | some s1 => liftDown S one s1
    else some (some s0)
  match lifted with
  | none => none
  | some none => some none
  | some (some s) =>
    if s.rhs + eps2 < s.cut.dot k.xs then
      match uncomp k.comp s.cut s.rhs with
      | (v, r) => some (some ⟨-dblMax, r, v⟩)
    else some none

/-! ## `generateCuts` -/

/-- Row cuts and column cuts (`OsiCuts`). -/
structure Cuts where
  rows : List RowCut
  cols : List ColCut

/-- `cs.insertIfNotDuplicate(rc)` if there is a cut. -/
def Cuts.add (cs : Cuts) : Option RowCut → Cuts
  | none => cs
  | some c => { cs with rows := insertIfNotDuplicate cs.rows c }

/-- Lines 516-560: lift the pseudo John-and-Ellis cover if the row is short enough. -/
def pseudoStep (S : Sorter) (longRow : Nat) (k : Knap) (krow : SVec) (cs : Cuts) : Option Cuts :=
  match findPseudoJE S krow k.b k.xs with
  | none => none
  | some none => some cs
  | some (some (cover, rem)) =>
    if krow.length ≤ longRow ∧ ¬ total cover - k.b < eps then
      (liftUpDown S k (cover.filter fun p => decide (k.xs p.1 < 1)) (cover.filter fun p => !decide (k.xs p.1 < 1)) rem).map
        cs.add
    else some cs

/-- Lines 601-620: the John-and-Ellis cover. -/
def jeStep (S : Sorter) (longRow : Nat) (expensive : Bool) (k : Knap) (krow : SVec) (cs : Cuts) : Option Cuts :=
  if expensive = true ∨ krow.length ≤ longRow then
    match findJE S krow k.b k.xs with
    | none => none
    | some none => some cs
    | some (some (frac, one, rem)) => (liftUpDown S k frac one rem).map cs.add
  else some cs

/-- Lines 638-712: the most violated cover, exactly for short rows and by the LP relaxation for others. -/
def mostStep (S : Sorter) (k : Knap) (krow : SVec) (cs : Cuts) : Option Cuts :=
  match (if krow.length ≤ 20 then findExact S krow k.b k.xs else findLP S krow k.b k.xs) with
  | none => none
  | some (_, none) => some cs
  | some (_, some (cover, rem)) => (liftAndUncomp k cover rem).map cs.add

/-- Lines 478-727: all the cover searches for one canonical row. -/
def coverRow (S : Sorter) (longRow : Nat) (expensive : Bool) (k : Knap) (cs : Cuts) : Option Cuts :=
  let rest (krow : SVec) (cs : Cuts) : Option Cuts :=
    (pseudoStep S longRow k krow cs).bind fun cs =>
      (jeStep S longRow expensive k krow cs).bind fun cs => mostStep S k krow cs
  match findGreedy S k.krow k.b k.xs with
  | (krow, none) => rest krow cs
  | (krow, some (cover, rem)) =>
    match liftAndUncomp k cover rem with
    | none => none
    | some none => some cs
    | some (some c) => rest krow (cs.add (some c))

/-- Lines 84-110: LP solution moved inside the column bounds. -/
def clip (P : Prob) (xs : Nat → ℚ) (j : Nat) : ℚ :=
  if P.colUpper j < xs j then P.colUpper j else if xs j < P.colLower j then P.colLower j else xs j

/-- Variable-bound information (lines 66-83): per column the row that bounds it (`vubRow`, `vlbRow`: -1 none yet, -2 free
binary type, -10 fixed), per row the bounded column (`vub`: -1 none, -2 skip the row) and its coefficient. -/
structure VB where
  vubRow : Nat → ℤ
  vlbRow : Nat → ℤ
  vub : Nat → ℤ
  vubValue : Nat → ℚ
  vlbValue : Nat → ℚ
  effUp : Nat → ℚ
  effLo : Nat → ℚ
  number : Nat

/-- Lines 96-109. -/
def vbStart (P : Prob) (j : Nat) : ℤ :=
  if colType P j = 1 then if P.colUpper j ≠ P.colLower j then -2 else -10
  else if P.colUpper j = P.colLower j then -10 else -1

/-- Lines 112-118. -/
def tightTol (inTree : Bool) (pass : ℤ) : ℚ := if inTree then eps2 else if pass = 0 then 10000 else 1 / 10

/-- What the scan of a row (lines 148-205) finds: right-hand sides without fixed columns, activity of the others, number
of binary and of other columns, the last other column (-1: unusable) and its coefficient. -/
structure Scan where
  up : ℚ
  lo : ℚ
  sum : ℚ
  nBin : Nat
  nCont : Nat
  iCont : ℤ
  vCont : ℚ

/-- Lines 140-146. -/
def multiplier (r : Row) : ℚ := if 10 ^ 20 < r.ub then -1 else if r.lb < -(10 ^ 20) then 1 else 0

/-- Lines 158-205. -/
def scanRow (P : Prob) (xs : Nat → ℚ) (v : VB) (mult : ℚ) : SVec → Scan → Scan
  | [], s => s
  | (j, a) :: t, s =>
    scanRow P xs v mult t <|
      if P.colLower j < P.colUpper j then
        let s := { s with sum := s.sum + xs j * a }
        if v.vubRow j = -2 ∧ 0 < a * mult then { s with nBin := s.nBin + 1 }
        else if v.vlbRow j = -2 ∧ a * mult < 0 then { s with nBin := s.nBin + 1 }
        else if v.vubRow j = -1 then { s with iCont := j, nCont := s.nCont + 1, vCont := a }
        else { s with nCont := s.nCont + 1, iCont := -1 }
      else { s with up := s.up - P.colLower j * a, lo := s.lo - P.colLower j * a }

/-- Lines 132-251 for row `i`. -/
def vbRow (pm : Params) (P : Prob) (xs : Nat → ℚ) (tol : ℚ) (v : VB) (i : Nat) (r : Row) : VB :=
  let mult := multiplier r
  let s := scanRow P xs v mult r.coefs ⟨r.ub, r.lb, 0, 0, 0, -1, 0⟩
  let tUp := decide (|s.sum - s.up| < tol)
  let tLo := decide (|s.sum - s.lo| < tol)
  let v := { v with
    vub := Function.update v.vub i (-1)
    effUp := Function.update v.effUp i (if tUp then s.up else dblMax)
    effLo := Function.update v.effLo i (if tLo then s.lo else -dblMax) }
  if (tUp || tLo) = true ∧ s.nBin ≠ 0 ∧ ((s.nBin + s.nCont : Nat) : ℤ) ≤ pm.maxInKnapsack then
    if s.nCont = 1 ∧ 0 ≤ s.iCont ∧ s.nBin = 1 then
      if 0 < mult * s.vCont then
        { v with vubValue := Function.update v.vubValue i s.vCont, vubRow := Function.update v.vubRow s.iCont.toNat i,
                 vub := Function.update v.vub i s.iCont, number := v.number + 1 }
      else
        { v with vlbValue := Function.update v.vlbValue i s.vCont, vlbRow := Function.update v.vlbRow s.iCont.toNat i,
                 vub := Function.update v.vub i s.iCont, number := v.number + 1 }
    else if 1 < s.nBin then v
    else { v with vub := Function.update v.vub i (-2) }
  else if (tUp || tLo) = false ∨ pm.maxInKnapsack < ((s.nBin + s.nCont : Nat) : ℤ) then
    { v with vub := Function.update v.vub i (-2) }
  else v

/-- Lines 132-252: all rows in order. -/
def vbRows (pm : Params) (P : Prob) (xs : Nat → ℚ) (tol : ℚ) : List Row → Nat → VB → VB
  | [], _, v => v
  | r :: t, i, v => vbRows pm P xs tol t (i + 1) (vbRow pm P xs tol v i r)

/-- The table after the scan of all rows. -/
def vbTable (pm : Params) (P : Prob) (xs : Nat → ℚ) (tol : ℚ) : VB :=
  vbRows pm P xs tol P.rows 0
    ⟨vbStart P, vbStart P, fun _ => -1, fun _ => 0, fun _ => 0, fun _ => 0, fun _ => 0, 0⟩

/-- Lines 362-382, 393-413: does row `jRow` with coefficient `vb` for the column give the wanted bound?  -1: from its
lower right-hand side, 1: from its upper one, 0: no. -/
def vbKind (v : VB) (jRow : Nat) (vb : ℚ) (wantLower : Bool) : ℤ :=
  if wantLower then
    if -(10 ^ 20) < v.effLo jRow ∧ 0 < vb then -1 else if v.effUp jRow < 10 ^ 20 ∧ vb < 0 then 1 else 0
  else
    if -(10 ^ 20) < v.effLo jRow ∧ vb < 0 then -1 else if v.effUp jRow < 10 ^ 20 ∧ 0 < vb then 1 else 0

/-- Lines 354-416: how column `j` with coefficient `c` is replaced: kind, row and coefficient in that row. -/
def vbChoice (v : VB) (dSign : ℚ) (rowIndex : Nat) (j : Nat) (c : ℚ) : Option (ℤ × Nat × ℚ) :=
  let want := decide (0 < dSign * c)
  let one (rowOf : Nat → ℤ) (valOf : Nat → ℚ) : Option (ℤ × Nat × ℚ) :=
    if 0 ≤ rowOf j then
      let jr := (rowOf j).toNat
      if v.vub jr = j ∧ jr ≠ rowIndex then
        let k := vbKind v jr (valOf jr) want
        if k = 0 then none else some (k, jr, valOf jr)
      else none
    else none
  match one v.vlbRow v.vlbValue with
  | some r => some r
  | none => one v.vubRow v.vubValue

/-- Add `d` to the coefficient of column `j`, appending it if it is not there (lines 427-446). -/
def addCoef (j : Nat) (d : ℚ) : SVec → SVec
  | [] => [(j, d)]
  | (k, c) :: t => if k = j then (k, c + d) :: t else (k, c) :: addCoef j d t

/-- Lines 424-447: the free binaries of the variable-bound row, scaled, are subtracted. -/
def subBin (v : VB) (scale : ℚ) : SVec → SVec → SVec
  | [], row => row
  | (j, e) :: t, row => subBin v scale t (if v.vubRow j = -2 then addCoef j (-(scale * e)) row else row)

/-- Set the coefficient of column `j` to zero (line 422). -/
def zeroCoef (j : Nat) (row : SVec) : SVec := row.map fun p => if p.1 = j then (p.1, 0) else p

/-- Lines 350-449: replace the columns with variable bounds, in the order of the original row `todo`. -/
def replaceAll (P : Prob) (v : VB) (dSign : ℚ) (rowIndex : Nat) : SVec → SVec × ℚ × Nat → SVec × ℚ × Nat
  | [], acc => acc
  | (j, _) :: t, (row, b, n) =>
    let c := ((row.find? fun p => p.1 = j).map Prod.snd).getD 0
    replaceAll P v dSign rowIndex t <|
      match vbChoice v dSign rowIndex j c with
      | none => (row, b, n)
      | some (kind, jr, vb) =>
        let useRhs := if kind < 0 then v.effLo jr else v.effUp jr
        let scale := c / vb
        (subBin v scale ((P.rows[jr]?.map Row.coefs).getD []) (zeroCoef j row), b - scale * useRhs, n + 1)

/-- Lines 338-470: the row of an attempt (0/1: the original row; 2/3: with variable bounds substituted); `none` if the
attempt is skipped. -/
def tryRow (pm : Params) (P : Prob) (v : VB) (i : Nat) (r : Row) (itry : Nat) : Option (SVec × ℚ) :=
  let eff := if itry % 2 = 0 then v.effLo i else v.effUp i
  if 10 ^ 20 < |eff| then none
  else if itry < 2 then some (r.coefs, if itry = 0 then r.lb else r.ub)
  else
    let row0 := r.coefs.map fun p => if v.vubRow p.1 = -10 then (p.1, 0) else p
    match replaceAll P v (if itry = 2 then -1 else 1) i r.coefs (row0, eff, 0) with
    | (row, b, n) =>
      if n = 0 then none
      else
        let row := row.filter fun p => decide (p.2 ≠ 0)
        if pm.maxInKnapsack < (row.length : ℤ) then none else some (row, b)

/-- Lines 325-728: one attempt on row `i`. -/
def tryOne (S : Sorter) (pm : Params) (P : Prob) (xs : Nat → ℚ) (v : VB) (longRow : Nat) (i : Nat) (r : Row)
    (cs : Cuts) (itry : Nat) : Option Cuts :=
  match tryRow pm P v i r itry with
  | none => some cs
  | some (row, b) =>
    match derive P xs (decide (itry % 2 = 1)) row b with
    | (cc, none) => some { cs with cols := cs.cols ++ cc }
    | (cc, some k) => coverRow S longRow pm.expensive k { cs with cols := cs.cols ++ cc }

/-- Fold with failure. -/
def foldOpt {α β : Type} (f : β → α → Option β) : β → List α → Option β
  | b, [] => some b
  | b, a :: t => (f b a).bind fun b' => foldOpt f b' t

/-- Lines 283-729: the attempts on one row index. -/
def doRow (S : Sorter) (pm : Params) (P : Prob) (xs : Nat → ℚ) (v : VB) (longRow : Nat) (cs : Cuts) (i : ℤ) :
    Option Cuts :=
  if i < 0 then some cs
  else
    match P.rows[i.toNat]? with
    | none => some cs
    | some r =>
      if v.vub i.toNat = -2 then some cs
      else foldOpt (tryOne S pm P xs v longRow i.toNat r) cs (List.range (if v.number ≠ 0 then 4 else 2))

/-- `generateCuts` (lines 26-794): `xs` is the LP solution. The final marking of cuts as globally valid (lines 775-780)
is not part of the model. -/
def generateCuts (S : Sorter) (pm : Params) (P : Prob) (inTree : Bool) (pass : ℤ) (xs : Nat → ℚ) (cs : Cuts) :
    Option Cuts :=
  let x := clip P xs
  let v := vbTable pm P x (tightTol inTree pass)
  let longRow := if inTree then 20 else if pass = 0 then 30 else 25
  let rows : List ℤ := match pm.rowsToCheck with
    | none => (List.range P.rows.length).map fun (i : Nat) => (i : ℤ)
    | some l => l
  foldOpt (doRow S pm P x v longRow) cs rows

end Cgl.Knapsack
