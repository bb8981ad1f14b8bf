import Verif.Probing.Model

/-!
# Model of `CglProbing::probe` (`src/CglProbing/CglProbing.cpp`, 3560-7057)

The six loops over the elements of a row (4475-4691, 4692-4807, 4808-4923, 4927-5141, 5142-5254, 5255-5370) are the
same code for the two signs of the element and for one or both row bounds in use; they are one function here
(`elStep`).  `rowUp2` and `rowLo2` are always `rowUp - minR[irow]` and `rowLo - maxR[irow]`.

The field `exact` of the state has no counterpart in the code.  It is cleared where the code takes a step that is not
justified in exact arithmetic: a new bound of a continuous column is moved to the opposite bound because it is within
the tolerance, and a bound of a column that was fixed only because of the objective is used for all points.
-/

namespace Cgl.Probing

/-- `markC`: bit 1 (upper bound lowered), bit 2 (lower bound raised), bit 4 (lower bound below -1.0e10), bit 8 (upper
bound above 1.0e10).  Both of the first two say "fixed". -/
structure Mark where
  dn : Bool
  up : Bool
  lowInf : Bool
  upInf : Bool
deriving DecidableEq, Repr

/-- `(markC & 3) == 3`. -/
def Mark.fixed (m : Mark) : Bool := m.dn && m.up
/-- `(markC & 3) != 0`. -/
def Mark.any (m : Mark) : Bool := m.dn || m.up
/-- `markC = 3`. -/
def Mark.three : Mark := ⟨true, true, false, false⟩
/-- `markC = 0` and the bits 4 and 8 from the bounds (5766-5770, 6518-6522, 6547-6551). -/
def Mark.clear (lo up : ℚ) : Mark := ⟨false, false, decide (lo < -10 ^ 10), decide (10 ^ 10 < up)⟩
/-- `markC &= ~3`. -/
def Mark.drop (m : Mark) : Mark := ⟨false, false, m.lowInf, m.upInf⟩
/-- After a bound was moved: 3 if the column is fixed, and the bits 4 and 8 anew (4224-4230, 4566-4573, ...). -/
def Mark.moved (m : Mark) (lo up : ℚ) : Mark where
  dn := m.dn || decide (|up - lo| < 1 / 10 ^ 6)
  up := m.up || decide (|up - lo| < 1 / 10 ^ 6)
  lowInf := decide (lo < -10 ^ 10)
  upInf := decide (10 ^ 10 < up)

/-- Entry of `stackC`, `saveL`, `saveU`. -/
structure Save where
  col : Nat
  lo : ℚ
  up : ℚ
deriving DecidableEq, Repr

/-- Entry of `stackR`, `saveMin`, `saveMax`. -/
structure SaveR where
  row : Nat
  min : ℚ
  max : ℚ
deriving DecidableEq, Repr

/-- The data that does not change during `probe`: rows (with the bounds `tighten` left), kinds of columns, bounds in
the solver, cleaned solution and reduced costs, largest possible decrease and increase of a row by one element,
`direction * objective`, column lengths of the solver's matrix, `moveSingletonRows`, `cutoff`, `current`, `rowCuts`. -/
structure Cfg where
  rows : List PRow
  isInt : Nat → Bool
  curLo : Nat → ℚ
  curUp : Nat → ℚ
  sol : Nat → ℚ
  dj : Nat → ℚ
  bigNeg : Nat → ℚ
  bigPos : Nat → ℚ
  cost : Nat → ℚ
  len : Nat → Nat
  singles : Nat
  cutoff : ℚ
  current : ℚ
  rowCuts : Nat

/-- The elements of a column. -/
def Cfg.col (g : Cfg) (c : Nat) : List (Nat × ℚ) := colEls g.rows c
/-- `rowLower`. -/
def Cfg.lb (g : Cfg) (i : Nat) : ℚ := (g.rows[i]?.map PRow.lb).getD 0
/-- `rowUpper`. -/
def Cfg.ub (g : Cfg) (i : Nat) : ℚ := (g.rows[i]?.map PRow.ub).getD 0
/-- Elements of a row. -/
def Cfg.els (g : Cfg) (i : Nat) : SVec := (g.rows[i]?.map PRow.els).getD []

/-- The state: column bounds, `columnGap`, `markC`, `minR`, `maxR`, `markR` (is the row on the stack), the two stacks,
`objVal`, `notFeasible`; and `exact` (see above). -/
structure St where
  lo : Nat → ℚ
  up : Nat → ℚ
  gap : Nat → ℚ
  mark : Nat → Mark
  minR : Nat → ℚ
  maxR : Nat → ℚ
  markR : Nat → Bool
  sC : List Save
  sR : List SaveR
  obj : ℚ
  bad : Bool
  exact : Bool

/-- A row is put on the stack unless it is there (4238-4248, 4579-4585, ...). -/
def touch (i : Nat) (s : St) : St :=
  if s.markR i then s
  else
    { s with
      markR := Function.update s.markR i true
      sR := s.sR ++ [⟨i, s.minR i, s.maxR i⟩] }

/-- Does moving the lower bound up (`raised`) or the upper bound down change the minimum of the row?  (4252, 4273) -/
def minSide (raised : Bool) (v : ℚ) : Bool := if raised then decide (0 < v) else decide (v < 0)

/-- Update of one row after a bound was moved by `mv` (4234-4293, 4575-4609, ...); `true` if the row is violated. -/
def shiftRow (g : Cfg) (raised : Bool) (mv : ℚ) (e : Nat × ℚ) (s : St) : St × Bool :=
  let s := touch e.1 s
  if minSide raised e.2 then
    let s := if -10 ^ 10 < s.minR e.1 then { s with minR := Function.update s.minR e.1 (s.minR e.1 + e.2 * mv) } else s
    (s, decide (g.ub e.1 + 1 / 10 ^ 5 < s.minR e.1))
  else
    let s := if s.maxR e.1 < 10 ^ 10 then { s with maxR := Function.update s.maxR e.1 (s.maxR e.1 + e.2 * mv) } else s
    (s, decide (s.maxR e.1 < g.lb e.1 - 1 / 10 ^ 5))

/-- Update of the rows of a column; `true` if one is violated, the rest is then left out. -/
def shiftRows (g : Cfg) (raised : Bool) (mv : ℚ) : List (Nat × ℚ) → St → St × Bool
  | [], s => (s, false)
  | e :: es, s =>
    match shiftRow g raised mv e s with
    | (s, true) => (s, true)
    | (s, false) => shiftRows g raised mv es s

/-- `maxStack`: 80. -/
def maxStack : Nat := 80

/-- New lower bound and mark of a column from `dbound`, and whether it was moved to the upper bound (4500-4517). -/
def newLower (isInt : Bool) (d u : ℚ) (m : Mark) : ℚ × Mark × Bool :=
  if isInt then (⌈d - 2 * tol⌉, { m with up := true }, false)
  else if u < d + tol ∧ d - tol ≤ u then (u, { m with up := true }, decide (d ≠ u))
  else (d, Mark.three, false)

/-- New upper bound and mark of a column from `dbound`, and whether it was moved to the lower bound (4518-4535). -/
def newUpper (isInt : Bool) (d l : ℚ) (m : Mark) : ℚ × Mark × Bool :=
  if isInt then (⌊d + 2 * tol⌋, { m with dn := true }, false)
  else if d - tol < l ∧ l ≤ d + tol then (l, { m with dn := true }, decide (d ≠ l))
  else (d, Mark.three, false)

/-- The column goes on the stack unless it is there (4544-4552, 4613-4621). -/
def push (onList : Bool) (c : Nat) (s : St) : St :=
  if onList then s else { s with sC := s.sC ++ [⟨c, s.lo c, s.up c⟩] }

/-- `colUpper[kcol] = -1.0e50` after a row was found violated (4595, 4605, 4664, 4675).  (The first of the six loops
does not set `columnGap` in two places; it is not read again before it is set anew.) -/
def spoil (c : Nat) (r : St × Bool) : St :=
  if r.2 then
    { r.1 with
      up := Function.update r.1.up c (-10 ^ 50)
      gap := Function.update r.1.gap c (-10 ^ 50) }
  else r.1

/-- The lower bound of column `c` goes to `n` (4553-4609). -/
def moveUp (g : Cfg) (c : Nat) (n : ℚ) (s : St) : St :=
  let mv := n - s.lo c
  let obj := if g.sol c < n ∧ ¬ g.dj c < 0 then s.obj + mv * g.dj c else s.obj
  let n := if g.isInt c then max (s.lo c) ⌈n - 1 / 10 ^ 4⌉ else n
  spoil c (shiftRows g true mv (g.col c)
    { s with
      obj := obj
      lo := Function.update s.lo c n
      gap := Function.update s.gap c (s.up c - n - tol)
      mark := Function.update s.mark c ((s.mark c).moved n (s.up c)) })

/-- The upper bound of column `c` goes to `n`, by `mv` (4622-4680). -/
def moveDown (g : Cfg) (c : Nat) (n mv : ℚ) (s : St) : St :=
  let obj := if n < g.sol c ∧ ¬ 0 < g.dj c then s.obj + mv * g.dj c else s.obj
  let n := if g.isInt c then min (s.up c) ⌊n + 1 / 10 ^ 4⌋ else n
  spoil c (shiftRows g false mv (g.col c)
    { s with
      obj := obj
      up := Function.update s.up c n
      gap := Function.update s.gap c (n - s.lo c - tol)
      mark := Function.update s.mark c ((s.mark c).moved (s.lo c) n) })

/-- The moves of column `c`: lower bound to `nl` if it changes, upper bound to `nu` if it changes (4536-4688). -/
def applyMoves (g : Cfg) (c : Nat) (nl nu : ℚ) (m : Mark) (ex : Bool) (s : St) : St × Bool :=
  let mvL := nl - s.lo c
  let mvU := nu - s.up c
  if mvL = 0 ∧ mvU = 0 then (s, false)
  else
    let onList := (s.mark c).any
    let s :=
      if s.sC.length < 2 * maxStack then
        { s with
          mark := Function.update s.mark c m
          exact := s.exact && ex }
      else s
    let up := decide (mvL ≠ 0) && decide (s.sC.length < 2 * maxStack)
    let s := if up then moveUp g c nl (push onList c s) else s
    let s :=
      if decide (mvU ≠ 0) && decide (s.sC.length < 2 * maxStack) then moveDown g c nu mvU (push (onList || up) c s)
      else s
    if s.up c + tol < s.lo c then ({ s with bad := true }, true) else (s, false)

/-- Are the bounds of the column to be moved?  `ru` and `rl` are `rowUp2` and `rowLo2` (4492-4494, ...). -/
def wantUp (useUp useLo : Bool) (ru rl gap v : ℚ) : Bool :=
  if v < 0 then useUp && decide (ru + gap * v < -(1 / 10 ^ 7)) else useLo && decide (1 / 10 ^ 7 < rl + gap * v)

/-- See `wantUp`. -/
def wantDown (useUp useLo : Bool) (ru rl gap v : ℚ) : Bool :=
  if v < 0 then useLo && decide (1 / 10 ^ 7 < rl - gap * v) else useUp && decide (ru - gap * v < -(1 / 10 ^ 7))

/-- The new lower bound with the new mark and whether it is exact (4500-4517); the old one if nothing is to be done. -/
def planUp (g : Cfg) (want : Bool) (ru rl : ℚ) (e : Nat × ℚ) (s : St) (m : Mark) : ℚ × Mark × Bool :=
  if want && !m.up && !m.upInf then
    newLower (g.isInt e.1) (s.up e.1 + (if e.2 < 0 then ru else rl) / e.2) (s.up e.1) m
  else (s.lo e.1, m, false)

/-- The new upper bound (4518-4535). -/
def planDown (g : Cfg) (want : Bool) (ru rl : ℚ) (e : Nat × ℚ) (s : St) (m : Mark) : ℚ × Mark × Bool :=
  if want && !m.dn && !m.lowInf then
    newUpper (g.isInt e.1) (s.lo e.1 + (if e.2 < 0 then rl else ru) / e.2) (s.lo e.1) m
  else (s.up e.1, m, false)

/-- One element of row `i` (4479-4690, ...); `true` if the loop ends here. -/
def elStep (g : Cfg) (i : Nat) (useUp useLo : Bool) (e : Nat × ℚ) (s : St) : St × Bool :=
  let m := s.mark e.1
  if m.fixed then (s, false)
  else
    let ru := g.ub i - s.minR i
    let rl := g.lb i - s.maxR i
    let pu := planUp g (wantUp useUp useLo ru rl (s.gap e.1) e.2) ru rl e s m
    let pd := planDown g (wantDown useUp useLo ru rl (s.gap e.1) e.2) ru rl e s pu.2.1
    applyMoves g e.1 pu.1 pd.1 pd.2.1 (!pu.2.2 && !pd.2.2) s

/-- A loop over elements of row `i`. -/
def elLoop (g : Cfg) (i : Nat) (useUp useLo : Bool) : List (Nat × ℚ) → St → St
  | [], s => s
  | e :: es, s =>
    match elStep g i useUp useLo e s with
    | (s, true) => s
    | (s, false) => elLoop g i useUp useLo es s

/-- One row of a column that was moved (4427-5370).  (The second loop also runs if the first found infeasibility.) -/
def rowStep (g : Cfg) (i : Nat) (s : St) : St :=
  match g.rows[i]? with
  | none => s
  | some r =>
    let ru := r.ub - s.minR i
    let rl := r.lb - s.maxR i
    if r.ub < 10 ^ 10 ∧ ru < -(10 * tol) then { s with bad := true }
    else if -10 ^ 10 < r.lb ∧ 10 * tol < rl then { s with bad := true }
    else
      let upN := decide (r.ub < 10 ^ 10) && !decide (0 < ru + g.bigNeg i)
      let upP := decide (r.ub < 10 ^ 10) && !decide (0 < ru - g.bigPos i)
      let loN := decide (-10 ^ 10 < r.lb) && !decide (rl - g.bigNeg i < 0)
      let loP := decide (-10 ^ 10 < r.lb) && !decide (rl + g.bigPos i < 0)
      elLoop g i upP loP r.pos (elLoop g i upN loN r.neg s)

/-- The rows of a column (4423-5371). -/
def colLoop (g : Cfg) : List (Nat × ℚ) → St → St
  | [], s => s
  | e :: es, s => if s.bad then s else colLoop g es (rowStep g e.1 s)

/-- The loop over the stack (4294-5530): `n` steps starting at position `k`.  At most `maxStack` positions are looked
at. -/
def queue (g : Cfg) : Nat → Nat → St → St
  | 0, _, s => s
  | n + 1, k, s =>
    if s.bad || !decide (s.sC.length < maxStack) then s
    else
      match s.sC[k]? with
      | none => s
      | some v => queue g n (k + 1) (colLoop g (g.col v.col) s)

/-- One way of probing column `j`: `way` false takes the upper bound to `d`, true the lower bound to `d`
(4167-5534). -/
def branch (g : Cfg) (way : Bool) (j : Nat) (d : ℚ) (s : St) : St :=
  let mv := if way then d - s.lo j else d - s.up j
  let n : ℚ := ⌊d + 1 / 2⌋
  let lo := if way then Function.update s.lo j n else s.lo
  let up := if way then s.up else Function.update s.up j n
  let m : Mark := ⟨!way, way, false, false⟩
  let r := shiftRows g way mv (g.col j)
    { s with
      obj := if 0 < (d - g.sol j) * g.dj j then g.current + (d - g.sol j) * g.dj j else g.current
      lo := lo
      up := up
      gap := Function.update s.gap j (up j - lo j - tol)
      mark := Function.update s.mark j (m.moved (lo j) (up j))
      sC := [⟨j, s.lo j, s.up j⟩]
      sR := []
      bad := false }
  if r.2 then { r.1 with bad := true } else queue g maxStack 0 r.1

/-- Is the branch feasible?  (5535-5549) -/
def feasible (g : Cfg) (s : St) : Bool := !s.bad && decide (s.obj ≤ g.cutoff)

/-- `down` and `up` (4134-4159). -/
def choose (sol lo up : ℚ) : ℚ × ℚ :=
  let d : ℚ := ⌊sol + 10 * tol⌋
  let u : ℚ := ⌈sol - 10 * tol⌉
  if up - 10 * tol ≤ sol ∨ sol ≤ lo + 10 * tol ∨ u = d then
    if sol ≤ lo + 20 * tol then (lo, lo + 1)
    else if up - 20 * tol ≤ sol then (up - 1, up)
    else (d, d + 1)
  else (d, u)

/-- `goingToTrueBound` (4177-4194): `b` is the value probed, `t` the bound it should be. -/
def trueBound (g : Cfg) (b t lo up : ℚ) : Nat :=
  if g.rowCuts % 2 = 0 then 0
  else if |b - t| < 1 / 10 ^ 7 then (if 3 / 2 < up - lo ∨ lo ≠ 0 then 1 else 2)
  else 0

/-- A call of `CglTreeInfo::fixes`: column `j` at its lower (`up` false) or upper value fixes column `col` at its lower
bound (`toLower`) or upper bound. -/
structure Fix where
  j : Nat
  up : Bool
  col : Nat
  toLower : Bool
deriving DecidableEq, Repr

/-- The implications of a branch that are recorded (5570-5583). -/
def fixes (way : Bool) (j : Nat) (s : St) : List Fix :=
  (s.sC.tail.filter fun v => decide (s.up v.col - s.lo v.col < 1 / 10 ^ 12) && decide (v.lo = 0) && decide (v.up = 1)).map
    fun v => ⟨j, way, v.col, decide (s.lo v.col = v.lo)⟩

/-- Restoring one column after the first way (5763-5770). -/
def restore0 (v : Save) (s : St) : St :=
  { s with
    lo := Function.update s.lo v.col v.lo
    up := Function.update s.up v.col v.up
    gap := Function.update s.gap v.col (v.up - v.lo - tol)
    mark := Function.update s.mark v.col (Mark.clear v.lo v.up) }

/-- Restoring one column after the second way (6514-6525). -/
def restore1 (v : Save) (s : St) : St :=
  { s with
    lo := Function.update s.lo v.col v.lo
    up := Function.update s.up v.col v.up
    gap := Function.update s.gap v.col (v.up - v.lo - tol)
    mark := Function.update s.mark v.col (if v.lo + 1 / 10 ^ 4 < v.up then Mark.clear v.lo v.up else Mark.three) }

/-- Restoring the rows (6082-6084, 6769-6771). -/
def restoreRow (v : SaveR) (s : St) : St :=
  { s with
    minR := Function.update s.minR v.row v.min
    maxR := Function.update s.maxR v.row v.max
    markR := Function.update s.markR v.row false }

/-- The whole restoring after the first way: columns from the top of the stack, then rows. -/
def undo0 (s : St) : St :=
  let s1 := s.sC.foldr restore0 s
  s1.sR.foldl (fun t v => restoreRow v t) s1

/-- The whole restoring after the second way (6343-6552, 6769-6771). -/
def undo1 (s : St) : St :=
  match s.sC with
  | [] => s
  | v :: vs =>
    let s1 := restore0 v (vs.foldr restore1 s)
    s1.sR.foldl (fun t v => restoreRow v t) s1

/-! ### Cuts -/

/-- `addCutIfNotDuplicate` (97-222): the row is sorted, cuts with very small or large numbers are refused, and so are
duplicates.  `dup` stands for `hashCut` and `same` (Osi): may say what it likes. -/
def addCand (dup : List RowCut → RowCut → Bool) (l : List RowCut) (c : RowCut) : List RowCut :=
  let c := { c with row := c.row.insertionSort fun p q => p.1 ≤ q.1 }
  if (c.row.any fun p => decide (|p.2| < 1 / 10 ^ 12 ∨ 10 ^ 12 < |p.2|)) ||
      decide (c.lb < -10 ^ 12 ∧ -10 ^ 40 < c.lb) || decide (10 ^ 12 < c.ub ∧ c.ub < 10 ^ 40) then l
  else if dup l c then l
  else l ++ [c]

/-- All of them, in order. -/
def addCands (dup : List RowCut → RowCut → Bool) (l cs : List RowCut) : List RowCut := cs.foldl (addCand dup) l

/-- The right-hand side of a disaggregation cut is relaxed for continuous columns (5709-5710, 6465-6466). -/
def relaxUb (isInt : Bool) (b : ℚ) : ℚ := if isInt = false ∧ 1000 < b then b + b / 10 ^ 7 else b
/-- See `relaxUb` (5736-5737, 6492-6493). -/
def relaxLb (isInt : Bool) (b : ℚ) : ℚ := if isInt = false ∧ 1000 < |b| then b - |b| / 10 ^ 7 else b

/-- Disaggregation cuts for one column on the stack (5700-5762, 6456-6513).  `mv` is `solMove`, `k` is `-down` for the
first way and `up` for the second, `sg` is -1 and 1. -/
def disagg (g : Cfg) (j : Nat) (mv k sg : ℚ) (s : St) (v : Save) : List RowCut :=
  let c := v.col
  let bu := v.up - s.up c
  let bl := v.lo - s.lo c
  (if 0 < bu ∧ v.up < 10 ^ 10 ∧ s.up c + bu * mv + tol < g.sol c ∧ 1 / 10 ^ 3 < (g.sol c - s.up c) / bu - mv then
      [⟨-dblMax, relaxUb (g.isInt c) (s.up c + k * bu), [(c, 1), (j, sg * bu)]⟩]
    else []) ++
  (if bl < 0 ∧ -10 ^ 10 < v.lo ∧ g.sol c < s.lo c + bl * mv - tol ∧ 1 / 10 ^ 3 < (g.sol c - s.lo c) / bl - mv then
      [⟨relaxLb (g.isInt c) (s.lo c + k * bl), dblMax, [(c, 1), (j, sg * bl)]⟩]
    else [])

/-- Row `els` with `d` added to the coefficient of column `j` (5841-5862, 5996-6017, 6576-6597, 6679-6700). -/
def addTo (j : Nat) (d : ℚ) (els : SVec) : SVec :=
  els.flatMap (fun e =>
    if e.1 = j then (if 1 / 10 ^ 12 < |e.2 + d| then [(j, e.2 + d)] else []) else [e]) ++
  (if els.any fun e => decide (e.1 = j) then [] else [(j, d)])

/-- Is a coefficient other than zero left out by `addTo`? -/
def addDrops (j : Nat) (d : ℚ) (els : SVec) : Bool :=
  els.any fun e => decide (e.1 = j ∧ |e.2 + d| ≤ 1 / 10 ^ 12 ∧ e.2 + d ≠ 0)

/-- `effectiveness` of a strengthened row (5867-5874, ...). -/
def effective (els : SVec) (j : Nat) (a b : ℚ) : ℚ :=
  if els.any fun e => decide (e.1 = j) then max a b else max (1 / 10 ^ 7) (max a b)

/-- Is the row with `gap` to be strengthened?  (5779, 5935, 6561, 6662) -/
def gapOk (gap : ℚ) : Bool := decide (tol < gap ∧ gap < 10 ^ 8)

/-- Strengthened rows after the first way (5777-6080): `s` has the bounds from before, `mx` and `mn` are `maxR` and
`minR` at the end of the way. -/
def strength0 (g : Cfg) (j : Nat) (s : St) (i : Nat) (mn mx : ℚ) : List (RowCut × Bool) :=
  let els := g.els i
  let sum := els.dot g.sol
  let gu := g.ub i - mx
  let gl := mn - g.lb i
  (if gapOk gu && decide (mx + tol < sum - gu * g.sol j) then
      let ub := g.ub i - gu * (s.lo j + 1)
      if 1 / 10 ^ 3 < effective els j (sum - gu * g.sol j - ub) ((sum - gu * g.sol j - mx) / gu) then
        [(⟨-dblMax, ub, addTo j (-gu) els⟩, addDrops j (-gu) els)]
      else []
    else []) ++
  (if gapOk gl && decide (sum + gl * g.sol j < mn - tol) then
      let lb := g.lb i + gl * (s.lo j + 1)
      if 1 / 10 ^ 3 < effective els j (lb - (sum + gl * g.sol j)) ((mn - sum - gl * g.sol j) / gl) then
        [(⟨lb, dblMax, addTo j gl els⟩, addDrops j gl els)]
      else []
    else [])

/-- Strengthened rows after the second way (6559-6767). -/
def strength1 (g : Cfg) (j : Nat) (s : St) (i : Nat) (mn mx : ℚ) : List (RowCut × Bool) :=
  let els := g.els i
  let sum := els.dot g.sol
  let gu := g.ub i - mx
  let gl := mn - g.lb i
  (if gapOk gu && decide (g.ub i + tol < sum + gu * g.sol j) then
      let ub := g.ub i + gu * (s.up j - 1)
      if 1 / 10 ^ 3 < effective els j (sum + gu * g.sol j - ub) ((sum + gu * g.sol j - g.ub i) / gu) then
        [(⟨-dblMax, ub, addTo j gu els⟩, addDrops j gu els)]
      else []
    else []) ++
  (if gapOk gl && decide (sum - gl * g.sol j < g.lb i - tol) then
      let lb := g.lb i - gl * (s.up j - 1)
      if 1 / 10 ^ 3 < effective els j (lb - (sum - gl * g.sol j)) ((g.lb i - sum + gl * g.sol j) / gl) then
        [(⟨lb, dblMax, addTo j (-gl) els⟩, addDrops j (-gl) els)]
      else []
    else [])

/-- Entry of `stackC0`, `lo0`; `sure` has no counterpart in the code: it is false for the entries that come from the
objective. -/
structure Low where
  col : Nat
  lo : ℚ
  sure : Bool
deriving DecidableEq, Repr

/-- May the columns of the row be moved to their good side?  (5785-5800, 5940-5955) -/
def movable (g : Cfg) (j : Nat) (s : St) (i : Nat) : Bool :=
  decide (i < g.singles) && (g.els i).all fun e => decide (e.1 = j) || !decide (s.lo e.1 < s.up e.1) || decide (g.len e.1 = 1)

/-- "can fix any with good costs" (5803-5830, 5958-5985): `sg` is 1 for the upper and -1 for the lower bound of the
row. -/
def moveSingles (g : Cfg) (j : Nat) (s : St) (sg : ℚ) : List (Nat × ℚ) → List Low → List Low
  | [], l => l
  | e :: es, l =>
    moveSingles g j s sg es
      (if e.1 ≠ j ∧ s.lo e.1 < s.up e.1 ∧ g.len e.1 = 1 ∧ sg * (g.cost e.1 * e.2) < 0 ∧ (s.mark e.1).any = false ∧
          l.length + 1 < maxStack then
        l ++ [⟨e.1, if 0 < sg * e.2 then s.up e.1 else s.lo e.1, false⟩]
      else l)

/-- Both for one row. -/
def singles0 (g : Cfg) (j : Nat) (s : St) (v : SaveR) (mn mx : ℚ) (l : List Low) : List Low :=
  if movable g j s v.row then
    let l := if gapOk (g.ub v.row - mx) then moveSingles g j s 1 (g.els v.row) l else l
    if gapOk (mn - g.lb v.row) then moveSingles g j s (-1) (g.els v.row) l else l
  else l

/-! ### Probing one column -/

/-- What `probe` has produced: column cuts (inserted at once), row cuts (kept in `rowCut`), recorded implications, and
`nfixed`, `anyColumnCuts`, `ninfeas` and whether all loops are left (5584-5590). -/
structure Acc where
  cols : List ColCut
  cand : List RowCut
  fixes : List Fix
  nfixed : Nat
  anyCol : Bool
  infeas : Bool
  stop : Bool
deriving DecidableEq, Repr

/-- `cleanBounds` (3209-3240): sorting by column.  (The columns on the stack are all different.) -/
def sortBounds (v : SVec) : SVec := v.insertionSort fun p q => p.1 ≤ q.1

/-- The column cut for the bounds of a way that is kept (5598-5639). -/
def keepCut (g : Cfg) (s : St) : ColCut where
  ubs := sortBounds ((s.sC.filter fun v => g.isInt v.col && decide (s.up v.col < g.curUp v.col - 1 / 10 ^ 4)).map
    fun v => (v.col, s.up v.col))
  lbs := sortBounds ((s.sC.filter fun v => g.isInt v.col && decide (g.curLo v.col + 1 / 10 ^ 4 < s.lo v.col)).map
    fun v => (v.col, s.lo v.col))

/-- Mark of a column that is kept (5654-5661). -/
def keepMark (v : Save) (s : St) : St :=
  { s with
    mark := Function.update s.mark v.col
      (if tol < s.up v.col - s.lo v.col then (s.mark v.col).drop else Mark.three) }

/-- Column cuts that are not empty are inserted (5641-5653, 6314-6326). -/
def addCol (l : List ColCut) (c : ColCut) : List ColCut := if c.lbs = [] ∧ c.ubs = [] then l else l ++ [c]

/-- A way is kept (5594-5665). -/
def keep (g : Cfg) (s : St) (a : Acc) : St × Acc :=
  let cc := keepCut g s
  let s1 := s.sC.foldl (fun t v => keepMark v t) s
  ({ s1 with markR := fun i => if i ∈ s.sR.map SaveR.row then false else s1.markR i },
    { a with
      nfixed := a.nfixed + 1
      cols := addCol a.cols cc
      anyCol := a.anyCol || (cc.ubs.any fun p => decide (p.2 + tol < g.sol p.1)) ||
        cc.lbs.any fun p => decide (g.sol p.1 < p.2 - tol) })

/-- Row cuts found after one way. -/
def wayCuts (g : Cfg) (way : Bool) (j : Nat) (d : ℚ) (gtb : Nat) (any : Bool) (s before : St) : List (RowCut × Bool) :=
  (if gtb = 2 then
      (s.sC.tail.reverse.flatMap
        (disagg g j (if way then d - g.sol j else g.sol j - d) (if way then d else -d) (if way then 1 else -1) s)).map
        fun c => (c, false)
    else []) ++
  (if g.rowCuts / 2 % 2 = 1 ∧ gtb ≠ 0 ∧ any = false then
      s.sR.flatMap fun v =>
        if way then strength1 g j before v.row (s.minR v.row) (s.maxR v.row)
        else strength0 g j before v.row (s.minR v.row) (s.maxR v.row)
    else [])

/-- `stackC0` and `lo0` after the first way (5670-5682 and 5803-5830, 5958-5985); `before` has the restored bounds. -/
def lows (g : Cfg) (j : Nat) (gtb : Nat) (any : Bool) (s before : St) : List Low :=
  let l := (s.sC.take maxStack).map fun v => (⟨v.col, s.lo v.col, true⟩ : Low)
  if g.rowCuts / 2 % 2 = 1 ∧ gtb ≠ 0 ∧ any = false then
    s.sR.foldl (fun l v => singles0 g j before v (s.minR v.row) (s.maxR v.row) l) l
  else l

/-- Records row cuts; a cut that left out a coefficient clears `exact`. -/
def record (dup : List RowCut → RowCut → Bool) (cs : List (RowCut × Bool)) (r : St × Acc) : St × Acc :=
  ({ r.1 with exact := r.1.exact && !(cs.any fun c => c.2) },
    { r.2 with cand := addCands dup r.2.cand (cs.map Prod.fst) })

/-- The first entry of `stackC0` (after the first) for the column (6205-6209). -/
def findLow (l : List Low) (c : Nat) : Option Low := l.tail.find? fun w => decide (w.col = c)

/-- The lower bound of a column on the stack of the second way, tightened if both ways raised it (6205-6234). -/
def bothLo (l : List Low) (s : St) (v : Save) : Option Low :=
  match findLow l v.col with
  | none => none
  | some w => if v.lo + 1 / 10 ^ 4 < min w.lo (s.lo v.col) then some { w with lo := min w.lo (s.lo v.col) } else none

/-- The saved bounds with the lower bounds both ways agree on. -/
def bothSave (l : List Low) (s : St) (v : Save) : Save :=
  match bothLo l s v with
  | none => v
  | some w => { v with lo := w.lo }

/-- The column cut for them (6202-6240, 6313-6326).  (The loop for the upper bounds, 6241-6307, never does anything:
the first loop has taken 100000 off every `markC` it finds.) -/
def bothCut (g : Cfg) (l : List Low) (s : St) : ColCut where
  lbs := sortBounds ((s.sC.tail.filter fun v => g.isInt v.col && (bothLo l s v).isSome).map
    fun v => (v.col, (bothSave l s v).lo))
  ubs := []

/-- Both ways are feasible (6087-6326). -/
def both (g : Cfg) (l : List Low) (s : St) (a : Acc) : St × Acc :=
  ({ s with
      sC := match s.sC with
        | [] => []
        | v :: vs => v :: vs.map (bothSave l s)
      exact := s.exact && !(s.sC.tail.any fun v => (bothLo l s v).any fun w => !w.sure) },
    { a with
      cols := addCol a.cols (bothCut g l s)
      nfixed := a.nfixed + (s.sC.tail.filter fun v => (bothLo l s v).isSome).length })

/-- The second way and what follows (4165-6774 with `iway` 1 and 2): `ok0` says that the first way was feasible. -/
def second (g : Cfg) (dup : List RowCut → RowCut → Bool) (j : Nat) (d u : ℚ) (ok0 : Bool) (l : List Low)
    (before : St) (a : Acc) : St × Acc :=
  let s := branch g true j u before
  let ok1 := feasible g s
  let a := if ok1 then { a with fixes := a.fixes ++ fixes true j s } else a
  if ok1 then
    if ok0 then
      let r := both g l s a
      let cs := wayCuts g true j u (trueBound g u (before.up j) (before.lo j) (before.up j)) a.anyCol r.1 before
      record dup cs (undo1 r.1, r.2)
    else keep g s a
  else if ok0 then
    let s := branch g false j d (undo1 s)
    keep g s (if feasible g s then { a with fixes := a.fixes ++ fixes false j s } else a)
  else (s, { a with infeas := true, stop := a.stop || s.bad })

/-- The first way and what follows (4165-6774 with `iway` 0). -/
def first (g : Cfg) (dup : List RowCut → RowCut → Bool) (j : Nat) (d u : ℚ) (before : St) (a : Acc) : St × Acc :=
  let s := branch g false j d before
  let ok0 := feasible g s
  let gtb := if ok0 then trueBound g d (before.lo j) (before.lo j) (before.up j) else 0
  let a1 := if ok0 then { a with fixes := a.fixes ++ fixes false j s } else a
  let t := undo0 s
  let r := record dup (wayCuts g false j d gtb a.anyCol s t) (t, a1)
  second g dup j d u ok0 (if ok0 then lows g j gtb a.anyCol s t else []) r.1 r.2

/-- `if (columnGap[j] < 0.0) markC[j] = 3` (4137-4138). -/
def markFixed (j : Nat) (s : St) : St :=
  if s.gap j < 0 then { s with mark := Function.update s.mark j Mark.three } else s

/-- Probing column `j` (4134-6775). -/
def probeCol (g : Cfg) (dup : List RowCut → RowCut → Bool) (j : Nat) (r : St × Acc) : St × Acc :=
  let s := markFixed j r.1
  if (s.mark j).any || !g.isInt j then (s, r.2)
  else
    let c := choose (g.sol j) (s.lo j) (s.up j)
    first g dup j c.1 c.2 s r.2

/-- The columns of one pass (3980-6776). -/
def passLoop (g : Cfg) (dup : List RowCut → RowCut → Bool) : List Nat → St × Acc → St × Acc
  | [], r => r
  | j :: js, r =>
    let r := probeCol g dup j r
    if r.2.stop then r else passLoop g dup js r

/-- The passes (3910-6777): `look p` are the columns of pass `p`. -/
def passes (g : Cfg) (dup : List RowCut → RowCut → Bool) (look : Nat → List Nat) : Nat → Nat → St × Acc → St × Acc
  | 0, _, r => r
  | n + 1, p, r =>
    let r := passLoop g dup (look p) (r.1, { r.2 with nfixed := 0 })
    if r.2.stop || decide (r.2.nfixed = 0) then r else passes g dup look n (p + 1) r

/-! ### Big-M coefficients (6778-6975) -/

/-- The integer column with the largest coefficient (6795-6804). -/
def bigCol (g : Cfg) (s : St) : List (Nat × ℚ) → Option (Nat × ℚ) → Option (Nat × ℚ)
  | [], b => b
  | e :: es, b =>
    bigCol g s es
      (if g.isInt e.1 && decide (s.lo e.1 < s.up e.1) && decide (s.lo e.1 = 0) &&
          decide ((b.map fun p => |p.2|).getD 0 < |e.2|) then some e else b)

/-- Largest activity of the other columns (6809-6885).  (A sum over some columns only is replaced by 1.0e31.) -/
def otherMax (s : St) (k : Nat) (els : SVec) : ℚ :=
  if els.any fun e => decide (s.up e.1 ≠ s.lo e.1 ∧ e.1 ≠ k ∧
      ((0 < e.2 ∧ 10 ^ 15 ≤ s.up e.1) ∨ (e.2 < 0 ∧ s.lo e.1 ≤ -10 ^ 15))) then 10 ^ 31
  else (els.map fun e => if s.up e.1 = s.lo e.1 then s.up e.1 * e.2 else if e.1 = k then 0
    else if 0 < e.2 then s.up e.1 * e.2 else if e.2 < 0 then s.lo e.1 * e.2 else 0).sum

/-- Smallest activity of the other columns (6809-6886). -/
def otherMin (s : St) (k : Nat) (els : SVec) : ℚ :=
  if els.any fun e => decide (s.up e.1 ≠ s.lo e.1 ∧ e.1 ≠ k ∧
      ((0 < e.2 ∧ s.lo e.1 ≤ -10 ^ 15) ∨ (e.2 < 0 ∧ 10 ^ 15 ≤ s.up e.1))) then -10 ^ 31
  else (els.map fun e => if s.up e.1 = s.lo e.1 then s.up e.1 * e.2 else if e.1 = k then 0
    else if 0 < e.2 then s.lo e.1 * e.2 else if e.2 < 0 then s.up e.1 * e.2 else 0).sum

/-- `upAdjust` (6854-6877). -/
def upAdjust (s : St) (k : Nat) (v : ℚ) : ℚ :=
  if 0 < v then (if 10 ^ 15 ≤ s.up k then 10 ^ 31 else s.up k * v) else s.lo k * v
/-- `downAdjust` (6854-6877).  (The lower bound of the column is 0.) -/
def downAdjust (s : St) (k : Nat) (v : ℚ) : ℚ :=
  if 0 < v then s.lo k * v else (if 10 ^ 15 ≤ s.up k then -10 ^ 31 else s.up k * v)

/-- The row with the other coefficient (6909-6929). -/
def replaceIn (k : Nat) (w : ℚ) (els : SVec) : SVec :=
  els.flatMap fun e => if e.1 = k then (if 1 / 10 ^ 12 < |w| then [(k, w)] else []) else [e]

/-- `gap` (6930-6934). -/
def violation (sum lb ub : ℚ) : ℚ := if sum < lb then lb - sum else if ub < sum then sum - ub else 0

/-- The new coefficient (6888-6901), `none` if the row stays as it is.  -/
def bigNew (s : St) (lb ub : ℚ) (els : SVec) (k : Nat) (v : ℚ) : Option ℚ :=
  let mx := otherMax s k els
  let mn := otherMin s k els
  let b := min (s.up k) 2147483647
  if lb - 10 * tol < mn + downAdjust s k v ∧ mx + upAdjust s k v < ub + 10 * tol then none
  else if lb < mn + v * b ∧ mx + v * b < ub ∧ lb < mn + v ∧ mx + v < ub ∧ (mn < lb - tol ∨ ub + tol < mx) then
    (if 1 / 10 ^ 12 < |v - (if 0 < v then lb - mn else ub - mx)| then some (if 0 < v then lb - mn else ub - mx) else none)
  else none

/-- The cut of one row (6780-6973). -/
def bigM (g : Cfg) (s : St) (i : Nat) : List RowCut :=
  let els := g.els i
  if -10 ^ 20 < g.lb i ∨ g.ub i < 10 ^ 20 then
    match bigCol g s els none with
    | none => []
    | some (k, v) =>
      match bigNew s (g.lb i) (g.ub i) els k v with
      | none => []
      | some w =>
        if 1 / 10 ^ 4 < violation ((els.map fun e => g.sol e.1 * (if e.1 = k then w else e.2)).sum) (g.lb i) (g.ub i) then
          [⟨g.lb i, g.ub i, replaceIn k w els⟩]
        else []
  else []

/-- All rows (6778-6975). -/
def bigMs (g : Cfg) (dup : List RowCut → RowCut → Bool) (nSafe : Nat) (r : St × Acc) : List RowCut :=
  if r.2.infeas = false ∧ r.2.cand = [] ∧ g.rowCuts ≠ 0 then
    addCands dup [] ((List.range nSafe).flatMap (bigM g r.1))
  else r.2.cand

/-- `row_cut::addCuts` (223-287): `effectiveness()` of every stored cut is 0, so at the limit all cuts are inserted
and above it none. -/
def addCuts (lim pass : Nat) (l : List RowCut) : List RowCut :=
  if l.length < lim then (if pass % 2 = 1 then l else l.reverse)
  else if lim < l.length then [] else l

end Cgl.Probing
