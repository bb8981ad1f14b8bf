import Verif.Osi

/-!
# Model of `CglBKClique`, `CglOddWheel` and `CglCliqueStrengthening`

The conflict graph, the Bron–Kerbosch search, the clique extender, the odd-wheel separator and the cut pool are
classes of CoinUtils, outside /repo.  They appear here as parameters (`Graph`, `BKEnv`, `OWEnv`, `StrEnv`); what is
assumed about them is stated in `Verif/Conflict/Spec.lean`.  Undefined behaviour, failed assertions and `abort`/`exit`
are the errors of `Except Fault`.
-/

namespace Cgl.Conflict

/-- What can go wrong: a failed `assert`, an access outside an array, the `abort`/`exit` calls, a null pointer, a
`sprintf` past its buffer. -/
inductive Fault
  | assertion | memory | badGraph | badSize | badParam | nullPointer | nameOverflow
deriving DecidableEq, Repr

/-- `CoinConflictGraph` (external): `2 * nCols` nodes; node `j < nCols` stands for `x_j = 1`, node `nCols + j` for
`x_j = 0`; `adj` is `conflicting`. -/
structure Graph where
  nCols : Nat
  adj : Nat → Nat → Bool

/-- `CoinConflictGraph::degree` (external): number of neighbours. -/
def Graph.degree (G : Graph) (u : Nat) : Nat := ((List.range (2 * G.nCols)).filter (G.adj u)).length

/-- Value at `x` of the literal a node stands for; CglBKClique.cpp:238/249, CglOddWheel.cpp:112–114. -/
def lit (n : Nat) (x : Nat → ℚ) (u : Nat) : ℚ := if u < n then x u else 1 - x (u - n)

/-! ### The row of a clique -/

/-- The arrays `idxs_`/`coefs_` (as `row`), `rhs` and `duplicated` while a clique is turned into a row;
CglBKClique.cpp:375–377, CglCliqueStrengthening.cpp:538–539. -/
structure Build where
  row : SVec
  rhs : ℚ
  dup : Nat
deriving DecidableEq, Repr

/-- `idxMap_[c]`, read together with the coefficient it points to: `none` is −1. -/
def coefAt (v : SVec) (c : Nat) : Option ℚ := (v.find? fun p => p.1 == c).map Prod.snd

/-- `coefs_[idxMap_[c]] += d`. -/
def bump (v : SVec) (c : Nat) (d : ℚ) : SVec := v.map fun p => if p.1 = c then (p.1, p.2 + d) else p

/-- The body of the two branches of CglBKClique.cpp:383–392/395–404 (CglCliqueStrengthening.cpp:545–554/557–566):
append the column, or add to its coefficient, which must become 0.  `cap` is the size of the arrays. -/
def addEntry (cap : Nat) (b : Build) (c : Nat) (d : ℚ) : Except Fault Build :=
  match coefAt b.row c with
  | none => if b.row.length < cap then .ok { b with row := b.row ++ [(c, d)] } else .error .memory
  | some a =>
    if a + d = 0 then .ok { row := bump b.row c d, rhs := b.rhs, dup := b.dup + 1 } else .error .assertion

/-- One clique element; CglBKClique.cpp:382–405, CglCliqueStrengthening.cpp:544–567.  `idxMap_` has been filled for
`n` columns. -/
def addNode (cap n : Nat) (b : Build) (u : Nat) : Except Fault Build :=
  if u < n then addEntry cap b u 1
  else if u - n < n then addEntry cap { b with rhs := b.rhs - 1 } (u - n) (-1)
  else .error .memory

/-- The loop over the clique elements; CglBKClique.cpp:381–406, CglCliqueStrengthening.cpp:543–568. -/
def addNodes (cap n : Nat) : Build → List Nat → Except Fault Build
  | b, [] => .ok b
  | b, u :: us =>
    match addNode cap n b u with
    | .ok b' => addNodes cap n b' us
    | .error f => .error f

/-- Start values of the loop; CglBKClique.cpp:375–379, CglCliqueStrengthening.cpp:538–541. -/
def start : Build := { row := [], rhs := 1, dup := 0 }

/-- The compaction after a duplicated column: entries with coefficient 0 are dropped;
CglBKClique.cpp:412–423, CglCliqueStrengthening.cpp:578–589. -/
def compact (v : SVec) : SVec := v.filter fun p => p.2 == -1 || p.2 == 1

/-- The right-hand side of the compacted row; CglBKClique.cpp:411/418–420, CglCliqueStrengthening.cpp:577/584–586. -/
def compactRhs (v : SVec) : ℚ := -((v.filter fun p => p.2 == -1).length : ℚ)

/-- The assertion inside the compaction; CglBKClique.cpp:413, CglCliqueStrengthening.cpp:579. -/
def unitRow (v : SVec) : Bool := v.all fun p => p.2 == -1 || p.2 == 0 || p.2 == 1

/-- The row once the compaction has been applied or not, when `duplicated ≤ 1`. -/
def finish (b : Build) : Except Fault (SVec × ℚ) :=
  if b.dup = 1 then
    if unitRow b.row then .ok (compact b.row, compactRhs b.row) else .error .assertion
  else .ok (b.row, b.rhs)

/-! ### `CglBKClique` -/

/-- `CglBKClique::insertCuts`, one clique; CglBKClique.cpp:373–426.  Line 408 is the assertion on `duplicated`. -/
def cliqueCut (cap n : Nat) (els : List Nat) : Except Fault (SVec × ℚ) :=
  match addNodes cap n start els with
  | .error f => .error f
  | .ok b => if 2 ≤ b.dup then .error .assertion else finish b

/-- All cuts handed to the cut pool; CglBKClique.cpp:372–427. -/
def cliqueCuts (cap n : Nat) : List (List Nat) → Except Fault (List (SVec × ℚ))
  | [] => .ok []
  | els :: rest =>
    match cliqueCut cap n els with
    | .error f => .error f
    | .ok c =>
      match cliqueCuts cap n rest with
      | .error f => .error f
      | .ok cs => .ok (c :: cs)

/-- Hand the pool's cuts over; CglBKClique.cpp:432–436, CglOddWheel.cpp:211–215.  `osrc_` is a default `OsiRowCut`
(lower bound `-COIN_DBL_MAX`) with a new row and upper bound.  The counters and the `setGloballyValid` marks of
lines 438–446 are not modelled. -/
def handOver (cs : List RowCut) (cuts : List (SVec × ℚ)) : List RowCut :=
  cuts.foldl (fun cs c => insertIfNotDuplicate cs { lb := -dblMax, ub := c.2, row := c.1 }) cs

/-- The settings and the array capacity of a `CglBKClique`; CglBKClique.hpp (private members).  `pivotingStrategy_`
only selects the external search and is not kept. -/
structure BKObj where
  cap : Nat
  minFrac : ℚ
  minViol : ℚ
  minWeight : ℚ
  extMethod : Nat
  maxCalls : Nat
  calls : Nat
  complete : Bool
  maxSeconds : ℚ
  maxInduced : Nat
deriving DecidableEq, Repr

/-- Default constructor; CglBKClique.cpp:46–66. -/
def BKObj.init : BKObj where
  cap := 0
  minFrac := 1 / 1000
  minViol := 2 / 100
  minWeight := (⌊(1000 + 2 / 100 * 1000 : ℚ)⌋ : ℚ)
  extMethod := 4
  maxCalls := 1000
  calls := 0
  complete := false
  maxSeconds := 0
  maxInduced := 10000

/-- Copy constructor, `clone`; CglBKClique.cpp:68–101, 135–138. -/
def BKObj.copy (o : BKObj) : BKObj where
  cap := o.cap
  minFrac := o.minFrac
  minViol := o.minViol
  minWeight := o.minWeight
  extMethod := o.extMethod
  maxCalls := o.maxCalls
  calls := o.calls
  complete := o.complete
  maxSeconds := o.maxSeconds
  maxInduced := o.maxInduced

/-- `setMinViol`; CglBKClique.cpp:469–473. -/
def BKObj.setMinViol (o : BKObj) (v : ℚ) : BKObj := { o with minViol := v, minWeight := 1000 + v * 1000 }
/-- `setMinFrac`; CglBKClique.cpp:464–467. -/
def BKObj.setMinFrac (o : BKObj) (v : ℚ) : BKObj := { o with minFrac := v }
/-- `setMaxCallsBK`; CglBKClique.cpp:449–452. -/
def BKObj.setMaxCalls (o : BKObj) (v : Nat) : BKObj := { o with maxCalls := v }
/-- `setMaxSeconds`; CglBKClique.hpp. -/
def BKObj.setMaxSeconds (o : BKObj) (v : ℚ) : BKObj := { o with maxSeconds := v }
/-- `setMaxInducedSize`; CglBKClique.hpp. -/
def BKObj.setMaxInduced (o : BKObj) (v : Nat) : BKObj := { o with maxInduced := v }
/-- `setExtendingMethod`; CglBKClique.cpp:454–462: aborts above 6. -/
def BKObj.setExtMethod (o : BKObj) (v : Nat) : Except Fault BKObj :=
  if 6 < v then .error .badParam else .ok { o with extMethod := v }

/-- What CoinUtils and the clock answer during a call of `CglBKClique::generateCuts`.  `top m l` is the front of
length `m` after `std::partial_sort`; `bk maxCalls minWeight nodes` gives the cliques found (as positions in the node
list), `numCalls()` and `completedSearch()`; `ext k els` is the `k`-th `extendClique`; `pool` is `CoinCutPool` after
`add` and `removeNullCuts`; `late` says whether the deadline has passed after the separation. -/
structure BKEnv where
  top : Nat → List (Nat × ℚ) → List (Nat × ℚ)
  bk : Nat → ℚ → List (Nat × ℚ) → List (List Nat) × Nat × Bool
  ext : Nat → List Nat → Option (List Nat)
  pool : List (SVec × ℚ) → List (SVec × ℚ)
  late : Bool

/-- `BKCLQ_EPS`; CglBKClique.cpp:39. -/
def bkEps : ℚ := 1 / 1000000

/-- The nodes of the induced subgraph with their weights; CglBKClique.cpp:232–261 (both loops: the second one is the
same for the complements). -/
def inducedNodes (G : Graph) (minFrac : ℚ) (x : Nat → ℚ) : List (Nat × ℚ) :=
  ((List.range (2 * G.nCols)).filter fun u =>
    decide (2 ≤ G.degree u) && !decide (lit G.nCols x u + bkEps ≤ minFrac)).map fun u =>
      (u, lit G.nCols x u * 1000)

/-- The cap on the size of the induced subgraph; CglBKClique.cpp:275–295. -/
def cappedNodes (env : BKEnv) (maxInduced : Nat) (l : List (Nat × ℚ)) : List (Nat × ℚ) :=
  if 0 < maxInduced ∧ maxInduced < l.length then env.top maxInduced l else l

/-- `currClq_[j] = inducedVert_[cliqueIdxs[j]]`; CglBKClique.cpp:317–319. -/
def mapClique (nodes : List (Nat × ℚ)) : List Nat → Except Fault (List Nat)
  | [] => .ok []
  | i :: is =>
    match nodes[i]? with
    | none => .error .memory
    | some p =>
      match mapClique nodes is with
      | .error f => .error f
      | .ok us => .ok (p.1 :: us)

/-- All cliques of the search; CglBKClique.cpp:313–322.  `currClq_` has `2 * cap` entries. -/
def mapCliques (cap : Nat) (nodes : List (Nat × ℚ)) : List (List Nat) → Except Fault (List (List Nat))
  | [] => .ok []
  | c :: rest =>
    if 2 * cap < c.length then .error .memory
    else
      match mapClique nodes c with
      | .error f => .error f
      | .ok us =>
        match mapCliques cap nodes rest with
        | .error f => .error f
        | .ok cs => .ok (us :: cs)

/-- The call of the search; CglBKClique.cpp:302–325: it also overwrites `completeBK_` and `maxCallsBK_`. -/
def searchCliques (env : BKEnv) (o : BKObj) (nodes : List (Nat × ℚ)) : Except Fault (BKObj × List (List Nat)) :=
  if 2 ≤ nodes.length then
    match mapCliques o.cap nodes (env.bk o.maxCalls o.minWeight nodes).1 with
    | .error f => .error f
    | .ok cs =>
      .ok ({ o with
              complete := (env.bk o.maxCalls o.minWeight nodes).2.2
              maxCalls := (env.bk o.maxCalls o.minWeight nodes).2.1 }, cs)
  else .ok ({ o with complete := true }, [])

/-- `separateCliques`; CglBKClique.cpp:224–330. -/
def separateCliques (env : BKEnv) (G : Graph) (x : Nat → ℚ) (o : BKObj) : Except Fault (BKObj × List (List Nat)) :=
  if (inducedNodes G o.minFrac x).isEmpty then .ok (o, [])
  else searchCliques env o (cappedNodes env o.maxInduced (inducedNodes G o.minFrac x))

/-- The cliques `extendClique` leaves alone, in order, and those it extends; CglBKClique.cpp:347–361.  `k` counts the
calls. -/
def extSplit (env : BKEnv) : Nat → List (List Nat) → List (List Nat) × List (List Nat)
  | _, [] => ([], [])
  | k, c :: rest =>
    match env.ext k c with
    | none => (c :: (extSplit env (k + 1) rest).1, (extSplit env (k + 1) rest).2)
    | some e => ((extSplit env (k + 1) rest).1, e :: (extSplit env (k + 1) rest).2)

/-- `extendCliques`; CglBKClique.cpp:332–364. -/
def extendCliques (env : BKEnv) (cliques : List (List Nat)) : List (List Nat) :=
  (extSplit env 0 cliques).1 ++ (extSplit env 0 cliques).2

/-- `checkMemory`; CglBKClique.cpp:191–222. -/
def BKObj.checkMemory (o : BKObj) (n : Nat) : BKObj := if o.cap < n then { o with cap := n } else o

/-- The reduction of the call limit when time is short; CglBKClique.cpp:163–168. -/
def BKObj.shortTime (o : BKObj) : BKObj :=
  if 0 < o.maxSeconds ∧ o.maxSeconds < 30 then
    { o with maxCalls := min o.maxCalls (max 10 ⌊(o.maxCalls : ℚ) * o.maxSeconds / 30⌋₊) }
  else o

/-- Which cliques are inserted; CglBKClique.cpp:172–180. -/
def chosenCliques (env : BKEnv) (extMethod : Nat) (initial : List (List Nat)) : List (List Nat) :=
  if extMethod = 0 ∨ env.late = true then initial else extendCliques env initial

/-- `insertCuts`; CglBKClique.cpp:366–447. -/
def insertCuts (env : BKEnv) (cap n : Nat) (cliques : List (List Nat)) (cs : List RowCut) :
    Except Fault (List RowCut) :=
  match cliqueCuts cap n cliques with
  | .error f => .error f
  | .ok cuts => .ok (handOver cs (env.pool cuts))

/-- `CglBKClique::generateCuts`; CglBKClique.cpp:140–189.  Returns the generator after the call and the cut
collection. -/
def bkGenerate (env : BKEnv) (P : Prob) (G : Graph) (x : Nat → ℚ) (o : BKObj) (cs : List RowCut) :
    Except Fault (BKObj × List RowCut) :=
  if P.nCols = 0 ∨ P.rows = [] then .ok (o, cs)
  else if P.nCols ≠ G.nCols then .error .badGraph
  else
    match separateCliques env G x (o.checkMemory P.nCols).shortTime with
    | .error f => .error f
    | .ok (o', initial) =>
      if initial.isEmpty then .ok (o', cs)
      else
        match insertCuts env o'.cap P.nCols (chosenCliques env o'.extMethod initial) cs with
        | .error f => .error f
        | .ok cs' => .ok (o', cs')

/-! ### `CglOddWheel` -/

/-- An odd wheel reported by `CoinOddWheelSeparator` (external): `oddHole`, `wheelCenter`, `oddWheelRHS`. -/
structure Wheel where
  hole : List Nat
  center : List Nat
  rhs : ℚ
deriving DecidableEq, Repr

/-- One element of the hole (`k = 1`, CglOddWheel.cpp:141–164) or of the centre (`k = oldRhs`, lines 176–197):
append its column with coefficient `k`, or `-k` and take `k` off the right-hand side for a complement.  `none`:
`duplicated = true; break`. -/
def addDistinct (cap n : Nat) (k : ℚ) (s : SVec × ℚ) (u : Nat) : Except Fault (Option (SVec × ℚ)) :=
  if u < n then
    if coefAt s.1 u = none then
      if s.1.length < cap then .ok (some (s.1 ++ [(u, k)], s.2)) else .error .memory
    else .ok none
  else if u - n < n then
    if coefAt s.1 (u - n) = none then
      if s.1.length < cap then .ok (some (s.1 ++ [(u - n, -1 * k)], s.2 - k)) else .error .memory
    else .ok none
  else .error .memory

/-- The loops of CglOddWheel.cpp:140–165 and 175–198. -/
def addAllDistinct (cap n : Nat) (k : ℚ) : SVec × ℚ → List Nat → Except Fault (Option (SVec × ℚ))
  | s, [] => .ok (some s)
  | s, u :: us =>
    match addDistinct cap n k s u with
    | .error f => .error f
    | .ok none => .ok none
    | .ok (some s') => addAllDistinct cap n k s' us

/-- `ODDHWC_EPS`; CglOddWheel.cpp:31. -/
def owEps : ℚ := 1 / 1000000

/-- The centre is added unless the right-hand side is (nearly) zero; CglOddWheel.cpp:171–203. -/
def addCenter (cap n : Nat) (center : List Nat) (s : SVec × ℚ) : Except Fault (Option (SVec × ℚ)) :=
  if center ≠ [] ∧ owEps ≤ |s.2| then addAllDistinct cap n s.2 s center else .ok (some s)

/-- The cut of one odd wheel (`none`: skipped); CglOddWheel.cpp:127–205. -/
def wheelCut (cap n : Nat) (w : Wheel) : Except Fault (Option (SVec × ℚ)) :=
  if w.hole.length < 5 then .error .badSize
  else
    match addAllDistinct cap n 1 ([], w.rhs) w.hole with
    | .error f => .error f
    | .ok none => .ok none
    | .ok (some s) => addCenter cap n w.center s

/-- All cuts handed to the pool; CglOddWheel.cpp:126–206. -/
def wheelCuts (cap n : Nat) : List Wheel → Except Fault (List (SVec × ℚ))
  | [] => .ok []
  | w :: ws =>
    match wheelCut cap n w with
    | .error f => .error f
    | .ok c =>
      match wheelCuts cap n ws with
      | .error f => .error f
      | .ok cs => .ok (c.toList ++ cs)

/-- What CoinUtils answers during a call: the wheels (which depend on the LP point, the reduced costs, the extension
method and the time limit) and the cut pool. -/
structure OWEnv where
  wheels : Nat → ℚ → List Wheel
  pool : List (SVec × ℚ) → List (SVec × ℚ)

/-- A `CglOddWheel`: capacity, extension method, and the time limit of its base class. -/
structure OWObj where
  cap : Nat
  extMethod : Nat
  maxSeconds : ℚ
deriving DecidableEq, Repr

/-- Constructor; CglOddWheel.cpp:38–44, base class CglCutGenerator.cpp:17–24. -/
def OWObj.init (extMethod : Nat) : OWObj := { cap := 0, extMethod := extMethod, maxSeconds := 0 }

/-- Copy constructor, `clone`; CglOddWheel.cpp:46–63, 89–91.  The base class is default-constructed, which sets
`maxSeconds_` to 0 (CglCutGenerator.cpp:17–24). -/
def OWObj.copy (o : OWObj) : OWObj := { cap := o.cap, extMethod := o.extMethod, maxSeconds := 0 }

/-- `checkMemory`; CglOddWheel.cpp:230–254. -/
def OWObj.checkMemory (o : OWObj) (n : Nat) : OWObj := if o.cap < n then { o with cap := n } else o

/-- `setExtendingMethod`; CglOddWheel.cpp:266–273. -/
def OWObj.setExtMethod (o : OWObj) (v : Nat) : Except Fault OWObj :=
  if 2 < v then .error .badParam else .ok { o with extMethod := v }

/-- `CglCutGenerator::setMaxSeconds`; CglCutGenerator.hpp:104–107. -/
def OWObj.setMaxSeconds (o : OWObj) (v : ℚ) : OWObj := { o with maxSeconds := v }

/-- `CglOddWheel::generateCuts`; CglOddWheel.cpp:93–228. -/
def owGenerate (env : OWEnv) (P : Prob) (G : Graph) (o : OWObj) (cs : List RowCut) :
    Except Fault (OWObj × List RowCut) :=
  if P.nCols = 0 ∨ P.rows = [] then .ok (o, cs)
  else if P.nCols ≠ G.nCols then .error .badGraph
  else
    match wheelCuts (o.checkMemory P.nCols).cap P.nCols (env.wheels o.extMethod o.maxSeconds) with
    | .error f => .error f
    | .ok cuts => .ok (o.checkMemory P.nCols, handOver cs (env.pool cuts))

/-! ### `CglCliqueStrengthening` -/

/-- `CLQ_STR_EPS`; CglCliqueStrengthening.cpp:29. -/
def strEps : ℚ := 1 / 1000000

/-- One entry of `CliqueRows`: elements, original row index, status; CglCliqueStrengthening.cpp:51–57. -/
structure CliqueRow where
  els : List Nat
  orig : Nat
  dominated : Bool
deriving DecidableEq, Repr

/-- `isBinary`; CglCliqueStrengthening.cpp:181–182 (`getColType` is nonzero for the integer columns). -/
def isBinary (P : Prob) (j : Nat) : Bool :=
  P.isInt j && (P.colLower j == 1 || P.colLower j == 0) && (P.colUpper j == 0 || P.colUpper j == 1)

/-- The state of the scan of one row: `tmpRow`, `rhs`, `minCoef1`, `minCoef2`; CglCliqueStrengthening.cpp:172–176. -/
structure Scan where
  els : List Nat
  rhs : ℚ
  min1 : ℚ
  min2 : ℚ

/-- Node of an entry whose coefficient (times `mult`) is `c`; CglCliqueStrengthening.cpp:178, 189–190. -/
def nodeOf (n j : Nat) (c : ℚ) : Nat := if c ≤ -strEps then j + n else j

/-- Its coefficient as a literal; CglCliqueStrengthening.cpp:189–191. -/
def sizeOf (c : ℚ) : ℚ := if c ≤ -strEps then -c else c

/-- What it adds to the right-hand side; CglCliqueStrengthening.cpp:192. -/
def rhsOf (c : ℚ) : ℚ := if c ≤ -strEps then -c else 0

/-- The two smallest coefficients; CglCliqueStrengthening.cpp:195–200. -/
def updMin (a : ℚ) (m : ℚ × ℚ) : ℚ × ℚ :=
  if a + strEps ≤ m.1 then (a, m.1) else if a + strEps ≤ m.2 then (m.1, a) else m

/-- One entry; CglCliqueStrengthening.cpp:177–201 (`c` already multiplied by `mult`). -/
def scanEntry (n : Nat) (s : Scan) (j : Nat) (c : ℚ) : Scan where
  els := s.els ++ [nodeOf n j c]
  rhs := s.rhs + rhsOf c
  min1 := (updMin (sizeOf c) (s.min1, s.min2)).1
  min2 := (updMin (sizeOf c) (s.min1, s.min2)).2

/-- The scan of a row; `none` when a column is not binary; CglCliqueStrengthening.cpp:177–205. -/
def scanRow (P : Prob) (mult : ℚ) : Scan → SVec → Option Scan
  | s, [] => some s
  | s, p :: ps => if isBinary P p.1 then scanRow P mult (scanEntry P.nCols s p.1 (p.2 * mult)) ps else none

/-- `mult`; CglCliqueStrengthening.cpp:171. -/
def multOf (r : Row) (inf : ℚ) : ℚ := if (r.senseRhs inf).1 = .G then -1 else 1

/-- The scan of row `r` from its start values; CglCliqueStrengthening.cpp:172–205. -/
def scanOf (P : Prob) (r : Row) : Option Scan :=
  scanRow P (multOf r P.inf)
    { els := [], rhs := multOf r P.inf * (r.senseRhs P.inf).2, min1 := dblMax, min2 := dblMax } r.coefs

/-- The clique of a row, if it is taken for a clique row; CglCliqueStrengthening.cpp:156–210. -/
def cliqueOf (P : Prob) (r : Row) : Option (List Nat) :=
  if r.coefs.length ≤ 1 ∨ 256 < r.coefs.length then none
  else if (r.senseRhs P.inf).1 ≠ .L ∧ (r.senseRhs P.inf).1 ≠ .G then none
  else
    match scanOf P r with
    | none => none
    | some s => if s.rhs + strEps ≤ s.min1 + s.min2 then some s.els else none

/-- `detectCliqueRows`: the clique rows among the rows `i, i+1, …`; CglCliqueStrengthening.cpp:142–214. -/
def detect (P : Prob) : Nat → List Row → List CliqueRow
  | _, [] => []
  | i, r :: rs =>
    match cliqueOf P r with
    | none => detect P (i + 1) rs
    | some els => { els := els, orig := i, dominated := false } :: detect P (i + 1) rs

/-- `posInClqRows_`: for each row its position among the clique rows, the number of rows if it is none;
CglCliqueStrengthening.cpp:159, 208. -/
def positions (P : Prob) (cl : List CliqueRow) : List Nat :=
  (List.range P.rows.length).map fun i =>
    match cl.findIdx? (fun c => c.orig == i) with
    | some k => k
    | none => P.rows.length

/-- A `CglCliqueStrengthening` object: the solver it points to, `cliqueRows_` (`none`: null pointer),
`posInClqRows_`, the lengths of the names in `rowClqNames_`, and the two counters. -/
structure StrObj where
  model : Prob
  cliques : Option (List CliqueRow)
  pos : List Nat
  names : List Nat
  nExtended : Nat
  nDominated : Nat

/-- Constructor; CglCliqueStrengthening.cpp:98–124. -/
def StrObj.init (P : Prob) : StrObj where
  model := P
  cliques := if 0 < (P.rows.map fun r => r.coefs.length).sum then some (detect P 0 P.rows) else none
  pos := if 0 < (P.rows.map fun r => r.coefs.length).sum then positions P (detect P 0 P.rows) else []
  names := []
  nExtended := 0
  nDominated := 0

/-- What CoinUtils, the clock and the solver's name table answer during a call: `ext k els` is the `k`-th loop
step's `extendClique`, `late k` whether the time limit stops the loop before its `k`-th step, `nameLen i` the length of
the name of row `i`. -/
structure StrEnv where
  ext : Nat → List Nat → Option (List Nat)
  late : Nat → Bool
  nameLen : Nat → Nat

/-- `cliqueRows_->setStatus(k, Dominated)`; CglCliqueStrengthening.cpp:87–92. -/
def markDominated (cl : List CliqueRow) (k : Nat) : List CliqueRow :=
  cl.modify k fun c => { c with dominated := true }

/-- `colClqs_[col]`: the clique rows a node appears in; CglCliqueStrengthening.cpp:216–252. -/
def colClqs (cl : List CliqueRow) (u : Nat) : List Nat :=
  (List.range cl.length).filter fun k =>
    match cl[k]? with
    | some c => c.els.contains u
    | none => false

/-- One clique row met in `checkDominance`; CglCliqueStrengthening.cpp:466–489.  The second component are the rows
already tested (`ivRow`). -/
def domStep (S : List Nat) (st : List CliqueRow × List Nat) (k : Nat) : List CliqueRow × List Nat :=
  match st.1[k]? with
  | none => st
  | some c =>
    if c.dominated || st.2.contains k then st
    else (if c.els.all fun u => S.contains u then markDominated st.1 k else st.1, k :: st.2)

/-- `checkDominance`; CglCliqueStrengthening.cpp:446–502. -/
def checkDominance (S : List Nat) (cl : List CliqueRow) : List CliqueRow :=
  ((S.flatMap (colClqs cl)).foldl (domStep S) (cl, [])).1

/-- The state of `cliqueExtension`: the clique rows, `newCliques`, `rowClqNames_`, `nExtended_`. -/
structure ExtState where
  cl : List CliqueRow
  new : List (List Nat)
  names : List Nat
  nExt : Nat
deriving DecidableEq, Repr

/-- The two cliques have the same elements (`CoinCliqueSet::insertIfNotDuplicate`, external). -/
def sameClique (S T : List Nat) : Bool := (S.all fun u => T.contains u) && T.all fun u => S.contains u

/-- A clique row whose extension is `S`; CglCliqueStrengthening.cpp:345–357.  `name` has 256 characters. -/
def recordExt (env : StrEnv) (st : ExtState) (i : Nat) (orig : Nat) (S : List Nat) : Except Fault ExtState :=
  if st.new.any (sameClique S) then
    .ok { st with
          cl := markDominated st.cl i
          nExt := st.nExt + 1 }
  else if 256 < env.nameLen orig + 4 + 1 then .error .nameOverflow
  else
    .ok { cl := checkDominance S (markDominated st.cl i)
          new := st.new ++ [S]
          names := st.names ++ [env.nameLen orig + 4]
          nExt := st.nExt + 1 }

/-- One step of `cliqueExtension` on the clique row at position `i`; CglCliqueStrengthening.cpp:329–357 and
391–418.  A position outside the clique rows reads past the arrays. -/
def extStep (env : StrEnv) (k : Nat) (st : ExtState) (i : Nat) : Except Fault ExtState :=
  match st.cl[i]? with
  | none => .error .memory
  | some c =>
    if c.dominated then .ok st
    else
      match env.ext k c.els with
      | none => .ok st
      | some S => recordExt env st i c.orig S

/-- The loop of `cliqueExtension`; CglCliqueStrengthening.cpp:324–358 and 386–419. -/
def extLoop (env : StrEnv) : Nat → ExtState → List Nat → Except Fault ExtState
  | _, st, [] => .ok st
  | k, st, i :: is =>
    if env.late k then .ok st
    else
      match extStep env k st i with
      | .error f => .error f
      | .ok st' => extLoop env (k + 1) st' is

/-- Original indices of the dominated rows; CglCliqueStrengthening.cpp:509–513. -/
def toRemove (cl : List CliqueRow) : List Nat := (cl.filter fun c => c.dominated).map fun c => c.orig

/-- `OsiSolverInterface::deleteRows` (external): the rows with these indices go. -/
def deleteRows (rows : List Row) (idx : List Nat) : List Row :=
  (rows.zipIdx.filter fun p => !idx.contains p.2).map Prod.fst

/-- `addStrongerCliques`, one clique; CglCliqueStrengthening.cpp:536–597.  `none`: `feasible = false; break`.  The
arrays have room for all elements of the cliques; the share of this clique is its size. -/
def strongRow (n : Nat) (S : List Nat) : Except Fault (Option (Row × Bool)) :=
  match addNodes S.length n start S with
  | .error f => .error f
  | .ok b =>
    if 1 < b.dup then .ok none
    else
      match finish b with
      | .error f => .error f
      | .ok c => .ok (some ({ lb := -dblMax, ub := c.2, coefs := c.1 }, decide (b.dup = 1)))

/-- `sprintf(name, "%s_dup", …)` into 256 characters; CglCliqueStrengthening.cpp:591–592. -/
def dupName (names : List Nat) (ic : Nat) : Except Fault (List Nat) :=
  match names[ic]? with
  | none => .error .memory
  | some l => if 256 < l + 4 + 1 then .error .nameOverflow else .ok (names.set ic (l + 4))

/-- The loop of `addStrongerCliques`; CglCliqueStrengthening.cpp:535–598.  `none`: infeasible. -/
def strongRows (n : Nat) : Nat → List Nat → List (List Nat) → Except Fault (Option (List Row) × List Nat)
  | _, names, [] => .ok (some [], names)
  | ic, names, S :: rest =>
    match strongRow n S with
    | .error f => .error f
    | .ok none => .ok (none, names)
    | .ok (some (r, dup)) =>
      match (if dup then dupName names ic else .ok names) with
      | .error f => .error f
      | .ok names' =>
        match strongRows n (ic + 1) names' rest with
        | .error f => .error f
        | .ok (none, ns) => .ok (none, ns)
        | .ok (some rs, ns) => .ok (some (r :: rs), ns)

/-- The rows added to the model: the new cliques, or one row that nothing satisfies;
CglCliqueStrengthening.cpp:599–611. -/
def rowsToAdd : Option (List Row) → List Row
  | some rs => rs
  | none => [{ lb := 1, ub := 0, coefs := [] }]

/-- `removeDominatedRows` and `addStrongerCliques`; CglCliqueStrengthening.cpp:267–273, 504–619. -/
def rebuild (o : StrObj) (st : ExtState) : Except Fault StrObj :=
  if st.new = [] then
    .ok { o with
          cliques := some st.cl
          names := st.names
          nExtended := st.nExt
          nDominated := 0 }
  else
    match strongRows o.model.nCols 0 st.names st.new with
    | .error f => .error f
    | .ok (rs, names) =>
      .ok { model := { o.model with rows := deleteRows o.model.rows (toRemove st.cl) ++ rowsToAdd rs }
            cliques := some st.cl
            pos := o.pos
            names := names
            nExtended := st.nExt
            nDominated := (toRemove st.cl).length }

/-- The positions of the rows named by the caller; CglCliqueStrengthening.cpp:391.  An index that is no row reads
past `posInClqRows_`. -/
def lookup (pos : List Nat) : List Nat → Except Fault (List Nat)
  | [] => .ok []
  | r :: rs =>
    match pos[r]? with
    | none => .error .memory
    | some k =>
      match lookup pos rs with
      | .error f => .error f
      | .ok ks => .ok (k :: ks)

/-- `strengthenCliques` on the given positions; CglCliqueStrengthening.cpp:254–304. -/
def strengthenAt (env : StrEnv) (o : StrObj) (which : List CliqueRow → Except Fault (List Nat)) :
    Except Fault StrObj :=
  if o.model.nCols = 0 ∨ o.model.rows = [] then
    .ok { o with
          nExtended := 0
          nDominated := 0 }
  else
    match o.cliques with
    | none => .error .nullPointer
    | some [] =>
      .ok { o with
            nExtended := 0
            nDominated := 0 }
    | some (c :: cs) =>
      match which (c :: cs) with
      | .error f => .error f
      | .ok is =>
        match extLoop env 0 { cl := c :: cs, new := [], names := o.names, nExt := 0 } is with
        | .error f => .error f
        | .ok st => rebuild o st

/-- `strengthenCliques(extMethod)`; CglCliqueStrengthening.cpp:254–278. -/
def strengthen (env : StrEnv) (o : StrObj) : Except Fault StrObj :=
  strengthenAt env o fun cl => .ok (List.range cl.length)

/-- `strengthenCliques(n, rows, extMethod)`; CglCliqueStrengthening.cpp:280–304.  Simplification: the table is read
for all rows before the loop instead of row by row (a time limit could stop the loop before a bad row). -/
def strengthenRows (env : StrEnv) (o : StrObj) (rows : List Nat) : Except Fault StrObj :=
  strengthenAt env o fun _ => lookup o.pos rows

end Cgl.Conflict
