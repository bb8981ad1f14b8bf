import Verif.Osi
import Mathlib.Data.Rat.Floor

/-!
# Model of the clique tables of `CglProbing`

`CglProbing::createCliques`, `cliqueModel`, `setupRowCliqueInformation` and `tightenThese` of
src/CglProbing/CglProbing.cpp.

Simplifications.  The arrays `getColLower()` and `getColUpper()` follow the changes made with `setColLower` and
`setColUpper` (as they do for Clp).  The two parts of the work array `which` are two lists.  `cliqueStart_` and
`cliqueEntry_` are a list of lists, and so are `cliqueRowStart_` and `cliqueRow_`.  A `CliqueEntry` is a column (or a group)
and a flag; columns are below 2^31.  Statistics and messages are left out.
-/

namespace Cgl.ProbCliques

inductive Fault
  /-- an array is accessed outside its bounds, an element is used before it is set, or a pointer is null -/
  | outside
  /-- a `double` does not fit into an `int` -/
  | cast
  /-- an assertion fails -/
  | assertion
  /-- `new` is called with a negative size -/
  | alloc
deriving DecidableEq, Repr

/-- A `CliqueEntry` (CglTreeInfo.hpp:92-96): `one` if the column at 1 fixes the others. -/
structure Entry where
  col : Nat
  one : Bool
deriving DecidableEq, Repr

/-! ### `createCliques`, first part: the rows -/

/-- `upper[iColumn] - lower[iColumn] < 1.0e-8` (CglProbing.cpp:10697). -/
def fixedCol (P : Prob) (j : Nat) : Bool := decide (P.colUpper j - P.colLower j < 1 / 10 ^ 8)

/-- What is known after some columns of a row: `upperValue`, `lowerValue`, the columns with coefficient 1 and -1, `good`. -/
structure Scan where
  up : ℚ
  lo : ℚ
  p1 : List Nat
  m1 : List Nat
  good : Bool
deriving DecidableEq, Repr

/-- `CglProbing.cpp:10687-10691`. -/
def scan0 (r : Row) : Scan := ⟨r.ub, r.lb, [], [], true⟩

/-- A fixed column (CglProbing.cpp:10698-10701). -/
def Scan.fixed (s : Scan) (v : ℚ) : Scan := { s with up := s.up - v, lo := s.lo - v }

/-- A column of the clique (CglProbing.cpp:10712-10717). -/
def Scan.add (s : Scan) (j : Nat) (a : ℚ) : Scan :=
  if 0 < a then { s with p1 := s.p1 ++ [j] } else { s with m1 := s.m1 ++ [j] }

/-- The column can be in a clique (CglProbing.cpp:10702-10711).  `bin` is `lookup[iColumn] >= 0`. -/
def member (bin : Nat → Bool) (P : Prob) (j : Nat) (a : ℚ) : Bool :=
  decide (P.colUpper j = 1) && decide (P.colLower j = 0) && bin j && decide (|a| = 1)

/-- The loop over a row (CglProbing.cpp:10692-10719). -/
def scan (bin : Nat → Bool) (P : Prob) : SVec → Scan → Scan
  | [], s => s
  | p :: l, s =>
    if fixedCol P p.1 then scan bin P l (s.fixed (P.colLower p.1 * p.2))
    else if member bin P p.1 p.2 then scan bin P l (s.add p.1 p.2)
    else { s with good := false }

/-- `iUpper` (CglProbing.cpp:10720). -/
def intUpper (v : ℚ) : Except Fault ℤ :=
  if (intMax : ℚ) < v then .ok intMax
  else if ⌊v + 1 / 10 ^ 5⌋ < intMin then .error .cast
  else .ok ⌊v + 1 / 10 ^ 5⌋

/-- `iLower` (CglProbing.cpp:10721). -/
def intLower (v : ℚ) : Except Fault ℤ :=
  if v < (intMin : ℚ) then .ok intMin
  else if intMax < ⌈v - 1 / 10 ^ 5⌉ then .error .cast
  else .ok ⌈v - 1 / 10 ^ 5⌉

/-- `state` from the upper bound of the row (CglProbing.cpp:10723-10730). -/
def upperState (up : ℚ) (iUpper : ℤ) (nM : Nat) : ℤ :=
  if up < 10 ^ 6 then
    if iUpper = 1 - nM then 1 else if iUpper = -nM then 2 else if iUpper < -nM then 3 else 0
  else 0

/-- `state` from the lower bound of the row (CglProbing.cpp:10731-10738). -/
def lowerState (lo : ℚ) (iLower : ℤ) (nP : Nat) : ℤ :=
  if -10 ^ 6 < lo then
    if -iLower = 1 - nP then -1 else if -iLower = -nP then -2 else if -iLower < -nP then -3 else 0
  else 0

/-- `state` (CglProbing.cpp:10722-10738). -/
def stateOf (s : Scan) (iUpper iLower : ℤ) : ℤ :=
  if upperState s.up iUpper s.m1.length ≠ 0 then upperState s.up iUpper s.m1.length
  else lowerState s.lo iLower s.p1.length

/-- `setColUpper`, `setColLower`. -/
def setUpper (P : Prob) (v : ℚ) (j : Nat) : Prob := { P with colUpper := Function.update P.colUpper j v }
def setLower (P : Prob) (v : ℚ) (j : Nat) : Prob := { P with colLower := Function.update P.colLower j v }

/-- All columns of the row are fixed (CglProbing.cpp:10745-10762). -/
def fixSet (P : Prob) (zeros ones : List Nat) : Prob :=
  ones.foldl (fun Q j => setLower Q 1 j) (zeros.foldl (fun Q j => setUpper Q 0 j) P)

/-- The state of the loop over the rows: the model, `whichRow`, `numberEntries`, and whether the loop was left. -/
structure First where
  P : Prob
  rows : List Row
  entries : Nat
  infeasible : Bool

/-- What is done with a row (CglProbing.cpp:10739-10778). -/
def afterRow (minSize maxSize : ℤ) (r : Row) (s : First) (sc : Scan) (state : ℤ) : First :=
  if sc.good && decide (state ≠ 0) then
    if |state| = 3 then { s with infeasible := true }
    else if |state| = 2 then
      if 0 < state then { s with P := fixSet s.P sc.p1 sc.m1 }
      else { s with P := fixSet s.P sc.m1 sc.p1 }
    else if minSize ≤ ((sc.p1.length + sc.m1.length : Nat) : ℤ) ∧ ((sc.p1.length + sc.m1.length : Nat) : ℤ) < maxSize then
      { s with rows := s.rows ++ [r], entries := s.entries + (sc.p1.length + sc.m1.length) }
    else s
  else s

/-- The loop over the rows (CglProbing.cpp:10686-10779). -/
def firstLoop (bin : Nat → Bool) (minSize maxSize : ℤ) : List Row → First → Except Fault First
  | [], s => .ok s
  | r :: l, s =>
    (intUpper (scan bin s.P r.coefs (scan0 r)).up).bind fun iU =>
      (intLower (scan bin s.P r.coefs (scan0 r)).lo).bind fun iL =>
        if (afterRow minSize maxSize r s (scan bin s.P r.coefs (scan0 r))
            (stateOf (scan bin s.P r.coefs (scan0 r)) iU iL)).infeasible then
          .ok (afterRow minSize maxSize r s (scan bin s.P r.coefs (scan0 r))
            (stateOf (scan bin s.P r.coefs (scan0 r)) iU iL))
        else firstLoop bin minSize maxSize l (afterRow minSize maxSize r s (scan bin s.P r.coefs (scan0 r))
            (stateOf (scan bin s.P r.coefs (scan0 r)) iU iL))

/-! ### `createCliques`, second part: the cliques -/

/-- A clique: `cliqueType_[].equality` and the entries. -/
structure Clique where
  equality : Bool
  entries : List Entry
deriving DecidableEq, Repr

/-- The loop over a row (CglProbing.cpp:10828-10842). -/
def rescan (P : Prob) : SVec → Scan → Scan
  | [], s => s
  | p :: l, s =>
    if fixedCol P p.1 then rescan P l (s.fixed (P.colLower p.1 * p.2))
    else rescan P l (s.add p.1 p.2)

/-- `state` (CglProbing.cpp:10845-10852). -/
def restate (s : Scan) (iUpper : ℤ) : ℤ :=
  if s.up < 10 ^ 6 ∧ iUpper = 1 - s.m1.length then 1
  else if -10 ^ 6 < s.lo then -1
  else 0

/-- The clique of a row (CglProbing.cpp:10853-10901). -/
def cliqueOf (s : Scan) (iUpper iLower : ℤ) : Option Clique :=
  if restate s iUpper = 0 then none
  else if restate s iUpper = 1 then
    some ⟨decide (iLower = iUpper), s.p1.map (fun j => ⟨j, true⟩) ++ s.m1.map (fun j => ⟨j, false⟩)⟩
  else some ⟨decide (iLower = iUpper), s.p1.map (fun j => ⟨j, false⟩) ++ s.m1.map (fun j => ⟨j, true⟩)⟩

/-- One clique row. -/
def secondRow (P : Prob) (r : Row) : Except Fault (Option Clique) :=
  (intUpper (rescan P r.coefs (scan0 r)).up).bind fun iU =>
    (intLower (rescan P r.coefs (scan0 r)).lo).bind fun iL =>
      .ok (cliqueOf (rescan P r.coefs (scan0 r)) iU iL)

/-- The loop over the clique rows (CglProbing.cpp:10820-10904). -/
def secondLoop (P : Prob) : List Row → Except Fault (List Clique)
  | [] => .ok []
  | r :: l => (secondRow P r).bind fun c => (secondLoop P l).bind fun cs => .ok (c.toList ++ cs)

/-! ### `createCliques`, third part: the lists of the columns -/

/-- `oneFixStart_`, `zeroFixStart_`, `endFixStart_` and `whichClique_`; an element that is not set is `none`. -/
structure Store where
  one : Nat → ℤ
  zero' : Nat → ℤ
  stop : Nat → ℤ
  which : List (Option Nat)

/-- -1 for columns without cliques, 0 for the others (CglProbing.cpp:10811-10815, 10867-10868). -/
def touched (es : List Entry) (j : Nat) : ℤ := if es.any fun e => e.col == j then 0 else -1

/-- The counts (CglProbing.cpp:10907-10915). -/
def count1 (c : (Nat → ℤ) × (Nat → ℤ)) (e : Entry) : (Nat → ℤ) × (Nat → ℤ) :=
  if e.one then (Function.update c.1 e.col (c.1 e.col + 1), c.2)
  else (c.1, Function.update c.2 e.col (c.2 e.col + 1))

/-- The starts: `oneFixStart_`, `zeroFixStart_`, `endFixStart_`, `which` and `numberEntries`. -/
structure Starts where
  one : Nat → ℤ
  zero' : Nat → ℤ
  stop : Nat → ℤ
  next : Nat → ℤ
  n : ℤ

/-- One column (CglProbing.cpp:10918-10929). -/
def start1 (s : Starts) (j : Nat) : Starts :=
  if 0 ≤ s.one j then
    { one := Function.update s.one j s.n
      next := Function.update s.next j s.n
      zero' := Function.update s.zero' j (s.n + s.one j)
      stop := Function.update s.stop j (s.n + s.one j)
      n := s.n + s.one j + s.zero' j }
  else s

/-- An element of an array is set. -/
def setAt (l : List (Option Nat)) (i : ℤ) (v : Nat) : Except Fault (List (Option Nat)) :=
  if 0 ≤ i ∧ i < (l.length : ℤ) then .ok (l.set i.toNat (some v)) else .error .outside

/-- One entry is put in (CglProbing.cpp:10933-10942). -/
def put1 (c : Nat) (s : Starts × List (Option Nat)) (e : Entry) : Except Fault (Starts × List (Option Nat)) :=
  if e.one then
    (setAt s.2 (s.1.next e.col) c).bind fun l =>
      .ok ({ s.1 with next := Function.update s.1.next e.col (s.1.next e.col + 1) }, l)
  else
    (setAt s.2 (s.1.stop e.col) c).bind fun l =>
      .ok ({ s.1 with stop := Function.update s.1.stop e.col (s.1.stop e.col + 1) }, l)

/-- All entries, with the number of the clique. -/
def putAll : List (Nat × Entry) → Starts × List (Option Nat) → Except Fault (Starts × List (Option Nat))
  | [], s => .ok s
  | p :: l, s => (put1 p.1 s p.2).bind fun s' => putAll l s'

/-- The entries of all cliques in order, with the numbers of the cliques. -/
def numbered (cs : List Clique) : List (Nat × Entry) :=
  cs.zipIdx.flatMap fun p => p.1.entries.map fun e => (p.2, e)

/-- The lists of the columns (CglProbing.cpp:10905-10945); `size` is the length of `whichClique_`. -/
def startsOf (nCols : Nat) (es : List Entry) : Starts :=
  (List.range nCols).foldl start1
    ⟨(es.foldl count1 (touched es, touched es)).1, (es.foldl count1 (touched es, touched es)).2, fun _ => -1, fun _ => 0, 0⟩

def columnLists (nCols size : Nat) (cs : List Clique) : Except Fault Store :=
  (putAll (numbered cs) (startsOf nCols (cs.flatMap Clique.entries), List.replicate size none)).bind fun s =>
    .ok ⟨s.1.one, s.1.zero', s.1.stop, s.2⟩

/-- The clique tables: `numberCliques_`, the cliques, and the lists of the columns (null without cliques). -/
structure Tables where
  number : ℤ
  cliques : List Clique
  store : Option Store

/-- The end of `createCliques` (CglProbing.cpp:10803-10951). -/
def secondPart (s : First) : Except Fault (Prob × Tables) :=
  if s.infeasible then .ok (s.P, ⟨-99999, [], none⟩)
  else if s.rows = [] then .ok (s.P, ⟨0, [], none⟩)
  else
    (secondLoop s.P s.rows).bind fun cs => (columnLists s.P.nCols s.entries cs).bind fun st =>
      .ok (s.P, ⟨cs.length, cs, some st⟩)

/-- `createCliques` (CglProbing.cpp:10644-10951): the model afterwards and the tables; the return value is the number. -/
def createCliques (P : Prob) (minSize maxSize : ℤ) : Except Fault (Prob × Tables) :=
  (firstLoop (fun j => decide (colType P j = 1)) minSize maxSize P.rows ⟨P, [], 0, false⟩).bind secondPart

/-! ### `cliqueModel` -/

/-- The row of a clique (CglProbing.cpp:11001-11017). -/
def cliqueRow (inf : ℚ) (c : Clique) : Row where
  lb := -inf
  ub := 1 - (c.entries.countP fun e => !e.one : Nat)
  coefs := c.entries.map fun e => (e.col, if e.one then 1 else -1)

/-- A `CliqueEntry` read as an `int` (CglProbing.cpp:11035). -/
def packed (e : Entry) : ℤ := if e.one then (e.col : ℤ) - 2 ^ 31 else e.col

/-- The fake cliques (CglProbing.cpp:11036-11044): two entries for each clique, whatever they are. -/
def fakeRows (nCols : Nat) : Nat → List Entry → Except Fault (List Row)
  | 0, _ => .ok []
  | n + 1, a :: b :: l =>
    if 0 ≤ packed a ∧ packed a < (nCols : ℤ) ∧ 0 ≤ packed b ∧ packed b < (nCols : ℤ) then
      (fakeRows nCols n l).bind fun rs => .ok (⟨0, 1, [((packed a).toNat, 1), ((packed b).toNat, 1)]⟩ :: rs)
    else .error .outside
  | _ + 1, _ => .error .outside

/-- `cliqueModel` (CglProbing.cpp:10974-11053).  The rows are kept unless bit 4 is set. -/
def cliqueModel (P : Prob) (T : Tables) (type : Nat) : Except Fault Prob :=
  if type &&& 3 ≠ 2 then
    match T.store with
    | none => .error .outside
    | some _ => .ok { P with rows := (if type &&& 4 ≠ 0 then [] else P.rows) ++ T.cliques.map (cliqueRow P.inf) }
  else if T.number < 0 then .error .alloc
  else
    (fakeRows P.nCols T.number.toNat (T.cliques.flatMap Clique.entries)).bind fun rs =>
      .ok { P with rows := (if type &&& 4 ≠ 0 then [] else P.rows) ++ rs }

/-! ### `setupRowCliqueInformation` -/

/-- The element `whichClique_[k]`. -/
def Store.at? (S : Store) (k : ℤ) : Except Fault Nat :=
  if k < 0 then .error .outside
  else
    match S.which[k.toNat]? with
    | some (some c) => .ok c
    | _ => .error .outside

/-- The elements `whichClique_[k]`, `k = from, ..., from + n - 1`. -/
def Store.slice (S : Store) : Nat → ℤ → Except Fault (List Nat)
  | 0, _ => .ok []
  | n + 1, k => (S.at? k).bind fun c => (Store.slice S n (k + 1)).bind fun l => .ok (c :: l)

/-- The cliques of a column: `oneFixStart_[iColumn] <= k < endFixStart_[iColumn]`. -/
def Store.cliquesOf (S : Store) (j : Nat) : Except Fault (List Nat) := S.slice (S.stop j - S.one j).toNat (S.one j)

/-- The work arrays: `which`, `count`, `back`, `numberFree`. -/
structure Work where
  which : List Nat
  count : Nat → ℤ
  back : Nat → Nat
  free : Nat

/-- A clique is counted (CglProbing.cpp:11104-11108). -/
def countUp (w : Work) (c : Nat) : Work :=
  { w with
    which := if w.count c = 0 then w.which ++ [c] else w.which
    count := Function.update w.count c (w.count c + 1) }

/-- The loop over a row (CglProbing.cpp:11098-11111); `k` is the position. -/
def gather (P : Prob) (S : Store) : Nat → SVec → Work → Except Fault Work
  | _, [], w => .ok w
  | k, p :: l, w =>
    if P.colLower p.1 < P.colUpper p.1 then
      (S.cliquesOf p.1).bind fun cs =>
        gather P S (k + 1) l
          (cs.foldl countUp { w with back := Function.update w.back p.1 k, free := w.free + 1 })
    else gather P S (k + 1) l w

/-- The largest clique (CglProbing.cpp:11119-11126): `largest` and `whichClique`. -/
def largest (count : Nat → ℤ) (which : List Nat) : ℤ × Option Nat :=
  which.foldl (fun b c => if b.1 < count c then (count c, some c) else b) (1, none)

/-- `cliqueRow_` for one row: group and flag for every position. -/
abbrev Marks := List (Nat × Bool)

/-- The marks of the row are set (CglProbing.cpp:11158-11166). -/
def mark (entries : List Entry) (j k g : Nat) (m : Marks) : Except Fault Marks :=
  match entries.find? fun e => e.col == j with
  | none => .ok m
  | some e => if k < m.length then .ok (m.set k (g, e.one)) else .error .outside

/-- The second loop over the row (CglProbing.cpp:11139-11169): clique `c` gets the group `g`. -/
def assign (P : Prob) (S : Store) (entries : List Entry) (c g : Nat) (back : Nat → Nat) :
    SVec → (Nat → ℤ) × Marks → Except Fault ((Nat → ℤ) × Marks)
  | [], s => .ok s
  | p :: l, s =>
    if P.colLower p.1 < P.colUpper p.1 then
      (S.cliquesOf p.1).bind fun cs =>
        if c ∈ cs then
          (mark entries p.1 (back p.1) g s.2).bind fun m =>
            assign P S entries c g back l
              (cs.foldl (fun f d => Function.update f d (f d - 1)) s.1, m)
        else assign P S entries c g back l s
    else assign P S entries c g back l s

/-- The loop `while (!finished)` (CglProbing.cpp:11113-11174).  `none` if the fuel is used up. -/
def groups (P : Prob) (S : Store) (cliques : List Clique) (row : SVec) (w : Work) :
    Nat → Nat → (Nat → ℤ) → Option Marks → Except Fault (Option (Option Marks))
  | 0, _, _, _ => .ok none
  | fuel + 1, g, count, m =>
    match (largest count w.which).2 with
    | none => .ok (some m)
    | some c =>
      if (largest count w.which).1 < (w.free : ℤ) then
        match cliques[c]? with
        | none => .error .outside
        | some q =>
          (assign P S q.entries c g w.back row
            (count, m.getD (List.replicate row.length (P.nCols + 1, false)))).bind fun s =>
            groups P S cliques row w fuel (g + 1) s.1 (some s.2)
      else .ok (some m)

/-- One row (CglProbing.cpp:11094-11186). -/
def rowGroups (P : Prob) (S : Store) (cliques : List Clique) (row : SVec) : Except Fault (Option (Option Marks)) :=
  (gather P S 0 row ⟨[], fun _ => 0, fun _ => 0, 0⟩).bind fun w =>
    groups P S cliques row w (w.which.length + 1) 0 w.count none

def allGroups (P : Prob) (S : Store) (cliques : List Clique) : List SVec → Except Fault (Option (List (Option Marks)))
  | [] => .ok (some [])
  | r :: l =>
    (rowGroups P S cliques r).bind fun a => (allGroups P S cliques l).bind fun b =>
      .ok (a.bind fun x => b.map fun y => x :: y)

/-- `setupRowCliqueInformation` (CglProbing.cpp:11060-11199): for each row of the row copy its marks (`none` if no clique
was used).  Outer `none`: a loop does not end. -/
def setupRows (P : Prob) (T : Tables) (rows : List SVec) : Except Fault (Option (List (Option Marks))) :=
  if T.number = 0 then .ok (some [])
  else if rows = [] ∨ P.nCols = 0 then .error .assertion
  else if T.number < 0 then .error .alloc
  else
    match T.store with
    | none => .error .outside
    | some S => allGroups P S T.cliques rows

/-! ### `tightenThese` -/

/-- `tightenThese` (CglProbing.cpp:11201-11215): the array `tightenBounds_`. -/
def tightenThese (nCols : Nat) (which : List ℤ) : List Bool :=
  which.foldl (fun t k => if 0 ≤ k ∧ k < (nCols : ℤ) then t.set k.toNat true else t) (List.replicate nCols false)

end Cgl.ProbCliques
