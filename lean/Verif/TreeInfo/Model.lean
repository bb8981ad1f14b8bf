import Verif.Osi
import Mathlib.Data.List.Sort

/-!
# Model of `src/CglCommon/CglTreeInfo` (class `CglTreeProbingInfo`)
-/

namespace Cgl.TreeInfo

/-- `CliqueEntry` (CglTreeInfo.hpp:92-96): one `unsigned int`, top bit "one fixes", 31 bits of column. -/
abbrev CliqueEntry := BitVec 32

/-- `sequenceInCliqueEntry`, CglTreeInfo.hpp:202-205. -/
def sequence (e : CliqueEntry) : Nat := (e &&& 0x7fffffff#32).toNat
/-- `setSequenceInCliqueEntry`, CglTreeInfo.hpp:206-209 (`sequence` is an `int`, here the word of its bits). -/
def setSequence (e : CliqueEntry) (s : BitVec 32) : CliqueEntry := s ||| (e &&& 0x80000000#32)
/-- `oneFixesInCliqueEntry`, CglTreeInfo.hpp:210-213. -/
def oneFixes (e : CliqueEntry) : Bool := (e &&& 0x80000000#32) != 0#32
/-- `setOneFixesInCliqueEntry`, CglTreeInfo.hpp:214-217. -/
def setOneFixes (e : CliqueEntry) (b : Bool) : CliqueEntry :=
  (if b then 0x80000000#32 else 0#32) ||| (e &&& 0x7fffffff#32)

/-- Where the implications are: being collected (`numberEntries_ >= 0`; list of `fixingEntry_`/`fixEntry_` pairs
in array order), or ordered (`numberEntries_ == -2`). -/
inductive Phase
  | collecting (entries : List (Nat × CliqueEntry))
  | ordered (toZero toOne : List Nat) (entries : List CliqueEntry)
deriving DecidableEq, Repr

/-- `CglTreeProbingInfo` after `initializeFixing` (CglTreeInfo.hpp:180-200). `backward_[j]` is `some i` for a 0-1
column, `none` for the negative codes. -/
structure Info where
  numberVariables : Nat
  numberIntegers : Nat
  integerVariable : List Nat
  backward : List (Option Nat)
  maximumEntries : Nat
  phase : Phase
deriving DecidableEq, Repr

/-- The column loop of `initializeFixing` (and of the constructor from a model), CglTreeInfo.cpp:1297-1307:
columns `k, k+1, …` (as many as `fuel`), `n` = 0-1 columns seen so far. -/
def scanColumns (P : Prob) : Nat → Nat → Nat → List Nat × List (Option Nat)
  | 0, _, _ => ([], [])
  | fuel + 1, k, n =>
    if colType P k = 1 then
      let r := scanColumns P fuel (k + 1) (n + 1)
      (k :: r.1, some n :: r.2)
    else
      let r := scanColumns P fuel (k + 1) n
      (r.1, none :: r.2)

/-- `initializeFixing` on a default-constructed object (returns 1), CglTreeInfo.cpp:1277-1315. -/
def initializeFixing (P : Prob) : Info :=
  let r := scanColumns P P.nCols 0 0
  { numberVariables := P.nCols, numberIntegers := r.1.length, integerVariable := r.1, backward := r.2,
    maximumEntries := 0, phase := .collecting [] }

/-- `intFix` in `fixes`, CglTreeInfo.cpp:1243-1247: the number of a 0-1 target among the 0-1 columns, else
`numberIntegers_` plus the column (`backward` is `backward_[fixedVariable]`). -/
def targetCode (numberIntegers fixedVariable : Nat) : Option Nat → Nat
  | some k => k
  | none => numberIntegers + fixedVariable

/-- `fixes(variable, toValue, fixedVariable, fixedToLower)`, CglTreeInfo.cpp:1237-1275. Result: the new state and
the returned flag; `none` = undefined behaviour (array index out of range; a call after the table has been put in
order writes `fixEntry_[-2]`). `up` is `toValue > 0`. `int` shifts do not overflow below 2^30 0-1 columns; larger
problems are not modelled. -/
def fixes (s : Info) (var : Nat) (up : Bool) (fixedVariable : Nat) (fixedToLower : Bool) :
    Option (Info × Bool) :=
  match s.backward[var]? with
  | none => none
  | some none => some (s, true)
  | some (some intVariable) =>
    match s.backward[fixedVariable]? with
    | none => none
    | some bw =>
      let intFix := targetCode s.numberIntegers fixedVariable bw
      match s.phase with
      | .ordered .. => none
      | .collecting entries =>
        let full := decide (entries.length = s.maximumEntries)
        if full && decide (s.maximumEntries ≥ max 1000000 (10 * s.numberIntegers)) then some (s, false)
        else
          let maxE := if full then s.maximumEntries + (100 + s.maximumEntries / 2) else s.maximumEntries
          let entry1 := setSequence (setOneFixes 0#32 (!fixedToLower)) (BitVec.ofNat 32 intFix)
          let key := if up then 2 * intVariable + 1 else 2 * intVariable
          some ({ s with maximumEntries := maxE, phase := .collecting (entries ++ [(key, entry1)]) }, true)

/-- The duplicate-removing copy loop of `convert`, CglTreeInfo.cpp:1344-1349 / 1367-1372 (`temp2` is the last
entry kept). -/
def dedup : CliqueEntry → List CliqueEntry → List CliqueEntry
  | _, [] => []
  | temp2, e :: es =>
    if sequence temp2 ≠ sequence e ∨ oneFixes temp2 = true ∨ oneFixes e = true then e :: dedup e es
    else dedup temp2 es

/-- `temp2` before the loop, CglTreeInfo.cpp:1341-1343: column `numberVariables_+1`, fixes zero. -/
def sentinel (numberVariables : Nat) : CliqueEntry := setSequence 0#32 (BitVec.ofNat 32 (numberVariables + 1))

/-- `std::sort` on the unsigned words of one segment followed by the copy loop, CglTreeInfo.cpp:1336-1350 /
1359-1374. -/
def cleanSegment (numberVariables : Nat) (seg : List CliqueEntry) : List CliqueEntry :=
  dedup (sentinel numberVariables) (seg.insertionSort (fun a b => a.toNat ≤ b.toNat))

/-- The main loop of `convert`, CglTreeInfo.cpp:1327-1376, for 0-1 columns `v, v+1, …` (as many as `fuel`).
`rest` are the (key, entry) pairs not yet consumed, `put` the number written. Result: the `toOne_` values, the
`toZero_[1..]` values and the entries written. Simplification: the code compacts in place; it writes at `put`,
never past the position it reads, so reading the original values is the same. -/
def convertLoop (numberVariables : Nat) : Nat → Nat → List (Nat × CliqueEntry) → Nat →
    List Nat × List Nat × List CliqueEntry
  | 0, _, _, _ => ([], [], [])
  | fuel + 1, v, rest, put =>
    let seg0 := rest.takeWhile (fun p => decide (p.1 / 2 = v ∧ p.1 % 2 = 0))
    let rest0 := rest.dropWhile (fun p => decide (p.1 / 2 = v ∧ p.1 % 2 = 0))
    let out0 := cleanSegment numberVariables (seg0.map Prod.snd)
    let put0 := put + out0.length
    let seg1 := rest0.takeWhile (fun p => decide (p.1 / 2 = v))
    let rest1 := rest0.dropWhile (fun p => decide (p.1 / 2 = v))
    let out1 := cleanSegment numberVariables (seg1.map Prod.snd)
    let put1 := put0 + out1.length
    let r := convertLoop numberVariables fuel (v + 1) rest1 put1
    (put0 :: r.1, put1 :: r.2.1, out0 ++ out1 ++ r.2.2)

/-- `convert()`, CglTreeInfo.cpp:1317-1381. `CoinSort_2` orders the pairs by key (ties in any order; the segment
sort makes the result independent of it). Any sorting algorithm gives the same list of words. -/
def convert (s : Info) : Info :=
  match s.phase with
  | .ordered .. => s
  | .collecting entries =>
    let r := convertLoop s.numberVariables s.numberIntegers 0
      (entries.insertionSort (fun a b => a.1 ≤ b.1)) 0
    { s with phase := .ordered (0 :: r.2.1) r.1 r.2.2 }

/-- Array segment `[a, b)`. -/
def slice {α : Type} (l : List α) (a b : Nat) : List α := (l.drop a).take (b - a)

/-- The entries a reader of `toZero()`, `toOne()`, `fixEntries()` finds for 0-1 column number `i` going to zero
(`up = false`: `toZero_[i] .. toOne_[i]`) or to one (`toOne_[i] .. toZero_[i+1]`); this is how every user of the
table reads it (e.g. CglTreeInfo.cpp:1393, 1421). -/
def implied (s : Info) (i : Nat) (up : Bool) : Option (List CliqueEntry) :=
  match s.phase with
  | .collecting _ => none
  | .ordered toZero toOne entries =>
    if up then
      match toOne[i]?, toZero[i + 1]? with
      | some a, some b => some (slice entries a b)
      | _, _ => none
    else
      match toZero[i]?, toOne[i]? with
      | some a, some b => some (slice entries a b)
      | _, _ => none

/-- The column loop of `packDown`, CglTreeInfo.cpp:1539-1555, over the remaining `toOne_`, `toZero_[1..]`
values; in-place compaction as in `convertLoop`. -/
def packLoop (numberIntegers : Nat) (entries : List CliqueEntry) :
    List Nat → List Nat → Nat → Nat → List Nat × List Nat × List CliqueEntry
  | one :: ones, zer :: zeros, iLast, iPut =>
    let keep0 := (slice entries iLast one).filter (fun e => decide (sequence e < numberIntegers))
    let iPut0 := iPut + keep0.length
    let keep1 := (slice entries one zer).filter (fun e => decide (sequence e < numberIntegers))
    let iPut1 := iPut0 + keep1.length
    let r := packLoop numberIntegers entries ones zeros zer iPut1
    (iPut0 :: r.1, iPut1 :: r.2.1, keep0 ++ keep1 ++ r.2.2)
  | _, _, _, _ => ([], [], [])

/-- `packDown()`, CglTreeInfo.cpp:1534-1557: new state and the returned count. -/
def packDown (s : Info) : Info × Nat :=
  match (convert s).phase with
  | .collecting _ => (convert s, 0)
  | .ordered toZero toOne entries =>
    let r := packLoop s.numberIntegers entries toOne toZero.tail 0 0
    ({ convert s with phase := .ordered (toZero.take 1 ++ r.2.1) r.1 r.2.2 }, r.2.2.length)

/-- Column bounds of the solver a `fixColumns` call works on, with `nFix` and `feasible`. -/
structure FixState where
  lower : Nat → ℚ
  upper : Nat → ℚ
  nFix : Int
  feasible : Bool

/-- Array write. -/
def upd (f : Nat → ℚ) (j : Nat) (v : ℚ) : Nat → ℚ := fun k => if k = j then v else f k

/-- One entry of the implication loops of `fixColumns`, CglTreeInfo.cpp:1394-1417 (the four copies at 1394, 1422,
1471, 1499 are identical). `none`: `integerVariable_` read out of range. The bound pointers stay live after
`setColLower`/`setColUpper`, as in the OSI solvers that update their arrays in place. -/
def fixEntry (s : Info) (st : FixState) (e : CliqueEntry) : Option FixState :=
  match s.integerVariable[sequence e]? with
  | none => none
  | some k =>
    if oneFixes e then
      if st.lower k = 0 then
        if st.upper k = 1 then some { st with lower := upd st.lower k 1, nFix := st.nFix + 1 }
        else some { st with feasible := false }
      else some st
    else if st.upper k = 1 then
      if st.lower k = 0 then some { st with upper := upd st.upper k 0, nFix := st.nFix + 1 }
      else some { st with feasible := false }
    else some st

/-- The implication loop. -/
def fixEntries (s : Info) : List CliqueEntry → FixState → Option FixState
  | [], st => some st
  | e :: es, st => match fixEntry s st e with
    | none => none
    | some st' => fixEntries s es st'

/-- The 0-1 column loop of `fixColumns(si)`, CglTreeInfo.cpp:1389-1448, from column number `i`. -/
def fixLoop (s : Info) : Nat → Nat → FixState → Option FixState
  | 0, _, st => some st
  | fuel + 1, i, st =>
    match s.integerVariable[i]? with
    | none => none
    | some iColumn =>
      if st.upper iColumn = 0 then
        match implied s i false with
        | none => none
        | some es => match fixEntries s es st with
          | none => none
          | some st' => fixLoop s fuel (i + 1) st'
      else if st.lower iColumn = 1 then
        match implied s i true with
        | none => none
        | some es => match fixEntries s es st with
          | none => none
          | some st' => fixLoop s fuel (i + 1) st'
      else fixLoop s fuel (i + 1) st

/-- `fixColumns(si)`, CglTreeInfo.cpp:1383-1456: new bounds and the returned count (-1 = infeasible). -/
def fixColumns (s : Info) (lower upper : Nat → ℚ) : Option ((Nat → ℚ) × (Nat → ℚ) × Int) :=
  match fixLoop s s.numberIntegers 0 ⟨lower, upper, 0, true⟩ with
  | none => none
  | some st => some (st.lower, st.upper, if st.feasible then st.nFix else -1)

/-- `fixColumns(iColumn, value, si)`, CglTreeInfo.cpp:1458-1532. `none` also for a column number out of range. A
table that has not been ordered is reported as "nothing to do" (`!toZero_`). -/
def fixColumnsOne (s : Info) (iColumn : Nat) (value : Bool) (lower upper : Nat → ℚ) :
    Option ((Nat → ℚ) × (Nat → ℚ) × Int) :=
  match s.backward[iColumn]? with
  | none => none
  | some none => some (lower, upper, 0)
  | some (some jColumn) =>
    match s.phase with
    | .collecting _ => some (lower, upper, 0)
    | .ordered .. =>
      match implied s jColumn value with
      | none => none
      | some es => match fixEntries s es ⟨lower, upper, 0, true⟩ with
        | none => none
        | some st => some (st.lower, st.upper, if st.feasible then st.nFix else -1)

/-! ### `generateCuts` -/

/-- State of `CglTreeProbingInfo::generateCuts`: row cuts, the two packed vectors, the `fixed` flags (bit 1 = to
one, bit 2 = to zero), `numberFixed`. -/
structure GenState where
  rowCuts : List RowCut
  lbs : SVec
  ubs : SVec
  fixedOne : Nat → Bool
  fixedZero : Nat → Bool
  numberFixed : Nat

/-- The infeasible row cut `COIN_DBL_MAX <= 0 <= 0`, CglTreeInfo.cpp:1678-1681. -/
def infeasibleCut : RowCut := { lb := dblMax, ub := 0, row := [] }

/-- Both bounds as for an unfixed 0-1 column. -/
def free01 (lower upper : Nat → ℚ) (k : Nat) : Prop := lower k = 0 ∧ upper k = 1

instance (lower upper : Nat → ℚ) (k : Nat) : Decidable (free01 lower upper k) := by
  unfold free01; infer_instance

/-- One implication of a column going to zero, CglTreeInfo.cpp:1575-1611. -/
def cutZero (s : Info) (lower upper x : Nat → ℚ) (i : Nat) (cs : List RowCut) (e : CliqueEntry) :
    Option (List RowCut) :=
  match s.integerVariable[sequence e]? with
  | none => none
  | some k =>
    if free01 lower upper k then
      if oneFixes e then
        if x i + x k < 99999 / 100000 then some (insertIfNotDuplicate cs ⟨1, dblMax, [(i, 1), (k, 1)]⟩) else some cs
      else
        if x i - x k < -(1 / 100000) then some (insertIfNotDuplicate cs ⟨0, dblMax, [(i, 1), (k, -1)]⟩) else some cs
    else some cs

/-- One implication of a column going to one, CglTreeInfo.cpp:1614-1650. -/
def cutOne (s : Info) (lower upper x : Nat → ℚ) (i : Nat) (cs : List RowCut) (e : CliqueEntry) :
    Option (List RowCut) :=
  match s.integerVariable[sequence e]? with
  | none => none
  | some k =>
    if free01 lower upper k then
      if oneFixes e then
        if x i - x k > 1 / 100000 then some (insertIfNotDuplicate cs ⟨-dblMax, 0, [(i, 1), (k, -1)]⟩) else some cs
      else
        if x i + x k > 100001 / 100000 then some (insertIfNotDuplicate cs ⟨-dblMax, 1, [(i, 1), (k, 1)]⟩)
        else some cs
    else some cs

/-- A loop whose body can hit undefined behaviour. -/
def optFold {α β : Type} (f : α → β → Option α) : List β → α → Option α
  | [], a => some a
  | b :: bs, a => match f a b with
    | none => none
    | some a' => optFold f bs a'

/-- One implication of a fixed column, CglTreeInfo.cpp:1654-1684 = 1688-1718. The Boolean is "infeasible,
return". -/
def fixImplied (s : Info) (lower upper : Nat → ℚ) (g : GenState) (e : CliqueEntry) : Option (GenState × Bool) :=
  match s.integerVariable[sequence e]? with
  | none => none
  | some k =>
    if free01 lower upper k then
      if oneFixes e then
        if g.fixedOne (sequence e) = false then
          some ({ g with fixedOne := fun j => if j = sequence e then true else g.fixedOne j,
                         lbs := g.lbs ++ [(k, 1)], numberFixed := g.numberFixed + 1 }, false)
        else some ({ g with numberFixed := g.numberFixed + 1 }, false)
      else
        if g.fixedZero (sequence e) = false then
          some ({ g with fixedZero := fun j => if j = sequence e then true else g.fixedZero j,
                         ubs := g.ubs ++ [(k, 0)], numberFixed := g.numberFixed + 1 }, false)
        else some ({ g with numberFixed := g.numberFixed + 1 }, false)
    else if (oneFixes e = true ∧ upper k = 0) ∨ (oneFixes e = false ∧ lower k = 1) then
      some ({ g with rowCuts := insertIfNotDuplicate g.rowCuts infeasibleCut }, true)
    else some (g, false)

/-- The implication loop of a fixed column, with its early return. -/
def fixImpliedLoop (s : Info) (lower upper : Nat → ℚ) : List CliqueEntry → GenState → Option (GenState × Bool)
  | [], g => some (g, false)
  | e :: es, g => match fixImplied s lower upper g e with
    | none => none
    | some (g', true) => some (g', true)
    | some (g', false) => fixImpliedLoop s lower upper es g'

/-- The 0-1 column loop of `generateCuts`, CglTreeInfo.cpp:1568-1721, from column number `i`. -/
def genLoop (s : Info) (lower upper x : Nat → ℚ) : Nat → Nat → GenState → Option (GenState × Bool)
  | 0, _, g => some (g, false)
  | fuel + 1, i, g =>
    match s.integerVariable[i]? with
    | none => none
    | some iColumn =>
      if free01 lower upper iColumn then
        match implied s i false, implied s i true with
        | some es0, some es1 =>
          match optFold (cutZero s lower upper x iColumn) es0 g.rowCuts with
          | none => none
          | some cs0 => match optFold (cutOne s lower upper x iColumn) es1 cs0 with
            | none => none
            | some cs1 => genLoop s lower upper x fuel (i + 1) { g with rowCuts := cs1 }
        | _, _ => none
      else
        match implied s i (if upper iColumn = 0 then false else true) with
        | none => none
        | some es => match fixImpliedLoop s lower upper es g with
          | none => none
          | some (g', true) => some (g', true)
          | some (g', false) => genLoop s lower upper x fuel (i + 1) g'

/-- `CglTreeProbingInfo::generateCuts`, CglTreeInfo.cpp:1558-1752: row cuts and column cuts after the call. -/
def generateCuts (s : Info) (lower upper x : Nat → ℚ) (rcs : List RowCut) (ccs : List ColCut) :
    Option (List RowCut × List ColCut) :=
  match genLoop s lower upper x s.numberIntegers 0 ⟨rcs, [], [], fun _ => false, fun _ => false, 0⟩ with
  | none => none
  | some (g, true) => some (g.rowCuts, ccs)
  | some (g, false) =>
    if g.numberFixed ≠ 0 then
      if (List.range s.numberIntegers).all (fun i => !(g.fixedOne i && g.fixedZero i)) then
        some (g.rowCuts, ccs ++ [{ lbs := g.lbs, ubs := g.ubs }])
      else some (insertIfNotDuplicate g.rowCuts infeasibleCut, ccs)
    else some (g.rowCuts, ccs)

end Cgl.TreeInfo
