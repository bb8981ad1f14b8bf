import Verif.TreeInfo.Model

/-!
# Model of `src/CglCommon/CglStored`
-/

namespace Cgl.Stored

open TreeInfo (Info CliqueEntry sequence oneFixes implied optFold)

/-- `OsiRowCut` as held in `OsiCuts`: the cut and its effectiveness. -/
structure OsiRowCut where
  cut : RowCut
  effectiveness : ℚ
deriving DecidableEq, Repr

/-- `OsiRowCut::violated(solution)` (OsiRowCut.cpp, external): amount by which the point violates the cut. -/
def violated (c : RowCut) (sol : Nat → ℚ) : ℚ :=
  let sum := c.row.dot sol
  if sum > c.ub then sum - c.ub else if sum < c.lb then c.lb - sum else 0

/-- What `saveStuff` stores: best solution with its objective (or NULL), and the two bound arrays. -/
structure Saved where
  best : Option (List ℚ × ℚ)
  lower : List ℚ
  upper : List ℚ
deriving DecidableEq, Repr

/-- A `CglStored` object, CglStored.hpp:123-137. -/
structure State where
  requiredViolation : ℚ
  probingInfo : Option Info
  cuts : List OsiRowCut
  numberColumns : Nat
  saved : Option Saved
deriving DecidableEq, Repr

/-- `CglStored(int numberColumns)`, CglStored.cpp:244-252. -/
def init (numberColumns : Nat) : State :=
  { requiredViolation := 1 / 100000, probingInfo := none, cuts := [], numberColumns := numberColumns, saved := none }

/-- The stored-cut loop of `generateCuts`, CglStored.cpp:28-34: collection of the caller, then stored cuts. -/
def storedLoop (req : ℚ) (sol : Nat → ℚ) : List OsiRowCut → List OsiRowCut → List OsiRowCut
  | [], cs => cs
  | c :: rest, cs =>
    if violated c.cut sol ≥ req then storedLoop req sol rest (cs ++ [c]) else storedLoop req sol rest cs

/-- `cs.insertIfNotDuplicate(cut)` on cuts with an effectiveness (external; compares bounds and row only). -/
def insertOsi (cs : List OsiRowCut) (c : OsiRowCut) : List OsiRowCut :=
  if cs.any (fun d => decide (d.cut = c.cut)) then cs else cs ++ [c]

/-- One entry `j` of the loop "column `i` going to zero", CglStored.cpp:51-121. `none`: `integerVariable` read out
of range is impossible here (`jColumn < number01`), kept as an outcome. -/
def entryZero (s : Info) (req : ℚ) (lower upper sol : Nat → ℚ) (i : Nat) (cs : List OsiRowCut) (e : CliqueEntry) :
    Option (List OsiRowCut) :=
  if sequence e < s.numberIntegers then
    match s.integerVariable[sequence e]? with
    | none => none
    | some k =>
      if oneFixes e then
        let viol := 1 - sol i - sol k
        if viol > req then some (insertOsi cs ⟨⟨1, dblMax, [(i, 1), (k, 1)]⟩, viol⟩) else some cs
      else
        let viol := sol k - sol i
        if viol > req then some (insertOsi cs ⟨⟨0, dblMax, [(i, 1), (k, -1)]⟩, viol⟩) else some cs
  else
    let k := sequence e - s.numberIntegers
    if oneFixes e then
      let viol := upper k - sol i * (upper k - lower k) - sol k
      if viol > req then some (insertOsi cs ⟨⟨upper k, dblMax, [(i, upper k - lower k), (k, 1)]⟩, viol⟩) else some cs
    else
      let viol := sol k - sol i * (upper k - lower k) - lower k
      if viol > req then some (insertOsi cs ⟨⟨-lower k, dblMax, [(i, upper k - lower k), (k, -1)]⟩, viol⟩) else some cs

/-- One entry of the loop "column `i` going to one", CglStored.cpp:122-191. -/
def entryOne (s : Info) (req : ℚ) (lower upper sol : Nat → ℚ) (i : Nat) (cs : List OsiRowCut) (e : CliqueEntry) :
    Option (List OsiRowCut) :=
  if sequence e < s.numberIntegers then
    match s.integerVariable[sequence e]? with
    | none => none
    | some k =>
      if oneFixes e then
        let viol := sol i - sol k
        if viol > req then some (insertOsi cs ⟨⟨-dblMax, 0, [(i, 1), (k, -1)]⟩, viol⟩) else some cs
      else
        let viol := sol i + sol k - 1
        if viol > req then some (insertOsi cs ⟨⟨-dblMax, 1, [(i, 1), (k, 1)]⟩, viol⟩) else some cs
  else
    let k := sequence e - s.numberIntegers
    if oneFixes e then
      let viol := lower k + (upper k - lower k) * sol i - sol k
      if viol > req then some (insertOsi cs ⟨⟨-dblMax, -lower k, [(i, upper k - lower k), (k, -1)]⟩, viol⟩) else some cs
    else
      let viol := (upper k - lower k) * sol i + sol k - upper k
      if viol > req then some (insertOsi cs ⟨⟨-dblMax, upper k, [(i, upper k - lower k), (k, 1)]⟩, viol⟩) else some cs

/-- The 0-1 column loop of `generateCuts`, CglStored.cpp:46-193, from column number `i`. -/
def probingLoop (s : Info) (req : ℚ) (lower upper sol : Nat → ℚ) : Nat → Nat → List OsiRowCut →
    Option (List OsiRowCut)
  | 0, _, cs => some cs
  | fuel + 1, i, cs =>
    match s.integerVariable[i]? with
    | none => none
    | some c =>
      if upper c = lower c then probingLoop s req lower upper sol fuel (i + 1) cs
      else match implied s i false, implied s i true with
        | some es0, some es1 =>
          match optFold (entryZero s req lower upper sol c) es0 cs with
          | none => none
          | some cs0 => match optFold (entryOne s req lower upper sol c) es1 cs0 with
            | none => none
            | some cs1 => probingLoop s req lower upper sol fuel (i + 1) cs1
        | _, _ => none

/-- `CglStored::generateCuts`, CglStored.cpp:23-195: the caller's row cuts after the call. -/
def generateCuts (st : State) (lower upper sol : Nat → ℚ) (cs : List OsiRowCut) : Option (List OsiRowCut) :=
  let cs1 := storedLoop st.requiredViolation sol st.cuts cs
  match st.probingInfo with
  | none => some cs1
  | some s => probingLoop s st.requiredViolation lower upper sol s.numberIntegers 0 cs1

/-- `cuts_.insert(cut)` then `setEffectiveness(COIN_DBL_MAX)` on it, CglStored.cpp:210-213 (the same three lines end
every overload). -/
def pushKept (st : State) (c : RowCut) : State :=
  { st with cuts := st.cuts ++ [⟨c, dblMax⟩] }

/-- `addCut(const OsiCuts &)`, CglStored.cpp:197-206. -/
def addCuts (st : State) (cs : List OsiRowCut) : State := cs.foldl (fun st c => pushKept st c.cut) st
/-- `addCut(const OsiRowCut &)`, CglStored.cpp:208-214. -/
def addRowCut (st : State) (c : OsiRowCut) : State := pushKept st c.cut
/-- `addCut(lb, ub, vector)`, CglStored.cpp:216-227. -/
def addVector (st : State) (lb ub : ℚ) (v : SVec) : State := pushKept st { lb := lb, ub := ub, row := v }
/-- `addCut(lb, ub, size, colIndices, elements)`, CglStored.cpp:229-239. The arrays hold at least `size` values. -/
def addElements (st : State) (lb ub : ℚ) (size : Nat) (idx : List Nat) (els : List ℚ) : Option State :=
  if size ≤ idx.length ∧ size ≤ els.length then
    some (pushKept st { lb := lb, ub := ub, row := (idx.zip els).take size })
  else none

/-- `saveStuff`, CglStored.cpp:377-393 (asserts `numberColumns_`; the arrays hold `numberColumns_` values). -/
def saveStuff (st : State) (obj : ℚ) (best : Option (List ℚ)) (lower upper : List ℚ) : Option State :=
  if st.numberColumns ≠ 0 ∧ st.numberColumns ≤ lower.length ∧ st.numberColumns ≤ upper.length ∧
      (∀ b ∈ best, st.numberColumns ≤ b.length) then
    some { st with saved := some ⟨best.map fun b => (b.take st.numberColumns, obj),
      lower.take st.numberColumns, upper.take st.numberColumns⟩ }
  else none

/-- `bestObjective()`, CglStored.cpp:395-402. -/
def bestObjective (st : State) : ℚ :=
  match st.saved with
  | some ⟨some (_, o), _, _⟩ => o
  | _ => dblMax

/-- Copy constructor, CglStored.cpp:257-272, member by member. -/
def copy (src : State) : State :=
  { requiredViolation := src.requiredViolation
    probingInfo := src.probingInfo
    cuts := src.cuts
    numberColumns := src.numberColumns
    saved := if src.numberColumns ≠ 0 then src.saved else none }

/-- `operator=` for two different objects, CglStored.cpp:353-375, member by member. -/
def assign (_dst src : State) : State :=
  { requiredViolation := src.requiredViolation
    probingInfo := src.probingInfo
    cuts := src.cuts
    numberColumns := src.numberColumns
    saved := if src.numberColumns ≠ 0 then src.saved else none }

/-! ### The constructor from a file -/

/-- A byte of the file. -/
abbrev Byte := BitVec 8

/-- `fread(&n, sizeof(int), 1, fp)` on a little-endian machine with 32-bit `int`; `none` if fewer bytes are left. -/
def readInt : List Byte → Option (Int × List Byte)
  | a :: b :: c :: d :: rest => some ((d ++ c ++ b ++ a : BitVec 32).toInt, rest)
  | _ => none

/-- `fread` of one `double`: its 8 bytes, first byte least significant, as a 64-bit word. -/
def readDouble : List Byte → Option (BitVec 64 × List Byte)
  | a :: b :: c :: d :: e :: f :: g :: h :: rest => some ((h ++ g ++ f ++ e ++ d ++ c ++ b ++ a : BitVec 64), rest)
  | _ => none

/-- `fread(array, size, n, fp)` for `n` items. -/
def readMany {α : Type} (rd : List Byte → Option (α × List Byte)) : Nat → List Byte → Option (List α × List Byte)
  | 0, bs => some ([], bs)
  | n + 1, bs => match rd bs with
    | none => none
    | some (a, bs') => match readMany rd n bs' with
      | none => none
      | some (as, bs'') => some (a :: as, bs'')

/-- A cut as read: bit patterns of the two bounds, indices, bit patterns of the coefficients. -/
structure FileCut where
  lb : BitVec 64
  ub : BitVec 64
  index : List Int
  coef : List (BitVec 64)
deriving DecidableEq, Repr

/-- The reading loop, CglStored.cpp:294-323. `none`: a read came up short (assertion failure, or a cut made from
uninitialised memory when assertions are off). `fuel` bounds the number of records; every record takes bytes, so
the number of bytes is enough. -/
def readLoop : Nat → List Byte → Option (List FileCut)
  | 0, _ => none
  | fuel + 1, bs => match readInt bs with
    | none => none
    | some (n, bs1) =>
      if n < 0 then some []
      else match readDouble bs1 with
        | none => none
        | some (lb, bs2) => match readDouble bs2 with
          | none => none
          | some (ub, bs3) => match readMany readInt n.toNat bs3 with
            | none => none
            | some (idx, bs4) => match readMany readDouble n.toNat bs4 with
              | none => none
              | some (co, bs5) => match readLoop fuel bs5 with
                | none => none
                | some cuts => some (⟨lb, ub, idx, co⟩ :: cuts)

/-- `CglStored(const char *fileName)`, CglStored.cpp:276-328: the cuts held. The argument is the file's contents,
or `none` if it cannot be opened. -/
def load : Option (List Byte) → Option (List FileCut)
  | none => some []
  | some bs => readLoop (bs.length + 1) bs

end Cgl.Stored
