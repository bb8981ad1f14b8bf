import Verif.Osi
import Mathlib.Data.List.Sort

/-!
# Model of the collectors of row cuts with a hash table

`CglUniqueRowCuts` (src/CglPreProcess/CglPreProcess.cpp, CglPreProcess.hpp) and the class `row_cut` of
src/CglProbing/CglProbing.cpp hold row cuts in an array `rowCut_` with a hash table `hash_` of pairs `index`, `next`.
`hashCut` and `same` are functions of Osi; here they are parameters.  The sizes are taken not to overflow.
-/

namespace Cgl.UniqueCuts

inductive Fault
  /-- an array is read or written outside its bounds -/
  | outside
  /-- a pointer that was never set is used -/
  | uninitialised
  /-- a null pointer is used -/
  | nullPointer
  /-- a pointer to a deleted cut is used -/
  | deleted
  /-- a failed `assert` -/
  | assertion
  /-- a loop that does not end -/
  | endless
deriving DecidableEq, Repr

/-- An element of `rowCut_`. -/
inductive Slot
  | garbage
  | null
  | dangling
  | cut (c : RowCut)
deriving DecidableEq, Repr

/-- `CglHashLink`, `CoinHashLink` (CglPreProcess.hpp:558-561, CglProbing.cpp:47-49). -/
structure Link where
  index : ℤ
  next : ℤ
deriving DecidableEq, Repr

/-- What the two classes do differently: the size of the hash table for a size of the array, whether `lastHash_` is
reset when the arrays grow, and which cuts are refused.  The last two members are functions of Osi: the position in a
table of a given size, and the comparison of two cuts. -/
structure Kind where
  hashSize : Nat → Nat
  resets : Bool
  bad : RowCut → Bool
  hash : RowCut → Nat → Nat
  same : RowCut → RowCut → Bool

/-- The members `rowCut_` (with `size_` elements), `hash_`, `numberCuts_`, `lastHash_`. -/
structure Table where
  slots : List Slot
  links : List Link
  number : Nat
  last : ℤ
deriving DecidableEq, Repr

/-- Reading an array. -/
def get {α : Type} (l : List α) (i : ℤ) : Except Fault α :=
  if 0 ≤ i then (match l[i.toNat]? with | some a => .ok a | none => .error .outside) else .error .outside

/-- Using a pointer. -/
def deref : Slot → Except Fault RowCut
  | .garbage => .error .uninitialised
  | .null => .error .nullPointer
  | .dangling => .error .deleted
  | .cut c => .ok c

/-- `*rowCut_[i]`. -/
def cutAt (slots : List Slot) (i : ℤ) : Except Fault RowCut := (get slots i).bind deref

/-- A new hash table. -/
def noLinks (m : Nat) : List Link := List.replicate m ⟨-1, -1⟩

/-- The constructors (CglPreProcess.cpp:10119-10137, CglProbing.cpp:53-73). -/
def new (K : Kind) (size : Nat) : Table where
  slots := List.replicate size .garbage
  links := noLinks (K.hashSize size)
  number := 0
  last := -1

/-- The search along a chain: the index of the cut that is found, and the position where the search ended
(CglPreProcess.cpp:10274-10291, 10337-10354; CglProbing.cpp:118-134, 178-194). -/
def walk (K : Kind) (slots : List Slot) (links : List Link) (c : RowCut) : Nat → ℤ → Except Fault (Option ℤ × ℤ)
  | 0, _ => .error .endless
  | k + 1, ipos =>
    (get links ipos).bind fun h =>
      if 0 ≤ h.index then
        (cutAt slots h.index).bind fun d =>
          if K.same c d then .ok (some h.index, ipos)
          else if h.next ≠ -1 then walk K slots links c k h.next
          else .ok (none, ipos)
      else .ok (none, ipos)

/-- The search for a free place (CglPreProcess.cpp:10299-10304, 10362-10367; CglProbing.cpp:140-145, 200-205). -/
def space (links : List Link) : Nat → ℤ → Except Fault ℤ
  | 0, _ => .error .endless
  | k + 1, last =>
    if last + 1 < links.length then
      (get links (last + 1)).bind fun h => if h.index = -1 then .ok (last + 1) else space links k (last + 1)
    else .error .assertion

/-- `hash_[i].index = v`. -/
def setIndex (links : List Link) (i v : ℤ) : List Link := links.modify i.toNat fun h => { h with index := v }
/-- `hash_[i].next = v`. -/
def setNext (links : List Link) (i v : ℤ) : List Link := links.modify i.toNat fun h => { h with next := v }

/-- Entering cut number `i` into the hash table: `ipos` is where the search ended and `jpos` where it started
(CglPreProcess.cpp:10292-10308, 10355-10370; CglProbing.cpp:135-149, 195-208). -/
def enter (links : List Link) (last : ℤ) (i : Nat) (ipos jpos : ℤ) : Except Fault (List Link × ℤ) :=
  (get links ipos).bind fun h =>
    if h.next = -1 then
      if ipos = jpos then .ok (setIndex links ipos i, last)
      else (space links (links.length + 1) last).bind fun l => .ok (setIndex (setNext links ipos l) l i, l)
    else .error .assertion

/-- One cut in the loop that fills the larger hash table (CglPreProcess.cpp:10268-10309, CglProbing.cpp:113-150).  The
code looks at `temp`, in which the first `i + 1` elements of the old array are copied; the model at the old array. -/
def rehashOne (K : Kind) (slots : List Slot) (s : List Link × ℤ) (i : Nat) : Except Fault (List Link × ℤ) :=
  (cutAt slots i).bind fun c =>
    (walk K slots s.1 c (s.1.length + 1) (K.hash c s.1.length)).bind fun w =>
      if w.1.isSome then .ok s else enter s.1 s.2 i w.2 (K.hash c s.1.length)

/-- The loop over the cuts with numbers from `i` on, `k` of them. -/
def rehash (K : Kind) (slots : List Slot) : Nat → Nat → List Link × ℤ → Except Fault (List Link × ℤ)
  | 0, _, s => .ok s
  | k + 1, i, s => (rehashOne K slots s i).bind fun s' => rehash K slots k (i + 1) s'

/-- The new size of a full array. -/
def larger (size : Nat) : Nat := 2 * size + 100

/-- The arrays grow (CglPreProcess.cpp:10259-10312, CglProbing.cpp:99-153). -/
def grow (K : Kind) (t : Table) : Except Fault Table :=
  (rehash K t.slots t.number 0
      (noLinks (K.hashSize (larger t.slots.length)), if K.resets then -1 else t.last)).bind fun s =>
    .ok ⟨t.slots.take t.number ++ List.replicate (larger t.slots.length - t.number) .garbage, s.1, t.number, s.2⟩

/-- The cut with its row sorted by column (CglPreProcess.cpp:10316-10320, CglProbing.cpp:158). -/
def sortCut (c : RowCut) : RowCut := { c with row := c.row.insertionSort fun p q => p.1 ≤ q.1 }

/-- The second part of the insertion: the return value and the new state
(CglPreProcess.cpp:10313-10382, CglProbing.cpp:154-222). -/
def add (K : Kind) (t : Table) (c : RowCut) : Except Fault (ℤ × Table) :=
  if t.number < t.slots.length then
    if K.bad (sortCut c) then .ok (1, t)
    else
      (walk K t.slots t.links (sortCut c) (t.links.length + 1) (K.hash (sortCut c) t.links.length)).bind fun w =>
        if w.1.isSome then .ok (1, t)
        else
          (enter t.links t.last t.number w.2 (K.hash (sortCut c) t.links.length)).bind fun s =>
            .ok (0, ⟨t.slots.set t.number (.cut (sortCut c)), s.1, t.number + 1, s.2⟩)
  else .ok (-1, t)

/-- `insertIfNotDuplicate`, `addCutIfNotDuplicate` (CglPreProcess.cpp:10256-10383, CglProbing.cpp:97-222). -/
def insert (K : Kind) (t : Table) (c : RowCut) : Except Fault (ℤ × Table) :=
  if t.number = t.slots.length then (grow K t).bind fun t' => add K t' c else add K t c

/-- A sequence of insertions: the return values and the final state. -/
def inserts (K : Kind) (t : Table) : List RowCut → Except Fault (List ℤ × Table)
  | [] => .ok ([], t)
  | c :: cs => (insert K t c).bind fun r => (inserts K r.2 cs).bind fun q => .ok (r.1 :: q.1, q.2)

/-! ### The rest of `CglUniqueRowCuts` -/

/-- The search for a number along a chain (CglPreProcess.cpp:10207-10225). -/
def findNumber (links : List Link) (n : ℤ) : Nat → ℤ → Except Fault (Option ℤ)
  | 0, _ => .error .endless
  | k + 1, ipos =>
    (get links ipos).bind fun h =>
      if 0 ≤ h.index then
        if h.index ≠ n then (if h.next ≠ -1 then findNumber links n k h.next else .ok none) else .ok (some ipos)
      else .ok none

/-- "shuffle up" (CglPreProcess.cpp:10228-10233). -/
def shuffle : Nat → List Link → ℤ → Except Fault (List Link)
  | 0, _, _ => .error .endless
  | k + 1, links, ipos =>
    (get links ipos).bind fun h =>
      if 0 ≤ h.next then (get links h.next).bind fun h' => shuffle k (links.set ipos.toNat h') h.next else .ok links

/-- The search for the number of the last cut (CglPreProcess.cpp:10239-10251). -/
def findLast (links : List Link) (n : ℤ) : Nat → ℤ → Except Fault ℤ
  | 0, _ => .error .endless
  | k + 1, ipos => (get links ipos).bind fun h => if h.index ≠ n then findLast links n k h.next else .ok ipos

/-- The last cut is moved to number `i` (CglPreProcess.cpp:10235-10253); `n` cuts are left. -/
def moveLast (K : Kind) (slots : List Slot) (links : List Link) (last : ℤ) (n i : Nat) : Except Fault Table :=
  if n ≠ 0 then
    (cutAt slots n).bind fun c =>
      (findLast links n (links.length + 1) (K.hash c links.length)).bind fun p =>
        .ok ⟨(slots.set i (.cut c)).set n .null, setIndex links p i, n, last⟩
  else if slots[0]? = some .null then .ok ⟨slots, links, n, last⟩ else .error .assertion

/-- `eraseRowCut` (CglPreProcess.cpp:10201-10254).  After `delete cut` the element of the array still points to the
deleted cut. -/
def erase (K : Kind) (t : Table) (i : Nat) : Except Fault Table :=
  if i < t.number then
    (cutAt t.slots i).bind fun c =>
      (findNumber t.links i (t.links.length + 1) (K.hash c t.links.length)).bind fun f =>
        match f with
        | none => .error .assertion
        | some p =>
          (shuffle (t.links.length + 1) t.links p).bind fun links =>
            moveLast K (t.slots.set i .dangling) links t.last (t.number - 1) i
  else .error .assertion

/-- The copy of an element of `rowCut_` (CglPreProcess.cpp:10159-10162, 10189-10192). -/
def copySlot : Slot → Except Fault Slot
  | .null => .ok .null
  | s => (deref s).bind fun c => .ok (.cut c)

/-- The copy constructor and the assignment operator (CglPreProcess.cpp:10145-10200): all `size_` elements are copied. -/
def copy (t : Table) : Except Fault Table :=
  (t.slots.mapM copySlot).bind fun slots => .ok { t with slots := slots }

/-- `addCuts` (CglPreProcess.cpp:10385-10393): the cuts are given to `cs` and deleted; the hash table is left as it is. -/
def addCuts (t : Table) (cs : List RowCut) : Except Fault (List RowCut × Table) :=
  ((t.slots.take t.number).mapM deref).bind fun l =>
    .ok (l.foldl insertIfNotDuplicate cs,
      { t with
        slots := List.replicate t.number .null ++ t.slots.drop t.number
        number := 0 })

/-! ### The two classes -/

/-- Coefficients that are too small or too large (CglPreProcess.cpp:10322-10328, CglProbing.cpp:162-167). -/
def badRow (c : RowCut) : Bool := c.row.any fun p => decide (|p.2| < 1 / 10 ^ 12 ∨ 10 ^ 12 < |p.2|)

/-- `CglUniqueRowCuts` with `hashMultiplier_`. -/
def unique (mult : Nat) (hash : RowCut → Nat → Nat) (same : RowCut → RowCut → Bool) : Kind where
  hashSize := fun s => mult * s
  resets := false
  bad := badRow
  hash := hash
  same := same

/-- `row_cut` (CglProbing.cpp:51-222, the bounds in lines 168-171): the bounds of a cut are looked at too. -/
def probingCuts (hash : RowCut → Nat → Nat) (same : RowCut → RowCut → Bool) : Kind where
  hashSize := fun s => if s < 1000 then 4 * s else 2 * s
  resets := true
  bad := fun c => badRow c || decide (c.lb < -10 ^ 12 ∧ -10 ^ 40 < c.lb) || decide (10 ^ 12 < c.ub ∧ c.ub < 10 ^ 40)
  hash := hash
  same := same

/-- The size of the array of a new `row_cut` (CglProbing.cpp:56-58). -/
def probingSize (initialPass : Bool) : Nat := if initialPass then 50 else 100

end Cgl.UniqueCuts
