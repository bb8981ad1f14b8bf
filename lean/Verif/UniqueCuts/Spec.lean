import Verif.UniqueCuts.Model

/-! # What a user of the collectors expects, independent of the hash table -/

namespace Cgl.UniqueCuts

/-- The cuts that a user can get with `numberCuts` and `cut`, in order. -/
def Table.held (t : Table) : List RowCut := (t.slots.take t.number).filterMap fun s => match s with
  | .cut c => some c
  | _ => none

/-- The same cut up to the order of its row. -/
def Alike (a b : RowCut) : Prop := a.lb = b.lb ∧ a.ub = b.ub ∧ a.row.Perm b.row

/-- `Account before offered answers after`: starting with the cuts `before`, the cuts `offered` are offered one after the
other and `answers` are the return values; `after` are the cuts held in the end.  Answer 0: the cut is acceptable and is
held behind the others.  Answer 1: nothing has changed, and the cut is refused or a cut that is the same is held. -/
inductive Account (bad : RowCut → Bool) (same : RowCut → RowCut → Bool) :
    List RowCut → List RowCut → List ℤ → List RowCut → Prop
  | done (l) : Account bad same l [] [] l
  | added {l c d cs rs out} : Alike d c → bad d = false → Account bad same (l ++ [d]) cs rs out →
      Account bad same l (c :: cs) (0 :: rs) out
  | skipped {l c d cs rs out} : Alike d c → (bad d = true ∨ ∃ e ∈ l, same d e = true) → Account bad same l cs rs out →
      Account bad same l (c :: cs) (1 :: rs) out

/-- The sizes that the array of a collector can have. -/
def sizeAfter (size : Nat) : Nat → Nat
  | 0 => size
  | k + 1 => larger (sizeAfter size k)

/-- Among the cuts `S`, two have the same place in the table exactly if they are the same cut, for all sizes that a table
that starts with `size` can have. -/
def NoCollision (K : Kind) (size : Nat) (S : List RowCut) : Prop :=
  ∀ k, 0 < K.hashSize (sizeAfter size k) → ∀ a ∈ S, ∀ b ∈ S,
    (K.hash a (K.hashSize (sizeAfter size k)) = K.hash b (K.hashSize (sizeAfter size k)) ↔ K.same a b = true)

/-- What is done to a `CglUniqueRowCuts`. -/
inductive Op
  | insert (c : RowCut)
  | erase (i : Nat)
deriving DecidableEq, Repr

/-- A history of a collector. -/
def run (K : Kind) (t : Table) : List Op → Except Fault Table
  | [] => .ok t
  | .insert c :: ops => (insert K t c).bind fun r => run K r.2 ops
  | .erase i :: ops => (erase K t i).bind fun t' => run K t' ops

/-- What a history should do to the list of cuts: a cut that is acceptable and not there yet is appended; the last cut
takes the place of an erased one. -/
def expected (K : Kind) (l : List RowCut) : List Op → List RowCut
  | [] => l
  | .insert c :: ops =>
    expected K (if K.bad (sortCut c) || l.any (fun d => K.same (sortCut c) d) then l else l ++ [sortCut c]) ops
  | .erase i :: ops => expected K ((l.set i (l.getLast?.getD ⟨0, 0, []⟩)).dropLast) ops

/-- The histories that the collector survives if there are no collisions: a cut that is erased is never the last one,
and the number of cuts never falls to a number that was erased before (`gone`). -/
def Careful (K : Kind) (l : List RowCut) (gone : List Nat) : List Op → Bool
  | [] => true
  | .insert c :: ops =>
    Careful K (if K.bad (sortCut c) || l.any (fun d => K.same (sortCut c) d) then l else l ++ [sortCut c]) gone ops
  | .erase i :: ops =>
    (i :: gone).all (fun g => decide (g + 1 < l.length)) &&
      Careful K ((l.set i (l.getLast?.getD ⟨0, 0, []⟩)).dropLast) (i :: gone) ops

/-- The cuts that a history offers. -/
def offered : List Op → List RowCut
  | [] => []
  | .insert c :: ops => sortCut c :: offered ops
  | .erase _ :: ops => offered ops

end Cgl.UniqueCuts
