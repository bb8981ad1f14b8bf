import Mathlib.Data.Rat.Defs
import Mathlib.Algebra.Order.Ring.Rat

/-!
Specification of parameter objects.

A parameter object offers, for every parameter name `n : N`, a setter and a getter with values in
`V`.  Objects are created by the default constructor, by copy construction (or `clone`) and
overwritten by assignment.  `Doc` is what the documentation promises about each parameter;
`Doc.run` is what a user who reads only the documentation expects after a history of calls.
Nothing in this file mentions the fields of the classes of /repo.
-/

namespace Cgl.Param

/-- The documented behaviour of each parameter: its default, which arguments its setter accepts,
what a getter returns after an accepted call (the argument itself, for nearly every parameter),
and the documented range. -/
structure Doc (N V : Type) where
  dflt : N → V
  accepts : N → V → Prop
  stored : N → V → V
  range : N → V → Prop

/-- One call made by a user.  Objects are numbered in order of creation. -/
inductive Op (N V : Type) where
  | new
  | copy (i : ℕ)
  | assign (i j : ℕ)
  | set (i : ℕ) (n : N) (v : V)

/-- The values of all the parameters of one object. -/
abbrev Vals (N V : Type) := N → V

open Classical in
/-- An accepted call changes the named parameter only; a rejected call changes nothing. -/
noncomputable def Doc.update {N V : Type} (D : Doc N V) (s : Vals N V) (n : N) (v : V) :
    Vals N V :=
  fun m => if m = n ∧ D.accepts n v then D.stored n v else s m

/-- Expected effect of one call; calls on objects that do not exist are not calls. -/
noncomputable def Doc.step {N V : Type} (D : Doc N V) (st : List (Vals N V)) :
    Op N V → List (Vals N V)
  | .new => st ++ [D.dflt]
  | .copy i => match st[i]? with
    | some s => st ++ [s]
    | none => st
  | .assign i j => match st[i]?, st[j]? with
    | some _, some s => st.set i s
    | _, _ => st
  | .set i n v => match st[i]? with
    | some s => st.set i (D.update s n v)
    | none => st

/-- Expected values of every object after a history of calls, starting with no object. -/
noncomputable def Doc.run {N V : Type} (D : Doc N V) (h : List (Op N V)) : List (Vals N V) :=
  h.foldl D.step []

/-- A class under study: its objects and its member functions.  (`set o n v` is the object after
the call `o.set_n(v)`, `get o n` is `o.get_n()`.) -/
structure Impl (N V : Type) where
  Obj : Type
  fresh : Obj
  set : Obj → N → V → Obj
  get : Obj → N → V
  copy : Obj → Obj
  assign : Obj → Obj → Obj

/-- Effect of one call on the objects of a program. -/
def Impl.step {N V : Type} (C : Impl N V) (st : List C.Obj) : Op N V → List C.Obj
  | .new => st ++ [C.fresh]
  | .copy i => match st[i]? with
    | some o => st ++ [C.copy o]
    | none => st
  | .assign i j => match st[i]?, st[j]? with
    | some a, some b => if i = j then st else st.set i (C.assign a b)
    | _, _ => st
  | .set i n v => match st[i]? with
    | some o => st.set i (C.set o n v)
    | none => st

/-- The objects of a program after a history of calls. -/
def Impl.run {N V : Type} (C : Impl N V) (h : List (Op N V)) : List C.Obj :=
  h.foldl C.step []

/-- **Ranges** (C32).  After any history every parameter of every object lies in its documented
range. -/
def Impl.KeepsRanges {N V : Type} (C : Impl N V) (D : Doc N V) : Prop :=
  ∀ (h : List (Op N V)) (i : ℕ) (o : C.Obj), (C.run h)[i]? = some o → ∀ n, D.range n (C.get o n)

/-- **Rejected calls** (C32).  A call whose argument the documentation does not accept changes no
parameter, whatever the history before it. -/
def Impl.RejectsQuietly {N V : Type} (C : Impl N V) (D : Doc N V) : Prop :=
  ∀ (h : List (Op N V)) (i : ℕ) (n : N) (v : V), ¬ D.accepts n v →
    (C.run (h ++ [.set i n v])).map C.get = (C.run h).map C.get

/-- **Read back** (C45), for the getters in `G` and histories whose calls are all in `H`.  What
the getters return after a history is what the documentation says: the argument of the last
accepted call for that parameter on that object, or the value inherited from the object it was
last copied or assigned from, or the default. -/
def Impl.ReadsBack {N V : Type} (C : Impl N V) (D : Doc N V) (G : N → Prop)
    (H : Op N V → Prop) : Prop :=
  ∀ h : List (Op N V), (∀ op ∈ h, H op) → ∀ (i : ℕ) (n : N), G n →
    ((C.run h)[i]?).map (fun o => C.get o n) = ((D.run h)[i]?).map (fun s => s n)

/-- Histories in which the setter of `n` is never called. -/
def Op.avoids {N V : Type} (n : N) : Op N V → Prop
  | .set _ m _ => m ≠ n
  | _ => True

end Cgl.Param
