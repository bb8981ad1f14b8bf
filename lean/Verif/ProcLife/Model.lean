import Mathlib.Data.List.Basic
import Mathlib.Logic.Function.Basic

/-!
# Arrays of models and application data of `CglPreProcess` objects over their lives

`/repo/src/CglPreProcess/CglPreProcess.cpp`: constructors, assignment, destructor and `gutsOfDestructor` (8589-8832), `clean`
(8834-8849), `setApplicationData` (8866-8898) and the start of `preProcessNonDefault` (1642-1716), as far as they allocate, copy, use
and free `model_`, `modifiedModel_`, `presolve_`, `startModel_` and `appData_`.

Entries of arrays are only null or not.  Not modelled: message handlers, generators, sets, prohibited columns and types of rows; leaks
(the code leaks arrays of an earlier `preProcess`); `postProcess`.
-/

namespace Cgl.ProcLife

/-- What may go wrong. -/
inductive Fault where
  /-- entries of an array or a model that is `NULL` are used -/
  | nullRead
  /-- a pointer that was not set, or whose array was freed, is used or freed -/
  | wild
  /-- entries behind the end of an array are used -/
  | overrun
  /-- the solver of the user is freed -/
  | userFreed
  /-- application data are freed twice -/
  | twice
deriving DecidableEq, Repr

/-- A pointer to an array of pointers; for each entry of the array, whether it is not `NULL`. -/
inductive Arr where
  | null
  | wild
  | live (entries : List Bool)
deriving DecidableEq, Repr

/-- `startModel_`: `NULL`, the same as `originalModel_` (which belongs to the user), or owned by the object. -/
inductive Start where
  | null
  | same
  | own
deriving DecidableEq, Repr

/-- The object. -/
structure Obj where
  /-- `numberSolvers_` -/
  n : Nat
  /-- `model_` -/
  model : Arr
  /-- `modifiedModel_` -/
  modified : Arr
  /-- `presolve_` -/
  presolve : Arr
  /-- `originalModel_` is not `NULL` -/
  orig : Bool
  /-- `startModel_` -/
  start : Start
  /-- `appData_`: the number of a block -/
  app : Option Nat
deriving DecidableEq, Repr

/-- The default constructor (8589-8622). -/
def fresh : Obj := ⟨0, .null, .null, .null, false, .null, none⟩

/-- Reading the first `n` entries, as in the loops 8800-8804, 8836-8840; `delete` of an entry accepts `NULL`. -/
def readAll (a : Arr) (n : Nat) : Except Fault Unit :=
  if n = 0 then .ok () else
    match a with
    | .null => .error .nullRead
    | .wild => .error .wild
    | .live l => if n ≤ l.length then .ok () else .error .overrun

/-- `delete[]`. -/
def freeArr : Arr → Except Fault Unit
  | .wild => .error .wild
  | _ => .ok ()

/-- Loops and `delete[]` for the three arrays, 8800-8807 and 8836-8843. -/
def freeAll (o : Obj) (n : Nat) : Except Fault Unit := do
  readAll o.model n
  readAll o.modified n
  readAll o.presolve n
  freeArr o.model
  freeArr o.modified
  freeArr o.presolve

/-- `setApplicationData(NULL)` (8889-8896) on the blocks that are alive. -/
def freeApp (live : List Nat) : Option Nat → Except Fault (List Nat)
  | none => .ok live
  | some a => if a ∈ live then .ok (live.filter fun b => !decide (b = a)) else .error .twice

/-- What `modifiedModel_` is after `delete[]` without an assignment. -/
def dangling : Arr → Arr
  | .null => .null
  | _ => .wild

/-- `gutsOfDestructor` (8781-8832): `modifiedModel_` is not set to `NULL`. -/
def guts (live : List Nat) (o : Obj) : Except Fault (Obj × List Nat) := do
  let n := if o.n = 99 then 1 else o.n
  freeAll o n
  let live' ← freeApp live o.app
  return (⟨n, .null, dangling o.modified, .null, false, .null, none⟩, live')

/-- `clean` (8834-8849): `numberSolvers_` stays, and `startModel_` is freed even if it belongs to the user. -/
def clean (o : Obj) : Except Fault Obj := do
  freeAll o o.n
  match o.start with
  | .same => .error .userFreed
  | _ => .ok { o with model := .null, modified := .null, presolve := .null, start := .null }

/-- Copies of the first `n` entries (8671-8675, 8744-8748); `clone` of `NULL` and a copy of `*NULL` fail. -/
def copyArr (a : Arr) (n : Nat) : Except Fault Arr := do
  readAll a n
  match a with
  | .live l => if (l.take n).all (fun b => b) = true then .ok (.live (List.replicate n true)) else .error .nullRead
  | _ => .error .nullRead

/-- `startModel_` of a copy (8655-8666, 8728-8739). -/
def copyStart (r : Obj) : Except Fault Start :=
  if r.orig = true then
    match r.start with
    | .same => .ok .same
    | .own => .ok .own
    | .null => .error .nullRead
  else .ok .null

/-- The rest of the copy constructor (8624-8696) and of the assignment (8704-8771); `left` is what `modifiedModel_` was before, which is
not set if there are no models (8676-8679, 8749-8752).  The application data are shared (8627, 8706). -/
def fill (left : Arr) (r : Obj) : Except Fault Obj := do
  let st ← copyStart r
  if r.n = 0 then return ⟨0, .null, left, .null, r.orig, st, r.app⟩
  else
    let a ← copyArr r.model r.n
    let b ← copyArr r.modified r.n
    let c ← copyArr r.presolve r.n
    return ⟨r.n, a, b, c, r.orig, st, r.app⟩

/-- How a call of `preProcessNonDefault` ends: `numberSolvers_`, the entries of the three arrays, and whether `startModel_` is left
(it is `NULL` for some infeasible problems, 3183, 3896-3897). -/
structure Call where
  n : Nat
  model : List Bool
  modified : List Bool
  presolve : List Bool
  started : Bool
deriving DecidableEq, Repr

/-- `preProcessNonDefault` with a number of passes other than 99 (1647-1659, 1715-1716): arrays are new, and the former `startModel_` is
freed. -/
def prep (o : Obj) (c : Call) : Except Fault Obj :=
  match o.start with
  | .same => .error .userFreed
  | _ => .ok { o with
      n := c.n, model := .live c.model, modified := .live c.modified, presolve := .live c.presolve, orig := true,
      start := if c.started = true then .own else .null }

/-- `preProcessNonDefault` with 99 passes (1649-1659, 1678-1712): arrays of size 1, the solver of the user is `startModel_`, and
`numberSolvers_` becomes 99 if presolve has a result. -/
def prep99 (o : Obj) (solved : Bool) : Obj :=
  { o with
    n := if solved = true then 99 else 1, model := .live [solved], modified := .live [solved], presolve := .live [solved], orig := true,
    start := .same }

/-- Objects, the number of the next object, blocks of application data that are alive, and the number of the next block. -/
structure World where
  objs : Nat → Option Obj
  next : Nat
  live : List Nat
  block : Nat

/-- What a user may do. -/
inductive Op where
  | new
  | copy (i : Nat)
  | assign (i j : Nat)
  | clean (i : Nat)
  | prep (i : Nat) (c : Call)
  | prep99 (i : Nat) (solved : Bool)
  | setApp (i : Nat)
  | clearApp (i : Nat)
  | destroy (i : Nat)
deriving DecidableEq, Repr

/-- One call; nothing happens if the object does not exist. -/
def step (w : World) : Op → Except Fault World
  | .new => .ok { w with objs := Function.update w.objs w.next (some fresh), next := w.next + 1 }
  | .copy i =>
    match w.objs i with
    | none => .ok w
    | some r => do
      let o ← fill .wild r
      return { w with objs := Function.update w.objs w.next (some o), next := w.next + 1 }
  | .assign i j =>
    match w.objs i, w.objs j with
    | some t, some r =>
      if i = j then .ok w else do
        let g ← guts w.live t
        let o ← fill g.1.modified r
        return { w with objs := Function.update w.objs i (some o), live := g.2 }
    | _, _ => .ok w
  | .clean i =>
    match w.objs i with
    | none => .ok w
    | some o => do
      let o' ← clean o
      return { w with objs := Function.update w.objs i (some o') }
  | .prep i c =>
    match w.objs i with
    | none => .ok w
    | some o => do
      let o' ← prep o c
      return { w with objs := Function.update w.objs i (some o') }
  | .prep99 i s =>
    match w.objs i with
    | none => .ok w
    | some o => .ok { w with objs := Function.update w.objs i (some (prep99 o s)) }
  | .setApp i =>
    match w.objs i with
    | none => .ok w
    | some o => .ok { w with
        objs := Function.update w.objs i (some { o with app := some w.block }), live := w.block :: w.live, block := w.block + 1 }
  | .clearApp i =>
    match w.objs i with
    | none => .ok w
    | some o => do
      let l ← freeApp w.live o.app
      return { w with objs := Function.update w.objs i (some { o with app := none }), live := l }
  | .destroy i =>
    match w.objs i with
    | none => .ok w
    | some o => do
      let g ← guts w.live o
      return { w with objs := Function.update w.objs i none, live := g.2 }

/-- No objects. -/
def empty : World := ⟨fun _ => none, 0, [], 0⟩

/-- A history. -/
def run : List Op → World → Except Fault World
  | [], w => .ok w
  | op :: l, w => do
    let w' ← step w op
    run l w'

end Cgl.ProcLife
