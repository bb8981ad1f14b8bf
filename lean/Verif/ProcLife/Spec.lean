import Verif.ProcLife.Model

/-! # Histories that are careful -/

namespace Cgl.ProcLife

/-- The array has `n` entries that are not `NULL`. -/
def Full (a : Arr) (n : Nat) : Prop :=
  match a with
  | .live l => n ≤ l.length ∧ ∀ b ∈ l.take n, b = true
  | _ => False

instance (a : Arr) (n : Nat) : Decidable (Full a n) := by unfold Full; cases a <;> infer_instance

/-- A copy may be taken: there are models, all of them are there (`modelAtPass`, `modifiedModel`, `presolve`), so is `startModel`, and
there are no application data. -/
def Copyable (r : Obj) : Prop :=
  r.n ≠ 0 ∧ r.n ≠ 99 ∧ Full r.model r.n ∧ Full r.modified r.n ∧ Full r.presolve r.n ∧ r.start ≠ .null ∧ r.app = none

instance (r : Obj) : Decidable (Copyable r) := by unfold Copyable; infer_instance

/-- `clean` was called on an object with models and it was not used again. -/
def Cleaned (o : Obj) : Prop := o.n ≠ 0 ∧ o.model = .null

instance (o : Obj) : Decidable (Cleaned o) := by unfold Cleaned; infer_instance

/-- The call ends with arrays that are large enough. -/
def Call.Ok (c : Call) : Prop := c.n ≠ 99 ∧ c.n ≤ c.model.length ∧ c.n ≤ c.modified.length ∧ c.n ≤ c.presolve.length

instance (c : Call) : Decidable c.Ok := by unfold Call.Ok; infer_instance

/-- A statement about the object `i`, if it exists. -/
def At (w : World) (i : Nat) (p : Obj → Prop) : Prop :=
  match w.objs i with
  | none => True
  | some o => p o

instance (w : World) (i : Nat) (p : Obj → Prop) [DecidablePred p] : Decidable (At w i p) := by
  unfold At; cases w.objs i <;> infer_instance

/-- A careful call: copies of complete objects only; an object that was cleaned is preprocessed before anything else; no `clean` and no
second `preProcess` after 99 passes. -/
def Careful (w : World) : Op → Prop
  | .new => True
  | .copy i => At w i Copyable
  | .assign i j => At w i (fun o => ¬ Cleaned o) ∧ At w j Copyable
  | .clean i => At w i fun o => ¬ Cleaned o ∧ o.start ≠ .same
  | .prep i c => (At w i fun o => o.start ≠ .same) ∧ c.Ok
  | .prep99 _ _ => True
  | .setApp _ => True
  | .clearApp _ => True
  | .destroy i => At w i fun o => ¬ Cleaned o

instance (w : World) (op : Op) : Decidable (Careful w op) := by cases op <;> unfold Careful <;> infer_instance

/-- All calls of a history are careful. -/
def AllCareful : List Op → World → Prop
  | [], _ => True
  | op :: l, w => Careful w op ∧ ∀ w', step w op = .ok w' → AllCareful l w'

/-- The fault of a history, if there is one. -/
def fault (l : List Op) : Option Fault :=
  match run l empty with
  | .error f => some f
  | .ok _ => none

end Cgl.ProcLife
