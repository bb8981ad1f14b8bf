import Verif.ProbingLife.Model

/-!
# Specification for the life of a `CglProbing` object
-/

namespace Cgl.ProbingLife

/-- The history is safe: no fault in it, and the object can be destroyed after it. -/
def Safe (l : List Op) : Prop := ∃ o, run l fresh = .ok o ∧ destroy o = .ok ()

/-- `numberThisTime()` entries of `lookedAt()` can be read after the history. -/
def ListReadable (l : List Op) : Prop := ∀ o, run l fresh = .ok o → access o.lookedAt o.thisTime = .ok ()

/-- A call does not probe more columns than there are. -/
def Call.Ok (c : Call) : Prop := c.k ≤ c.n

instance (c : Call) : Decidable c.Ok := by unfold Call.Ok; infer_instance

/-- The operation is about problems with `n` columns, and makes no snapshot. -/
def Plain (n : Nat) : Op → Prop
  | .generate c => c.Ok ∧ c.n = n
  | .modify c _ => c.Ok ∧ c.n = n
  | .snapshot .. => False
  | _ => True

instance (n : Nat) : (a : Op) → Decidable (Plain n a)
  | .generate c => by unfold Plain; infer_instance
  | .modify c _ => by unfold Plain; infer_instance
  | .snapshot .. => by unfold Plain; infer_instance
  | .deleteSnapshot => by unfold Plain; infer_instance
  | .peek => by unfold Plain; infer_instance
  | .replace => by unfold Plain; infer_instance

/-- Only `generateCuts` and copies, and the number of columns is at most `b` and never grows. -/
def Shrinking : Nat → List Op → Prop
  | _, [] => True
  | b, .generate c :: l => c.Ok ∧ c.n ≤ b ∧ Shrinking c.n l
  | _, .modify .. :: _ => False
  | _, .snapshot .. :: _ => False
  | b, .deleteSnapshot :: l => Shrinking b l
  | b, .peek :: l => Shrinking b l
  | b, .replace :: l => Shrinking b l

end Cgl.ProbingLife
