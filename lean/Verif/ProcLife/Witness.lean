import Verif.ProcLife.Props

/-! # A careful history, and histories that fail -/

namespace Cgl.ProcLife

instance decAll : ∀ (l : List Op) (w : World), Decidable (AllCareful l w)
  | [], _ => isTrue trivial
  | op :: l, w =>
    match h : step w op with
    | .ok w1 =>
      have := decAll l w1
      decidable_of_iff (Careful w op ∧ AllCareful l w1)
        ⟨fun a => ⟨a.1, fun w' e => by rw [h] at e; obtain rfl := Except.ok.inj e; exact a.2⟩, fun a => ⟨a.1, a.2 w1 h⟩⟩
    | .error _ =>
      decidable_of_iff (Careful w op) ⟨fun a => ⟨a, fun w' e => by rw [h] at e; exact absurd e (by simp)⟩, fun a => a.1⟩

/-- Two passes with all models. -/
def two : Call := ⟨2, [true, true, false], [true, true, false], [true, true, false], true⟩

/-- Three passes of which the problem is found infeasible in the first. -/
def bad : Call := ⟨3, [false, false, false], [false, false, false], [false, false, false], true⟩

/-- All kinds of calls in a careful history. -/
theorem careful_meets : AllCareful [.new, .prep 0 two, .copy 0, .new, .setApp 2, .prep 2 bad, .assign 2 0, .setApp 2, .clean 1,
    .prep 1 two, .new, .prep99 3 true, .clearApp 2, .setApp 2, .destroy 3, .destroy 2, .assign 0 1, .prep 1 bad, .destroy 0, .destroy 1]
    empty := by decide +kernel

/-- Carefulness is kept after the destructor of a solver with 99 passes, and the object can be made anew. -/
theorem careful_odd : AllCareful [.new, .prep99 0 true, .destroy 0, .new, .prep99 1 false, .destroy 1] empty ∧
    fault [.new, .prep99 0 true, .destroy 0, .new, .prep99 1 false, .destroy 1] = none := by
  refine ⟨by decide +kernel, by decide +kernel⟩

/-- A copy of an object that was not used: its destructor frees a pointer that was never set (8676-8679). -/
theorem not_copy : fault [.new, .copy 0, .destroy 1] = some .wild := by decide +kernel

/-- An object that was not used is assigned to one that was: the destructor frees `modifiedModel_` again (8805-8809, 8749-8752). -/
theorem not_assign : fault [.new, .prep 0 two, .new, .assign 0 1, .destroy 0] = some .wild := by decide +kernel

/-- `clean` and then the destructor: `numberSolvers_` is not 0 and the arrays are `NULL` (8834-8849). -/
theorem not_clean : fault [.new, .prep 0 two, .clean 0, .destroy 0] = some .nullRead := by decide +kernel

/-- A copy after an infeasible problem clones `NULL` (8672). -/
theorem not_infeasible : fault [.new, .prep 0 bad, .copy 0] = some .nullRead := by decide +kernel

/-- Two copies free the same application data (8627). -/
theorem not_app : fault [.new, .prep 0 two, .setApp 0, .copy 0, .destroy 1, .destroy 0] = some .twice := by decide +kernel

/-- A copy after 99 passes, and `clean`, read behind the end of arrays of size 1 (1706, 8671, 8836). -/
theorem not_odd : fault [.new, .prep99 0 true, .copy 0] = some .overrun ∧ fault [.new, .prep99 0 true, .clean 0] = some .overrun := by
  refine ⟨by decide +kernel, by decide +kernel⟩

/-- `clean`, and another `preProcess`, free the solver of the user after 99 passes (8847, 1715). -/
theorem not_user : fault [.new, .prep99 0 false, .clean 0] = some .userFreed ∧
    fault [.new, .prep99 0 true, .prep 0 two] = some .userFreed := by
  refine ⟨by decide +kernel, by decide +kernel⟩

end Cgl.ProcLife
