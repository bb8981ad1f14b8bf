import Verif.ProbingLife.Props

/-!
# Cases for the life of a `CglProbing` object
-/

namespace Cgl.ProbingLife

/-- A call that probes all of `n` columns. -/
def all (n : Nat) : Call := ⟨2, n, 2, n, false⟩

/-- A history that meets the hypotheses: calls, copies, and an end as a copy. -/
def plainHistory : List Op :=
  [.generate (all 3), .peek, .modify (all 3) true, .replace, .generate ⟨2, 3, 0, 0, false⟩, .deleteSnapshot, .replace]

theorem plain_meets : (∀ a ∈ plainHistory, Plain 3 a) ∧
    run plainHistory fresh = .ok ⟨some 3, 3, 2, 3, none, none, none, none⟩ := by decide +kernel

/-- A history with fewer and fewer columns. -/
theorem shrinking_meets : Shrinking 9 [.generate (all 5), .replace, .generate (all 3), .peek, .generate (all 2)] ∧
    run [.generate (all 5), .replace, .generate (all 3), .peek, .generate (all 2)] fresh =
      .ok ⟨some 5, 2, 2, 2, none, none, none, none⟩ :=
  ⟨⟨by decide +kernel, by decide +kernel, by decide +kernel, by decide +kernel, by decide +kernel, by decide +kernel, trivial⟩,
    by decide +kernel⟩

/-- A problem with more columns after one with fewer: `lookedAt_` is too short. -/
theorem not_more : run [.generate (all 1), .generate (all 3)] fresh = .error .overrun := by decide +kernel

/-- A problem with fewer columns, a copy, and the first problem again. -/
theorem not_shrunk : run [.generate (all 3), .generate (all 1), .replace, .generate (all 3)] fresh = .error .overrun := by
  decide +kernel

/-- A copy reads behind the end of `lookedAt_`: it was made for one column, and `numberColumns_` is 3. -/
theorem not_copied : run [.modify (all 1) false, .generate ⟨2, 3, 0, 0, false⟩, .peek] fresh = .error .overrun := by
  decide +kernel

/-- The claim of C136 does not hold for all histories, even if no snapshot is made. -/
theorem not_safe : ¬ Safe [.generate (all 1), .generate (all 3)] := by
  rintro ⟨o, h, -⟩
  rw [not_more] at h
  cases h

/-- The claim of C137 does not hold for all histories: a copy after `generateCutsAndModify` has no list but a number of
entries. -/
theorem not_list : (∀ a ∈ [Op.modify (all 1) false, .replace], Plain 1 a) ∧
    ¬ ListReadable [.modify (all 1) false, .replace] := by
  refine ⟨by decide +kernel, fun h => ?_⟩
  have := h ⟨none, 1, 0, 0, none, none, none, none⟩ (by decide +kernel)
  revert this
  decide +kernel

/-- A snapshot and nothing else: the assertions of the destructor fail. -/
theorem snapshot_destroy (m n : Nat) (w : Bool) : ¬ Safe [.snapshot m n w] := by
  rintro ⟨o, h, hd⟩
  have : run [.snapshot m n w] fresh = .ok (snapped m n w) := by
    simp only [run, step, snapshot_fresh, bind, Except.bind]
  rw [this] at h
  cases h
  cases hd

/-- `generateCuts` frees the bounds of the snapshot: a copy reads them through `NULL`. -/
theorem snapshot_copy : run [.snapshot 2 3 false, .generate (all 3), .peek] fresh = .error .nullRead := by decide +kernel

/-- `tighten` has set `numberRows_` to 0: the second call after a snapshot fails. -/
theorem snapshot_twice : run [.snapshot 2 3 false, .generate (all 3), .generate (all 3)] fresh = .error .assertion := by
  decide +kernel

/-- A second snapshot throws. -/
theorem snapshot_again (m n : Nat) (w : Bool) (hm : 0 < m) :
    run [.snapshot m n w, .snapshot m n w] fresh = .error .throws := by
  have hz : ¬ 2 * m < m := by omega
  simp only [run, step, snapshot_fresh, bind, Except.bind]
  cases w <;> simp [snapshot, deleteSnapshot, snapped, tightenStart, bind, Except.bind, hz, hm]

/-- The hypotheses of `snapshot_once` are met. -/
theorem once_meets : 0 < 2 ∧ (all 3).n = 3 ∧ (all 3).Ok ∧ (all 3).left ≠ 0 := by decide +kernel

end Cgl.ProbingLife
