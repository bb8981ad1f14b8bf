import Verif.CutRows.Props
import Verif.DupRow.Witness

/-!
# Clique cuts in place of rows: concrete cases
-/

namespace Cgl.CutRows

open DupRow

/-- A clique cut. -/
def clique (l : List Nat) : RowCut := ⟨-10 ^ 30, 1, ones l⟩

/-- The rows at the end, if there is no fault and the loops end. -/
def rowsAfter (P : Prob) (cuts : List RowCut) (special : Bool) : Option (List (ℚ × ℚ × SVec)) :=
  match treat P cuts special 5 with
  | .ok (some P') => some (P'.rows.map fun r => (r.lb, r.ub, r.coefs))
  | _ => none

/-- Three columns of which no two can be one, an equation, and a row that is no clique. -/
def three : Prob := binProb 6 [le (ones [0, 1]) 1, le (ones [0, 2]) 1, eqr (ones [3, 4]) 1, le (ones [1, 2]) 1, le (ones [0, 4, 5]) 2]

theorem three_sat {x : Nat → ℚ} (hx : three.Feasible x) : ∀ c ∈ [clique [0, 1, 2], clique [3, 4]], c.Sat x := by
  have l0 := hx.lower 0 (by decide) (by decide +kernel)
  have l1 := hx.lower 1 (by decide) (by decide +kernel)
  have l2 := hx.lower 2 (by decide) (by decide +kernel)
  have l3 := hx.lower 3 (by decide) (by decide +kernel)
  have l4 := hx.lower 4 (by decide) (by decide +kernel)
  obtain ⟨z0, h0⟩ := hx.int 0 (by decide) rfl
  obtain ⟨z1, h1⟩ := hx.int 1 (by decide) rfl
  obtain ⟨z2, h2⟩ := hx.int 2 (by decide) rfl
  have r0 := (hx.rows (le (ones [0, 1]) 1) (by simp [three, binProb])).2 (by decide +kernel)
  have r1 := (hx.rows (le (ones [0, 2]) 1) (by simp [three, binProb])).2 (by decide +kernel)
  have r2 := (hx.rows (eqr (ones [3, 4]) 1) (by simp [three, binProb])).2 (by decide +kernel)
  have r3 := (hx.rows (le (ones [1, 2]) 1) (by simp [three, binProb])).2 (by decide +kernel)
  simp only [three, binProb] at l0 l1 l2 l3 l4
  simp only [le, eqr, ones, List.map_cons, List.map_nil, SVec.dot_cons, SVec.dot_nil, one_mul, add_zero] at r0 r1 r2 r3
  have hsum : x 0 + x 1 + x 2 ≤ 1 := by
    rw [h0, h1] at r0
    rw [h0, h2] at r1
    rw [h1, h2] at r3
    rw [h0, h1, h2]
    norm_cast at r0 r1 r3 ⊢
    omega
  intro c hc
  simp only [List.mem_cons, List.not_mem_nil, or_false] at hc
  rcases hc with rfl | rfl
  · refine ⟨fun _ => ?_, fun _ => ?_⟩ <;>
      simp only [clique, ones, List.map_cons, List.map_nil, SVec.dot_cons, SVec.dot_nil, one_mul, add_zero] <;> linarith
  · refine ⟨fun _ => ?_, fun _ => ?_⟩ <;>
      simp only [clique, ones, List.map_cons, List.map_nil, SVec.dot_cons, SVec.dot_nil, one_mul, add_zero] <;> linarith

/-- The hypotheses of `treat_points_partial` and `treat_stops_partial` are met by a case in which one cut takes the place of two
rows. -/
theorem three_meets : (withCuts three [clique [0, 1, 2]]).WF ∧ Tame8 (withCuts three [clique [0, 1, 2]]) ∧
    Valid three [clique [0, 1, 2]] ∧ NoCopies three [clique [0, 1, 2]] ∧ three.inf ≤ dblMax ∧
    rowsAfter three [clique [0, 1, 2]] false =
      some [(1, 1, ones [3, 4]), (-10 ^ 30, 1, ones [1, 2]), (-10 ^ 30, 2, ones [0, 4, 5]), (-10 ^ 30, 1, ones [0, 1, 2])] := by
  refine ⟨⟨by decide +kernel, by decide +kernel⟩, by decide +kernel, ⟨by decide +kernel, ?_⟩, by decide +kernel, ?_,
    by decide +kernel⟩
  · intro x hx c hc
    exact three_sat hx c (by simp at hc ⊢; exact Or.inl hc)
  · show (10 : ℚ) ^ 30 ≤ dblMax
    decide +kernel

/-- Cuts that make no row superfluous are not added; the special setting adds a cut in the place of a single row. -/
theorem three_useless : rowsAfter three [clique [3, 5]] false = some (three.rows.map fun r => (r.lb, r.ub, r.coefs)) ∧
    rowsAfter three [clique [3, 5], clique [0, 5], clique [0, 1, 2, 5]] false =
      some [(1, 1, ones [3, 4]), (-10 ^ 30, 2, ones [0, 4, 5]), (-10 ^ 30, 1, ones [0, 1, 2, 5])] ∧
    rowsAfter three [clique [0, 1, 5]] true =
      some [(-10 ^ 30, 1, ones [0, 2]), (1, 1, ones [3, 4]), (-10 ^ 30, 1, ones [1, 2]), (-10 ^ 30, 2, ones [0, 4, 5]),
        (-10 ^ 30, 1, ones [0, 1, 5])] :=
  ⟨by decide +kernel, by decide +kernel, by decide +kernel⟩

/-! ### The loop that does not end -/

/-- Two cliques and a row that is none. -/
def two : Prob := binProb 6 [le (ones [0, 1, 2]) 1, le (ones [3, 4, 5]) 2, le (ones [3, 4]) 1]

/-- A row of the copy that is removed and points to itself. -/
theorem chase_stuck {nRows : Nat} {dup : List ℤ} {us : Nat → ℤ} {e : ℤ} (h1 : (nRows : ℤ) ≤ e) (h2 : dupAt dup us e.toNat = -2)
    (h3 : us e.toNat = e) (steps : Nat) : chase nRows dup us steps e = none := by
  induction steps with
  | zero => rfl
  | succ f ih =>
    unfold chase
    rw [if_pos h1, if_pos h2, h3]
    exact ih

/-- What the generator leaves for the copy of `two` with a cut that is the same as the first row. -/
def twoDup : Option (List ℤ) :=
  match generate ((ready 8 (withCuts two [clique [0, 1, 2]]))) (withCuts two [clique [0, 1, 2]]) false ⟨[], []⟩ with
  | .ok (o, _) => some o.dup
  | .error _ => none

/-- The cut is a copy of a row, its row has the number of cliques as number: the `while` loop never ends. -/
theorem never_ends : (withCuts two [clique [0, 1, 2]]).WF ∧ Tame8 (withCuts two [clique [0, 1, 2]]) ∧
    Valid two [clique [0, 1, 2]] ∧ ∀ special steps, treat two [clique [0, 1, 2]] special steps = .ok none := by
  refine ⟨⟨by decide +kernel, by decide +kernel⟩, by decide +kernel, ⟨by decide +kernel, ?_⟩, ?_⟩
  · intro x hx c hc
    have l0 := hx.lower 0 (by decide) (by decide +kernel)
    have l1 := hx.lower 1 (by decide) (by decide +kernel)
    have l2 := hx.lower 2 (by decide) (by decide +kernel)
    have r0 := (hx.rows (le (ones [0, 1, 2]) 1) (by simp [two, binProb])).2 (by decide +kernel)
    simp only [two, binProb] at l0 l1 l2
    simp only [le, ones, List.map_cons, List.map_nil, SVec.dot_cons, SVec.dot_nil, one_mul, add_zero] at r0
    simp only [List.mem_cons, List.not_mem_nil, or_false] at hc
    subst hc
    refine ⟨fun _ => ?_, fun _ => ?_⟩ <;>
      simp only [clique, ones, List.map_cons, List.map_nil, SVec.dot_cons, SVec.dot_nil, one_mul, add_zero] <;> linarith
  · intro special steps
    have hd : twoDup = some [-1, -3, -1, -2] := by decide +kernel
    have hu : used8 (withCuts two [clique [0, 1, 2]]) 3 = 3 := by decide +kernel
    have hr : Obj.new.refresh (withCuts two [clique [0, 1, 2]]) = .ok (ready 3 (withCuts two [clique [0, 1, 2]])) :=
      ready_spec 3 _ (by decide +kernel)
    unfold twoDup at hd
    unfold treat
    rw [if_neg (by simp), hr]
    dsimp only
    have hm : (ready 3 (withCuts two [clique [0, 1, 2]])).setMode 8 = ready 8 (withCuts two [clique [0, 1, 2]]) := rfl
    rw [hm]
    generalize generate (ready 8 (withCuts two [clique [0, 1, 2]])) (withCuts two [clique [0, 1, 2]]) false ⟨[], []⟩ = g at hd
    rcases g with f | ⟨o', cs'⟩
    · cases hd
    · have hd : o'.dup = [-1, -3, -1, -2] := Option.some.inj hd
      dsimp only
      rw [hd]
      have hk : keptCuts two.rows.length [-1, -3, -1, -2] (used8 (withCuts two [clique [0, 1, 2]])) steps two.rows.length
          [clique [0, 1, 2]] = none := by
        show keptCuts 3 [-1, -3, -1, -2] (used8 (withCuts two [clique [0, 1, 2]])) steps 3 [clique [0, 1, 2]] = none
        unfold keptCuts
        rw [hu, chase_stuck (by norm_num) (by
          show dupAt [-1, -3, -1, -2] _ 3 = -2
          unfold dupAt
          rw [if_pos (by decide)]
          rfl) hu]
      rw [hk]
      rfl

/-- So the full statement of C131 is false: the loops need not end. -/
theorem not_stops : ¬ ∀ P cuts, (withCuts P cuts).WF → Tame8 (withCuts P cuts) → Valid P cuts →
    ∀ special, ∃ steps, treat P cuts special steps ≠ .ok none := by
  intro h
  obtain ⟨h1, h2, h3, h4⟩ := never_ends
  obtain ⟨steps, h5⟩ := h _ _ h1 h2 h3 false
  exact h5 (h4 false steps)

/-! ### Points that were not feasible -/

/-- After the treatment `x` is feasible, before it was not. -/
def gained (P : Prob) (cuts : List RowCut) (x : Nat → ℚ) : Bool :=
  match treat P cuts false 5 with
  | .ok (some P') => decide (P'.Feasible x ∧ ¬ P.Feasible x)
  | _ => false

/-- A clique that sticks out of a longer one goes with any cut, even one that is erased: the problem has points it did not have. -/
theorem not_points : ∃ P cuts, (withCuts P cuts).WF ∧ Valid P cuts ∧ NoCopies P cuts ∧ P.inf ≤ dblMax ∧
    ∃ steps P', treat P cuts false steps = .ok (some P') ∧ ∃ x, P'.Feasible x ∧ ¬ P.Feasible x := by
  refine ⟨sticky (le (ones [1, 5, 7]) 1), [clique [1, 2]], ⟨by decide +kernel, by decide +kernel⟩, ⟨by decide +kernel, ?_⟩,
    by decide +kernel, ?_, 5, ?_⟩
  · intro x hx c hc
    have l1 := hx.lower 1 (by decide) (by decide +kernel)
    have l2 := hx.lower 2 (by decide) (by decide +kernel)
    have l3 := hx.lower 3 (by decide) (by decide +kernel)
    have l5 := hx.lower 5 (by decide) (by decide +kernel)
    have r0 := (hx.rows (le (ones [1, 2, 3, 5]) 1) (by simp [sticky, binProb])).2 (by decide +kernel)
    simp only [sticky, binProb] at l1 l2 l3 l5
    simp only [le, ones, List.map_cons, List.map_nil, SVec.dot_cons, SVec.dot_nil, one_mul, add_zero] at r0
    simp only [List.mem_cons, List.not_mem_nil, or_false] at hc
    subst hc
    refine ⟨fun _ => ?_, fun _ => ?_⟩ <;>
      simp only [clique, ones, List.map_cons, List.map_nil, SVec.dot_cons, SVec.dot_nil, one_mul, add_zero] <;> linarith
  · show (10 : ℚ) ^ 30 ≤ dblMax
    decide +kernel
  · have h : gained (sticky (le (ones [1, 5, 7]) 1)) [clique [1, 2]] (fun j => if j = 1 ∨ j = 7 then 1 else 0) = true := by
      decide +kernel
    unfold gained at h
    split at h
    · rename_i P' hP
      exact ⟨P', hP, _, of_decide_eq_true h⟩
    · cases h

end Cgl.CutRows
