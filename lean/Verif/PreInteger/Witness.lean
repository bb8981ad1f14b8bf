import Verif.PreInteger.Props
import Mathlib.Tactic.IntervalCases

/-! # Declaring continuous columns integer: examples and counterexamples -/

namespace Cgl.PreInteger

/-! ### Problems with clean numbers -/

theorem crisp_den {v : ℚ} (h : v.den ≤ 10 ^ 6) : Crisp v := by
  rintro ⟨z, hz⟩
  have hd : (0 : ℚ) < v.den := by exact_mod_cast v.den_pos
  have hv : v * v.den = v.num := Rat.mul_den_eq_num v
  have h1 : |(v.num : ℚ) - z * v.den| ≤ 1 / 10 ^ 6 := by
    rw [← hv, ← sub_mul, abs_mul, abs_of_pos hd]
    have : (v.den : ℚ) ≤ 10 ^ 6 := by exact_mod_cast h
    calc |v - z| * v.den ≤ 1 / 10 ^ 12 * 10 ^ 6 := mul_le_mul hz this hd.le (by norm_num)
      _ = 1 / 10 ^ 6 := by norm_num
  have h2 : |v.num - z * v.den| < 1 := by
    have : ((|v.num - z * v.den| : ℤ) : ℚ) < 1 := by
      push_cast
      exact lt_of_le_of_lt h1 (by norm_num)
    exact_mod_cast this
  have h3 : v.num - z * v.den = 0 := Int.abs_lt_one_iff.1 h2
  refine ⟨z, ?_⟩
  have h4 : (v.num : ℚ) = z * v.den := by
    have : v.num = z * v.den := by omega
    exact_mod_cast this
  rw [← hv] at h4
  exact mul_right_cancel₀ hd.ne' h4

/-- A test for `Clean`. -/
def cleanB (P : Prob) : Bool :=
  decide (P.inf = 10 ^ 20) &&
  (P.rows.all fun r => (r.coefs.all fun p => decide (p.1 < P.nCols)) && decide (r.coefs.map Prod.fst).Nodup) &&
  ((List.range P.nCols).all fun j => decide (P.colUpper j ≤ P.colLower j + 1 / 10 ^ 8 →
    P.colUpper j ≤ P.colLower j ∧ -10 ^ 20 < P.colLower j ∧ P.colUpper j < 10 ^ 20)) &&
  (P.rows.all fun r => r.coefs.all fun p => decide (p.2.den ≤ 10 ^ 6 ∧ (1 / p.2).den ≤ 10 ^ 6)) &&
  (P.rows.all fun r => decide ((r.lb - fixedPart P r).den ≤ 10 ^ 6 ∧ (r.ub - fixedPart P r).den ≤ 10 ^ 6)) &&
  ((List.range P.nCols).all fun j => decide ((P.colLower j).den ≤ 10 ^ 6 ∧ (P.colUpper j).den ≤ 10 ^ 6)) &&
  (P.rows.all fun r => decide ((r.lb ≤ -10 ^ 20 → r.lb < r.ub ∧ r.lb < r.ub - fixedPart P r) ∧
    (10 ^ 20 ≤ r.ub → r.lb < r.ub ∧ r.lb - fixedPart P r < r.ub)))

theorem clean_of_test {P : Prob} (h : cleanB P = true) : Clean P := by
  unfold cleanB at h
  simp only [Bool.and_eq_true, List.all_eq_true, decide_eq_true_eq, List.mem_range] at h
  obtain ⟨⟨⟨⟨⟨⟨h1, h2⟩, h3⟩, h4⟩, h5⟩, h6⟩, h7⟩ := h
  exact {
    inf := h1
    wf := ⟨fun r hr p hp => (h2 r hr).1 p hp, fun r hr => (h2 r hr).2⟩
    fixed := h3
    coefs := fun r hr p hp => ⟨crisp_den (h4 r hr p hp).1, crisp_den (h4 r hr p hp).2⟩
    rowBounds := fun r hr => ⟨crisp_den (h5 r hr).1, crisp_den (h5 r hr).2⟩
    colBounds := fun j hj => ⟨crisp_den (h6 j hj).1, crisp_den (h6 j hj).2⟩
    noLower := fun r hr => (h7 r hr).1
    noUpper := fun r hr => (h7 r hr).2 }

/-- The answer of `analyze` for the first `n` columns. -/
def answer (P : Prob) (O : Objective) : Option (ℤ × List Bool) :=
  match analyze P O with
  | .ok (n, T) => some (n, (List.range P.nCols).map T)
  | .error _ => none

/-- The answer of `makeInteger`. -/
def answerMake (P : Prob) (O : Objective) : Option (List Bool) :=
  match makeInteger P O with
  | .ok T => some ((List.range P.nCols).map T)
  | .error _ => none

/-! ### An example -/

/-- `x + y = 3`, `x + z/2 ≤ 3`, `u - v = 2`; only `x` is integer, and `w` is fixed. -/
def sample : Prob where
  nCols := 6
  inf := 10 ^ 20
  colLower := fun j => if j = 5 then 1 / 2 else 0
  colUpper := fun j => if j = 5 then 1 / 2 else 10
  isInt := fun j => j == 0
  rows := [⟨7 / 2, 7 / 2, [(0, 1), (1, 1), (5, 1)]⟩, ⟨-10 ^ 20, 3, [(0, 1), (2, 1 / 2)]⟩, ⟨2, 2, [(3, 1), (4, -1)]⟩]

def sampleObjective : Objective where
  coef := fun j => if j = 2 then -3 else 1
  direction := 1

theorem sample_clean : Clean sample := clean_of_test (by decide +kernel)

/-- All four continuous columns are found. -/
theorem sample_analyze : answer sample sampleObjective = some (4, [true, true, true, true, true, false]) := by
  decide +kernel

theorem sample_make : answerMake sample sampleObjective = some [true, true, true, true, true, false] := by
  decide +kernel

theorem sample_pairs : PairsAlone sample := by
  have key : (sample.rows.all fun r => r.coefs.all fun p => r.coefs.all fun q => decide (r.lb = r.ub →
      sample.isInt p.1 = false → sample.isInt q.1 = false → |p.2| = 1 → p.2 * q.2 = -1 → sample.colLower p.1 = 0 →
      sample.colLower q.1 = 0 → ((sample.rows.flatMap fun r => r.coefs.map Prod.fst).count p.1 = 1 ∧
        (sample.rows.flatMap fun r => r.coefs.map Prod.fst).count q.1 = 1))) = true := by decide +kernel
  simp only [List.all_eq_true, decide_eq_true_eq] at key
  intro r hr he p hp q hq
  exact key r hr p hp q hq he

/-- The sample has a feasible point that is not integral. -/
example : sample.Feasible fun j => if j = 0 then 3 else if j = 3 then 5 / 2 else if j = 4 then 1 / 2
    else if j = 5 then 1 / 2 else 0 := by
  refine ⟨?_, ?_, ?_, ?_⟩
  · intro r hr
    simp only [sample, List.mem_cons, List.not_mem_nil, or_false] at hr
    rcases hr with rfl | rfl | rfl <;>
      constructor <;> intro _ <;> simp [SVec.dot_cons, SVec.dot_nil] <;> norm_num
  · intro j hj _
    have : j < 6 := hj
    interval_cases j <;> simp [sample] <;> norm_num
  · intro j hj _
    have : j < 6 := hj
    interval_cases j <;> simp [sample] <;> norm_num
  · intro j hj hi
    have : j = 0 := by simpa [sample] using hi
    subst this
    exact ⟨3, by norm_num⟩

/-- An infeasible problem: `x + y = 1` with `x` in [0, 1] integer and `y` between 1/4 and 3/4. -/
def narrow : Prob where
  nCols := 2
  inf := 10 ^ 20
  colLower := fun j => if j = 0 then 0 else 1 / 4
  colUpper := fun j => if j = 0 then 1 else 3 / 4
  isInt := fun j => j == 0
  rows := [⟨1, 1, [(0, 1), (1, 1)]⟩]

theorem narrow_clean : Clean narrow := clean_of_test (by decide +kernel)

theorem narrow_infeasible : answer narrow sampleObjective = some (-1, [true, true]) := by decide +kernel

/-! ### `makeInteger` looks at the wrong column -/

/-- `x = y` and `2 y ≥ 1`. -/
def linked : Prob where
  nCols := 2
  inf := 10 ^ 20
  colLower := fun _ => 0
  colUpper := fun _ => 10
  isInt := fun _ => false
  rows := [⟨0, 0, [(0, 1), (1, -1)]⟩, ⟨1, 10 ^ 20, [(1, 2)]⟩]

/-- Minimise `x + y`. -/
def linkedObjective : Objective where
  coef := fun _ => 1
  direction := 1

theorem linked_clean : Clean linked := clean_of_test (by decide +kernel)

theorem linked_make : answerMake linked linkedObjective = some [true, true] := by decide +kernel

/-- `analyze` leaves this problem alone. -/
theorem linked_analyze : answer linked linkedObjective = some (0, [false, false]) := by decide +kernel

theorem answerMake_spec {P : Prob} {O : Objective} {l : List Bool} (h : answerMake P O = some l) :
    ∃ T, makeInteger P O = .ok T ∧ (List.range P.nCols).map T = l := by
  unfold answerMake at h
  cases h1 : makeInteger P O with
  | error e => rw [h1] at h; cases h
  | ok T =>
    rw [h1] at h
    exact ⟨T, rfl, Option.some.inj h⟩

/-- **`makeInteger` can change the optimal value**: it does not look at the other rows of the second column of a pair. -/
theorem makeInteger_fails : ∃ P O T, Clean P ∧ makeInteger P O = .ok T ∧ ¬ Harmless P O T := by
  obtain ⟨T, h1, h2⟩ := answerMake_spec linked_make
  have hT : T 1 = true := by
    have : [T 0, T 1] = [true, true] := h2
    simp only [List.cons.injEq, and_true] at this
    exact this.2
  refine ⟨linked, linkedObjective, T, linked_clean, h1, fun h => ?_⟩
  have hf : linked.Feasible fun _ => 1 / 2 := by
    refine ⟨?_, fun _ _ _ => by norm_num [linked], fun _ _ _ => by norm_num [linked], fun _ _ hi => by cases hi⟩
    intro r hr
    simp only [linked, List.mem_cons, List.not_mem_nil, or_false] at hr
    rcases hr with rfl | rfl <;> constructor <;> intro _ <;> simp only [SVec.dot_cons, SVec.dot_nil] <;> norm_num
  obtain ⟨y, y1, y2, -⟩ := h.dominated _ hf
  have r0 := (y1.rows ⟨0, 0, [(0, 1), (1, -1)]⟩ (by simp [linked, retype]))
  have r1 := (y1.rows ⟨1, 10 ^ 20, [(1, 2)]⟩ (by simp [linked, retype]))
  obtain ⟨z, hz⟩ := y1.int 1 (by simp [linked, retype]) hT
  have a1 := r0.1 (by norm_num [linked, retype])
  have a2 := r0.2 (by norm_num [linked, retype])
  have a3 := r1.1 (by norm_num [linked, retype])
  simp only [SVec.dot_cons, SVec.dot_nil] at a1 a2 a3
  have v : ∀ x : Nat → ℚ, value linked linkedObjective x = x 0 + x 1 := by
    intro x
    simp [value, linked, linkedObjective, List.range_succ]
  rw [v, v] at y2
  have hz1 : (1 : ℚ) ≤ z := by
    have : (0 : ℚ) < z := by linarith
    have : 0 < z := by exact_mod_cast this
    exact_mod_cast this
  simp only [linkedObjective] at y2
  linarith

/-! ### The tolerance -/

/-- `(1 + 1e-13) y = 1`. -/
def skew : Prob where
  nCols := 1
  inf := 10 ^ 20
  colLower := fun _ => 0
  colUpper := fun _ => 10
  isInt := fun _ => false
  rows := [⟨1, 1, [(0, 1 + 1 / 10 ^ 13)]⟩]

theorem skew_analyze : answer skew linkedObjective = some (1, [true]) := by decide +kernel

/-- **A coefficient that is only nearly an integer makes `analyze` wrong**: the problem gets infeasible. -/
theorem analyze_inexact_fails : ∃ P O n T, P.WF ∧ analyze P O = .ok (n, T) ∧ (∃ x, P.Feasible x) ∧
    ∀ x, ¬ (retype P T).Feasible x := by
  have h := skew_analyze
  unfold answer at h
  cases h1 : analyze skew linkedObjective with
  | error e => rw [h1] at h; cases h
  | ok a =>
    obtain ⟨n, T⟩ := a
    rw [h1] at h
    have h := Option.some.inj h
    have hT : T 0 = true := by
      have : [T 0] = [true] := congrArg Prod.snd h
      simpa using this
    refine ⟨skew, linkedObjective, n, T, ⟨?_, ?_⟩, h1, ⟨fun _ => 1 / (1 + 1 / 10 ^ 13), ?_⟩, fun x hx => ?_⟩
    · intro r hr p hp
      simp only [skew, List.mem_cons, List.not_mem_nil, or_false] at hr
      subst hr
      simp only [List.mem_cons, List.not_mem_nil, or_false] at hp
      subst hp
      simp [skew]
    · intro r hr
      simp only [skew, List.mem_cons, List.not_mem_nil, or_false] at hr
      subst hr
      simp
    · refine ⟨?_, fun _ _ _ => by norm_num [skew], fun _ _ _ => by norm_num [skew], fun _ _ hi => by cases hi⟩
      intro r hr
      simp only [skew, List.mem_cons, List.not_mem_nil, or_false] at hr
      subst hr
      constructor <;> intro _ <;> simp only [SVec.dot_cons, SVec.dot_nil] <;> norm_num
    · have r0 := hx.rows ⟨1, 1, [(0, 1 + 1 / 10 ^ 13)]⟩ (by simp [skew, retype])
      obtain ⟨z, hz⟩ := hx.int 0 (by simp [skew, retype]) hT
      have a1 := r0.1 (by norm_num [skew, retype])
      have a2 := r0.2 (by norm_num [skew, retype])
      simp only [SVec.dot_cons, SVec.dot_nil] at a1 a2
      rw [hz] at a1 a2
      have h0 : (0 : ℚ) < z := by
        by_contra hn
        have : (z : ℚ) ≤ 0 := not_lt.1 hn
        linarith
      have h3 : (1 : ℚ) ≤ z := by
        have : 0 < z := by exact_mod_cast h0
        exact_mod_cast this
      linarith

/-! ### Explicit zeros -/

/-- The first column has two explicit zeros. -/
def zeros : Prob where
  nCols := 2
  inf := 10 ^ 20
  colLower := fun _ => 0
  colUpper := fun _ => 10
  isInt := fun _ => false
  rows := [⟨0, 0, [(0, 1), (1, -1)]⟩, ⟨-10 ^ 20, 1, [(0, 0), (1, 2)]⟩, ⟨-10 ^ 20, 1, [(0, 0), (1, 2)]⟩]

/-- **With explicit zeros `makeInteger` writes outside an array.** -/
theorem makeInteger_zeros_fails : zeros.WF ∧ makeInteger zeros linkedObjective = .error .outside := by
  refine ⟨⟨by decide +kernel, by decide +kernel⟩, ?_⟩
  have h : (match makeInteger zeros linkedObjective with
    | .error .outside => true
    | _ => false) = true := by decide +kernel
  revert h
  cases makeInteger zeros linkedObjective with
  | ok T => intro h; cases h
  | error e => cases e <;> intro h <;> first | rfl | cases h

end Cgl.PreInteger
