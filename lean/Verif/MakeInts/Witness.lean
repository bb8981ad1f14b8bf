import Verif.MakeInts.Props
import Mathlib.Tactic.IntervalCases

/-! # `makeIntegers2`: examples and counterexamples -/

namespace Cgl.MakeInts

open PreInteger (Objective retype Harmless value)

/-! ### Problems with clean numbers -/

theorem crisp_den {v : ℚ} (h : v.den ≤ 10 ^ 6) : Crisp v := by
  rintro ⟨z, hz⟩
  have hd : (0 : ℚ) < v.den := by exact_mod_cast v.den_pos
  have hv : v * v.den = v.num := Rat.mul_den_eq_num v
  have h1 : |(v.num : ℚ) - z * v.den| ≤ 1 / 10 ^ 4 := by
    rw [← hv, ← sub_mul, abs_mul, abs_of_pos hd]
    have : (v.den : ℚ) ≤ 10 ^ 6 := by exact_mod_cast h
    calc |v - z| * v.den ≤ 1 / 10 ^ 10 * 10 ^ 6 := mul_le_mul hz this hd.le (by norm_num)
      _ = 1 / 10 ^ 4 := by norm_num
  have h2 : |v.num - z * v.den| < 1 := by
    have : ((|v.num - z * v.den| : ℤ) : ℚ) < 1 := by
      push_cast
      exact lt_of_le_of_lt h1 (by norm_num)
    exact_mod_cast this
  have h3 : v.num - z * v.den = 0 := Int.abs_lt_one_iff.1 h2
  refine ⟨z, ?_⟩
  have h4 : (v.num : ℚ) = z * v.den := by
    have : v.num = z * v.den := by omega
    exact_mod_cast this
  rw [← hv] at h4
  exact mul_right_cancel₀ hd.ne' h4

theorem integer_den {v : ℚ} (h : v.den = 1) : IsInteger v := (isInteger_iff_den v).2 h

/-- A test for `Clean`. -/
def cleanB (P : Prob) : Bool :=
  decide (10 ^ 20 ≤ P.inf) &&
  (P.rows.all fun r => (r.coefs.all fun p => decide (p.1 < P.nCols)) && decide (r.coefs.map Prod.fst).Nodup) &&
  ((List.range P.nCols).all fun j => decide (P.colLower j ≤ P.colUpper j ∧
    (P.colUpper j = P.colLower j → -P.inf < P.colLower j ∧ P.colUpper j < P.inf))) &&
  (P.rows.all fun r => r.coefs.all fun p => decide (p.2.den ≤ 10 ^ 6)) &&
  ((List.range P.nCols).all fun j => decide ((P.colLower j).den ≤ 10 ^ 6 ∧ (P.colUpper j).den ≤ 10 ^ 6)) &&
  ((List.range P.nCols).all fun j => decide ((10 ^ 10 ≤ |P.colLower j| → (P.colLower j).den = 1) ∧
    (10 ^ 10 ≤ |P.colUpper j| → (P.colUpper j).den = 1))) &&
  (P.rows.all fun r => decide ((fixedPart P r).den ≤ 10 ^ 6 ∧ (r.lb - fixedPart P r).den ≤ 10 ^ 6 ∧
    (r.ub - fixedPart P r).den ≤ 10 ^ 6)) &&
  (P.rows.all fun r => decide (|fixedPart P r| < 10 ^ 20)) &&
  (P.rows.all fun r => decide ((-P.inf < r.lb → -10 ^ 20 < r.lb ∧ -10 ^ 20 < r.lb - fixedPart P r) ∧
    (r.ub < P.inf → r.ub < 10 ^ 20 ∧ r.ub - fixedPart P r < 10 ^ 20))) &&
  (P.rows.all fun r => decide (r.lb = r.ub → -P.inf < r.lb ∧ r.ub < P.inf))

theorem clean_of_test {P : Prob} (h : cleanB P = true) : Clean P := by
  unfold cleanB at h
  simp only [Bool.and_eq_true, List.all_eq_true, decide_eq_true_eq, List.mem_range] at h
  obtain ⟨⟨⟨⟨⟨⟨⟨⟨⟨h1, h2⟩, h3⟩, h4⟩, h5⟩, h6⟩, h7⟩, h8⟩, h9⟩, h10⟩ := h
  exact {
    wf := ⟨fun r hr p hp => (h2 r hr).1 p hp, fun r hr => (h2 r hr).2⟩
    inf := h1
    order := fun j hj => (h3 j hj).1
    fixed := fun j hj => (h3 j hj).2
    coefs := fun r hr p hp => crisp_den (h4 r hr p hp)
    colBounds := fun j hj => ⟨crisp_den (h5 j hj).1, crisp_den (h5 j hj).2⟩
    large := fun j hj => ⟨fun h => integer_den ((h6 j hj).1 h), fun h => integer_den ((h6 j hj).2 h)⟩
    rowBounds := fun r hr => ⟨crisp_den (h7 r hr).1, crisp_den (h7 r hr).2.1, crisp_den (h7 r hr).2.2⟩
    parts := h8
    lowers := fun r hr => (h9 r hr).1
    uppers := fun r hr => (h9 r hr).2
    equations := h10 }

/-- A test for `NoIdle`. -/
def noIdleB (all : Bool) (P : Prob) (O : Objective) : Bool :=
  P.rows.all fun r => r.coefs.all fun p => r.coefs.all fun q =>
    decide (p.1 = q.1) || !openC P p.1 || !openC P q.1 || decide (O.coef p.1 ≠ 0) ||
      (all && decide ((P.rows.flatMap fun r => r.coefs.map Prod.fst).count p.1 ≠ 1))

theorem noIdle_of_test {all : Bool} {P : Prob} {O : Objective} (h : noIdleB all P O = true) : NoIdle all P O := by
  intro r hr p hp q hq hne cp cq
  unfold noIdleB at h
  simp only [List.all_eq_true] at h
  have := h r hr p hp q hq
  rw [openC_iff.2 cp, openC_iff.2 cq, decide_eq_false hne] at this
  simpa using this

/-- The answer: the number, the types and the bounds of the columns. -/
def answer (P : Prob) (O : Objective) (tol : ℚ) (mode : ℤ) : Option (Nat × List Bool × List ℚ × List ℚ) :=
  match makeIntegers2 P O tol mode with
  | .ok (P', n) => some (n, (List.range P.nCols).map P'.isInt, (List.range P.nCols).map P'.colLower,
      (List.range P.nCols).map P'.colUpper)
  | .error _ => none

/-! ### An example -/

/-- Columns 0, 1 and 9 to 14 are integer; 2 is alone in two rows; 3 and 4 share a row; 5 is forced by an equation and shares
the row of 3 and 4; 6 is fixed; 7 wants to be high; 8 has a fractional coefficient. -/
def sample : Prob where
  nCols := 15
  inf := 10 ^ 20
  colLower := fun j => if j = 6 then 2 else 0
  colUpper := fun j => if j = 6 then 2 else if j = 7 then 9 else 5
  isInt := fun j => decide (j < 2 ∨ 9 ≤ j)
  rows := [⟨1, 10 ^ 20, [(0, 3), (2, 1), (6, 1)]⟩, ⟨-10 ^ 20, 4, [(1, 1), (2, -1)]⟩, ⟨2, 8, [(3, 1), (4, -1), (5, 1), (0, 2)]⟩,
    ⟨3, 3, [(1, 2), (5, 1)]⟩, ⟨-10 ^ 20, 7, [(0, 1), (7, 1)]⟩, ⟨1, 10 ^ 20, [(1, 1), (8, 1 / 2)]⟩]

def sampleObjective : Objective where
  direction := 1
  coef := fun j => if j = 5 then 0 else if j = 7 then -1 else 1

theorem sample_clean : Clean sample := clean_of_test (by decide +kernel)

theorem sample_noIdle : NoIdle true sample sampleObjective := noIdle_of_test (by decide +kernel)

/-- All the continuous columns but the last become integer. -/
theorem sample_answer : (answer sample sampleObjective (1 / 10 ^ 6) 2).map (fun q => (q.1, q.2.1)) =
    some (5, [true, true, true, true, true, true, false, true, false, true, true, true, true, true, true]) := by decide +kernel

/-- Without the last column, and with a cost for column 5, mode 1 does the same. -/
def small : Prob := { sample with nCols := 8, rows := sample.rows.take 5 }

def smallObjective : Objective := { sampleObjective with coef := fun j => if j = 7 then -1 else 1 }

theorem small_clean : Clean small := clean_of_test (by decide +kernel)

theorem small_noIdle : NoIdle false small smallObjective := noIdle_of_test (by decide +kernel)

theorem small_answer : (answer small smallObjective (1 / 10 ^ 6) 1).map (fun q => (q.1, q.2.1)) =
    some (5, [true, true, true, true, true, true, false, true]) := by decide +kernel

theorem answer_spec {P : Prob} {O : Objective} {tol : ℚ} {mode : ℤ} {n : Nat} {l : List Bool}
    (h : (answer P O tol mode).map (fun q => (q.1, q.2.1)) = some (n, l)) :
    ∃ P', makeIntegers2 P O tol mode = .ok (P', n) ∧ (List.range P.nCols).map P'.isInt = l := by
  unfold answer at h
  cases hm : makeIntegers2 P O tol mode with
  | error e => rw [hm] at h; cases h
  | ok q =>
    obtain ⟨P', m⟩ := q
    rw [hm] at h
    have h := Option.some.inj h
    rw [Prod.mk.injEq] at h
    dsimp only at h
    rw [← h.1]
    exact ⟨P', rfl, h.2⟩

/-- The hypotheses of the theorems are met, with columns that become integer for each of the reasons. -/
example : ∃ P', makeIntegers2 sample sampleObjective (1 / 10 ^ 6) 2 = .ok (P', 5) ∧ Harmless sample sampleObjective P'.isInt := by
  obtain ⟨P', h, -⟩ := answer_spec sample_answer
  exact ⟨P', h, (makeIntegers2_harmless_partial sample_clean (by decide) (by simpa using sample_noIdle) (by norm_num)
    (by norm_num) h).2⟩

example : ∃ P', makeIntegers2 small smallObjective (1 / 10 ^ 6) 1 = .ok (P', 5) ∧ Harmless small smallObjective P'.isInt := by
  obtain ⟨P', h, -⟩ := answer_spec small_answer
  exact ⟨P', h, (makeIntegers2_harmless_partial small_clean (by decide) (by simpa using small_noIdle) (by norm_num)
    (by norm_num) h).2⟩

/-- A feasible point that is fractional in the columns that become integer. -/
def point (j : Nat) : ℚ := if j = 3 then 1 / 2 else if j = 4 then 1 / 3 else if j = 5 then 1 else if j = 6 then 2 else
  if j = 0 ∨ j = 1 then 1 else if j = 2 then 7 / 3 else if j = 7 then 11 / 2 else if j = 8 then 1 / 7 else 0

example : sample.Feasible point := by decide +kernel

/-! ### Columns that are passed over -/

/-- A column with a cost and one without that share a row: x + z ≥ 1 with z at most 1/2. -/
def idle : Prob where
  nCols := 2
  inf := 10 ^ 20
  colLower := fun _ => 0
  colUpper := fun j => if j = 0 then 5 else 1 / 2
  isInt := fun _ => false
  rows := [⟨1, 10 ^ 20, [(0, 1), (1, 1)]⟩]

def idleObjective : Objective where
  direction := 1
  coef := fun j => if j = 0 then 1 else 0

theorem idle_clean : Clean idle := clean_of_test (by decide +kernel)

theorem idle_answer (mode : ℤ) : (answer idle idleObjective (1 / 10 ^ 6) mode).map (fun q => (q.1, q.2.1)) =
    some (1, [true, false]) := by
  unfold answer makeIntegers2
  by_cases h : 1 < mode
  · rw [decide_eq_true h]; decide +kernel
  · rw [decide_eq_false h]; decide +kernel

/-- **The optimum can change**, with every mode: columns without cost are passed over although they keep a row from being
integral. -/
theorem makeIntegers2_fails (mode : ℤ) : ∃ P', makeIntegers2 idle idleObjective (1 / 10 ^ 6) mode = .ok (P', 1) ∧ Clean idle ∧
    (∃ x, idle.Feasible x ∧ value idle idleObjective x = 1 / 2) ∧
    (∀ x, P'.Feasible x → 1 ≤ value idle idleObjective x) := by
  obtain ⟨P', h1, h2⟩ := answer_spec (idle_answer mode)
  have h3 := makeIntegers2_frame h1
  have hT : P'.isInt 0 = true ∧ P'.isInt 1 = false := by
    have : [P'.isInt 0, P'.isInt 1] = [true, false] := h2
    simp only [List.cons.injEq, and_true] at this
    exact this
  have v : ∀ x : Nat → ℚ, value idle idleObjective x = x 0 := by
    intro x
    simp [value, idle, idleObjective, List.range_succ]
  refine ⟨P', h1, idle_clean, ⟨fun _ => 1 / 2, by decide +kernel, by rw [v]⟩, fun x hx => ?_⟩
  obtain ⟨f1, f2, f3, -, -, -, f7⟩ := h3
  rw [v]
  obtain ⟨z, hz⟩ := hx.int 0 (by rw [f1]; decide) hT.1
  have r0 := (hx.rows ⟨1, 10 ^ 20, [(0, 1), (1, 1)]⟩ (by rw [f3]; simp [idle])).1 (by rw [f2]; norm_num [idle])
  have u1 := hx.upper 1 (by rw [f1]; decide)
  rw [((f7 1).1 (by rw [hT.2]; rfl)).2, f2] at u1
  have u2 := u1 (by norm_num [idle])
  have u3 : x 1 ≤ 1 / 2 := by simpa [idle] using u2
  simp only [SVec.dot_cons, SVec.dot_nil] at r0
  have hz1 : (1 : ℚ) ≤ z := by
    have : (0 : ℚ) < z := by linarith
    have : 0 < z := by exact_mod_cast this
    exact_mod_cast this
  linarith

/-- The missing hypothesis. -/
example (mode : ℤ) : ¬ NoIdle (decide (1 < mode)) idle idleObjective := by
  intro h
  have := h ⟨1, 10 ^ 20, [(0, 1), (1, 1)]⟩ (by simp [idle]) (1, 1) (by simp) (0, 1) (by simp) (by decide)
    (by constructor <;> decide +kernel) (by constructor <;> decide +kernel)
  rcases this with h | ⟨-, h⟩
  · exact h rfl
  · exact h (by decide +kernel)

end Cgl.MakeInts
