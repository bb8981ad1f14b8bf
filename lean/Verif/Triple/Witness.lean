import Verif.Triple.Props

/-! # Comparing rows of two and three entries: examples and counterexample -/

namespace Cgl.Triple

/-- The largest natural number whose square is at most `n`. -/
def natRoot (n : Nat) : Nat := (List.range n).countP fun k => decide ((k + 1) ^ 2 ≤ n)

/-- A root that is exact on squares of rational numbers and positive on positive numbers. -/
def squareRoot (v : ℚ) : ℚ := (natRoot v.num.toNat : ℚ) / natRoot v.den

theorem natRoot_pos {n : Nat} (h : 0 < n) : 0 < natRoot n := by
  unfold natRoot
  rw [List.countP_pos_iff]
  refine ⟨0, List.mem_range.mpr h, ?_⟩
  rw [decide_eq_true_iff]
  omega

theorem squareRoot_pos (v : ℚ) (h : 0 < v) : 0 < squareRoot v := by
  have h1 : 0 < v.num := Rat.num_pos.mpr h
  have h2 : 0 < natRoot v.num.toNat := natRoot_pos (by omega)
  have h3 : 0 < natRoot v.den := natRoot_pos v.den_pos
  unfold squareRoot
  have h2 : (0 : ℚ) < natRoot v.num.toNat := by exact_mod_cast h2
  have h3 : (0 : ℚ) < natRoot v.den := by exact_mod_cast h3
  exact div_pos h2 h3

theorem squareRoot_one : squareRoot 1 = 1 := by decide +kernel

/-- A problem with infinity at the largest `double`, columns from 0 up to the given bounds, all integer, and rows without lower
bounds. -/
def problem (ups : List ℚ) (rows : List (ℚ × SVec)) : Prob :=
  { nCols := ups.length
    inf := dblMax
    colLower := fun _ => 0
    colUpper := fun j => ups.getD j 0
    isInt := fun _ => true
    rows := rows.map fun p => ⟨-dblMax, p.1, p.2⟩ }

/-- The test of the result of a run. -/
def answer (P : Prob) (f : Prob → Bool → Bool) : Bool :=
  match triple squareRoot (fun _ => false) P with
  | .error _ => false
  | .ok (Q, ok) => f Q ok

theorem answer_spec {P : Prob} {f : Prob → Bool → Bool} (h : answer P f = true) :
    ∃ Q ok, triple squareRoot (fun _ => false) P = .ok (Q, ok) ∧ f Q ok = true := by
  unfold answer at h
  split at h
  · exact absurd h (by decide)
  · rename_i Q ok e
    exact ⟨Q, ok, e, h⟩

/-- A test for `Sized`. -/
def sizedB (P : Prob) : Bool :=
  (P.rows.all fun r => (r.coefs.all fun p => decide (p.1 < P.nCols)) && decide (r.coefs.map Prod.fst).Nodup) &&
  decide (10 ^ 250 ≤ P.inf) && decide (P.inf ≤ dblMax) &&
  (P.rows.all fun r => r.coefs.all fun p => decide (p.2 ≠ 0 ∧ |p.2| ≤ 10 ^ 20))

theorem sized_of_test {P : Prob} (h : sizedB P = true) : Sized P := by
  unfold sizedB at h
  simp only [Bool.and_eq_true, List.all_eq_true, decide_eq_true_eq] at h
  obtain ⟨⟨⟨h1, h2⟩, h3⟩, h4⟩ := h
  exact ⟨⟨fun r hr p hp => (h1 r hr).1 p hp, fun r hr => (h1 r hr).2⟩, h2, h3, h4⟩

/-! ### A stronger row is made free -/

/-- `x0 + x1 + x2 <= 1` and `x0 + x1 - x2 <= 1`, three binary columns. -/
def clash : Prob := problem [1, 1, 1] [(1, [(0, 1), (1, 1), (2, 1)]), (1, [(0, 1), (1, 1), (2, -1)])]

/-- The point (0, 1, 1). -/
def gained (j : Nat) : ℚ := if j = 0 then 0 else 1

theorem clash_sized : Sized clash := sized_of_test (by decide +kernel)

/-- **A row that does not follow from the others is made free**: `x0 + x1 + x2 <= 1` is dropped in favour of
`x0 + x1 - x2 <= 1`, and (0, 1, 1) becomes feasible. -/
theorem triple_fails : ∃ Q ok, triple squareRoot (fun _ => false) clash = .ok (Q, ok) ∧
    ok = true ∧ Within clash gained ∧ Q.Feasible gained ∧ ¬ clash.Feasible gained := by
  obtain ⟨Q, ok, e, h⟩ := answer_spec (P := clash)
    (f := fun Q ok => ok && decide (Q.Feasible gained) && !decide (clash.Feasible gained)) (by decide +kernel)
  rw [Bool.and_eq_true, Bool.and_eq_true, decide_eq_true_iff, Bool.not_eq_true', decide_eq_false_iff_not] at h
  refine ⟨Q, ok, e, h.1.1, ?_, h.1.2, h.2⟩
  intro j _
  unfold gained
  split
  · norm_num
  · norm_num

/-! ### A problem that meets the hypotheses -/

/-- `x0 + x1 + x2 <= 1`, `x0 + x1 + x2 <= 2`, `x0 + x3 <= 3`, `-x0 + x3 <= 2` with three binary columns and `0 <= x3 <= 5`. -/
def sample : Prob := problem [1, 1, 1, 5]
  [(1, [(0, 1), (1, 1), (2, 1)]), (2, [(0, 1), (1, 1), (2, 1)]), (3, [(0, 1), (3, 1)]), (2, [(0, -1), (3, 1)])]

theorem sample_unit : Unit sample := by
  have h : (sample.rows.filter short).all (fun r => (r.coefs.all fun p => decide (|p.2| = 1 ∧ p.2.den = 1)) &&
      decide (r.lb.den = 1 ∧ r.ub.den = 1)) = true := by decide +kernel
  simp only [List.all_eq_true, Bool.and_eq_true, decide_eq_true_eq] at h
  have f : ∀ v : ℚ, v.den = 1 → IsInteger v := fun v hv => ⟨v.num, (Rat.den_eq_one_iff v |>.mp hv).symm⟩
  intro r hr
  obtain ⟨a, b, c⟩ := h r hr
  exact ⟨fun p hp => ⟨(a p hp).1, f _ (a p hp).2⟩, f _ b, f _ c⟩

/-- Rows of the sample that agree in two columns agree in all: scale factors are 0 or 1. -/
theorem sample_harmonious : Harmonious squareRoot sample := by
  have h : ([(0 : ℚ), 1].all fun s => [(0 : ℚ), 1].all fun t => (sample.rows.filter short).all fun r1 =>
      (sample.rows.filter short).all fun r2 =>
      !((List.range sample.nCols).all fun k => decide (coefOf r1.coefs k = 0 ↔ coefOf r2.coefs k = 0)) ||
      [(1 : ℚ), -1].all fun sign => (List.range sample.nCols).all fun i =>
      !((sample.rows.filter short).any fun r3 => decide (coefOf r3.coefs i ≠ 0) &&
        (List.range sample.nCols).all fun k => decide (coefOf r1.coefs k ≠ 0 → coefOf r3.coefs k ≠ 0)) ||
      (List.range sample.nCols).all fun j =>
        !decide (i ≠ j ∧ coefOf r1.coefs j ≠ 0 ∧ s * coefOf r1.coefs i = sign * (t * coefOf r2.coefs i) ∧
            s * coefOf r1.coefs j = sign * (t * coefOf r2.coefs j)) ||
        (List.range sample.nCols).all fun k => decide (s * coefOf r1.coefs k = sign * (t * coefOf r2.coefs k))) = true := by
    decide +kernel
  intro s hs t ht r1 m1 r2 m2 hk sign hsign i hi h3 j hj hp k hk'
  have f : ∀ v, v ∈ scales squareRoot sample → v ∈ [(0 : ℚ), 1] := by
    intro v hv
    rcases scales_unit sample_unit squareRoot_one hv with rfl | rfl
    · exact List.mem_cons_self
    · exact List.mem_cons_of_mem _ List.mem_cons_self
  have h := List.all_eq_true.mp (List.all_eq_true.mp (List.all_eq_true.mp (List.all_eq_true.mp h s (f s hs)) t (f t ht)) r1 m1) r2 m2
  have h0 : ((List.range sample.nCols).all fun k => decide (coefOf r1.coefs k = 0 ↔ coefOf r2.coefs k = 0)) = true :=
    List.all_eq_true.mpr fun k h => decide_eq_true (hk k (List.mem_range.mp h))
  rw [h0, Bool.not_true, Bool.false_or] at h
  have h := List.all_eq_true.mp (List.all_eq_true.mp h sign hsign) i (List.mem_range.mpr hi)
  have h0 : ((sample.rows.filter short).any fun r3 => decide (coefOf r3.coefs i ≠ 0) &&
      (List.range sample.nCols).all fun k => decide (coefOf r1.coefs k ≠ 0 → coefOf r3.coefs k ≠ 0)) = true := by
    obtain ⟨r3, m3, a, b⟩ := h3
    refine List.any_eq_true.mpr ⟨r3, m3, ?_⟩
    rw [decide_eq_true a, Bool.true_and]
    exact List.all_eq_true.mpr fun k h => decide_eq_true (b k (List.mem_range.mp h))
  rw [h0, Bool.not_true, Bool.false_or] at h
  have h := List.all_eq_true.mp h j (List.mem_range.mpr hj)
  rw [decide_eq_true hp, Bool.not_true, Bool.false_or] at h
  exact of_decide_eq_true (List.all_eq_true.mp h k (List.mem_range.mpr hk'))

theorem sample_exact : Exact squareRoot sample := by
  refine ⟨sized_of_test (by decide +kernel), ?_, ?_, squareRoot_pos, separated_unit sample_unit squareRoot_one,
    sample_harmonious⟩
  · have h : (List.range sample.nCols).all (fun j => decide ((sample.colLower j).den = 1 ∧ (sample.colUpper j).den = 1)) = true := by
      decide +kernel
    simp only [List.all_eq_true, decide_eq_true_eq, List.mem_range] at h
    have f : ∀ v : ℚ, v.den = 1 → IsInteger v := fun v hv => ⟨v.num, (Rat.den_eq_one_iff v |>.mp hv).symm⟩
    intro j hj _
    exact ⟨f _ (h j hj).1, f _ (h j hj).2⟩
  · have h : sample.rows.all (fun r => decide ((r.lb < -10 ^ 20 → r.lb ≤ -sample.inf) ∧ (10 ^ 20 < r.ub → sample.inf ≤ r.ub))) = true := by
      decide +kernel
    simp only [List.all_eq_true, decide_eq_true_eq] at h
    exact h

/-- In the sample the weaker of the two equal rows is made free, `x3` gets the upper bound 2, and the problem is not
declared infeasible. -/
theorem sample_answer : ∃ Q ok, triple squareRoot (fun _ => false) sample = .ok (Q, ok) ∧ ok = true ∧ Q.colUpper 3 = 2 ∧
    (Q.rows.map fun r => (r.lb, r.ub)) = [(-dblMax, 1), (-dblMax, dblMax), (-dblMax, 3), (-dblMax, 2)] := by
  obtain ⟨Q, ok, e, h⟩ := answer_spec (P := sample)
    (f := fun Q ok => ok && decide (Q.colUpper 3 = 2) &&
      decide ((Q.rows.map fun r => (r.lb, r.ub)) = [(-dblMax, 1), (-dblMax, dblMax), (-dblMax, 3), (-dblMax, 2)]))
    (by decide +kernel)
  rw [Bool.and_eq_true, Bool.and_eq_true, decide_eq_true_iff, decide_eq_true_iff] at h
  exact ⟨Q, ok, e, h.1.1, h.1.2, h.2⟩

/-- The sample has a solution within bounds. -/
example : Within sample (fun j => if j = 3 then 2 else 0) ∧ sample.Feasible (fun j => if j = 3 then 2 else 0) := by
  refine ⟨?_, by decide +kernel⟩
  intro j _
  dsimp only
  split
  · norm_num
  · norm_num

/-- `2 x0 + 2 x1 >= 2`, `x0 + x1 <= 1/2`: the bounds of the binary columns cross. -/
def none : Prob :=
  { problem [1, 1] [] with rows := [⟨2, dblMax, [(0, 2), (1, 2)]⟩, ⟨-dblMax, 1 / 2, [(0, 1), (1, 1)]⟩] }

/-- A problem that is declared infeasible. -/
theorem none_answer : Sized none ∧ ∃ Q, triple squareRoot (fun _ => false) none = .ok (Q, false) := by
  refine ⟨sized_of_test (by decide +kernel), ?_⟩
  obtain ⟨Q, ok, e, h⟩ := answer_spec (P := none) (f := fun _ ok => !ok) (by decide +kernel)
  rw [Bool.not_eq_true'] at h
  rw [h] at e
  exact ⟨Q, e⟩

end Cgl.Triple
