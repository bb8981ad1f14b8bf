import Verif.PreFix.Spec
import Mathlib.Tactic.Linarith
import Mathlib.Tactic.Ring
import Mathlib.Algebra.Order.BigOperators.Group.List
import Mathlib.Algebra.BigOperators.Ring.List

/-! # Fixing columns by reduced costs -/

namespace Cgl.PreFix

variable {P : Prob} {O : Objective} {L : Answers}

/-! ### The objective in terms of the reduced costs -/

theorem sum_single (f : Nat → ℚ) (k : Nat) (l : List Nat) (hn : l.Nodup) (hk : k ∈ l) :
    (l.map fun j => if k = j then f j else 0).sum = f k := by
  induction l with
  | nil => simp at hk
  | cons a l ih =>
    rw [List.nodup_cons] at hn
    rw [List.map_cons, List.sum_cons]
    by_cases h : k = a
    · subst h
      have : (l.map fun j => if k = j then f j else 0) = l.map fun _ => (0 : ℚ) :=
        List.map_congr_left fun j hj => if_neg (by rintro rfl; exact hn.1 hj)
      rw [if_pos rfl, this]
      simp
    · rw [if_neg h, zero_add]
      exact ih hn.2 (by simpa [h] using hk)

theorem coefIn_dot (n : Nat) (x : Nat → ℚ) (v : SVec) (hv : ∀ p ∈ v, p.1 < n) :
    ((List.range n).map fun j => ((v.filter fun p => p.1 == j).map Prod.snd).sum * x j).sum = v.dot x := by
  induction v with
  | nil => simp [SVec.dot_nil]
  | cons e v ih =>
    rw [SVec.dot_cons, ← ih fun p hp => hv p (List.mem_cons_of_mem _ hp),
      ← sum_single (fun j => e.2 * x j) e.1 _ List.nodup_range (List.mem_range.2 (hv e List.mem_cons_self)),
      ← List.sum_map_add]
    congr 1
    refine List.map_congr_left fun j _ => ?_
    rw [List.filter_cons]
    by_cases h : e.1 = j
    · rw [if_pos (by simpa using h), if_pos h, List.map_cons, List.sum_cons]; ring
    · rw [if_neg (by simpa using h), if_neg h]; ring

theorem swap_sums (n : Nat) (x y : Nat → ℚ) (rs : List (Row × Nat)) (hr : ∀ q ∈ rs, ∀ p ∈ q.1.coefs, p.1 < n) :
    ((List.range n).map fun j => (rs.map fun q => y q.2 * coefIn q.1 j).sum * x j).sum =
      (rs.map fun q => y q.2 * q.1.coefs.dot x).sum := by
  induction rs with
  | nil => simp
  | cons q rs ih =>
    rw [List.map_cons, List.sum_cons, ← ih fun q hq => hr q (List.mem_cons_of_mem _ hq),
      ← coefIn_dot n x q.1.coefs (hr q List.mem_cons_self), ← List.sum_map_mul_left, ← List.sum_map_add]
    congr 1
    refine List.map_congr_left fun j _ => ?_
    rw [List.map_cons, List.sum_cons]
    unfold coefIn
    ring

theorem value_split {y : Nat → ℚ} (hW : P.WF) (h : Optimal P O L y) (x : Nat → ℚ) :
    value P O x = ((List.range P.nCols).map fun j => L.dj j * x j).sum +
      (P.rows.zipIdx.map fun q => y q.2 * q.1.coefs.dot x).sum := by
  rw [← swap_sums P.nCols x y P.rows.zipIdx, ← List.sum_map_add]
  · unfold value
    congr 1
    refine List.map_congr_left fun j hj => ?_
    rw [h.dj j (List.mem_range.1 hj)]
    ring
  · rintro ⟨r, i⟩ hq p hp
    rw [List.mem_zipIdx_iff_getElem?] at hq
    exact hW.cols r (List.mem_of_getElem? hq) p hp

theorem sum_map_sub' {α : Type} (l : List α) (f g : α → ℚ) :
    (l.map f).sum - (l.map g).sum = (l.map fun a => f a - g a).sum := by
  induction l with
  | nil => simp
  | cons a l ih => simp only [List.map_cons, List.sum_cons, ← ih]; ring

theorem signed_nonneg {d t u lo up inf : ℚ} (h1 : 0 < d → -inf < lo ∧ t = lo) (h2 : d < 0 → up < inf ∧ t = up)
    (h3 : lbOk inf lo u) (h4 : ubOk inf up u) : 0 ≤ d * (u - t) := by
  rcases lt_trichotomy d 0 with h | h | h
  · obtain ⟨a, rfl⟩ := h2 h
    exact mul_nonneg_of_nonpos_of_nonpos h.le (by linarith [h4 a])
  · rw [h, zero_mul]
  · obtain ⟨a, rfl⟩ := h1 h
    exact mul_nonneg h.le (by linarith [h3 a])

/-- A feasible point is worse than the solution at least by the reduced cost of each column. -/
theorem worse {y : Nat → ℚ} (hW : P.WF) (h : Optimal P O L y) {x : Nat → ℚ} (hx : P.Feasible x) {k : Nat}
    (hk : k < P.nCols) :
    O.direction * L.dj k * (x k - L.solution k) ≤ O.direction * value P O x - O.direction * L.objValue := by
  have e : O.direction * value P O x - O.direction * L.objValue =
      ((List.range P.nCols).map fun j => O.direction * L.dj j * (x j - L.solution j)).sum +
      (P.rows.zipIdx.map fun q => O.direction * y q.2 * (q.1.coefs.dot x - q.1.coefs.dot L.solution)).sum := by
    rw [h.objValue, value_split hW h x, value_split hW h L.solution]
    have e1 : ((List.range P.nCols).map fun j => O.direction * L.dj j * (x j - L.solution j)).sum =
        O.direction * (((List.range P.nCols).map fun j => L.dj j * x j).sum -
          ((List.range P.nCols).map fun j => L.dj j * L.solution j).sum) := by
      rw [sum_map_sub', ← List.sum_map_mul_left]
      congr 1
      exact List.map_congr_left fun j _ => by ring
    have e2 : (P.rows.zipIdx.map fun q => O.direction * y q.2 * (q.1.coefs.dot x - q.1.coefs.dot L.solution)).sum =
        O.direction * ((P.rows.zipIdx.map fun q => y q.2 * q.1.coefs.dot x).sum -
          (P.rows.zipIdx.map fun q => y q.2 * q.1.coefs.dot L.solution).sum) := by
      rw [sum_map_sub', ← List.sum_map_mul_left]
      congr 1
      exact List.map_congr_left fun q _ => by ring
    rw [e1, e2]
    ring
  rw [e]
  have h1 : ∀ v ∈ (List.range P.nCols).map fun j => O.direction * L.dj j * (x j - L.solution j), 0 ≤ v := by
    intro v hv
    obtain ⟨j, hj, rfl⟩ := List.mem_map.1 hv
    have hj := List.mem_range.1 hj
    exact signed_nonneg (h.columns j hj).1 (h.columns j hj).2 (hx.lower j hj) (hx.upper j hj)
  have h2 : 0 ≤ (P.rows.zipIdx.map fun q => O.direction * y q.2 *
      (q.1.coefs.dot x - q.1.coefs.dot L.solution)).sum := by
    apply List.sum_nonneg
    intro v hv
    obtain ⟨⟨r, i⟩, hq, rfl⟩ := List.mem_map.1 hv
    rw [List.mem_zipIdx_iff_getElem?] at hq
    obtain ⟨a, b⟩ := hx.rows r (List.mem_of_getElem? hq)
    exact signed_nonneg (h.rows i r hq).1 (h.rows i r hq).2 a b
  have h3 := List.single_le_sum h1 (O.direction * L.dj k * (x k - L.solution k))
    (List.mem_map.2 ⟨k, List.mem_range.2 hk, rfl⟩)
  linarith

/-! ### The loop -/

/-- The column is fixed at its lower, or upper, bound. -/
def atLower (P : Prob) (O : Objective) (L : Answers) (g : ℚ) (j : Nat) : Prop :=
  P.isInt j = true ∧ P.colLower j < P.colUpper j ∧ L.solution j < P.colLower j + L.primalTol ∧ g < O.direction * L.dj j
def atUpper (P : Prob) (O : Objective) (L : Answers) (g : ℚ) (j : Nat) : Prop :=
  P.isInt j = true ∧ P.colLower j < P.colUpper j ∧ P.colUpper j - L.primalTol < L.solution j ∧
    g < -(O.direction * L.dj j)

instance (P : Prob) (O : Objective) (L : Answers) (g : ℚ) (j : Nat) : Decidable (atLower P O L g j) := by
  unfold atLower; infer_instance
instance (P : Prob) (O : Objective) (L : Answers) (g : ℚ) (j : Nat) : Decidable (atUpper P O L g j) := by
  unfold atUpper; infer_instance

/-- The bounds after the loop has passed the columns in `A`. -/
structure Passed (P : Prob) (O : Objective) (L : Answers) (g : ℚ) (A : List Nat) (s : Prob × Nat) : Prop where
  nCols : s.1.nCols = P.nCols
  inf : s.1.inf = P.inf
  isInt : s.1.isInt = P.isInt
  rows : s.1.rows = P.rows
  lower : ∀ j, s.1.colLower j = if j ∈ A ∧ ¬ atLower P O L g j ∧ atUpper P O L g j then P.colUpper j else P.colLower j
  upper : ∀ j, s.1.colUpper j = if j ∈ A ∧ atLower P O L g j then P.colLower j else P.colUpper j
  count : s.2 = A.countP fun j => decide (atLower P O L g j ∨ atUpper P O L g j)

theorem passed_step {g : ℚ} {A : List Nat} {s : Prob × Nat} {k : Nat} (h : Passed P O L g A s) (hk : k ∉ A) :
    Passed P O L g (A ++ [k]) (fixColumn O L g s k) := by
  have hl : s.1.colLower k = P.colLower k := by rw [h.lower, if_neg (fun h => hk h.1)]
  have hu : s.1.colUpper k = P.colUpper k := by rw [h.upper, if_neg (fun h => hk h.1)]
  have hi : s.1.isInt k = P.isInt k := by rw [h.isInt]
  have mem : ∀ j, j ≠ k → (j ∈ A ++ [k] ↔ j ∈ A) := by
    intro j hj; simp [hj]
  have hmk : k ∈ A ++ [k] := by simp
  unfold fixColumn
  rw [hl, hu, hi]
  by_cases c1 : P.isInt k = true ∧ P.colLower k < P.colUpper k
  · rw [if_pos c1]
    by_cases c2 : L.solution k < P.colLower k + L.primalTol ∧ g < O.direction * L.dj k
    · have hA : atLower P O L g k := ⟨c1.1, c1.2, c2.1, c2.2⟩
      rw [if_pos c2]
      refine ⟨h.nCols, h.inf, h.isInt, h.rows, fun j => ?_, fun j => ?_, ?_⟩
      · change s.1.colLower j = _
        by_cases hj : j = k
        · subst hj; rw [hl, if_neg (fun h => h.2.1 hA)]
        · rw [h.lower]; simp only [mem j hj]
      · change Function.update s.1.colUpper k (P.colLower k) j = _
        by_cases hj : j = k
        · subst hj; rw [Function.update_self, if_pos ⟨hmk, hA⟩]
        · rw [Function.update_of_ne hj, h.upper]; simp only [mem j hj]
      · change s.2 + 1 = _
        rw [List.countP_append, ← h.count]
        simp [hA]
    · rw [if_neg c2]
      have hA : ¬ atLower P O L g k := fun hA => c2 ⟨hA.2.2.1, hA.2.2.2⟩
      by_cases c3 : P.colUpper k - L.primalTol < L.solution k ∧ g < -(O.direction * L.dj k)
      · have hB : atUpper P O L g k := ⟨c1.1, c1.2, c3.1, c3.2⟩
        rw [if_pos c3]
        refine ⟨h.nCols, h.inf, h.isInt, h.rows, fun j => ?_, fun j => ?_, ?_⟩
        · change Function.update s.1.colLower k (P.colUpper k) j = _
          by_cases hj : j = k
          · subst hj; rw [Function.update_self, if_pos ⟨hmk, hA, hB⟩]
          · rw [Function.update_of_ne hj, h.lower]; simp only [mem j hj]
        · change s.1.colUpper j = _
          by_cases hj : j = k
          · subst hj; rw [hu, if_neg (fun h => hA h.2)]
          · rw [h.upper]; simp only [mem j hj]
        · change s.2 + 1 = _
          rw [List.countP_append, ← h.count]
          simp [hB]
      · rw [if_neg c3]
        have hB : ¬ atUpper P O L g k := fun hB => c3 ⟨hB.2.2.1, hB.2.2.2⟩
        refine ⟨h.nCols, h.inf, h.isInt, h.rows, fun j => ?_, fun j => ?_, ?_⟩
        · by_cases hj : j = k
          · subst hj; rw [hl, if_neg (fun h => hB h.2.2)]
          · rw [h.lower]; simp only [mem j hj]
        · by_cases hj : j = k
          · subst hj; rw [hu, if_neg (fun h => hA h.2)]
          · rw [h.upper]; simp only [mem j hj]
        · rw [List.countP_append, ← h.count]
          simp [hA, hB]
  · rw [if_neg c1]
    have hA : ¬ atLower P O L g k := fun hA => c1 ⟨hA.1, hA.2.1⟩
    have hB : ¬ atUpper P O L g k := fun hB => c1 ⟨hB.1, hB.2.1⟩
    refine ⟨h.nCols, h.inf, h.isInt, h.rows, fun j => ?_, fun j => ?_, ?_⟩
    · by_cases hj : j = k
      · subst hj; rw [hl, if_neg (fun h => hB h.2.2)]
      · rw [h.lower]; simp only [mem j hj]
    · by_cases hj : j = k
      · subst hj; rw [hu, if_neg (fun h => hA h.2)]
      · rw [h.upper]; simp only [mem j hj]
    · rw [List.countP_append, ← h.count]
      simp [hA, hB]

theorem passed_loop {g : ℚ} : ∀ (l A : List Nat) (s : Prob × Nat), Passed P O L g A s → (A ++ l).Nodup →
    Passed P O L g (A ++ l) (l.foldl (fixColumn O L g) s) := by
  intro l
  induction l with
  | nil => intro A s h _; rw [List.append_nil]; exact h
  | cons k l ih =>
    intro A s h hn
    have hk : k ∉ A := by
      intro hk
      rw [List.nodup_append] at hn
      exact hn.2.2 k hk k List.mem_cons_self rfl
    have e : A ++ k :: l = (A ++ [k]) ++ l := by simp
    rw [e] at hn ⊢
    exact ih _ _ (passed_step h hk) hn

theorem passed_all (P : Prob) (O : Objective) (L : Answers) (g : ℚ) :
    Passed P O L g (List.range P.nCols) ((List.range P.nCols).foldl (fixColumn O L g) (P, 0)) := by
  have := passed_loop (P := P) (O := O) (L := L) (g := g) (List.range P.nCols) [] (P, 0)
    ⟨rfl, rfl, rfl, rfl, fun j => by simp, fun j => by simp, by simp⟩ (by simpa using List.nodup_range)
  simpa using this

/-! ### The theorems -/

/-- **Fixing columns by reduced costs loses no feasible point within the limit on the objective.** -/
theorem reducedCostFix_keeps_partial {y : Nat → ℚ} (hW : P.WF) (hO : Optimal P O L y) (hB : IntegralBounds P)
    (ht : 0 ≤ L.dualTol) {x : Nat → ℚ} (hx : P.Feasible x)
    (hv : O.direction * value P O x ≤ O.direction * L.limit + 100 * L.dualTol) :
    (reducedCostFix P O L).1.Feasible x := by
  unfold reducedCostFix
  split
  · exact hx
  · rename_i hg
    have hg0 : 0 < gap O L := by
      by_contra h
      exact hg (Or.inl (not_lt.1 h))
    have hp := passed_all P O L (gap O L + 100 * L.dualTol)
    have hlim : O.direction * value P O x - O.direction * L.objValue ≤ gap O L + 100 * L.dualTol := by
      unfold gap; linarith
    have gpos : 0 < gap O L + 100 * L.dualTol := by linarith
    generalize gap O L + 100 * L.dualTol = g at *
    refine ⟨?_, ?_, ?_, ?_⟩
    · rw [hp.rows, hp.inf]; exact hx.rows
    · intro j hj
      rw [hp.nCols] at hj
      rw [hp.lower, hp.inf]
      split
      · rename_i hc
        obtain ⟨-, -, c1, c2, c3, c4⟩ := hc
        have hneg : O.direction * L.dj j < 0 := by linarith
        obtain ⟨u1, u2⟩ := (hO.columns j hj).2 hneg
        have hw := worse hW hO hx hj
        intro _
        have hle := hx.upper j hj u1
        by_contra hlt
        obtain ⟨a, ha⟩ := hx.int j hj c1
        obtain ⟨b, hb⟩ := (hB j hj c1).2
        rw [ha, hb] at hlt hle
        have hab : a + 1 ≤ b := by
          have : (a : ℚ) < b := not_le.1 hlt
          have : a < b := by exact_mod_cast this
          omega
        have hab' : (a : ℚ) + 1 ≤ b := by exact_mod_cast hab
        rw [u2, ha, hb] at hw
        nlinarith
      · exact hx.lower j hj
    · intro j hj
      rw [hp.nCols] at hj
      rw [hp.upper, hp.inf]
      split
      · rename_i hc
        obtain ⟨-, c1, c2, c3, c4⟩ := hc
        obtain ⟨u1, u2⟩ := (hO.columns j hj).1 (by linarith)
        have hw := worse hW hO hx hj
        intro _
        have hle := hx.lower j hj u1
        by_contra hlt
        obtain ⟨a, ha⟩ := hx.int j hj c1
        obtain ⟨b, hb⟩ := (hB j hj c1).1
        rw [ha, hb] at hlt hle
        have hab : b + 1 ≤ a := by
          have : (b : ℚ) < a := not_le.1 hlt
          have : b < a := by exact_mod_cast this
          omega
        have hab' : (b : ℚ) + 1 ≤ a := by exact_mod_cast hab
        rw [u2, ha, hb] at hw
        nlinarith
      · exact hx.upper j hj
    · intro j hj hi
      rw [hp.nCols] at hj
      rw [hp.isInt] at hi
      exact hx.int j hj hi

/-- **Fixing columns by reduced costs adds no feasible point.** -/
theorem reducedCostFix_adds_nothing {x : Nat → ℚ} (hx : (reducedCostFix P O L).1.Feasible x) : P.Feasible x := by
  unfold reducedCostFix at hx
  split at hx
  · exact hx
  · have hp := passed_all P O L (gap O L + 100 * L.dualTol)
    generalize gap O L + 100 * L.dualTol = g at *
    refine ⟨?_, ?_, ?_, ?_⟩
    · have := hx.rows
      rw [hp.rows, hp.inf] at this
      exact this
    · intro j hj
      have := hx.lower j (by rw [hp.nCols]; exact hj)
      rw [hp.lower, hp.inf] at this
      split at this
      · rename_i hc
        obtain ⟨-, -, c1, c2, c3, c4⟩ := hc
        intro hb
        have := this (by linarith)
        linarith
      · exact this
    · intro j hj
      have := hx.upper j (by rw [hp.nCols]; exact hj)
      rw [hp.upper, hp.inf] at this
      split at this
      · rename_i hc
        obtain ⟨-, c1, c2, c3, c4⟩ := hc
        intro hb
        have := this (by linarith)
        linarith
      · exact this
    · intro j hj hi
      exact hx.int j (by rw [hp.nCols]; exact hj) (by rw [hp.isInt]; exact hi)

/-- **The return value is the number of columns that have been fixed**, these are integer columns, every other bound is
as before, and nothing else is changed. -/
theorem reducedCostFix_counts (hd : 0 ≤ L.dualTol) :
    (reducedCostFix P O L).2 = (List.range P.nCols).countP (fun j => decide (P.colLower j < P.colUpper j ∧
      (reducedCostFix P O L).1.colLower j = (reducedCostFix P O L).1.colUpper j)) ∧
    (∀ j, ((reducedCostFix P O L).1.colLower j = P.colLower j ∧ (reducedCostFix P O L).1.colUpper j = P.colUpper j) ∨
      (j < P.nCols ∧ P.isInt j = true ∧ P.colLower j < P.colUpper j ∧
        (reducedCostFix P O L).1.colLower j = (reducedCostFix P O L).1.colUpper j ∧
        ((reducedCostFix P O L).1.colLower j = P.colLower j ∨ (reducedCostFix P O L).1.colUpper j = P.colUpper j))) ∧
    (reducedCostFix P O L).1.nCols = P.nCols ∧ (reducedCostFix P O L).1.rows = P.rows ∧
    (reducedCostFix P O L).1.isInt = P.isInt := by
  unfold reducedCostFix
  split
  · refine ⟨?_, fun j => Or.inl ⟨rfl, rfl⟩, rfl, rfl, rfl⟩
    symm
    change List.countP _ _ = 0
    rw [List.countP_eq_zero]
    intro j _
    simp only [decide_eq_true_eq, not_and]
    intro h h2
    linarith
  · rename_i hg
    have hg0 : 0 < gap O L := by
      by_contra h
      exact hg (Or.inl (not_lt.1 h))
    have hp := passed_all P O L (gap O L + 100 * L.dualTol)
    have gpos : 0 < gap O L + 100 * L.dualTol := by linarith
    generalize gap O L + 100 * L.dualTol = g at *
    have excl : ∀ j, atLower P O L g j → ¬ atUpper P O L g j := by
      intro j h1 h2
      linarith [h1.2.2.2, h2.2.2.2]
    refine ⟨?_, fun j => ?_, hp.nCols, hp.rows, hp.isInt⟩
    · rw [hp.count]
      apply List.countP_congr
      intro j hj
      rw [decide_eq_true_eq, decide_eq_true_eq, hp.lower, hp.upper]
      constructor
      · rintro (h | h)
        · refine ⟨h.2.1, ?_⟩
          rw [if_neg (fun hc => hc.2.1 h), if_pos ⟨hj, h⟩]
        · have hA : ¬ atLower P O L g j := fun hA => excl j hA h
          refine ⟨h.2.1, ?_⟩
          rw [if_pos ⟨hj, hA, h⟩, if_neg (fun hc => hA hc.2)]
      · rintro ⟨h1, h2⟩
        by_contra hn
        rw [not_or] at hn
        rw [if_neg (fun hc => hn.2 hc.2.2), if_neg (fun hc => hn.1 hc.2)] at h2
        linarith
    · by_cases hj : j ∈ List.range P.nCols
      · by_cases hA : atLower P O L g j
        · right
          rw [hp.lower, hp.upper, if_neg (fun hc => hc.2.1 hA), if_pos ⟨hj, hA⟩]
          exact ⟨List.mem_range.1 hj, hA.1, hA.2.1, rfl, Or.inl rfl⟩
        · by_cases hB : atUpper P O L g j
          · right
            rw [hp.lower, hp.upper, if_pos ⟨hj, hA, hB⟩, if_neg (fun hc => hA hc.2)]
            exact ⟨List.mem_range.1 hj, hB.1, hB.2.1, rfl, Or.inr rfl⟩
          · left
            rw [hp.lower, hp.upper, if_neg (fun hc => hB hc.2.2), if_neg (fun hc => hA hc.2)]
            exact ⟨rfl, rfl⟩
      · left
        rw [hp.lower, hp.upper, if_neg (fun hc => hj hc.1), if_neg (fun hc => hj hc.1)]
        exact ⟨rfl, rfl⟩

/-- **Every integer column whose reduced cost exceeds the distance to the limit is fixed.** -/
theorem reducedCostFix_complete {y : Nat → ℚ} (hO : Optimal P O L y) (hd : 0 ≤ L.dualTol) (ht : 0 < L.primalTol)
    (hc : |L.limit * O.direction| ≤ 10 ^ 20)
    {j : Nat} (hj : j < P.nCols) (hi : P.isInt j = true) (hlu : P.colLower j ≤ P.colUpper j)
    (hg : 0 < O.direction * L.limit - O.direction * L.objValue)
    (hdj : O.direction * L.limit - O.direction * L.objValue + 100 * L.dualTol < |O.direction * L.dj j|) :
    (reducedCostFix P O L).1.colLower j = L.solution j ∧ (reducedCostFix P O L).1.colUpper j = L.solution j := by
  have hg' : 0 < gap O L := by unfold gap; linarith
  have hdj' : gap O L + 100 * L.dualTol < |O.direction * L.dj j| := by unfold gap; linarith
  unfold reducedCostFix
  rw [if_neg (by
    rintro (h | h)
    · linarith
    · linarith)]
  have hp := passed_all P O L (gap O L + 100 * L.dualTol)
  have gpos : 0 < gap O L + 100 * L.dualTol := by linarith
  generalize gap O L + 100 * L.dualTol = g at *
  have hm := List.mem_range.2 hj
  rw [hp.lower, hp.upper]
  rcases lt_or_ge 0 (O.direction * L.dj j) with hs | hs
  · rw [abs_of_pos hs] at hdj'
    obtain ⟨u1, u2⟩ := (hO.columns j hj).1 hs
    have hB : ¬ atUpper P O L g j := fun hB => by linarith [hB.2.2.2]
    rw [if_neg (fun hc => hB hc.2.2)]
    rcases hlu.lt_or_eq with h | h
    · have hA : atLower P O L g j := ⟨hi, h, by rw [u2]; linarith, hdj'⟩
      rw [if_pos ⟨hm, hA⟩, u2]
      exact ⟨rfl, rfl⟩
    · rw [← h, ite_self, u2]
      exact ⟨rfl, rfl⟩
  · rw [abs_of_nonpos hs] at hdj'
    have hs' : O.direction * L.dj j < 0 := by linarith
    obtain ⟨u1, u2⟩ := (hO.columns j hj).2 hs'
    have hA : ¬ atLower P O L g j := fun hA => by linarith [hA.2.2.2]
    rw [if_neg (show ¬ (j ∈ List.range P.nCols ∧ atLower P O L g j) from fun hc => hA hc.2)]
    rcases hlu.lt_or_eq with h | h
    · have hB : atUpper P O L g j := ⟨hi, h, by rw [u2]; linarith, hdj'⟩
      rw [if_pos ⟨hm, hA, hB⟩, u2]
      exact ⟨rfl, rfl⟩
    · rw [h, ite_self, u2]
      exact ⟨rfl, rfl⟩

end Cgl.PreFix
