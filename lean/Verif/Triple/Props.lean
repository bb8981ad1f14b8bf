import Verif.Triple.Loops

/-! # Comparing rows of two and three entries: the theorems -/

namespace Cgl.Triple

/-! ### Cleaning the bounds -/

theorem cleanLower_le {v y : ℚ} (hy : IsInteger y) (h : v ≤ y) : cleanLower v ≤ y := by
  obtain ⟨z, rfl⟩ := hy
  unfold cleanLower
  split
  · split
    · rename_i h2
      have h3 := (abs_lt.mp h2).1
      have : (⌊v + 1 / 2⌋ : ℤ) < z + 1 := by
        have h4 : ((⌊v + 1 / 2⌋ : ℤ) : ℚ) < (z : ℚ) + 1 := by
          have : (1 : ℚ) / 10 ^ 6 < 1 := by norm_num
          linarith
        exact_mod_cast h4
      have : (⌊v + 1 / 2⌋ : ℤ) ≤ z := by omega
      exact_mod_cast this
    · exact_mod_cast Int.ceil_le.mpr h
  · exact h

theorem le_cleanUpper {v y : ℚ} (hy : IsInteger y) (h : y ≤ v) : y ≤ cleanUpper v := by
  obtain ⟨z, rfl⟩ := hy
  unfold cleanUpper
  split
  · split
    · rename_i h2
      have h3 := (abs_lt.mp h2).2
      have : z < (⌊v + 1 / 2⌋ : ℤ) + 1 := by
        have h4 : (z : ℚ) < ((⌊v + 1 / 2⌋ : ℤ) : ℚ) + 1 := by
          have : (1 : ℚ) / 10 ^ 6 < 1 := by norm_num
          linarith
        exact_mod_cast h4
      have : z ≤ (⌊v + 1 / 2⌋ : ℤ) := by omega
      exact_mod_cast this
    · exact_mod_cast Int.le_floor.mpr h
  · exact h

theorem cleanLower_int (v : ℚ) : IsInteger (cleanLower v) := by
  unfold cleanLower
  split
  · split <;> exact ⟨_, rfl⟩
  · rename_i h; exact ⟨_, not_not.mp h⟩

theorem cleanUpper_int (v : ℚ) : IsInteger (cleanUpper v) := by
  unfold cleanUpper
  split
  · split <;> exact ⟨_, rfl⟩
  · rename_i h; exact ⟨_, not_not.mp h⟩

theorem cleanLower_of_int {v : ℚ} (h : IsInteger v) : cleanLower v = v := by
  obtain ⟨z, rfl⟩ := h
  unfold cleanLower
  rw [if_neg]
  rw [Int.ceil_intCast]; simp

theorem cleanUpper_of_int {v : ℚ} (h : IsInteger v) : cleanUpper v = v := by
  obtain ⟨z, rfl⟩ := h
  unfold cleanUpper
  rw [if_neg]
  rw [Int.floor_intCast]; simp

theorem clean_sized {P : Prob} (h : Sized P) : Sized (clean P) := ⟨⟨h.wf.cols, h.wf.nodup⟩, h.inf, h.infMax, h.coefs⟩

theorem clean_keeps {P : Prob} (hs : Sized P) {x : Nat → ℚ} (hx : Within P x) (hf : P.Feasible x) :
    (clean P).Feasible x ∧ cleanFeasible P = true := by
  have hl : ∀ j < P.nCols, (clean P).colLower j ≤ x j := by
    intro j hj
    have := (col_within hs hx hf hj).1
    show (if P.isInt j then cleanLower (P.colLower j) else P.colLower j) ≤ x j
    by_cases hi : P.isInt j = true
    · rw [if_pos hi]; exact cleanLower_le (hf.int j hj hi) this
    · rw [if_neg hi]; exact this
  have hu : ∀ j < P.nCols, x j ≤ (clean P).colUpper j := by
    intro j hj
    have := (col_within hs hx hf hj).2
    show x j ≤ (if P.isInt j then cleanUpper (P.colUpper j) else P.colUpper j)
    by_cases hi : P.isInt j = true
    · rw [if_pos hi]; exact le_cleanUpper (hf.int j hj hi) this
    · rw [if_neg hi]; exact this
  refine ⟨⟨hf.rows, fun j hj _ => hl j hj, fun j hj _ => hu j hj, hf.int⟩, ?_⟩
  unfold cleanFeasible
  rw [List.all_eq_true]
  intro j hj
  have hj := List.mem_range.mp hj
  rw [Bool.or_eq_true, decide_eq_true_iff]
  exact Or.inr (le_trans (hl j hj) (hu j hj))

theorem clean_inv (P : Prob) (cut : Nat → Bool) : Inv (clean P) cut (clean P) := by
  refine ⟨rfl, rfl, rfl, rfl, fun k r hr => ⟨r, hr, Or.inl rfl⟩, fun _ => le_refl _, fun _ => le_refl _, ?_⟩
  intro j hj
  have hj : P.isInt j = true := hj
  constructor
  · show IsInteger (if P.isInt j then cleanLower (P.colLower j) else P.colLower j)
    rw [if_pos hj]; exact cleanLower_int _
  · show IsInteger (if P.isInt j then cleanUpper (P.colUpper j) else P.colUpper j)
    rw [if_pos hj]; exact cleanUpper_int _

theorem triple_run {root : ℚ → ℚ} {cut : Nat → Bool} {P : Prob} (hs : Sized P) :
    ∃ s, triple root cut P = .ok (s.P, s.feasible) ∧ Step root (clean P) cut ⟨clean P, cleanFeasible P, fun _ => 0⟩ s := by
  unfold triple
  obtain ⟨s, e, st⟩ := columns_spec (root := root) (cut := cut) (clean_sized hs) (List.range P.nCols)
    ⟨clean P, cleanFeasible P, fun _ => 0⟩ (fun i hi => List.mem_range.mp hi) (clean_inv P cut)
  rw [e]
  exact ⟨s, rfl, st⟩

/-! ### The theorems -/

/-- **The comparison of short rows comes to an end** without aborting, failing an assertion, reading an element that was not
set or overrunning an array. -/
theorem triple_returns (root : ℚ → ℚ) (cut : Nat → Bool) {P : Prob} (hs : Sized P) :
    ∃ Q ok, triple root cut P = .ok (Q, ok) := by
  obtain ⟨s, e, -⟩ := triple_run (root := root) (cut := cut) hs
  exact ⟨_, _, e⟩

/-- **No solution is lost**: a feasible point stays feasible, and a problem that has one is not declared infeasible. -/
theorem triple_keeps {root : ℚ → ℚ} {cut : Nat → Bool} {P Q : Prob} {ok : Bool} (hs : Sized P)
    (h : triple root cut P = .ok (Q, ok)) {x : Nat → ℚ} (hx : Within P x) (hf : P.Feasible x) : Q.Feasible x ∧ ok = true := by
  obtain ⟨s, e, st⟩ := triple_run (root := root) (cut := cut) hs
  rw [h] at e
  have e := Except.ok.inj e
  rw [Prod.mk.injEq] at e
  obtain ⟨c1, c2⟩ := clean_keeps hs hx hf
  obtain ⟨a, b⟩ := st.keeps x hx c1
  rw [e.1, e.2]
  exact ⟨a, b.trans c2⟩

/-- **What is changed.**  Columns keep their types; integer columns get integer bounds within the rounded old ones, others keep
theirs or get tighter ones; rows keep their coefficients and either their bounds or, if they are no possible cuts, have at most
three entries, all in integer columns that are not negative, and have a bound beyond 1e30, lose both. -/
theorem triple_frame {root : ℚ → ℚ} {cut : Nat → Bool} {P Q : Prob} {ok : Bool} (hs : Sized P)
    (h : triple root cut P = .ok (Q, ok)) :
    Q.nCols = P.nCols ∧ Q.inf = P.inf ∧ Q.isInt = P.isInt ∧ Q.rows.length = P.rows.length ∧
    (∀ j, P.isInt j = true → IsInteger (Q.colLower j) ∧ IsInteger (Q.colUpper j) ∧
      cleanLower (P.colLower j) ≤ Q.colLower j ∧ Q.colUpper j ≤ cleanUpper (P.colUpper j)) ∧
    (∀ j, P.isInt j = false → P.colLower j ≤ Q.colLower j ∧ Q.colUpper j ≤ P.colUpper j) ∧
    ∀ (k : Nat) (r : Row), Q.rows[k]? = some r → P.rows[k]? = some r ∨ ∃ r0, P.rows[k]? = some r0 ∧ r = ⟨-dblMax, dblMax, r0.coefs⟩ ∧
      cut k = false ∧ r0.coefs.length ≤ 3 ∧ (r0.lb < -10 ^ 30 ∨ 10 ^ 30 < r0.ub) ∧
      ∀ p ∈ r0.coefs, P.isInt p.1 = true ∧ 0 ≤ cleanLower (P.colLower p.1) := by
  obtain ⟨s, e, st⟩ := triple_run (root := root) (cut := cut) hs
  rw [h] at e
  have e := Except.ok.inj e
  rw [Prod.mk.injEq] at e
  rw [e.1]
  have I := st.inv
  refine ⟨I.nCols, I.inf, I.isInt, I.len, ?_, ?_, ?_⟩
  · intro j hj
    obtain ⟨a, b⟩ := I.ints j (by rw [I.isInt]; exact hj)
    have l := I.lower j
    have u := I.upper j
    rw [show (clean P).colLower j = if P.isInt j then cleanLower (P.colLower j) else P.colLower j from rfl, if_pos hj] at l
    rw [show (clean P).colUpper j = if P.isInt j then cleanUpper (P.colUpper j) else P.colUpper j from rfl, if_pos hj] at u
    exact ⟨a, b, l, u⟩
  · intro j hj
    have l := I.lower j
    have u := I.upper j
    rw [show (clean P).colLower j = if P.isInt j then cleanLower (P.colLower j) else P.colLower j from rfl, hj] at l
    rw [show (clean P).colUpper j = if P.isInt j then cleanUpper (P.colUpper j) else P.colUpper j from rfl, hj] at u
    exact ⟨l, u⟩
  · intro k r hr
    obtain ⟨r0, h0, h1⟩ := I.rows k r hr
    rcases h1 with rfl | ⟨rfl, hF⟩
    · exact Or.inl h0
    · refine Or.inr ⟨r0, h0, rfl, ?_, hF.len, hF.open1, ?_⟩
      · have hu := hF.use
        unfold usable at hu
        rw [h0] at hu
        dsimp only at hu
        rw [Bool.and_eq_true, Bool.and_eq_true, Bool.not_eq_true'] at hu
        exact hu.1.2
      · intro p hp
        obtain ⟨a, b⟩ := usable_cols hF.use h0 p hp
        have a : P.isInt p.1 = true := a
        refine ⟨a, ?_⟩
        rw [show (clean P).colLower p.1 = if P.isInt p.1 then cleanLower (P.colLower p.1) else P.colLower p.1 from rfl,
          if_pos a] at b
        exact b

/-- **Nothing is gained, partial**: a row is made free only if it follows from the others.  Missing: it is false of the code when
two rows agree in two columns but not in the third (`Harmonious`, see `triple_fails`), and up to the tolerances of the
comparisons when different numbers are within 1e-7 (`Separated`). -/
theorem triple_same_partial {root : ℚ → ℚ} {cut : Nat → Bool} {P Q : Prob} {ok : Bool} (hE : Exact root P)
    (h : triple root cut P = .ok (Q, ok)) {x : Nat → ℚ} (hx : Within P x) : Q.Feasible x ↔ P.Feasible x := by
  refine ⟨fun hf => ?_, fun hf => (triple_keeps hE.sized h hx hf).1⟩
  obtain ⟨s, e, st⟩ := triple_run (root := root) (cut := cut) hE.sized
  rw [h] at e
  have e := Except.ok.inj e
  rw [Prod.mk.injEq] at e
  rw [e.1] at hf
  have hO : Ok root (clean P) := ⟨clean_sized hE.sized, hE.rowBounds, hE.rootPos, hE.separated, hE.harmonious⟩
  have hc := st.back hO (fun _ => List.mem_cons_self) x hx hf
  refine ⟨hc.rows, fun j hj => ?_, fun j hj => ?_, hc.int⟩
  · have := hc.lower j hj
    rw [show (clean P).colLower j = if P.isInt j then cleanLower (P.colLower j) else P.colLower j from rfl] at this
    by_cases hi : P.isInt j = true
    · rw [if_pos hi, cleanLower_of_int (hE.intBounds j hj hi).1] at this; exact this
    · rw [if_neg hi] at this; exact this
  · have := hc.upper j hj
    rw [show (clean P).colUpper j = if P.isInt j then cleanUpper (P.colUpper j) else P.colUpper j from rfl] at this
    by_cases hi : P.isInt j = true
    · rw [if_pos hi, cleanUpper_of_int (hE.intBounds j hj hi).2] at this; exact this
    · rw [if_neg hi] at this; exact this

/-! ### Rows with coefficients 1 and -1 -/

/-- Short rows have coefficients 1 and -1 and integer bounds. -/
def Unit (P : Prob) : Prop :=
  ∀ r ∈ P.rows.filter short, (∀ p ∈ r.coefs, |p.2| = 1 ∧ IsInteger p.2) ∧ IsInteger r.lb ∧ IsInteger r.ub

theorem scales_unit {root : ℚ → ℚ} {P : Prob} (hU : Unit P) (h1 : root 1 = 1) {s : ℚ} (h : s ∈ scales root P) : s = 0 ∨ s = 1 := by
  unfold scales at h
  rcases List.mem_cons.mp h with rfl | h
  · exact Or.inl rfl
  · right
    obtain ⟨r, hr, h⟩ := List.mem_flatMap.mp h
    obtain ⟨p, hp, h⟩ := List.mem_flatMap.mp h
    obtain ⟨q, hq, rfl⟩ := List.mem_map.mp h
    rw [((hU r hr).1 p hp).1, ((hU r hr).1 q hq).1, mul_one, h1, div_one]

theorem dblMax_int : IsInteger dblMax := by unfold dblMax; exact ⟨_, by rw [Int.cast_natCast]⟩

theorem isInteger_sub {a b : ℚ} (ha : IsInteger a) (hb : IsInteger b) : IsInteger (a - b) := by
  obtain ⟨z, rfl⟩ := ha
  obtain ⟨w, rfl⟩ := hb
  exact ⟨z - w, by push_cast; rfl⟩

theorem isInteger_mul {a b : ℚ} (ha : IsInteger a) (hb : IsInteger b) : IsInteger (a * b) := by
  obtain ⟨z, rfl⟩ := ha
  obtain ⟨w, rfl⟩ := hb
  exact ⟨z * w, by push_cast; rfl⟩

theorem numbers_int {P : Prob} (hU : Unit P) {r : Row} (hr : r ∈ P.rows.filter short) {v : ℚ} (h : v ∈ 0 :: numbers r) :
    IsInteger v := by
  obtain ⟨h1, h2, h3⟩ := hU r hr
  rcases List.mem_cons.mp h with rfl | h
  · exact ⟨0, by simp⟩
  · unfold numbers at h
    rcases List.mem_append.mp h with h | h
    · obtain ⟨p, hp, rfl⟩ := List.mem_map.mp h
      exact (h1 p hp).2
    · obtain ⟨b, hb, h⟩ := List.mem_flatMap.mp h
      have hbi : IsInteger b := by
        simp only [List.mem_cons, List.not_mem_nil, or_false] at hb
        rcases hb with rfl | rfl | rfl
        · exact h2
        · exact h3
        · exact dblMax_int
      rcases List.mem_cons.mp h with rfl | h
      · exact hbi
      · obtain ⟨p, hp, rfl⟩ := List.mem_map.mp h
        exact isInteger_sub hbi (h1 p hp).2

theorem int_small {a : ℚ} (ha : IsInteger a) (h : |a| ≤ 1 / 10 ^ 7) : a = 0 := by
  obtain ⟨z, rfl⟩ := ha
  have h1 : |(z : ℚ)| < 1 := lt_of_le_of_lt h (by norm_num)
  have h2 : |z| < 1 := by exact_mod_cast h1
  rw [Int.abs_lt_one_iff.mp h2]; simp

/-- With coefficients 1 and -1 and integer bounds all comparisons are sharp. -/
theorem separated_unit {root : ℚ → ℚ} {P : Prob} (hU : Unit P) (h1 : root 1 = 1) : Separated root P := by
  intro s hs t ht r1 m1 r2 m2 u hu v hv
  have is : IsInteger s := by
    rcases scales_unit hU h1 hs with rfl | rfl
    · exact ⟨0, by simp⟩
    · exact ⟨1, by simp⟩
  have it : IsInteger t := by
    rcases scales_unit hU h1 ht with rfl | rfl
    · exact ⟨0, by simp⟩
    · exact ⟨1, by simp⟩
  have iu := isInteger_mul is (numbers_int hU m1 hu)
  have iv := isInteger_mul it (numbers_int hU m2 hv)
  constructor
  · intro h
    have := int_small (isInteger_sub iu iv) h
    linarith
  · intro h
    have iv' : IsInteger (-(t * v)) := by
      obtain ⟨w, e⟩ := iv
      exact ⟨-w, by rw [e]; push_cast; rfl⟩
    have := int_small (isInteger_sub iu iv') (by rwa [sub_neg_eq_add])
    linarith

end Cgl.Triple
