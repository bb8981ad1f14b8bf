import Verif.PreInteger.Spec
import Mathlib.Tactic.Linarith
import Mathlib.Tactic.Ring
import Mathlib.Tactic.FieldSimp
import Mathlib.Algebra.Order.BigOperators.Group.List

/-! # The three ways in which a column is declared integer -/

namespace Cgl.PreInteger

variable {P : Prob} {O : Objective}

theorem near_crisp {v : ℚ} (h : near v = true) (hc : Crisp v) : IsInteger v :=
  hc ⟨_, of_decide_eq_true h⟩

theorem recip_spec {v : ℚ} (h : recip v = true) (hc : Crisp (1 / v)) : v ≠ 0 ∧ IsInteger (1 / v) := by
  unfold recip at h
  rw [Bool.and_eq_true] at h
  have h1 := of_decide_eq_true h.1
  have h2 := of_decide_eq_true h.2
  refine ⟨?_, hc ⟨_, h2.le⟩⟩
  rintro rfl
  rw [abs_zero] at h1
  norm_num at h1

theorem sumFixed_eq (P : Prob) (r : Row) : sumFixed P r = fixedPart P r := by
  unfold sumFixed fixedPart
  induction r.coefs with
  | nil => rfl
  | cons p es ih =>
    rw [List.filter_cons, List.map_cons, List.sum_cons]
    unfold free at *
    by_cases h : P.colLower p.1 + 1 / 10 ^ 8 < P.colUpper p.1
    · rw [if_neg (by simp only [decide_eq_true h]; decide), if_pos h, ih, zero_add]
    · rw [if_pos (by simp only [decide_eq_false h]; decide), if_neg h, List.map_cons, List.sum_cons, ih]

/-! ### Moving one coordinate -/

theorem dot_update_ne {v : SVec} {x : Nat → ℚ} {j : Nat} {w : ℚ} (h : ∀ p ∈ v, p.1 ≠ j) :
    v.dot (Function.update x j w) = v.dot x := by
  induction v with
  | nil => rfl
  | cons e v ih =>
    rw [SVec.dot_cons, SVec.dot_cons, ih fun p hp => h p (List.mem_cons_of_mem _ hp),
      Function.update_of_ne (h e List.mem_cons_self)]

theorem dot_update_mem {v : SVec} (hn : (v.map Prod.fst).Nodup) {x : Nat → ℚ} {j : Nat} {c w : ℚ} (h : (j, c) ∈ v) :
    v.dot (Function.update x j w) = v.dot x + c * (w - x j) := by
  induction v with
  | nil => simp at h
  | cons e v ih =>
    rw [List.map_cons, List.nodup_cons] at hn
    rw [SVec.dot_cons, SVec.dot_cons]
    rcases List.mem_cons.1 h with h1 | h1
    · subst h1
      rw [dot_update_ne, Function.update_self]
      · ring
      · intro p hp hj
        exact hn.1 (List.mem_map.2 ⟨p, hp, hj⟩)
    · rw [ih hn.2 h1, Function.update_of_ne]
      · ring
      · intro hj
        exact hn.1 (List.mem_map.2 ⟨_, h1, hj.symm⟩)

theorem sum_update (c x : Nat → ℚ) (j : Nat) (w : ℚ) (l : List Nat) (hn : l.Nodup) (hj : j ∈ l) :
    (l.map fun k => c k * Function.update x j w k).sum = (l.map fun k => c k * x k).sum + c j * (w - x j) := by
  induction l with
  | nil => simp at hj
  | cons a l ih =>
    rw [List.nodup_cons] at hn
    simp only [List.map_cons, List.sum_cons]
    by_cases h : a = j
    · subst h
      rw [Function.update_self]
      have : (l.map fun k => c k * Function.update x a w k) = l.map fun k => c k * x k :=
        List.map_congr_left fun k hk => by
          rw [Function.update_of_ne]
          rintro rfl
          exact hn.1 hk
      rw [this]; ring
    · rw [ih hn.2 (by simpa [Ne.symm h] using hj), Function.update_of_ne h]; ring

theorem value_update {x : Nat → ℚ} {j : Nat} (hj : j < P.nCols) (w : ℚ) :
    value P O (Function.update x j w) = value P O x + O.coef j * (w - x j) :=
  sum_update _ _ _ _ _ List.nodup_range (List.mem_range.2 hj)

/-! ### A row at a point that is integral in some columns -/

theorem fixed_value (hC : Clean P) {x : Nat → ℚ} (hx : P.Feasible x) {j : Nat} (hj : j < P.nCols)
    (hf : free P j = false) : x j = P.colLower j := by
  have h1 : P.colUpper j ≤ P.colLower j + 1 / 10 ^ 8 := not_lt.1 (of_decide_eq_false hf)
  obtain ⟨h2, h3, h4⟩ := hC.fixed j hj h1
  have h5 := hx.lower j hj
  have h6 := hx.upper j hj
  unfold lbOk at h5
  unfold ubOk at h6
  rw [hC.inf] at h5 h6
  have := h5 h3
  have := h6 h4
  linarith

theorem isInteger_add' {a b : ℚ} (ha : IsInteger a) (hb : IsInteger b) : IsInteger (a + b) := by
  obtain ⟨m, rfl⟩ := ha
  obtain ⟨n, rfl⟩ := hb
  exact ⟨m + n, by push_cast; rfl⟩

theorem isInteger_sub' {a b : ℚ} (ha : IsInteger a) (hb : IsInteger b) : IsInteger (a - b) := by
  obtain ⟨m, rfl⟩ := ha
  obtain ⟨n, rfl⟩ := hb
  exact ⟨m - n, by push_cast; rfl⟩

theorem isInteger_mul' {a b : ℚ} (ha : IsInteger a) (hb : IsInteger b) : IsInteger (a * b) := by
  obtain ⟨m, rfl⟩ := ha
  obtain ⟨n, rfl⟩ := hb
  exact ⟨m * n, by push_cast; rfl⟩

theorem dot_parts (I : Nat → Bool) (x : Nat → ℚ) (es : SVec)
    (h1 : ∀ p ∈ es, free P p.1 = false → x p.1 = P.colLower p.1)
    (h2 : ∀ p ∈ es, free P p.1 = true → I p.1 = true → IsInteger p.2 ∧ IsInteger (x p.1)) :
    IsInteger (es.dot x - (es.map fun p => if P.colLower p.1 + 1 / 10 ^ 8 < P.colUpper p.1 then 0
      else P.colLower p.1 * p.2).sum - SVec.dot (es.filter fun p => free P p.1 && !I p.1) x) := by
  induction es with
  | nil => exact ⟨0, by simp⟩
  | cons e es ih =>
    have hi := ih (fun p hp => h1 p (List.mem_cons_of_mem _ hp)) (fun p hp => h2 p (List.mem_cons_of_mem _ hp))
    have h1' := h1 e List.mem_cons_self
    have h2' := h2 e List.mem_cons_self
    rw [SVec.dot_cons, List.map_cons, List.sum_cons, List.filter_cons]
    cases hf : free P e.1 with
    | false =>
      have h3 : ¬ P.colLower e.1 + 1 / 10 ^ 8 < P.colUpper e.1 := of_decide_eq_false hf
      rw [if_neg h3, if_neg (by simp), h1' hf]
      convert hi using 1
      ring
    | true =>
      have h3 : P.colLower e.1 + 1 / 10 ^ 8 < P.colUpper e.1 := of_decide_eq_true hf
      rw [if_pos h3]
      cases hI : I e.1 with
      | true =>
        rw [if_neg (by simp)]
        obtain ⟨h4, h5⟩ := h2' hf hI
        convert isInteger_add' (isInteger_mul' h4 h5) hi using 1
        ring
      | false =>
        rw [if_pos (by simp), SVec.dot_cons]
        convert hi using 1
        ring

/-- The integer columns `I` are integral at `x`. -/
def Integral (P : Prob) (I : Nat → Bool) (x : Nat → ℚ) : Prop := ∀ j < P.nCols, I j = true → IsInteger (x j)

theorem row_parts (hC : Clean P) {I : Nat → Bool} {x : Nat → ℚ} (hx : P.Feasible x) (hI : Integral P I x) {r : Row}
    (hr : r ∈ P.rows) (ha : intCoefs P I r = true) :
    IsInteger (r.coefs.dot x - fixedPart P r - (continuous P I r).dot x) := by
  apply dot_parts I x r.coefs
  · intro p hp hf
    exact fixed_value hC hx (hC.wf.cols r hr p hp) hf
  · intro p hp hf hi
    refine ⟨?_, hI p.1 (hC.wf.cols r hr p hp) hi⟩
    unfold intCoefs at ha
    rw [List.all_eq_true] at ha
    exact near_crisp (ha p (List.mem_filter.2 ⟨hp, by simp [hf, hi]⟩)) (hC.coefs r hr p hp).1

theorem allInteger_spec (hC : Clean P) {I : Nat → Bool} {r : Row} (hr : r ∈ P.rows) (h : allInteger P I r = true) :
    intCoefs P I r = true ∧ (-10 ^ 20 < r.lb → IsInteger (r.lb - fixedPart P r)) ∧
      (r.ub < 10 ^ 20 → IsInteger (r.ub - fixedPart P r)) := by
  unfold allInteger at h
  rw [Bool.and_eq_true, Bool.and_eq_true] at h
  obtain ⟨⟨h1, h2⟩, h3⟩ := h
  refine ⟨h1, fun hb => ?_, fun hb => ?_⟩
  · rw [decide_eq_true hb] at h2
    unfold low at h2
    rw [if_pos hb, sumFixed_eq] at h2
    exact near_crisp (by simpa using h2) (hC.rowBounds r hr).1
  · rw [decide_eq_true hb] at h3
    unfold up at h3
    rw [if_pos hb, sumFixed_eq] at h3
    exact near_crisp (by simpa using h3) (hC.rowBounds r hr).2

theorem equation (hC : Clean P) {r : Row} (hr : r ∈ P.rows) (h : low P r = up P r) :
    -10 ^ 20 < r.lb ∧ r.ub < 10 ^ 20 ∧ r.lb = r.ub := by
  unfold low up at h
  rw [sumFixed_eq] at h
  have h1 := hC.noLower r hr
  have h2 := hC.noUpper r hr
  by_cases h3 : -10 ^ 20 < r.lb
  · rw [if_pos h3] at h
    by_cases h4 : r.ub < 10 ^ 20
    · rw [if_pos h4] at h
      exact ⟨h3, h4, by linarith⟩
    · rw [if_neg h4] at h
      have := (h2 (not_lt.1 h4)).2
      linarith
  · rw [if_neg h3] at h
    have h5 := h1 (not_lt.1 h3)
    by_cases h4 : r.ub < 10 ^ 20
    · rw [if_pos h4] at h; linarith [h5.2]
    · rw [if_neg h4] at h; linarith [h5.1]

theorem equation_value (hC : Clean P) {x : Nat → ℚ} (hx : P.Feasible x) {r : Row} (hr : r ∈ P.rows)
    (h : low P r = up P r) : r.coefs.dot x = r.lb := by
  obtain ⟨h1, h2, h3⟩ := equation hC hr h
  obtain ⟨h4, h5⟩ := hx.rows r hr
  unfold lbOk at h4
  unfold ubOk at h5
  rw [hC.inf] at h4 h5
  linarith [h4 h1, h5 h2]

/-! ### Domination -/

/-- For every feasible point there is one that is integral in `I`, at least as good, and the same in the integer
columns. -/
def Dom (P : Prob) (O : Objective) (I : Nat → Bool) : Prop :=
  ∀ x, P.Feasible x → ∃ y, P.Feasible y ∧ Integral P I y ∧ O.direction * value P O y ≤ O.direction * value P O x ∧
    ∀ j < P.nCols, P.isInt j = true → y j = x j

/-- `I` and one more column. -/
def plus (I : Nat → Bool) (j : Nat) : Nat → Bool := fun k => decide (k = j) || I k

theorem integral_plus {I : Nat → Bool} {y : Nat → ℚ} {j : Nat} (h : Integral P I y) (hj : IsInteger (y j)) :
    Integral P (plus I j) y := by
  intro k hk hp
  unfold plus at hp
  rw [Bool.or_eq_true] at hp
  rcases hp with hp | hp
  · rw [of_decide_eq_true hp]; exact hj
  · exact h k hk hp

/-- An equation with one continuous column whose coefficient is the reciprocal of an integer. -/
theorem dom_equation (hC : Clean P) {I : Nat → Bool} (hD : Dom P O I) {r : Row} (hr : r ∈ P.rows)
    (ha : allInteger P I r = true) {p : Nat × ℚ} (hc : continuous P I r = [p]) (hp : recip p.2 = true)
    (he : low P r = up P r) : Dom P O (plus I p.1) := by
  intro x hx
  obtain ⟨y, h1, h2, h3, h4⟩ := hD x hx
  refine ⟨y, h1, integral_plus h2 ?_, h3, h4⟩
  obtain ⟨a1, a2, a3⟩ := allInteger_spec hC hr ha
  have h5 := row_parts hC h1 h2 hr a1
  rw [hc, equation_value hC h1 hr he] at h5
  have h6 := a2 (equation hC hr he).1
  have hm : p ∈ r.coefs := by
    have : p ∈ continuous P I r := by rw [hc]; exact List.mem_singleton.2 rfl
    exact (List.mem_filter.1 this).1
  obtain ⟨hv, h7⟩ := recip_spec hp (hC.coefs r hr p hm).2
  have h8 : y p.1 = (r.lb - fixedPart P r - (r.lb - fixedPart P r - SVec.dot [p] y)) * (1 / p.2) := by
    rw [SVec.dot_cons, SVec.dot_nil]
    field_simp
    ring
  rw [h8]
  exact isInteger_mul' (isInteger_sub' h6 h5) h7

/-- A number next to `v` in the sense that no integer is crossed. -/
def Rounds (v w : ℚ) : Prop := ∀ t : ℤ, (v ≤ t → w ≤ t) ∧ ((t : ℚ) ≤ v → (t : ℚ) ≤ w)

theorem rounds_floor (v : ℚ) : Rounds v (⌊v⌋ : ℤ) := fun t =>
  ⟨fun h => (Int.floor_le v).trans h, fun h => by exact_mod_cast Int.le_floor.2 h⟩

theorem rounds_ceil (v : ℚ) : Rounds v (⌈v⌉ : ℤ) := fun t =>
  ⟨fun h => by exact_mod_cast Int.ceil_le.2 h, fun h => h.trans (Int.le_ceil v)⟩

theorem rounds_scaled {v w c m : ℚ} (h : Rounds v w) (hc : c ≠ 0) (hk : IsInteger (1 / c)) (hm : IsInteger m) :
    (c * v ≤ m → c * w ≤ m) ∧ (m ≤ c * v → m ≤ c * w) := by
  obtain ⟨k, hk⟩ := hk
  obtain ⟨z, rfl⟩ := hm
  have hkc : (k : ℚ) * c = 1 := by rw [← hk]; field_simp
  have ht := h (k * z)
  push_cast at ht
  have hz : (z : ℚ) = c * (k * z) := by linear_combination (-(z : ℚ)) * hkc
  rw [hz]
  rcases lt_or_gt_of_ne hc with hneg | hpos
  · simp only [mul_le_mul_left_of_neg hneg]
    exact ⟨ht.2, ht.1⟩
  · simp only [mul_le_mul_iff_right₀ hpos]
    exact ht

theorem mem_colEntries {i j : Nat} {r : Row} {c : ℚ} (hi : P.rows[i]? = some r) (hc : (j, c) ∈ r.coefs) :
    (i, c) ∈ colEntries P j := by
  unfold colEntries
  rw [List.mem_flatMap]
  refine ⟨(r, i), ?_, ?_⟩
  · rw [List.mem_zipIdx_iff_getElem?]; exact hi
  · exact List.mem_map.2 ⟨(j, c), List.mem_filter.2 ⟨hc, by simp⟩, rfl⟩

/-- The row does not stop its only continuous column. -/
def IgnoreOk (P : Prob) (I : Nat → Bool) (r : Row) : Prop :=
  ∃ I' p, (∀ k, I' k = true → I k = true) ∧ allInteger P I' r = true ∧ continuous P I' r = [p] ∧ recip p.2 = true

/-- A column all of whose rows do not stop it. -/
theorem dom_column (hC : Clean P) {s : State} (hD : Dom P O s.isInt) (hP : ∀ j, P.isInt j = true → s.isInt j = true)
    (hig : ∀ i r, P.rows[i]? = some r → s.ignore i = true → IgnoreOk P s.isInt r) {j : Nat} (hj : j < P.nCols)
    (hg : columnGood P s j = true) : Dom P O (plus s.isInt j) := by
  unfold columnGood at hg
  rw [Bool.and_eq_true, Bool.and_eq_true, Bool.and_eq_true, Bool.and_eq_true] at hg
  obtain ⟨⟨⟨⟨g1, g2⟩, g3⟩, g4⟩, g5⟩ := hg
  have g2' : s.isInt j = false := by simpa using g2
  intro x hx
  obtain ⟨y, h1, h2, h3, h4⟩ := hD x hx
  -- the new value
  obtain ⟨w, hw, hwi, hwo⟩ : ∃ w, Rounds (y j) w ∧ IsInteger w ∧ O.direction * (O.coef j * (w - y j)) ≤ 0 := by
    by_cases h5 : 0 ≤ O.direction * O.coef j
    · refine ⟨(⌊y j⌋ : ℤ), rounds_floor _, ⟨_, rfl⟩, ?_⟩
      have := Int.floor_le (y j)
      nlinarith
    · refine ⟨(⌈y j⌉ : ℤ), rounds_ceil _, ⟨_, rfl⟩, ?_⟩
      have := Int.le_ceil (y j)
      nlinarith
  have hne : ∀ k, s.isInt k = true → k ≠ j := by
    rintro k hk rfl
    rw [g2'] at hk
    simp at hk
  refine ⟨Function.update y j w, ⟨?_, ?_, ?_, ?_⟩, ?_, ?_, ?_⟩
  · intro r hr
    by_cases hin : ∃ c, (j, c) ∈ r.coefs
    · obtain ⟨c, hc⟩ := hin
      obtain ⟨i, hi⟩ := List.mem_iff_getElem?.1 hr
      have h5 : s.ignore i = true := (List.all_eq_true.1 g5) _ (mem_colEntries hi hc)
      obtain ⟨I', p, i1, i2, i3, i4⟩ := hig i r hi h5
      have hjc : (j, c) ∈ continuous P I' r := by
        refine List.mem_filter.2 ⟨hc, ?_⟩
        have : I' j = false := by
          by_contra h6
          have h7 := i1 j (by simpa using h6)
          rw [g2'] at h7
          simp at h7
        simp [g1, this]
      rw [i3, List.mem_singleton] at hjc
      subst hjc
      obtain ⟨a1, a2, a3⟩ := allInteger_spec hC hr i2
      obtain ⟨hv, hk⟩ := recip_spec i4 (hC.coefs r hr _ hc).2
      have h6 := row_parts hC h1 (fun k hk h => h2 k hk (i1 k h)) hr a1
      rw [i3, SVec.dot_cons, SVec.dot_nil, add_zero] at h6
      obtain ⟨l1, l2⟩ := h1.rows r hr
      have hupd := dot_update_mem (hC.wf.nodup r hr) (x := y) (w := w) hc
      refine ⟨?_, ?_⟩
      · intro hb
        rw [hC.inf] at hb
        have h7 := l1 (by rw [hC.inf]; exact hb)
        have h8 := (rounds_scaled hw hv hk (isInteger_sub' (a2 hb) h6)).2 (by linarith)
        rw [hupd]
        linarith
      · intro hb
        rw [hC.inf] at hb
        have h7 := l2 (by rw [hC.inf]; exact hb)
        have h8 := (rounds_scaled hw hv hk (isInteger_sub' (a3 hb) h6)).1 (by linarith)
        rw [hupd]
        linarith
    · have := h1.rows r hr
      unfold Row.Sat at *
      rw [dot_update_ne]
      · exact this
      · rintro p hp rfl
        exact hin ⟨p.2, hp⟩
  · intro k hk
    by_cases hkj : k = j
    · subst hkj
      rw [Function.update_self]
      intro hb
      have h5 := h1.lower k hk hb
      rw [hC.inf] at hb
      rw [decide_eq_true hb] at g4
      obtain ⟨z, hz⟩ := near_crisp (by simpa using g4) (hC.colBounds k hk).1
      rw [hz] at h5 ⊢
      exact (hw z).2 h5
    · rw [Function.update_of_ne hkj]; exact h1.lower k hk
  · intro k hk
    by_cases hkj : k = j
    · subst hkj
      rw [Function.update_self]
      intro hb
      have h5 := h1.upper k hk hb
      rw [hC.inf] at hb
      rw [decide_eq_true hb] at g3
      obtain ⟨z, hz⟩ := near_crisp (by simpa using g3) (hC.colBounds k hk).2
      rw [hz] at h5 ⊢
      exact (hw z).1 h5
    · rw [Function.update_of_ne hkj]; exact h1.upper k hk
  · intro k hk hi
    rw [Function.update_of_ne (hne k (hP k hi))]
    exact h1.int k hk hi
  · apply integral_plus
    · intro k hk hi
      rw [Function.update_of_ne (hne k hi)]
      exact h2 k hk hi
    · rw [Function.update_self]; exact hwi
  · rw [value_update hj]
    linarith
  · intro k hk hi
    rw [Function.update_of_ne (hne k (hP k hi))]
    exact h4 k hk hi

theorem dot_shift {es : SVec} (hn : (es.map Prod.fst).Nodup) {p q : Nat × ℚ} (hp : p ∈ es) (hq : q ∈ es)
    (hpq : p.1 ≠ q.1) (hs : p.2 + q.2 = 0) (y : Nat → ℚ) (t : ℚ) :
    es.dot (Function.update (Function.update y p.1 (y p.1 - t)) q.1 (y q.1 - t)) = es.dot y := by
  rw [dot_update_mem hn (c := q.2) hq, dot_update_mem hn (c := p.2) hp, Function.update_of_ne hpq.symm]
  linear_combination (-t) * hs

/-- An equation with two nonnegative columns that are in no other row. -/
theorem dom_pair (hC : Clean P) {I : Nat → Bool} (hD : Dom P O I) (hP : ∀ j, P.isInt j = true → I j = true) {i : Nat}
    {r : Row} (hi : P.rows[i]? = some r) (ha : allInteger P I r = true) {p q : Nat × ℚ}
    (hc : continuous P I r = [p, q]) (he : low P r = up P r) (hs : pairShape P p q = true)
    (hp1 : (colEntries P p.1).length = 1) (hq1 : (colEntries P q.1).length = 1)
    (ho : 0 ≤ O.direction * (O.coef p.1 + O.coef q.1)) : Dom P O (plus (plus I p.1) q.1) := by
  have hr : r ∈ P.rows := List.mem_of_getElem? hi
  have hpm' : p ∈ continuous P I r := by rw [hc]; simp
  have hqm' : q ∈ continuous P I r := by rw [hc]; simp
  obtain ⟨hpm, hpf⟩ := List.mem_filter.1 hpm'
  obtain ⟨hqm, hqf⟩ := List.mem_filter.1 hqm'
  rw [Bool.and_eq_true] at hpf hqf
  have hpI : I p.1 = false := by simpa using hpf.2
  have hqI : I q.1 = false := by simpa using hqf.2
  have hnd := hC.wf.nodup r hr
  have hpq : p.1 ≠ q.1 := by
    have h1 : ((continuous P I r).map Prod.fst).Nodup := (List.filter_sublist.map Prod.fst).nodup hnd
    rw [hc] at h1
    simpa using h1
  unfold pairShape at hs
  rw [Bool.and_eq_true, Bool.and_eq_true, Bool.and_eq_true] at hs
  obtain ⟨⟨⟨s1, s2⟩, s3⟩, s4⟩ := hs
  have s1 := of_decide_eq_true s1
  have s2 := of_decide_eq_true s2
  have s3 := of_decide_eq_true s3
  have s4 := of_decide_eq_true s4
  have hsum : p.2 + q.2 = 0 := by
    rcases (abs_eq (by norm_num : (0 : ℚ) ≤ 1)).1 s1 with h | h <;> rw [h] at s2 ⊢ <;> linarith
  have hpint : IsInteger p.2 := by
    rcases (abs_eq (by norm_num : (0 : ℚ) ≤ 1)).1 s1 with h | h <;> rw [h]
    · exact ⟨1, by norm_num⟩
    · exact ⟨-1, by norm_num⟩
  have hpN := hC.wf.cols r hr p hpm
  have hqN := hC.wf.cols r hr q hqm
  -- only this row has the columns
  have only : ∀ (e : Nat × ℚ), e ∈ r.coefs → (colEntries P e.1).length = 1 → ∀ (k : Nat) (r' : Row) (c : ℚ),
      P.rows[k]? = some r' → (e.1, c) ∈ r'.coefs → k = i := by
    intro e hm hl k r' c hk hcm
    obtain ⟨u, hu⟩ := List.length_eq_one_iff.1 hl
    have m1 := mem_colEntries (P := P) (j := e.1) (c := e.2) hi hm
    have m2 := mem_colEntries hk hcm
    rw [hu, List.mem_singleton] at m1 m2
    have := congrArg Prod.fst (m2.trans m1.symm)
    exact this
  intro x hx
  obtain ⟨y, h1, h2, h3, h4⟩ := hD x hx
  have hy0 : ∀ e ∈ r.coefs, P.colLower e.1 = 0 → e.1 < P.nCols → 0 ≤ y e.1 := by
    intro e _ h0 hN
    have := h1.lower e.1 hN
    rw [h0] at this
    exact this (by rw [hC.inf]; norm_num)
  have hyp := hy0 p hpm s3 hpN
  have hyq := hy0 q hqm s4 hqN
  -- the difference is an integer
  obtain ⟨a1, a2, a3⟩ := allInteger_spec hC hr ha
  have h5 := row_parts hC h1 h2 hr a1
  rw [hc, equation_value hC h1 hr he, SVec.dot_cons, SVec.dot_cons, SVec.dot_nil] at h5
  have h6 := a2 (equation hC hr he).1
  have hd : IsInteger (y p.1 - y q.1) := by
    have e1 : y p.1 - y q.1 = p.2 * ((r.lb - fixedPart P r) - (r.lb - fixedPart P r - (p.2 * y p.1 + (q.2 * y q.1 + 0)))) := by
      have hpp : p.2 * p.2 = 1 := by
        have hq2 : q.2 = -p.2 := by linarith
        rw [hq2] at s2; linarith
      have hq2 : q.2 = -p.2 := by linarith
      rw [hq2]
      linear_combination (y q.1 - y p.1) * hpp
    rw [e1]
    exact isInteger_mul' hpint (isInteger_sub' h6 h5)
  generalize ht : min (y p.1) (y q.1) = t
  have ht0 : 0 ≤ t := by rw [← ht]; exact le_min hyp hyq
  have htp : t ≤ y p.1 := by rw [← ht]; exact min_le_left _ _
  have htq : t ≤ y q.1 := by rw [← ht]; exact min_le_right _ _
  have hints : IsInteger (y p.1 - t) ∧ IsInteger (y q.1 - t) := by
    rcases le_total (y p.1) (y q.1) with h | h
    · rw [min_eq_left h] at ht
      rw [← ht]
      refine ⟨⟨0, by simp⟩, ?_⟩
      obtain ⟨z, hz⟩ := hd
      exact ⟨-z, by push_cast; linarith⟩
    · rw [min_eq_right h] at ht
      rw [← ht]
      exact ⟨hd, ⟨0, by simp⟩⟩
  generalize hy' : Function.update (Function.update y p.1 (y p.1 - t)) q.1 (y q.1 - t) = y'
  have vp : y' p.1 = y p.1 - t := by rw [← hy', Function.update_of_ne hpq, Function.update_self]
  have vq : y' q.1 = y q.1 - t := by rw [← hy', Function.update_self]
  have vo : ∀ k, k ≠ p.1 → k ≠ q.1 → y' k = y k := by
    intro k k1 k2
    rw [← hy', Function.update_of_ne k2, Function.update_of_ne k1]
  have notInt : ∀ k, I k = true → k ≠ p.1 ∧ k ≠ q.1 := by
    intro k hk
    constructor
    · rintro rfl; rw [hpI] at hk; simp at hk
    · rintro rfl; rw [hqI] at hk; simp at hk
  refine ⟨y', ⟨?_, ?_, ?_, ?_⟩, ?_, ?_, ?_⟩
  · intro r' hr'
    have hdot : r'.coefs.dot y' = r'.coefs.dot y := by
      obtain ⟨k, hk⟩ := List.mem_iff_getElem?.1 hr'
      by_cases hki : k = i
      · subst hki
        rw [hi] at hk
        obtain rfl := Option.some.inj hk
        rw [← hy']
        exact dot_shift hnd hpm hqm hpq hsum y t
      · rw [← hy', dot_update_ne, dot_update_ne]
        · rintro e he' hee
          exact hki (only p hpm hp1 k r' e.2 hk (by rw [← hee]; exact he'))
        · rintro e he' hee
          exact hki (only q hqm hq1 k r' e.2 hk (by rw [← hee]; exact he'))
    have := h1.rows r' hr'
    unfold Row.Sat at *
    rw [hdot]
    exact this
  · intro k hk
    by_cases k1 : k = p.1
    · subst k1
      intro _
      rw [vp, s3]; linarith
    · by_cases k2 : k = q.1
      · subst k2
        intro _
        rw [vq, s4]; linarith
      · rw [vo k k1 k2]; exact h1.lower k hk
  · intro k hk
    by_cases k1 : k = p.1
    · subst k1
      intro hb
      have := h1.upper p.1 hk hb
      rw [vp]; linarith
    · by_cases k2 : k = q.1
      · subst k2
        intro hb
        have := h1.upper q.1 hk hb
        rw [vq]; linarith
      · rw [vo k k1 k2]; exact h1.upper k hk
  · intro k hk hint
    obtain ⟨k1, k2⟩ := notInt k (hP k hint)
    rw [vo k k1 k2]
    exact h1.int k hk hint
  · apply integral_plus
    · apply integral_plus
      · intro k hk hint
        obtain ⟨k1, k2⟩ := notInt k hint
        rw [vo k k1 k2]
        exact h2 k hk hint
      · rw [vp]; exact hints.1
    · rw [vq]; exact hints.2
  · have hv : value P O y' = value P O y - t * (O.coef p.1 + O.coef q.1) := by
      rw [← hy', value_update hqN, value_update hpN, Function.update_of_ne hpq.symm]
      ring
    rw [hv]
    nlinarith [mul_nonneg ht0 ho]
  · intro k hk hint
    obtain ⟨k1, k2⟩ := notInt k (hP k hint)
    rw [vo k k1 k2]
    exact h4 k hk hint

end Cgl.PreInteger
