import Verif.MakeInts.Spec
import Verif.PreInteger.Props
import Mathlib.Data.Finset.Card
import Mathlib.Data.Finset.Range

/-! # How fractional columns are made integral without loss -/

namespace Cgl.MakeInts

open PreInteger (Objective colEntries value dot_update_ne dot_update_mem value_update isInteger_add' isInteger_sub'
  isInteger_mul' Rounds rounds_floor rounds_ceil mem_colEntries colEntries_mem)

variable {P : Prob} {O : Objective}

theorem near_crisp {v : ℚ} (h : near v = true) (hc : Crisp v) : IsInteger v := hc ⟨_, of_decide_eq_true h⟩

theorem isInteger_neg' {a : ℚ} (ha : IsInteger a) : IsInteger (-a) := by
  obtain ⟨m, rfl⟩ := ha
  exact ⟨-m, by push_cast; rfl⟩

theorem openC_iff {j : Nat} : openC P j = true ↔ Continuous P j := by
  unfold openC Continuous
  rw [Bool.and_eq_true, decide_eq_true_eq]
  simp

/-! ### What the tests say about a row -/

/-- What is known of a row that passes the tests for a column. -/
structure RowOk (P : Prob) (high : Bool) (r : Row) (a : ℚ) : Prop where
  unit : a = 1 ∨ a = -1
  ints : ∀ p ∈ r.coefs, fixed P p.1 = false → P.isInt p.1 = true → IsInteger p.2
  units : ∀ p ∈ r.coefs, fixed P p.1 = false → P.isInt p.1 = false → p.2 = 1 ∨ p.2 = -1
  part : IsInteger (fixedPart P r)
  lower : (if high then a = -1 else a = 1) → -P.inf < r.lb → IsInteger r.lb
  upper : (if high then a = 1 else a = -1) → r.ub < P.inf → IsInteger r.ub

theorem rhsOf_spec {r : Row} {v : ℚ} (h : rhsOf P r = some v) : v = fixedPart P r ∧ ∀ p ∈ r.coefs, spoils P p = false := by
  unfold rhsOf at h
  by_cases ha : r.coefs.any (spoils P) = true
  · rw [if_pos ha] at h; cases h
  · rw [if_neg ha] at h
    have h := Option.some.inj h
    refine ⟨?_, ?_⟩
    · rw [← h]
      unfold fixedPart
      clear ha h
      induction r.coefs with
      | nil => rfl
      | cons p es ih =>
        rw [List.filter_cons, List.map_cons, List.sum_cons]
        unfold fixed at *
        by_cases h : P.colUpper p.1 = P.colLower p.1
        · rw [if_pos (decide_eq_true h), if_pos h, List.map_cons, List.sum_cons, ih]
        · rw [if_neg (by simp [h]), if_neg h, ih, zero_add]
    · rw [Bool.not_eq_true, List.any_eq_false] at ha
      intro p hp
      simpa using ha p hp

theorem unit_of_abs {a : ℚ} (h : |a| = 1) : a = 1 ∨ a = -1 := (abs_eq (by norm_num)).1 h

theorem rowGood_spec (hC : Clean P) {high : Bool} {r : Row} {a : ℚ} (hr : r ∈ P.rows) (h : rowGood P high r a = true) :
    RowOk P high r a := by
  unfold rowGood at h
  cases hv : rhsOf P r with
  | none => rw [hv] at h; cases h
  | some v =>
    rw [hv] at h
    dsimp only at h
    rw [Bool.and_eq_true, Bool.and_eq_true, Bool.and_eq_true, decide_eq_true_eq, decide_eq_true_eq] at h
    obtain ⟨⟨⟨-, h2⟩, h3⟩, h4⟩ := h
    obtain ⟨rfl, h5⟩ := rhsOf_spec hv
    have hpart := near_crisp h2 (hC.rowBounds r hr).1
    have hlt := (abs_lt.1 (hC.parts r hr)).2
    have hu := unit_of_abs h3
    have back : ∀ b, IsInteger (b - fixedPart P r) → IsInteger b := by
      intro b hb
      have := isInteger_add' hb hpart
      rwa [sub_add_cancel] at this
    have keyL : (!decide (-10 ^ 20 < lowerValue r (fixedPart P r)) || near (lowerValue r (fixedPart P r))) = true →
        -P.inf < r.lb → IsInteger r.lb := by
      intro h6 h7
      obtain ⟨h8, h9⟩ := hC.lowers r hr h7
      unfold lowerValue at h6
      rw [if_pos ⟨hlt, h8⟩, decide_eq_true h9] at h6
      exact back _ (near_crisp (by simpa using h6) (hC.rowBounds r hr).2.1)
    have keyU : (!decide (upperValue r (fixedPart P r) < 10 ^ 20) || near (upperValue r (fixedPart P r))) = true →
        r.ub < P.inf → IsInteger r.ub := by
      intro h6 h7
      obtain ⟨h8, h9⟩ := hC.uppers r hr h7
      unfold upperValue at h6
      rw [if_pos ⟨hlt, h8⟩, decide_eq_true h9] at h6
      exact back _ (near_crisp (by simpa using h6) (hC.rowBounds r hr).2.2)
    refine ⟨hu, ?_, ?_, hpart, ?_, ?_⟩
    · intro p hp hf hi
      have := h5 p hp
      unfold spoils at this
      rw [hf, hi] at this
      exact near_crisp (by simpa using this) (hC.coefs r hr p hp)
    · intro p hp hf hi
      have := h5 p hp
      unfold spoils at this
      rw [hf, hi] at this
      exact unit_of_abs (by simpa using this)
    · intro h6
      apply keyL
      cases high with
      | true =>
        have : a = -1 := by simpa using h6
        subst this
        rw [if_pos (by norm_num)] at h4
        exact h4
      | false =>
        have : a = 1 := by simpa using h6
        subst this
        rw [if_pos (by norm_num)] at h4
        exact h4
    · intro h6
      apply keyU
      cases high with
      | true =>
        have : a = 1 := by simpa using h6
        subst this
        rw [if_neg (by norm_num)] at h4
        exact h4
      | false =>
        have : a = -1 := by simpa using h6
        subst this
        rw [if_neg (by norm_num)] at h4
        exact h4

/-! ### Rows with one fractional column -/

theorem dot_integral (z : Nat → ℚ) (es : SVec) (h1 : ∀ p ∈ es, fixed P p.1 = true → z p.1 = P.colLower p.1)
    (h2 : ∀ p ∈ es, fixed P p.1 = false → IsInteger (p.2 * z p.1)) :
    IsInteger (es.dot z - (es.map fun p => if P.colUpper p.1 = P.colLower p.1 then P.colLower p.1 * p.2 else 0).sum) := by
  induction es with
  | nil => exact ⟨0, by simp⟩
  | cons e es ih =>
    have hi := ih (fun p hp => h1 p (List.mem_cons_of_mem _ hp)) (fun p hp => h2 p (List.mem_cons_of_mem _ hp))
    have h1' := h1 e List.mem_cons_self
    have h2' := h2 e List.mem_cons_self
    rw [SVec.dot_cons, List.map_cons, List.sum_cons]
    unfold fixed at h1' h2'
    by_cases hf : P.colUpper e.1 = P.colLower e.1
    · rw [if_pos hf, h1' (decide_eq_true hf)]
      convert hi using 1
      ring
    · rw [if_neg hf]
      convert isInteger_add' (h2' (decide_eq_false hf)) hi using 1
      ring

theorem fixed_value (hC : Clean P) {x : Nat → ℚ} (hx : P.Feasible x) {j : Nat} (hj : j < P.nCols) (hf : fixed P j = true) :
    x j = P.colLower j := by
  have h1 : P.colUpper j = P.colLower j := of_decide_eq_true hf
  obtain ⟨h2, h3⟩ := hC.fixed j hj h1
  have h4 := hx.lower j hj h2
  have h5 := hx.upper j hj h3
  linarith

theorem fixed_false {j : Nat} (h : Continuous P j) : fixed P j = false := decide_eq_false h.1.ne'

theorem continuous_of (hC : Clean P) {j : Nat} (hj : j < P.nCols) (h1 : fixed P j = false) (h2 : P.isInt j = false) :
    Continuous P j :=
  ⟨lt_of_le_of_ne (hC.order j hj) (Ne.symm (of_decide_eq_false h1)), h2⟩

/-- If the other continuous columns of a row are integral, what the column adds to the row is integral up to an integer. -/
theorem others (hC : Clean P) {x : Nat → ℚ} (hx : P.Feasible x) {high : Bool} {r : Row} {i : Nat} {a : ℚ} (hr : r ∈ P.rows)
    (hR : RowOk P high r a) (hi : (i, a) ∈ r.coefs) (hc : Continuous P i)
    (ho : ∀ p ∈ r.coefs, Continuous P p.1 → p.1 ≠ i → IsInteger (x p.1)) : IsInteger (r.coefs.dot x - a * x i) := by
  have h1 := dot_update_mem (hC.wf.nodup r hr) (x := x) (w := 0) hi
  have h2 : r.coefs.dot x - a * x i = r.coefs.dot (Function.update x i 0) := by rw [h1]; ring
  rw [h2]
  have h3 : IsInteger (r.coefs.dot (Function.update x i 0) - fixedPart P r) := by
    apply dot_integral
    · intro p hp hf
      have hne : p.1 ≠ i := by
        intro h
        rw [h, fixed_false hc] at hf
        cases hf
      rw [Function.update_of_ne hne]
      exact fixed_value hC hx (hC.wf.cols r hr p hp) hf
    · intro p hp hf
      by_cases hne : p.1 = i
      · rw [hne, Function.update_self, mul_zero]; exact ⟨0, by simp⟩
      · rw [Function.update_of_ne hne]
        cases hint : P.isInt p.1 with
        | true => exact isInteger_mul' (hR.ints p hp hf hint) (hx.int p.1 (hC.wf.cols r hr p hp) hint)
        | false =>
          have h4 := ho p hp (continuous_of hC (hC.wf.cols r hr p hp) hf hint) hne
          rcases hR.units p hp hf hint with h5 | h5
          · rw [h5, one_mul]; exact h4
          · rw [h5, neg_one_mul]; exact isInteger_neg' h4
  have := isInteger_add' h3 hR.part
  rwa [sub_add_cancel] at this

theorem count_one {r : Row} (h : countOf P r ≤ 1) {p q : Nat × ℚ} (hp : p ∈ r.coefs)
    (hq : q ∈ r.coefs) (cp : Continuous P p.1) (cq : Continuous P q.1) : p = q := by
  unfold countOf at h
  rw [List.countP_eq_length_filter] at h
  have hm : ∀ p ∈ r.coefs, Continuous P p.1 → p ∈ r.coefs.filter fun p => !fixed P p.1 && !P.isInt p.1 := by
    intro p hp c
    refine List.mem_filter.2 ⟨hp, ?_⟩
    rw [fixed_false c, c.2]; rfl
  have h1 := hm p hp cp
  have h2 := hm q hq cq
  match he : (r.coefs.filter fun p => !fixed P p.1 && !P.isInt p.1), h with
  | [], _ => rw [he] at h1; cases h1
  | [t], _ =>
    rw [he] at h1 h2
    rw [List.mem_singleton.1 h1, List.mem_singleton.1 h2]
  | _ :: _ :: _, h => rw [he] at h; simp at h

/-- A column whose row has no other continuous column. -/
theorem alone (hC : Clean P) {x : Nat → ℚ} (hx : P.Feasible x) {high : Bool} {r : Row} {i : Nat} {a : ℚ} (hr : r ∈ P.rows)
    (hR : RowOk P high r a) (hi : (i, a) ∈ r.coefs) (hc : Continuous P i) (h1 : countOf P r ≤ 1) :
    IsInteger (r.coefs.dot x - a * x i) :=
  others hC hx hr hR hi hc fun _ hp cp hne => absurd (congrArg Prod.fst (count_one h1 hp hi cp hc)) hne

/-- The row forces the column. -/
def Forced (P : Prob) (j : Nat) : Prop :=
  ∃ r ∈ P.rows, ∃ a high, (j, a) ∈ r.coefs ∧ r.lb = r.ub ∧ countOf P r ≤ 1 ∧ RowOk P high r a

theorem forced_integer (hC : Clean P) {x : Nat → ℚ} (hx : P.Feasible x) {j : Nat} (hc : Continuous P j) (h : Forced P j) :
    IsInteger (x j) := by
  obtain ⟨r, hr, a, high, hm, he, h1, hR⟩ := h
  have h2 := alone hC hx hr hR hm hc h1
  obtain ⟨e1, e2⟩ := hC.equations r hr he
  have h3 := (hx.rows r hr).1 e1
  have h4 := (hx.rows r hr).2 e2
  have h5 : r.coefs.dot x = r.lb := le_antisymm (by linarith) h3
  have h6 : IsInteger r.lb := by
    rcases hR.unit with h | h <;> cases high <;>
      first
      | exact hR.lower (by simpa using h) e1
      | (rw [he]; exact hR.upper (by simpa using h) e2)
  rw [h5] at h2
  have h7 := isInteger_sub' h6 h2
  have h8 : r.lb - (r.lb - a * x j) = a * x j := by ring
  rw [h8] at h7
  rcases hR.unit with h | h
  · rwa [h, one_mul] at h7
  · rw [h, neg_one_mul] at h7
    have := isInteger_neg' h7
    rwa [neg_neg] at this

/-! ### Moves -/

/-- What is known of a column that passes the tests. -/
structure ColOk (P : Prob) (O : Objective) (high : Bool) (j : Nat) : Prop where
  lt : j < P.nCols
  cont : Continuous P j
  lower : IsInteger (P.colLower j)
  upper : IsInteger (P.colUpper j)
  rows : ∀ r ∈ P.rows, ∀ a, (j, a) ∈ r.coefs → RowOk P high r a
  cost : if high then O.direction * O.coef j ≤ 0 else 0 ≤ O.direction * O.coef j

theorem rounds_lower {l v w inf : ℚ} (hl : IsInteger l) (h : Rounds v w) (hv : lbOk inf l v) : lbOk inf l w := by
  obtain ⟨z, rfl⟩ := hl
  exact fun hf => (h z).2 (hv hf)

theorem rounds_upper {u v w inf : ℚ} (hu : IsInteger u) (h : Rounds v w) (hv : ubOk inf u v) : ubOk inf u w := by
  obtain ⟨z, rfl⟩ := hu
  exact fun hf => (h z).1 (hv hf)

theorem feasible_update {x : Nat → ℚ} (hx : P.Feasible x) {j : Nat} {w : ℚ} (hi : P.isInt j = false)
    (hl : lbOk P.inf (P.colLower j) w) (hu : ubOk P.inf (P.colUpper j) w)
    (hr : ∀ r ∈ P.rows, r.Sat P.inf (Function.update x j w)) : P.Feasible (Function.update x j w) := by
  refine ⟨hr, ?_, ?_, ?_⟩
  · intro k hk
    by_cases h : k = j
    · rw [h, Function.update_self]; exact hl
    · rw [Function.update_of_ne h]; exact hx.lower k hk
  · intro k hk
    by_cases h : k = j
    · rw [h, Function.update_self]; exact hu
    · rw [Function.update_of_ne h]; exact hx.upper k hk
  · intro k hk hik
    rw [Function.update_of_ne (by rintro rfl; rw [hi] at hik; cases hik)]
    exact hx.int k hk hik

theorem sat_other {x : Nat → ℚ} (hx : P.Feasible x) {j : Nat} {w : ℚ} {r : Row} (hr : r ∈ P.rows)
    (hn : ∀ a, (j, a) ∉ r.coefs) : r.Sat P.inf (Function.update x j w) := by
  have : r.coefs.dot (Function.update x j w) = r.coefs.dot x := by
    apply dot_update_ne
    rintro ⟨k, b⟩ hp rfl
    exact hn b hp
  unfold Row.Sat
  rw [this]
  exact hx.rows r hr

/-- Rounding a value in an integral row, in the direction the column wants. -/
theorem sat_round {d v w a : ℚ} {high : Bool} {r : Row} (hR : RowOk P high r a) (hint : IsInteger (d - a * v))
    (hs : lbOk P.inf r.lb d ∧ ubOk P.inf r.ub d) (hw : Rounds v w) (hd : if high then v ≤ w else w ≤ v) :
    lbOk P.inf r.lb (d + a * (w - v)) ∧ ubOk P.inf r.ub (d + a * (w - v)) := by
  obtain ⟨n, hn⟩ := hint
  constructor
  · intro hf
    have h1 := hs.1 hf
    have h2 := hR.lower
    rcases hR.unit with h | h <;> subst h <;> cases high <;> simp only [if_true, Bool.false_eq_true, if_false] at hd h2
    · obtain ⟨z, hz⟩ := h2 trivial hf
      have := (hw (z - n)).2 (by push_cast; linarith)
      push_cast at this
      linarith
    · linarith
    · linarith
    · obtain ⟨z, hz⟩ := h2 trivial hf
      have := (hw (n - z)).1 (by push_cast; linarith)
      push_cast at this
      linarith
  · intro hf
    have h1 := hs.2 hf
    have h2 := hR.upper
    rcases hR.unit with h | h <;> subst h <;> cases high <;> simp only [if_true, Bool.false_eq_true, if_false] at hd h2
    · linarith
    · obtain ⟨z, hz⟩ := h2 trivial hf
      have := (hw (z - n)).1 (by push_cast; linarith)
      push_cast at this
      linarith
    · obtain ⟨z, hz⟩ := h2 trivial hf
      have := (hw (n - z)).2 (by push_cast; linarith)
      push_cast at this
      linarith
    · linarith

/-- What a move may do. -/
structure Better (P : Prob) (O : Objective) (G : Nat → Prop) (x y : Nat → ℚ) : Prop where
  feasible : P.Feasible y
  value : O.direction * PreInteger.value P O y ≤ O.direction * PreInteger.value P O x
  same : ∀ j < P.nCols, P.isInt j = true → y j = x j
  fewer : ∀ j < P.nCols, G j → ¬ IsInteger (y j) → ¬ IsInteger (x j)

theorem Better.trans {G : Nat → Prop} {x y z : Nat → ℚ} (h : Better P O G x y) (k : Better P O G y z) : Better P O G x z :=
  ⟨k.feasible, k.value.trans h.value, fun j hj hi => (k.same j hj hi).trans (h.same j hj hi),
    fun j hj hg hy => h.fewer j hj hg (k.fewer j hj hg hy)⟩

theorem better_update {G : Nat → Prop} {x : Nat → ℚ} {j : Nat} {w : ℚ} (hj : j < P.nCols) (hi : P.isInt j = false)
    (hf : P.Feasible (Function.update x j w)) (hc : O.direction * (O.coef j * (w - x j)) ≤ 0)
    (hx : G j → ¬ IsInteger w → ¬ IsInteger (x j)) : Better P O G x (Function.update x j w) := by
  refine ⟨hf, ?_, ?_, ?_⟩
  · rw [value_update hj, mul_add]; linarith
  · intro k _ hk
    rw [Function.update_of_ne (by rintro rfl; rw [hi] at hk; cases hk)]
  · intro k _ hk hy
    by_cases h : k = j
    · subst h
      rw [Function.update_self] at hy
      exact hx hk hy
    · rwa [Function.update_of_ne h] at hy

theorem not_isInteger_round {G : Prop} {w v : ℚ} (hw : IsInteger w) : G → ¬ IsInteger w → ¬ IsInteger v :=
  fun _ h => absurd hw h

/-- The rounded value in the direction a column wants. -/
theorem wanted (hk : ColOk P O high j) (v : ℚ) : ∃ w, IsInteger w ∧ Rounds v w ∧ (if high then v ≤ w else w ≤ v) ∧
    O.direction * (O.coef j * (w - v)) ≤ 0 := by
  have hc := hk.cost
  cases high with
  | true =>
    simp only [if_true] at hc ⊢
    refine ⟨_, ⟨⌈v⌉, rfl⟩, rounds_ceil v, Int.le_ceil v, ?_⟩
    rw [← mul_assoc]
    exact mul_nonpos_of_nonpos_of_nonneg hc (sub_nonneg.2 (Int.le_ceil v))
  | false =>
    simp only [Bool.false_eq_true, if_false] at hc ⊢
    refine ⟨_, ⟨⌊v⌋, rfl⟩, rounds_floor v, Int.floor_le v, ?_⟩
    rw [← mul_assoc]
    exact mul_nonpos_of_nonneg_of_nonpos hc (sub_nonpos.2 (Int.floor_le v))

/-- A column that is the only continuous one in its rows. -/
theorem move_alone (hC : Clean P) {G : Nat → Prop} {high : Bool} {j : Nat} (hk : ColOk P O high j)
    (h1 : ∀ r ∈ P.rows, ∀ a, (j, a) ∈ r.coefs → countOf P r ≤ 1) {x : Nat → ℚ} (hx : P.Feasible x) :
    ∃ y, Better P O G x y ∧ IsInteger (y j) := by
  obtain ⟨w, w1, w2, w3, w4⟩ := wanted hk (x j)
  refine ⟨Function.update x j w, ?_, by rw [Function.update_self]; exact w1⟩
  refine better_update hk.lt hk.cont.2 ?_ w4 (not_isInteger_round w1)
  refine feasible_update hx hk.cont.2 (rounds_lower hk.lower w2 (hx.lower j hk.lt))
    (rounds_upper hk.upper w2 (hx.upper j hk.lt)) ?_
  intro r hr
  by_cases hm : ∃ a, (j, a) ∈ r.coefs
  · obtain ⟨a, ha⟩ := hm
    unfold Row.Sat
    rw [dot_update_mem (hC.wf.nodup r hr) ha]
    exact sat_round (hk.rows r hr a ha) (alone hC hx hr (hk.rows r hr a ha) ha hk.cont (h1 r hr a ha)) (hx.rows r hr) w2 w3
  · exact sat_other hx hr fun a ha => hm ⟨a, ha⟩

/-- The column is in no other row. -/
def Only (P : Prob) (j : Nat) (r : Row) : Prop := ∀ r' ∈ P.rows, ∀ a, (j, a) ∈ r'.coefs → r' = r

/-- A column that wants to be low and is in one row can be rounded down, or it makes the row meet an integral bound. -/
theorem move_tight (hC : Clean P) {G : Nat → Prop} {j : Nat} (hk : ColOk P O false j) {r : Row} (hr : r ∈ P.rows) {a : ℚ}
    (ha : (j, a) ∈ r.coefs) (ho : Only P j r) {x : Nat → ℚ} (hx : P.Feasible x) (hf : ¬ IsInteger (x j)) :
    ∃ y, Better P O G x y ∧ (IsInteger (y j) ∨ IsInteger (r.coefs.dot y)) := by
  have hR := hk.rows r hr a ha
  have hcost := hk.cost
  simp only [Bool.false_eq_true, if_false] at hcost
  have hfl := Int.floor_le (x j)
  -- a value between the floor and the old one
  have go : ∀ w, (⌊x j⌋ : ℚ) ≤ w → w ≤ x j →
      (lbOk P.inf r.lb (r.coefs.dot x + a * (w - x j)) ∧ ubOk P.inf r.ub (r.coefs.dot x + a * (w - x j))) →
      Better P O G x (Function.update x j w) := by
    intro w w1 w2 w3
    refine better_update hk.lt hk.cont.2 ?_ ?_ (fun _ _ => hf)
    · refine feasible_update hx hk.cont.2 ?_ ?_ ?_
      · have := rounds_lower hk.lower (rounds_floor (x j)) (hx.lower j hk.lt)
        exact fun h => (this h).trans w1
      · exact fun h => w2.trans (hx.upper j hk.lt h)
      · intro r' hr'
        by_cases hm : ∃ b, (j, b) ∈ r'.coefs
        · obtain ⟨b, hb⟩ := hm
          have := ho r' hr' b hb
          subst this
          unfold Row.Sat
          rw [dot_update_mem (hC.wf.nodup _ hr) ha]
          exact w3
        · exact sat_other hx hr' fun b hb => hm ⟨b, hb⟩
    · rw [← mul_assoc]
      exact mul_nonpos_of_nonneg_of_nonpos hcost (sub_nonpos.2 w2)
  by_cases hs : lbOk P.inf r.lb (r.coefs.dot x + a * (⌊x j⌋ - x j)) ∧ ubOk P.inf r.ub (r.coefs.dot x + a * (⌊x j⌋ - x j))
  · exact ⟨_, go _ le_rfl hfl hs, Or.inl (by rw [Function.update_self]; exact ⟨_, rfl⟩)⟩
  · have hrow := hx.rows r hr
    rcases hR.unit with h | h
    · -- the row stops at its lower bound
      have hb : -P.inf < r.lb ∧ r.coefs.dot x + a * (⌊x j⌋ - x j) < r.lb := by
        by_contra hcon
        refine hs ⟨fun h1 => ?_, fun h1 => ?_⟩
        · by_contra h2
          exact hcon ⟨h1, not_le.1 h2⟩
        · rw [h, one_mul]; linarith [hrow.2 h1]
      have hl := hrow.1 hb.1
      rw [h, one_mul] at hb
      have hd : r.coefs.dot x + a * ((x j - (r.coefs.dot x - r.lb)) - x j) = r.lb := by rw [h]; ring
      refine ⟨_, go (x j - (r.coefs.dot x - r.lb)) (by linarith [hb.2]) (by linarith) ?_, Or.inr ?_⟩
      · rw [hd]; exact ⟨fun _ => le_rfl, fun h1 => hl.trans (hrow.2 h1)⟩
      · rw [dot_update_mem (hC.wf.nodup r hr) ha, hd]
        exact hR.lower (by simpa using h) hb.1
    · have hb : r.ub < P.inf ∧ r.ub < r.coefs.dot x + a * (⌊x j⌋ - x j) := by
        by_contra hcon
        refine hs ⟨fun h1 => ?_, fun h1 => ?_⟩
        · rw [h, neg_one_mul]; linarith [hrow.1 h1]
        · by_contra h2
          exact hcon ⟨h1, not_le.1 h2⟩
      have hl := hrow.2 hb.1
      rw [h, neg_one_mul] at hb
      have hd : r.coefs.dot x + a * ((x j - (r.ub - r.coefs.dot x)) - x j) = r.ub := by rw [h]; ring
      refine ⟨_, go (x j - (r.ub - r.coefs.dot x)) (by linarith [hb.2]) (by linarith) ?_, Or.inr ?_⟩
      · rw [hd]; exact ⟨fun h1 => (hrow.1 h1).trans hl, fun _ => le_rfl⟩
      · rw [dot_update_mem (hC.wf.nodup r hr) ha, hd]
        exact hR.upper (by simpa using h) hb.1

/-- How far a value can be moved without crossing an integer. -/
theorem reach (u : ℚ) {t : ℚ} (ht : t = 1 ∨ t = -1) :
    ∃ D, 0 ≤ D ∧ (∀ s, 0 ≤ s → s ≤ D → Rounds u (u + t * s)) ∧ IsInteger (u + t * D) := by
  rcases ht with h | h <;> subst h
  · refine ⟨⌈u⌉ - u, sub_nonneg.2 (Int.le_ceil u), fun s s1 s2 z => ⟨fun h => ?_, fun h => ?_⟩, ⟨⌈u⌉, by ring⟩⟩
    · have := (rounds_ceil u z).1 h; linarith
    · linarith
  · refine ⟨u - ⌊u⌋, sub_nonneg.2 (Int.floor_le u), fun s s1 s2 z => ⟨fun h => ?_, fun h => ?_⟩, ⟨⌊u⌋, by ring⟩⟩
    · linarith
    · have := (rounds_floor u z).2 h; linarith

/-- Two values move together until one is integral. -/
theorem pair_step (u v c : ℚ) {σ : ℚ} (hσ : σ = 1 ∨ σ = -1) : ∃ s, c * s ≤ 0 ∧ Rounds u (u + s) ∧ Rounds v (v + σ * s) ∧
    (IsInteger (u + s) ∨ IsInteger (v + σ * s)) := by
  obtain ⟨t, ht, hc⟩ : ∃ t : ℚ, (t = 1 ∨ t = -1) ∧ c * t ≤ 0 := by
    rcases le_total c 0 with h | h
    · exact ⟨1, Or.inl rfl, by linarith⟩
    · exact ⟨-1, Or.inr rfl, by linarith⟩
  have hst : σ * t = 1 ∨ σ * t = -1 := by
    rcases hσ with h | h <;> rcases ht with h' | h' <;> rw [h, h'] <;> norm_num
  obtain ⟨D, d1, d2, d3⟩ := reach u ht
  obtain ⟨E, e1, e2, e3⟩ := reach v hst
  have e2' : ∀ s, 0 ≤ s → s ≤ E → Rounds v (v + σ * (t * s)) := fun s a b => by rw [← mul_assoc]; exact e2 s a b
  rcases le_total D E with h | h
  · refine ⟨t * D, ?_, d2 D d1 le_rfl, e2' D d1 h, Or.inl d3⟩
    rw [← mul_assoc]; exact mul_nonpos_of_nonpos_of_nonneg hc d1
  · refine ⟨t * E, ?_, d2 E e1 h, e2' E e1 le_rfl, Or.inr (by rw [← mul_assoc]; exact e3)⟩
    rw [← mul_assoc]; exact mul_nonpos_of_nonpos_of_nonneg hc e1

/-- Two columns of a row that are in no other row. -/
theorem move_pair (hC : Clean P) {G : Nat → Prop} {i k : Nat} (hi : ColOk P O false i) (hk : ColOk P O false k) {r : Row}
    (hr : r ∈ P.rows) {a b : ℚ} (ha : (i, a) ∈ r.coefs) (hb : (k, b) ∈ r.coefs) (hik : i ≠ k) (oi : Only P i r)
    (ok : Only P k r) {x : Nat → ℚ} (hx : P.Feasible x) (fi : ¬ IsInteger (x i)) (fk : ¬ IsInteger (x k)) :
    ∃ y, Better P O G x y ∧ (IsInteger (y i) ∨ IsInteger (y k)) := by
  have ua := (hi.rows r hr a ha).unit
  have ub := (hk.rows r hr b hb).unit
  have hs : -(a * b) = 1 ∨ -(a * b) = -1 := by
    rcases ua with h | h <;> rcases ub with h' | h' <;> rw [h, h'] <;> norm_num
  have hab : a + b * -(a * b) = 0 := by
    rcases ub with h' | h' <;> rw [h'] <;> ring
  obtain ⟨s, s1, s2, s3, s4⟩ := pair_step (x i) (x k) (O.direction * (O.coef i + O.coef k * -(a * b))) hs
  set y := Function.update (Function.update x i (x i + s)) k (x k + -(a * b) * s) with hy
  have yi : y i = x i + s := by rw [hy, Function.update_of_ne hik, Function.update_self]
  have yk : y k = x k + -(a * b) * s := by rw [hy, Function.update_self]
  have yo : ∀ j, j ≠ i → j ≠ k → y j = x j := by
    intro j j1 j2
    rw [hy, Function.update_of_ne j2, Function.update_of_ne j1]
  refine ⟨y, ⟨⟨?_, ?_, ?_, ?_⟩, ?_, ?_, ?_⟩, ?_⟩
  · intro r' hr'
    have hd : r'.coefs.dot y = r'.coefs.dot x := by
      by_cases hm : ∃ c, (i, c) ∈ r'.coefs
      · obtain ⟨c, hc⟩ := hm
        have := oi r' hr' c hc
        subst this
        rw [hy, dot_update_mem (hC.wf.nodup _ hr) hb, dot_update_mem (hC.wf.nodup _ hr) ha, Function.update_of_ne hik.symm]
        linear_combination s * hab
      · rw [hy, dot_update_ne, dot_update_ne]
        · rintro ⟨j, c⟩ hp rfl
          exact hm ⟨c, hp⟩
        · rintro ⟨j, c⟩ hp rfl
          have := ok r' hr' c hp
          subst this
          exact hm ⟨a, ha⟩
    unfold Row.Sat
    rw [hd]
    exact hx.rows r' hr'
  · intro j hj
    by_cases j1 : j = i
    · subst j1; rw [yi]; exact rounds_lower hi.lower s2 (hx.lower j hj)
    · by_cases j2 : j = k
      · subst j2; rw [yk]; exact rounds_lower hk.lower s3 (hx.lower j hj)
      · rw [yo j j1 j2]; exact hx.lower j hj
  · intro j hj
    by_cases j1 : j = i
    · subst j1; rw [yi]; exact rounds_upper hi.upper s2 (hx.upper j hj)
    · by_cases j2 : j = k
      · subst j2; rw [yk]; exact rounds_upper hk.upper s3 (hx.upper j hj)
      · rw [yo j j1 j2]; exact hx.upper j hj
  · intro j hj hint
    rw [yo j (by rintro rfl; rw [hi.cont.2] at hint; cases hint) (by rintro rfl; rw [hk.cont.2] at hint; cases hint)]
    exact hx.int j hj hint
  · rw [hy, value_update hk.lt, value_update hi.lt, Function.update_of_ne hik.symm]
    linarith
  · intro j hj hint
    exact yo j (by rintro rfl; rw [hi.cont.2] at hint; cases hint) (by rintro rfl; rw [hk.cont.2] at hint; cases hint)
  · intro j _ _ hfr
    by_cases j1 : j = i
    · rw [j1]; exact fi
    · by_cases j2 : j = k
      · rw [j2]; exact fk
      · rwa [yo j j1 j2] at hfr
  · rw [yi, yk]; exact s4

/-! ### All columns -/

/-- Why a column may be integer. -/
inductive Kind (P : Prob) (O : Objective) (G : Nat → Prop) (j : Nat) : Prop
  /-- it is the only continuous one in its rows -/
  | alone (high : Bool) (h : ColOk P O high j) (h1 : ∀ r ∈ P.rows, ∀ a, (j, a) ∈ r.coefs → countOf P r ≤ 1)
  /-- an equation forces it -/
  | forced (h : Continuous P j) (hf : Forced P j)
  /-- it is in one row, and so are the other continuous columns there, unless an equation forces them -/
  | shared (h : ColOk P O false j) (r : Row) (hr : r ∈ P.rows) (a : ℚ) (ha : (j, a) ∈ r.coefs) (ho : Only P j r)
      (hs : ∀ p ∈ r.coefs, Continuous P p.1 → Forced P p.1 ∨ (G p.1 ∧ ColOk P O false p.1 ∧ Only P p.1 r))

theorem step (hC : Clean P) {G : Nat → Prop} {j : Nat} (hj : j < P.nCols) (hg : G j) (hk : Kind P O G j) {x : Nat → ℚ}
    (hx : P.Feasible x) (hf : ¬ IsInteger (x j)) :
    ∃ y, Better P O G x y ∧ ∃ k < P.nCols, G k ∧ ¬ IsInteger (x k) ∧ IsInteger (y k) := by
  cases hk with
  | alone high h h1 =>
    obtain ⟨y, y1, y2⟩ := move_alone hC (G := G) h h1 hx
    exact ⟨y, y1, j, hj, hg, hf, y2⟩
  | forced h hfo => exact absurd (forced_integer hC hx h hfo) hf
  | shared h r hr a ha ho hs =>
    obtain ⟨y, y1, y2⟩ := move_tight hC (G := G) h hr ha ho hx hf
    by_cases hyj : IsInteger (y j)
    · exact ⟨y, y1, j, hj, hg, hf, hyj⟩
    · have hdot := y2.resolve_left hyj
      have hex : ∃ p ∈ r.coefs, Continuous P p.1 ∧ p.1 ≠ j ∧ ¬ IsInteger (y p.1) := by
        by_contra hcon
        have h1 := others hC y1.feasible hr (h.rows r hr a ha) ha h.cont fun p hp hc hne => by
          by_contra hni
          exact hcon ⟨p, hp, hc, hne, hni⟩
        have h2 := isInteger_sub' hdot h1
        have h3 : r.coefs.dot y - (r.coefs.dot y - a * y j) = a * y j := by ring
        rw [h3] at h2
        rcases (h.rows r hr a ha).unit with h | h
        · rw [h, one_mul] at h2; exact hyj h2
        · rw [h, neg_one_mul] at h2
          have := isInteger_neg' h2
          rw [neg_neg] at this
          exact hyj this
      obtain ⟨p, hp, hc, hne, hni⟩ := hex
      rcases hs p hp hc with hfo | ⟨gp, op, only⟩
      · exact absurd (forced_integer hC y1.feasible hc hfo) hni
      · obtain ⟨z, z1, z2⟩ := move_pair hC (G := G) h op hr ha hp (Ne.symm hne) ho only y1.feasible hyj hni
        refine ⟨z, y1.trans z1, ?_⟩
        rcases z2 with hz | hz
        · exact ⟨j, hj, hg, hf, hz⟩
        · exact ⟨p.1, op.lt, gp, y1.fewer p.1 op.lt gp hni, hz⟩

open Classical in
/-- The columns of a set at which a point is fractional. -/
noncomputable def fractional (P : Prob) (G : Nat → Prop) (x : Nat → ℚ) : Finset Nat :=
  (Finset.range P.nCols).filter fun j => G j ∧ ¬ IsInteger (x j)

open Classical in
theorem mem_fractional {G : Nat → Prop} {x : Nat → ℚ} {j : Nat} :
    j ∈ fractional P G x ↔ j < P.nCols ∧ G j ∧ ¬ IsInteger (x j) := by
  unfold fractional
  rw [Finset.mem_filter, Finset.mem_range]

theorem settle (hC : Clean P) {G : Nat → Prop} (hk : ∀ j < P.nCols, G j → Kind P O G j) :
    ∀ (n : Nat) (x : Nat → ℚ), (fractional P G x).card = n → P.Feasible x →
      ∃ y, Better P O G x y ∧ ∀ j < P.nCols, G j → IsInteger (y j) := by
  intro n
  induction n using Nat.strong_induction_on with
  | _ n ih =>
    intro x hn hx
    by_cases hall : ∀ j < P.nCols, G j → IsInteger (x j)
    · exact ⟨x, ⟨hx, le_rfl, fun _ _ _ => rfl, fun _ _ _ h => h⟩, hall⟩
    · push Not at hall
      obtain ⟨j, hj, hg, hf⟩ := hall
      obtain ⟨y, y1, k, k1, k2, k3, k4⟩ := step hC hj hg (hk j hj hg) hx hf
      have hlt : (fractional P G y).card < n := by
        rw [← hn]
        apply Finset.card_lt_card
        refine Finset.ssubset_iff_subset_ne.2 ⟨?_, ?_⟩
        · intro i hi
          rw [mem_fractional] at hi ⊢
          exact ⟨hi.1, hi.2.1, y1.fewer i hi.1 hi.2.1 hi.2.2⟩
        · intro he
          have h1 := mem_fractional.2 ⟨k1, k2, k3⟩
          rw [← he] at h1
          exact (mem_fractional.1 h1).2.2 k4
      obtain ⟨z, z1, z2⟩ := ih _ hlt y rfl y1.feasible
      exact ⟨z, y1.trans z1, z2⟩

end Cgl.MakeInts
