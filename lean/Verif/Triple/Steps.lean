import Verif.Triple.Lines

/-! # Bounds from two rows of two entries -/

namespace Cgl.Triple

/-! ### Points without large values -/

theorem abs_dot_le {v : SVec} {x : Nat → ℚ} (h : ∀ p ∈ v, |p.2| ≤ 10 ^ 20 ∧ |x p.1| ≤ 10 ^ 200) :
    |SVec.dot v x| ≤ v.length * 10 ^ 220 := by
  induction v with
  | nil => simp
  | cons p v ih =>
    rw [SVec.dot_cons, List.length_cons]
    have h1 := ih fun q hq => h q (List.mem_cons_of_mem _ hq)
    obtain ⟨h2, h3⟩ := h p (by simp)
    have h4 : |p.2 * x p.1| ≤ 10 ^ 220 := by
      rw [abs_mul]
      calc |p.2| * |x p.1| ≤ 10 ^ 20 * 10 ^ 200 := mul_le_mul h2 h3 (abs_nonneg _) (by positivity)
        _ = 10 ^ 220 := by rw [← pow_add]
    have h5 := abs_add_le (p.2 * x p.1) (SVec.dot v x)
    push_cast
    linarith

theorem dot_within {P : Prob} (hs : Sized P) {x : Nat → ℚ} (hx : Within P x) {r : Row} (hr : r ∈ P.rows)
    (hl : r.coefs.length ≤ 3) : -P.inf ≤ r.coefs.dot x ∧ r.coefs.dot x ≤ P.inf := by
  have h1 := abs_dot_le (v := r.coefs) (x := x) fun p hp =>
    ⟨(hs.coefs r hr p hp).2, hx p.1 (hs.wf.cols r hr p hp)⟩
  have h2 : (r.coefs.length : ℚ) ≤ 3 := by exact_mod_cast hl
  have h3 : (r.coefs.length : ℚ) * 10 ^ 220 ≤ 3 * 10 ^ 220 := mul_le_mul_of_nonneg_right h2 (by positivity)
  have h4 : (3 : ℚ) * 10 ^ 220 ≤ 10 ^ 250 := by norm_num
  have h5 := hs.inf
  have h6 := abs_le.mp (le_trans h1 (le_trans h3 (le_trans h4 h5)))
  exact ⟨h6.1, h6.2⟩

theorem sat_iff {P : Prob} (hs : Sized P) {x : Nat → ℚ} (hx : Within P x) {r : Row} (hr : r ∈ P.rows)
    (hl : r.coefs.length ≤ 3) : r.Sat P.inf x ↔ r.lb ≤ r.coefs.dot x ∧ r.coefs.dot x ≤ r.ub := by
  obtain ⟨h1, h2⟩ := dot_within hs hx hr hl
  constructor
  · rintro ⟨a, b⟩
    constructor
    · by_cases h : -P.inf < r.lb
      · exact a h
      · linarith
    · by_cases h : r.ub < P.inf
      · exact b h
      · linarith
  · rintro ⟨a, b⟩; exact ⟨fun _ => a, fun _ => b⟩

theorem col_within {P : Prob} (hs : Sized P) {x : Nat → ℚ} (hx : Within P x) (hf : P.Feasible x) {j : Nat} (hj : j < P.nCols) :
    P.colLower j ≤ x j ∧ x j ≤ P.colUpper j := by
  have h1 := abs_le.mp (hx j hj)
  have h4 : (10 : ℚ) ^ 200 ≤ 10 ^ 250 := by norm_num
  have h5 := hs.inf
  constructor
  · by_cases h : -P.inf < P.colLower j
    · exact hf.lower j hj h
    · linarith
  · by_cases h : P.colUpper j < P.inf
    · exact hf.upper j hj h
    · linarith

theorem lbOk_mono {inf l l' v : ℚ} (h : l ≤ l') (hk : lbOk inf l' v) : lbOk inf l v :=
  fun h1 => le_trans h (hk (lt_of_lt_of_le h1 h))

theorem ubOk_mono {inf u u' v : ℚ} (h : u' ≤ u) (hk : ubOk inf u' v) : ubOk inf u v :=
  fun h1 => le_trans (hk (lt_of_le_of_lt h h1)) h

/-! ### New bounds -/

theorem implLo_le {l u e y : ℚ} (he : e ≠ 0) (h1 : l ≤ e * y) (h2 : e * y ≤ u) : implLo l u e ≤ y := by
  unfold implLo
  by_cases h : 0 < e
  · rw [if_pos h, div_le_iff₀ h]; linarith
  · rw [if_neg h, div_le_iff_of_neg (lt_of_le_of_ne (not_lt.mp h) he)]; linarith

theorem le_implUp {l u e y : ℚ} (he : e ≠ 0) (h1 : l ≤ e * y) (h2 : e * y ≤ u) : y ≤ implUp l u e := by
  unfold implUp
  by_cases h : 0 < e
  · rw [if_pos h, le_div_iff₀ h]; linarith
  · rw [if_neg h, le_div_iff_of_neg (lt_of_le_of_ne (not_lt.mp h) he)]; linarith

theorem newLower_le {cl lo0 lo1 y : ℚ} (hc : cl ≤ y) (hy : IsInteger y) (h : min lo0 lo1 ≤ y) :
    newLower true cl lo0 lo1 ≤ y := by
  unfold newLower
  split
  · rw [if_pos rfl]
    obtain ⟨z, rfl⟩ := hy
    have : ⌈min lo0 lo1 - 1 / 10 ^ 5⌉ ≤ z := by
      rw [Int.ceil_le]
      have : (0 : ℚ) < 1 / 10 ^ 5 := by norm_num
      linarith
    exact_mod_cast this
  · exact hc

theorem le_newUpper {cu up0 up1 y : ℚ} (hc : y ≤ cu) (hy : IsInteger y) (h : y ≤ max up0 up1) :
    y ≤ newUpper true cu up0 up1 := by
  unfold newUpper
  split
  · rw [if_pos rfl]
    obtain ⟨z, rfl⟩ := hy
    have : z ≤ ⌊max up0 up1 + 1 / 10 ^ 5⌋ := by
      rw [Int.le_floor]
      have : (0 : ℚ) < 1 / 10 ^ 5 := by norm_num
      linarith
    exact_mod_cast this
  · exact hc

theorem le_newLower {cl lo0 lo1 : ℚ} (hc : IsInteger cl) :
    cl ≤ newLower true cl lo0 lo1 ∧ IsInteger (newLower true cl lo0 lo1) := by
  unfold newLower
  split
  · rename_i h
    rw [if_pos rfl]
    refine ⟨?_, _, rfl⟩
    obtain ⟨z, rfl⟩ := hc
    have : z - 1 < ⌈min lo0 lo1 - 1 / 10 ^ 5⌉ := by
      rw [Int.lt_ceil]
      push_cast
      have h1 : (1 : ℚ) / 10 ^ 5 < 1 := by norm_num
      have h2 : (0 : ℚ) < 1 / 10 ^ 6 := by norm_num
      linarith
    have : z ≤ ⌈min lo0 lo1 - 1 / 10 ^ 5⌉ := by omega
    exact_mod_cast this
  · exact ⟨le_refl _, hc⟩

theorem newUpper_le {cu up0 up1 : ℚ} (hc : IsInteger cu) :
    newUpper true cu up0 up1 ≤ cu ∧ IsInteger (newUpper true cu up0 up1) := by
  unfold newUpper
  split
  · rename_i h
    rw [if_pos rfl]
    refine ⟨?_, _, rfl⟩
    obtain ⟨z, rfl⟩ := hc
    have : ⌊max up0 up1 + 1 / 10 ^ 5⌋ < z + 1 := by
      rw [Int.floor_lt]
      push_cast
      have h1 : (1 : ℚ) / 10 ^ 5 < 1 := by norm_num
      have h2 : (0 : ℚ) < 1 / 10 ^ 6 := by norm_num
      linarith
    have : ⌊max up0 up1 + 1 / 10 ^ 5⌋ ≤ z := by omega
    exact_mod_cast this
  · exact ⟨le_refl _, hc⟩

/-- The bounds computed for a value of the binary column hold. -/
theorem bounds_hold {P : Prob} {use : Nat → Bool} {i j1 j2 : Nat} {A B : Line} {r1 r2 : Row} (hs : Sized P)
    (hA : LineOk P use i j1 j2 2 A r1) (hB : LineOk P use i j1 j2 2 B r2) {x : Nat → ℚ} (hx : Within P x) (hf : P.Feasible x)
    (hj : j1 < P.nCols) : lower1 (x i) (P.colLower j1) A B ≤ x j1 ∧ x j1 ≤ upper1 (x i) (P.colUpper j1) A B := by
  obtain ⟨c1, c2⟩ := col_within hs hx hf hj
  have key : ∀ {l : Line} {r : Row}, LineOk P use i j1 j2 2 l r →
      implLo (l.lo - x i * l.e0) (l.up - x i * l.e0) l.e1 ≤ x j1 ∧ x j1 ≤ implUp (l.lo - x i * l.e0) (l.up - x i * l.e0) l.e1 := by
    intro l r h
    have hm := List.mem_of_getElem? h.row
    obtain ⟨s1, s2⟩ := (sat_iff hs hx hm h.len).mp (hf.rows r hm)
    have hd := h.dot x
    have h2 : l.e2 = 0 := h.c2.trans (if_pos rfl)
    rw [h2, zero_mul, add_zero] at hd
    rw [hd, ← h.lo] at s1
    rw [hd, ← h.up] at s2
    have t1 : l.lo - x i * l.e0 ≤ l.e1 * x j1 := by linarith
    have t2 : l.e1 * x j1 ≤ l.up - x i * l.e0 := by linarith
    exact ⟨implLo_le h.nz1 t1 t2, le_implUp h.nz1 t1 t2⟩
  exact ⟨max_le (max_le c1 (key hA).1) (key hB).1, le_min (le_min c2 (key hA).2) (key hB).2⟩

theorem crossed_iff {lo up nl nu : ℚ} : crossed lo up nl nu = true ↔ nu + 1 / 10 ^ 6 < lo ∨ up < nl - 1 / 10 ^ 6 := by
  unfold crossed; rw [Bool.or_eq_true, decide_eq_true_iff, decide_eq_true_iff]

/-- What the treatment of two rows of two entries does to the problem. -/
structure Tight (P Q : Prob) (i : Nat) : Prop where
  nCols : Q.nCols = P.nCols
  inf : Q.inf = P.inf
  isInt : Q.isInt = P.isInt
  rows : Q.rows = P.rows
  lower : ∀ j, P.colLower j ≤ Q.colLower j
  upper : ∀ j, Q.colUpper j ≤ P.colUpper j
  ints : (∀ j, P.isInt j = true → IsInteger (P.colLower j) ∧ IsInteger (P.colUpper j)) →
    ∀ j, Q.isInt j = true → IsInteger (Q.colLower j) ∧ IsInteger (Q.colUpper j)
  upperI : Q.colUpper i = P.colUpper i

/-- No point is gained. -/
theorem Tight.back {P Q : Prob} {i : Nat} (h : Tight P Q i) {x : Nat → ℚ} (hf : Q.Feasible x) : P.Feasible x := by
  refine ⟨fun r hr => ?_, fun j hj => ?_, fun j hj => ?_, fun j hj hi => ?_⟩
  · have := hf.rows r (h.rows ▸ hr); rwa [h.inf] at this
  · have := hf.lower j (h.nCols ▸ hj); rw [h.inf] at this; exact lbOk_mono (h.lower j) this
  · have := hf.upper j (h.nCols ▸ hj); rw [h.inf] at this; exact ubOk_mono (h.upper j) this
  · exact hf.int j (h.nCols ▸ hj) (h.isInt ▸ hi)

theorem zero_one {v : ℚ} (hi : IsInteger v) (h0 : 0 ≤ v) (h1 : v ≤ 1) : v = 0 ∨ v = 1 := by
  obtain ⟨z, rfl⟩ := hi
  have a : 0 ≤ z := by exact_mod_cast h0
  have b : z ≤ 1 := by exact_mod_cast h1
  have : z = 0 ∨ z = 1 := by omega
  rcases this with rfl | rfl
  · left; simp
  · right; simp

theorem fixBinary_lower {P : Prob} {i : Nat} {a b : Bool} (j : Nat) :
    (fixBinary P i a b).colLower j = if j = i then (if b then 0 else if a then 1 else P.colLower i) else P.colLower j := by
  unfold fixBinary setLower
  cases a <;> cases b <;> by_cases h : j = i <;> simp [h]

theorem fixBinary_upper {P : Prob} {i : Nat} {a b : Bool} : (fixBinary P i a b).colUpper = P.colUpper := by
  unfold fixBinary setLower
  cases a <;> cases b <;> simp

theorem fixBinary_rest {P : Prob} {i : Nat} {a b : Bool} : (fixBinary P i a b).nCols = P.nCols ∧
    (fixBinary P i a b).inf = P.inf ∧ (fixBinary P i a b).isInt = P.isInt ∧ (fixBinary P i a b).rows = P.rows := by
  unfold fixBinary setLower
  cases a <;> cases b <;> simp

theorem twoColumns_tight {P : Prob} {i j1 : Nat} {A B : Line} (hij : i ≠ j1) (h0 : P.colLower i = 0) (hj : P.isInt j1 = true)
    (hi : ∀ j, P.isInt j = true → IsInteger (P.colLower j) ∧ IsInteger (P.colUpper j)) :
    Tight P (twoColumns P i j1 A B).1 i ∧ ((twoColumns P i j1 A B).2.1 = false →
      (twoColumns P i j1 A B).1.colLower i = 0) := by
  unfold twoColumns
  dsimp only
  generalize hnl : newLower (P.isInt j1) (P.colLower j1) (lower1 0 (P.colLower j1) A B) (lower1 1 (P.colLower j1) A B) = nl
  generalize hnu : newUpper (P.isInt j1) (P.colUpper j1) (upper1 0 (P.colUpper j1) A B) (upper1 1 (P.colUpper j1) A B) = nu
  generalize hn0 : crossed (lower1 0 (P.colLower j1) A B) (upper1 0 (P.colUpper j1) A B) nl nu = n0
  generalize hn1 : crossed (lower1 1 (P.colLower j1) A B) (upper1 1 (P.colUpper j1) A B) nl nu = n1
  obtain ⟨i1, i2⟩ := hi j1 hj
  rw [hj] at hnl hnu
  have l1 := le_newLower (lo0 := lower1 0 (P.colLower j1) A B) (lo1 := lower1 1 (P.colLower j1) A B) i1
  have u1 := newUpper_le (up0 := upper1 0 (P.colUpper j1) A B) (up1 := upper1 1 (P.colUpper j1) A B) i2
  rw [hnl] at l1
  rw [hnu] at u1
  obtain ⟨f1, f2, f3, f4⟩ := fixBinary_rest (P := setUpper (setLower P j1 nl) j1 nu) (i := i) (a := n0) (b := n1)
  refine ⟨⟨f1, f2, f3, f4, ?_, ?_, ?_, ?_⟩, ?_⟩
  · intro j
    rw [fixBinary_lower]
    by_cases h : j = i
    · rw [if_pos h, h, h0]
      cases n1 <;> cases n0 <;> simp [setUpper, setLower, hij, h0]
    · rw [if_neg h]
      show P.colLower j ≤ if j = j1 then nl else P.colLower j
      by_cases h2 : j = j1
      · rw [if_pos h2, h2]; exact l1.1
      · rw [if_neg h2]
  · intro j
    rw [fixBinary_upper]
    show (if j = j1 then nu else P.colUpper j) ≤ P.colUpper j
    by_cases h2 : j = j1
    · rw [if_pos h2, h2]; exact u1.1
    · rw [if_neg h2]
  · intro _ j hjj
    rw [f3] at hjj
    rw [fixBinary_upper, fixBinary_lower]
    obtain ⟨k1, k2⟩ := hi j hjj
    constructor
    · by_cases h : j = i
      · rw [if_pos h]
        have z : IsInteger 0 := ⟨0, by simp⟩
        have o : IsInteger 1 := ⟨1, by simp⟩
        cases n1 <;> cases n0 <;> simp [setUpper, setLower, hij, h0, z, o]
      · rw [if_neg h]
        show IsInteger (if j = j1 then nl else P.colLower j)
        by_cases h2 : j = j1
        · rw [if_pos h2]; exact l1.2
        · rw [if_neg h2]; exact k1
    · show IsInteger (if j = j1 then nu else P.colUpper j)
      by_cases h2 : j = j1
      · rw [if_pos h2]; exact u1.2
      · rw [if_neg h2]; exact k2
  · rw [fixBinary_upper]
    show (if i = j1 then nu else P.colUpper i) = P.colUpper i
    rw [if_neg hij]
  · intro h
    rw [Bool.or_eq_false_iff] at h
    rw [h.1, h.2, fixBinary_lower, if_pos rfl]
    simp [setUpper, setLower, hij, h0]

/-- No point is lost, and `feasible` is right. -/
theorem twoColumns_keeps {P : Prob} {use : Nat → Bool} {i j1 j2 : Nat} {A B : Line} {r1 r2 : Row} (hs : Sized P)
    (hA : LineOk P use i j1 j2 2 A r1) (hB : LineOk P use i j1 j2 2 B r2) (hij : i ≠ j1) (hi : i < P.nCols)
    (hj : j1 < P.nCols) (hii : P.isInt i = true) (hji : P.isInt j1 = true) (h0 : P.colLower i = 0) (h1 : P.colUpper i = 1)
    {x : Nat → ℚ} (hx : Within P x) (hf : P.Feasible x) :
    (twoColumns P i j1 A B).1.Feasible x ∧ (twoColumns P i j1 A B).2.2 = false := by
  obtain ⟨b1, b2⟩ := bounds_hold hs hA hB hx hf hj
  obtain ⟨c1, c2⟩ := col_within hs hx hf hj
  obtain ⟨d1, d2⟩ := col_within hs hx hf hi
  rw [h0] at d1
  rw [h1] at d2
  have hxi := zero_one (hf.int i hi hii) d1 d2
  have hxj := hf.int j1 hj hji
  unfold twoColumns
  dsimp only
  generalize hl0 : lower1 0 (P.colLower j1) A B = lo0
  generalize hl1 : lower1 1 (P.colLower j1) A B = lo1
  generalize hu0 : upper1 0 (P.colUpper j1) A B = up0
  generalize hu1 : upper1 1 (P.colUpper j1) A B = up1
  have m1 : min lo0 lo1 ≤ x j1 := by
    rcases hxi with h | h
    · rw [h, hl0] at b1; exact le_trans (min_le_left _ _) b1
    · rw [h, hl1] at b1; exact le_trans (min_le_right _ _) b1
  have m2 : x j1 ≤ max up0 up1 := by
    rcases hxi with h | h
    · rw [h, hu0] at b2; exact le_trans b2 (le_max_left _ _)
    · rw [h, hu1] at b2; exact le_trans b2 (le_max_right _ _)
  rw [hji]
  have n1 := newLower_le (lo0 := lo0) (lo1 := lo1) c1 hxj m1
  have n2 := le_newUpper (up0 := up0) (up1 := up1) c2 hxj m2
  generalize newLower true (P.colLower j1) lo0 lo1 = nl at n1 ⊢
  generalize newUpper true (P.colUpper j1) up0 up1 = nu at n2 ⊢
  have tol : (0 : ℚ) < 1 / 10 ^ 6 := by norm_num
  have k0 : crossed lo0 up0 nl nu = true → x i = 1 := by
    intro hc
    rcases hxi with h | h
    · rw [h, hl0] at b1
      rw [h, hu0] at b2
      rcases crossed_iff.mp hc with hc | hc <;> linarith
    · exact h
  have k1 : crossed lo1 up1 nl nu = true → x i = 0 := by
    intro hc
    rcases hxi with h | h
    · exact h
    · rw [h, hl1] at b1
      rw [h, hu1] at b2
      rcases crossed_iff.mp hc with hc | hc <;> linarith
  generalize crossed lo0 up0 nl nu = n0 at k0 ⊢
  generalize crossed lo1 up1 nl nu = n1' at k1 ⊢
  obtain ⟨f1, f2, f3, f4⟩ := fixBinary_rest (P := setUpper (setLower P j1 nl) j1 nu) (i := i) (a := n0) (b := n1')
  constructor
  · refine ⟨fun r hr => ?_, fun j hj' => ?_, fun j hj' => ?_, fun j hj' hi' => ?_⟩
    · rw [f4] at hr; rw [f2]; exact hf.rows r hr
    · rw [f1] at hj'
      rw [f2, fixBinary_lower]
      by_cases h : j = i
      · rw [if_pos h, h]
        intro _
        cases n1' with
        | true => simpa using d1
        | false =>
          cases n0 with
          | true => simp [k0 rfl]
          | false => simpa [setUpper, setLower, hij, h0] using d1
      · rw [if_neg h]
        show lbOk P.inf (if j = j1 then nl else P.colLower j) (x j)
        by_cases h2 : j = j1
        · rw [if_pos h2, h2]; exact fun _ => n1
        · rw [if_neg h2]; exact hf.lower j hj'
    · rw [f1] at hj'
      rw [f2, fixBinary_upper]
      show ubOk P.inf (if j = j1 then nu else P.colUpper j) (x j)
      by_cases h2 : j = j1
      · rw [if_pos h2, h2]; exact fun _ => n2
      · rw [if_neg h2]; exact hf.upper j hj'
    · rw [f1] at hj'; rw [f3] at hi'; exact hf.int j hj' hi'
  · rw [Bool.or_eq_false_iff, decide_eq_false_iff_not, decide_eq_false_iff_not]
    constructor
    · cases n0 with
      | false => cases n1' <;> norm_num
      | true =>
        cases n1' with
        | false => norm_num
        | true => rw [k0 rfl] at k1; exact absurd (k1 rfl) (by norm_num)
    · intro h; linarith

end Cgl.Triple
