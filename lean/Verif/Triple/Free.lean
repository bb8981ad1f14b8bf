import Verif.Triple.Drop

/-! # A row that is made free follows from the others -/

namespace Cgl.Triple

/-- What is assumed for this, about the cleaned problem. -/
structure Ok (root : ℚ → ℚ) (C : Prob) : Prop where
  sized : Sized C
  rowBounds : ∀ r ∈ C.rows, (r.lb < -10 ^ 20 → r.lb ≤ -C.inf) ∧ (10 ^ 20 < r.ub → C.inf ≤ r.ub)
  rootPos : ∀ v, 0 < v → 0 < root v
  separated : Separated root C
  harmonious : Harmonious root C

/-- Row `k` may be made free: it is usable, short, and one of its bounds is beyond 1e30. -/
structure Freeable (C : Prob) (cut : Nat → Bool) (k : Nat) (r : Row) : Prop where
  use : usable C cut k = true
  len : r.coefs.length ≤ 3
  open1 : r.lb < -10 ^ 30 ∨ 10 ^ 30 < r.ub

/-- What stays while the loops run: `C` is the cleaned problem. -/
structure Inv (C : Prob) (cut : Nat → Bool) (Q : Prob) : Prop where
  nCols : Q.nCols = C.nCols
  inf : Q.inf = C.inf
  isInt : Q.isInt = C.isInt
  len : Q.rows.length = C.rows.length
  rows : ∀ (k : Nat) (r : Row), Q.rows[k]? = some r → ∃ r0, C.rows[k]? = some r0 ∧ (r = r0 ∨ (r = freed r0 ∧ Freeable C cut k r0))
  lower : ∀ j, C.colLower j ≤ Q.colLower j
  upper : ∀ j, Q.colUpper j ≤ C.colUpper j
  ints : ∀ j, Q.isInt j = true → IsInteger (Q.colLower j) ∧ IsInteger (Q.colUpper j)

theorem Inv.coefs {C Q : Prob} {cut : Nat → Bool} (h : Inv C cut Q) {r : Row} (hr : r ∈ Q.rows) : ∃ r0 ∈ C.rows, r.coefs = r0.coefs ∧ (r = r0 ∨ r = freed r0) := by
  obtain ⟨k, hk⟩ := List.mem_iff_getElem?.mp hr
  obtain ⟨r0, h0, h1⟩ := h.rows k r hk
  refine ⟨r0, List.mem_of_getElem? h0, ?_, h1.imp id And.left⟩
  rcases h1 with rfl | ⟨rfl, -⟩ <;> rfl

theorem Inv.sized {C Q : Prob} {cut : Nat → Bool} (h : Inv C cut Q) (hs : Sized C) : Sized Q := by
  refine ⟨⟨?_, ?_⟩, h.inf ▸ hs.inf, h.inf ▸ hs.infMax, ?_⟩
  · intro r hr p hp
    obtain ⟨r0, h0, h1, -⟩ := h.coefs hr
    rw [h.nCols]; exact hs.wf.cols r0 h0 p (h1 ▸ hp)
  · intro r hr
    obtain ⟨r0, h0, h1, -⟩ := h.coefs hr
    rw [h1]; exact hs.wf.nodup r0 h0
  · intro r hr p hp
    obtain ⟨r0, h0, h1, -⟩ := h.coefs hr
    exact hs.coefs r0 h0 p (h1 ▸ hp)

theorem big_dblMax {C : Prob} (hs : Sized C) : (10 : ℚ) ^ 30 < dblMax := by
  have h1 := hs.inf
  have h2 := hs.infMax
  have : (10 : ℚ) ^ 30 < 10 ^ 250 := by norm_num
  linarith

theorem Inv.rowBounds {C Q : Prob} {cut : Nat → Bool} (h : Inv C cut Q) (hs : Sized C)
    (hb : ∀ r ∈ C.rows, (r.lb < -10 ^ 20 → r.lb ≤ -C.inf) ∧ (10 ^ 20 < r.ub → C.inf ≤ r.ub)) :
    ∀ r ∈ Q.rows, (r.lb < -10 ^ 20 → r.lb ≤ -Q.inf) ∧ (10 ^ 20 < r.ub → Q.inf ≤ r.ub) := by
  intro r hr
  rw [h.inf]
  obtain ⟨r0, h0, -, h1⟩ := h.coefs hr
  rcases h1 with rfl | rfl
  · exact hb _ h0
  · have := hs.infMax
    exact ⟨fun _ => neg_le_neg this, fun _ => this⟩

/-- Usable rows have integer columns that are not negative. -/
theorem usable_cols {C : Prob} {cut : Nat → Bool} {k : Nat} (h : usable C cut k = true) {r : Row} (hr : C.rows[k]? = some r) :
    ∀ p ∈ r.coefs, C.isInt p.1 = true ∧ 0 ≤ C.colLower p.1 := by
  unfold usable at h
  rw [hr] at h
  dsimp only at h
  rw [Bool.and_eq_true, List.all_eq_true] at h
  intro p hp
  have := h.2 p hp
  rw [Bool.and_eq_true, decide_eq_true_iff] at this
  exact this

theorem LineOk.col {C Q : Prob} {cut : Nat → Bool} (hI : Inv C cut Q) (hs : Sized C) {i j1 j2 nBits : Nat} {l : Line} {r : Row}
    (h : LineOk Q (usable C cut) i j1 j2 nBits l r) {k : Nat} (hk : k ∈ r.coefs.map Prod.fst) :
    k < Q.nCols ∧ Q.isInt k = true ∧ 0 ≤ Q.colLower k := by
  obtain ⟨r0, h0, h1⟩ := hI.rows _ _ h.row
  obtain ⟨p, hp, rfl⟩ := List.mem_map.mp hk
  have hc : r.coefs = r0.coefs := by rcases h1 with rfl | ⟨rfl, -⟩ <;> rfl
  obtain ⟨a, b⟩ := usable_cols h.use h0 p (hc ▸ hp)
  refine ⟨(hI.sized hs).wf.cols r (List.mem_of_getElem? h.row) p hp, hI.isInt ▸ a, le_trans b (hI.lower _)⟩

theorem LineOk.move {P Q : Prob} (hr : Q.rows = P.rows) {use : Nat → Bool} {i j1 j2 nBits : Nat} {l : Line} {r : Row}
    (h : LineOk P use i j1 j2 nBits l r) : LineOk Q use i j1 j2 nBits l r :=
  ⟨hr ▸ h.row, h.use, h.len, h.lo, h.up, h.dot, h.c0, h.c1, h.c2, h.nz1, h.nz2, h.cols, h.have1, h.have2⟩

/-! ### Scale factors -/

theorem scales_nonneg {root : ℚ → ℚ} {C : Prob} (hs : Sized C) (hr : ∀ v, 0 < v → 0 < root v) {s : ℚ}
    (h : s ∈ scales root C) : 0 ≤ s := by
  unfold scales at h
  rcases List.mem_cons.mp h with rfl | h
  · exact le_refl _
  · obtain ⟨r, hr1, h⟩ := List.mem_flatMap.mp h
    obtain ⟨p, hp, h⟩ := List.mem_flatMap.mp h
    obtain ⟨q, hq, rfl⟩ := List.mem_map.mp h
    have hm := (List.mem_filter.mp hr1).1
    have h1 := abs_pos.mpr (hs.coefs r hm p hp).1
    have h2 := abs_pos.mpr (hs.coefs r hm q hq).1
    exact le_of_lt (one_div_pos.mpr (hr _ (mul_pos h1 h2)))

theorem factor_eq {root : ℚ → ℚ} {C : Prob} (hs : Sized C) {nBits : Nat} (hn : nBits = 2 ∨ nBits = 3) {q : Ineq}
    (h1 : q.e1 ≠ 0) (h1' : |q.e1| ≤ 10 ^ 20) (h2 : nBits ≠ 2 → q.e2 ≠ 0 ∧ |q.e2| ≤ 10 ^ 20) :
    factor root nBits q = 1 / root (|q.e1| * |if nBits = 2 then q.e1 else q.e2|) := by
  have hbig := big_dblMax hs
  have h30 : (10 : ℚ) ^ 20 < 10 ^ 30 := by norm_num
  have a1 : |q.e1| ≠ 0 := abs_ne_zero.mpr h1
  have b1 : |q.e1| ≤ dblMax := by linarith
  unfold factor els
  rcases hn with rfl | rfl
  · rw [if_pos rfl, if_pos rfl]
    simp only [List.map_cons, List.map_nil, List.filter_cons, List.filter_nil, a1, ne_eq, not_false_eq_true, decide_true,
      if_true, List.foldl_cons, List.foldl_nil]
    rw [max_eq_right (abs_nonneg q.e1), min_eq_right b1]
  · rw [if_neg (by decide), if_neg (by decide)]
    obtain ⟨c1, c2⟩ := h2 (by decide)
    have a2 : |q.e2| ≠ 0 := abs_ne_zero.mpr c1
    simp only [List.map_cons, List.map_nil, List.filter_cons, List.filter_nil, a1, a2, ne_eq, not_false_eq_true, decide_true,
      if_true, List.foldl_cons, List.foldl_nil]
    rw [max_eq_right (abs_nonneg q.e1), min_eq_right b1, max_mul_min]

theorem From.abs {l : Line} {q : Ineq} (h : From l q) : |q.e1| = |l.e1| ∧ |q.e2| = |l.e2| := by
  obtain ⟨σ, hσ, -, h1, h2, -⟩ := h.sign
  rw [h1, h2]
  rcases hσ with rfl | rfl <;> simp

theorem From.ne {l : Line} {q : Ineq} (h : From l q) : (l.e1 ≠ 0 → q.e1 ≠ 0) ∧ (l.e2 ≠ 0 → q.e2 ≠ 0) := by
  obtain ⟨a, b⟩ := h.abs
  constructor
  · intro k hc; rw [hc, abs_zero] at a; exact k (abs_eq_zero.mp a.symm)
  · intro k hc; rw [hc, abs_zero] at b; exact k (abs_eq_zero.mp b.symm)

theorem factor_ok {root : ℚ → ℚ} {C Q : Prob} (hs : Sized C) (hr : ∀ v, 0 < v → 0 < root v) {cut : Nat → Bool} (hI : Inv C cut Q) {use : Nat → Bool}
    {i j1 j2 nBits : Nat} {l : Line} {r : Row} (h : LineOk Q use i j1 j2 nBits l r) (hn : nBits = 2 ∨ nBits = 3) {q : Ineq}
    (hq : From l q) : factor root nBits q ∈ scales root C ∧ 0 < factor root nBits q := by
  have hm := List.mem_of_getElem? h.row
  obtain ⟨r0, h0, hc, -⟩ := hI.coefs hm
  obtain ⟨p, hp, e⟩ := List.mem_map.mp h.have1
  have hp' := hp
  rw [hc] at hp'
  have ep : l.e1 = p.2 := by rw [h.c1, ← e, coefOf_mem ((hI.sized hs).wf.nodup r hm) hp]
  have hshort : r0 ∈ C.rows.filter short := by
    refine List.mem_filter.mpr ⟨h0, ?_⟩
    unfold short; rw [decide_eq_true_iff, ← hc]; exact h.len
  obtain ⟨b1, b2⟩ := hs.coefs r0 h0 p hp'
  have key : ∃ p2 ∈ r0.coefs, |if nBits = 2 then q.e1 else q.e2| = |p2.2| ∧ (nBits ≠ 2 → q.e2 ≠ 0 ∧ |q.e2| ≤ 10 ^ 20) := by
    by_cases h2 : nBits = 2
    · exact ⟨p, hp', by rw [if_pos h2, hq.abs.1, ep], fun hh => absurd h2 hh⟩
    · obtain ⟨p2, hp2, e2⟩ := List.mem_map.mp (h.have2 h2)
      have ep2 : l.e2 = p2.2 := by
        rw [h.c2, if_neg h2, ← e2, coefOf_mem ((hI.sized hs).wf.nodup r hm) hp2]
      rw [hc] at hp2
      refine ⟨p2, hp2, by rw [if_neg h2, hq.abs.2, ep2], fun _ => ⟨hq.ne.2 (h.nz2 h2), ?_⟩⟩
      rw [hq.abs.2, ep2]; exact (hs.coefs r0 h0 p2 hp2).2
  obtain ⟨p2, hp2, k1, k2⟩ := key
  rw [factor_eq hs hn (hq.ne.1 h.nz1) (by rw [hq.abs.1, ep]; exact b2) k2, k1, hq.abs.1, ep]
  refine ⟨?_, one_div_pos.mpr (hr _ (mul_pos (abs_pos.mpr b1) (abs_pos.mpr (hs.coefs r0 h0 p2 hp2).1)))⟩
  unfold scales
  exact List.mem_cons_of_mem _ (List.mem_flatMap.mpr ⟨r0, hshort, List.mem_flatMap.mpr ⟨p, hp', List.mem_map.mpr ⟨p2, hp2, rfl⟩⟩⟩)

theorem scaled_ok {root : ℚ → ℚ} {C Q : Prob} (hs : Sized C) (hr : ∀ v, 0 < v → 0 < root v) {cut : Nat → Bool} (hI : Inv C cut Q) {use : Nat → Bool}
    {i j1 j2 nBits : Nat} {ls : List Line} (h : ∀ l ∈ ls, ∃ r, LineOk Q use i j1 j2 nBits l r) (hn : nBits = 2 ∨ nBits = 3)
    {old : Nat → ℚ} (ho : ∀ k, old k ∈ scales root C) (k : Nat) :
    scaled root nBits ls.length (ineqs ls) old k ∈ scales root C ∧
      (k < ls.length → 0 < scaled root nBits ls.length (ineqs ls) old k) := by
  unfold scaled
  cases hq : (ineqs ls)[k]? with
  | none =>
    refine ⟨ho k, fun hk => ?_⟩
    rw [List.getElem?_eq_none_iff] at hq
    unfold ineqs at hq
    rw [List.length_append, List.length_map] at hq
    omega
  | some q =>
    dsimp only
    by_cases hk : k < ls.length
    · rw [if_pos hk]
      rcases ineqs_get hq with ⟨-, l, hl, rfl⟩ | ⟨hc, -⟩
      · obtain ⟨r, hr'⟩ := h l hl
        obtain ⟨a, b⟩ := factor_ok hs hr hI hr' hn (primary_from l)
        exact ⟨a, fun _ => b⟩
      · omega
    · rw [if_neg hk]; exact ⟨ho k, fun h => absurd h hk⟩

/-! ### Comparisons are sharp -/

theorem num_neg {r : Row} {v : ℚ} (h : Num r v) : Num r (-v) := by
  rcases h with h | h
  · exact Or.inr (by rwa [neg_neg])
  · exact Or.inl h

theorem num_sign {r : Row} {σ v : ℚ} (hσ : σ = 1 ∨ σ = -1) (h : Num r v) : Num r (σ * v) := by
  rcases hσ with rfl | rfl
  · rwa [one_mul]
  · rw [neg_one_mul]; exact num_neg h

theorem num_coef {r : Row} (hn : (r.coefs.map Prod.fst).Nodup) (k : Nat) : Num r (coefOf r.coefs k) := by
  left
  by_cases h : k ∈ r.coefs.map Prod.fst
  · obtain ⟨p, hp, rfl⟩ := List.mem_map.mp h
    rw [coefOf_mem hn hp]
    exact List.mem_cons_of_mem _ (List.mem_append_left _ (List.mem_map_of_mem hp))
  · rw [coefOf_zero]
    · simp
    · intro p hp e; exact h (List.mem_map.mpr ⟨p, hp, e⟩)

theorem num_bound {r : Row} (hn : (r.coefs.map Prod.fst).Nodup) {b : ℚ} (hb : b ∈ [r.lb, r.ub, dblMax]) (k : Nat) :
    Num r b ∧ Num r (b - coefOf r.coefs k) := by
  have h0 : b ∈ 0 :: numbers r :=
    List.mem_cons_of_mem _ (List.mem_append_right _ (List.mem_flatMap.mpr ⟨b, hb, by simp⟩))
  refine ⟨Or.inl h0, Or.inl ?_⟩
  by_cases h : k ∈ r.coefs.map Prod.fst
  · obtain ⟨p, hp, rfl⟩ := List.mem_map.mp h
    rw [coefOf_mem hn hp]
    exact List.mem_cons_of_mem _ (List.mem_append_right _ (List.mem_flatMap.mpr ⟨b, hb,
      List.mem_cons_of_mem _ (List.mem_map.mpr ⟨p, hp, rfl⟩)⟩))
  · rw [coefOf_zero, sub_zero]
    · exact h0
    · intro p hp e; exact h (List.mem_map.mpr ⟨p, hp, e⟩)

/-- The numbers of an inequality are numbers of the row of the cleaned problem. -/
theorem nums {C Q : Prob} (hs : Sized C) {cut : Nat → Bool} (hI : Inv C cut Q) {use : Nat → Bool}
    {i j1 j2 nBits : Nat} {l : Line} {r : Row} (h : LineOk Q use i j1 j2 nBits l r) {q : Ineq} (hq : From l q) :
    ∃ r0 ∈ C.rows, r.coefs = r0.coefs ∧ short r0 = true ∧ Num r0 q.rhs ∧ Num r0 (q.rhs - q.e0) ∧ Num r0 q.e1 ∧ Num r0 q.e2 := by
  have hm := List.mem_of_getElem? h.row
  obtain ⟨r0, h0, hc, hf⟩ := hI.coefs hm
  have hn := hs.wf.nodup r0 h0
  refine ⟨r0, h0, hc, by unfold short; rw [decide_eq_true_iff, ← hc]; exact h.len, ?_⟩
  obtain ⟨σ, hσ, e0, e1, e2, hrhs⟩ := hq.sign
  rw [h.c0, hc] at e0
  rw [h.c1, hc] at e1
  have hup : l.up ∈ [r0.lb, r0.ub, dblMax] := by
    rw [h.up]; rcases hf with rfl | rfl <;> simp [freed]
  have hlo : ¬ l.lo < -10 ^ 20 → l.lo ∈ [r0.lb, r0.ub, dblMax] := by
    intro hh
    rw [h.lo] at hh ⊢
    rcases hf with rfl | rfl
    · simp
    · exfalso; apply hh
      show -dblMax < -10 ^ 20
      have := big_dblMax hs
      have h30 : (10 : ℚ) ^ 20 < 10 ^ 30 := by norm_num
      linarith
  have n2 : Num r0 q.e2 := by
    rw [e2, h.c2]
    apply num_sign hσ
    split
    · exact Or.inl (by simp)
    · rw [hc]; exact num_coef hn _
  have key : Num r0 q.rhs ∧ Num r0 (q.rhs - q.e0) := by
    rcases hrhs with ⟨s1, s2⟩ | ⟨s1, s2, s3⟩ | ⟨s1, s2, s3⟩
    · rw [e0, s1, s2, one_mul]; exact num_bound hn hup _
    · rw [e0, s1, s2]
      obtain ⟨a, b⟩ := num_bound hn hup i
      exact ⟨num_neg a, by
        have := num_neg b
        rwa [show -(l.up - coefOf r0.coefs i) = -l.up - -1 * coefOf r0.coefs i by ring] at this⟩
    · rw [e0, s1, s2]
      obtain ⟨a, b⟩ := num_bound hn (hlo s3) i
      exact ⟨num_neg a, by
        have := num_neg b
        rwa [show -(l.lo - coefOf r0.coefs i) = -l.lo - -1 * coefOf r0.coefs i by ring] at this⟩
  exact ⟨key.1, key.2, by rw [e1]; exact num_sign hσ (num_coef hn _), n2⟩

theorem sharp {root : ℚ → ℚ} {C Q : Prob} (hO : Ok root C) {cut : Nat → Bool} (hI : Inv C cut Q) {use : Nat → Bool}
    {i j1 j2 nBits : Nat} {l1 l2 : Line} {r1 r2 : Row} (h1 : LineOk Q use i j1 j2 nBits l1 r1)
    (h2 : LineOk Q use i j1 j2 nBits l2 r2) {q1 q2 : Ineq} (f1 : From l1 q1) (f2 : From l2 q2) {s1 s2 : ℚ}
    (hs1 : s1 ∈ scales root C) (hs2 : s2 ∈ scales root C) : Sharp s1 s2 q1 q2 := by
  obtain ⟨a, a0, -, a1, a2, a3, a4, a5⟩ := nums hO.sized hI h1 f1
  obtain ⟨b, b0, -, b1, b2, b3, b4, b5⟩ := nums hO.sized hI h2 f2
  exact ⟨sep_of hO.separated hs1 hs2 a0 b0 a1 b1 a2 b2, sep_of hO.separated hs1 hs2 a0 b0 a1 b1 a3 b3,
    sep_of hO.separated hs1 hs2 a0 b0 a1 b1 a4 b4, sep_of hO.separated hs1 hs2 a0 b0 a1 b1 a5 b5⟩

end Cgl.Triple
