import Verif.DomCols.Facts
import Mathlib.Algebra.BigOperators.Ring.Finset
import Mathlib.Algebra.Order.BigOperators.Group.Finset

/-! # Moving the value of a column to a better one -/

namespace Cgl.DomCols

/-- The coefficient of a column in a row. -/
def coef (r : Row) (j : Nat) : ℚ := (r.coefs.lookup j).getD 0

theorem lookup_none {v : SVec} {j : Nat} (h : j ∉ v.map Prod.fst) : v.lookup j = none := by
  induction v with
  | nil => rfl
  | cons p v ih =>
    simp only [List.map_cons, List.mem_cons, not_or] at h
    rw [List.lookup_cons]
    have : (j == p.1) = false := by simpa using h.1
    rw [this]; exact ih h.2

theorem dot_same {v : SVec} {x : Nat → ℚ} {j : Nat} {t : ℚ} (h : j ∉ v.map Prod.fst) :
    SVec.dot v (Function.update x j t) = SVec.dot v x := by
  induction v with
  | nil => rfl
  | cons p v ih =>
    simp only [List.map_cons, List.mem_cons, not_or] at h
    rw [SVec.dot_cons, SVec.dot_cons, ih h.2, Function.update_of_ne (Ne.symm h.1)]

/-- One value changes. -/
theorem dot_update {v : SVec} (x : Nat → ℚ) (j : Nat) (t : ℚ) (h : (v.map Prod.fst).Nodup) :
    SVec.dot v (Function.update x j t) = SVec.dot v x + (v.lookup j).getD 0 * (t - x j) := by
  induction v with
  | nil => simp
  | cons p v ih =>
    simp only [List.map_cons, List.nodup_cons] at h
    rw [SVec.dot_cons, SVec.dot_cons, List.lookup_cons]
    by_cases hj : j = p.1
    · subst hj
      rw [dot_same h.1, Function.update_self]
      simp only [beq_self_eq_true, Option.getD_some]
      ring
    · have : (j == p.1) = false := by simpa using hj
      rw [this, ih h.2, Function.update_of_ne (Ne.symm hj)]
      ring

theorem dot_nonpos {v : SVec} {y : Nat → ℚ} (h : ∀ p ∈ v, p.2 ≤ 0 ∧ 0 ≤ y p.1) : SVec.dot v y ≤ 0 := by
  induction v with
  | nil => simp
  | cons p v ih =>
    rw [SVec.dot_cons]
    have h1 := h p List.mem_cons_self
    have := mul_nonneg (neg_nonneg.mpr h1.1) h1.2
    have := ih fun q hq => h q (List.mem_cons_of_mem _ hq)
    linarith

theorem dot_le_one {v : SVec} {y : Nat → ℚ} {p : Nat × ℚ} (h : ∀ p ∈ v, p.2 ≤ 0 ∧ 0 ≤ y p.1) (hp : p ∈ v) :
    SVec.dot v y ≤ p.2 * y p.1 := by
  obtain ⟨s, t, rfl⟩ := List.append_of_mem hp
  rw [SVec.dot_append, SVec.dot_cons]
  have h1 := dot_nonpos (v := s) (y := y) fun q hq => h q (by simp [hq])
  have h2 := dot_nonpos (v := t) (y := y) fun q hq => h q (by simp [hq])
  linarith

theorem dot_ge_one {v : SVec} {y : Nat → ℚ} {p : Nat × ℚ} (h : ∀ p ∈ v, 0 ≤ p.2 ∧ 0 ≤ y p.1) (hp : p ∈ v) :
    p.2 * y p.1 ≤ SVec.dot v y := by
  have := dot_le_one (v := v.map fun p => (p.1, -p.2)) (y := y) (p := (p.1, -p.2))
    (by
      intro q hq
      obtain ⟨q', hq', rfl⟩ := List.mem_map.mp hq
      exact ⟨by have := (h q' hq').1; simpa using this, (h q' hq').2⟩)
    (List.mem_map.mpr ⟨p, hp, rfl⟩)
  rw [SVec.dot_neg] at this
  simp only at this
  linarith

/-- Rows with an upper bound. -/
theorem flip_pos {P : Prob} {r : Row} (hr : r.ub ≤ dblMax) (h : 0 < flip P r) : r.lb ≤ -dblMax ∧
    (flip P r = 1 ∨ flip P r = 2 ∧ ∀ p ∈ r.coefs, p.2 ≤ 0 ∧ p.2 * P.colUpper p.1 ≤ r.ub) := by
  have hside : 0 < side r → r.lb ≤ -dblMax ∧ side r = 1 := by
    unfold side
    split
    · intro h; exact absurd h (by decide)
    · rename_i hn
      split
      · intro h; exact absurd h (by decide)
      · rename_i hne
        intro _
        refine ⟨?_, rfl⟩
        by_contra hc
        exact hn ⟨lt_of_le_of_ne hr hne, not_le.mp hc⟩
  unfold flip at h ⊢
  split at h
  · rename_i h1
    rw [if_pos h1]
    split at h
    · rename_i h2
      rw [if_pos h2]
      refine ⟨(hside h2).1, ?_⟩
      split
      · rename_i h3
        right
        refine ⟨rfl, fun p hp => ?_⟩
        have := List.all_eq_true.mp h3 p hp
        simpa using this
      · left; exact (hside h2).2
    · rename_i h2
      exfalso
      split at h
      · exact absurd h (by decide)
      · exact h2 h
  · rename_i h1
    rw [if_neg h1]
    exact ⟨(hside h).1, Or.inl (hside h).2⟩

/-- Rows with a lower bound. -/
theorem flip_neg {P : Prob} {r : Row} (h : flip P r < 0) : r.ub = dblMax ∧
    (flip P r = -1 ∨ flip P r = -2 ∧ ∀ p ∈ r.coefs, 0 ≤ p.2 ∧ r.lb ≤ p.2 * P.colUpper p.1) := by
  have hside : side r < 0 → r.ub = dblMax ∧ side r = -1 := by
    unfold side
    split
    · intro h; exact absurd h (by decide)
    · split
      · rename_i hne
        intro _; exact ⟨hne, rfl⟩
      · intro h; exact absurd h (by decide)
  unfold flip at h ⊢
  split at h
  · rename_i h1
    rw [if_pos h1]
    split at h
    · rename_i h2
      exfalso
      split at h
      · exact absurd h (by decide)
      · omega
    · rename_i h2
      rw [if_neg h2]
      have h4 : side r < 0 := by have := h1.1; omega
      refine ⟨(hside h4).1, ?_⟩
      split
      · rename_i h3
        right
        refine ⟨rfl, fun p hp => ?_⟩
        have := List.all_eq_true.mp h3 p hp
        simpa using this
      · left; exact (hside h4).2
  · rename_i h1
    rw [if_neg h1]
    exact ⟨(hside h).1, Or.inl (hside h).2⟩

theorem scanCol_spec {P : Prob} {j : Nat} : ∀ (l : List Nat) (b b' : Bool), scanCol P j l b = some b' →
    (∀ i ∈ l, flipAt P i ≠ 0 ∧ ¬ (val P j i < 0 ∧ |flipAt P i| = 1 ∧ P.colUpper j < 10 ^ 20)) ∧
    (b' = false → b = false ∧ ∀ i ∈ l, |flipAt P i| ≠ 1) := by
  intro l
  induction l with
  | nil => intro b b' h; simp only [scanCol, Option.some.injEq] at h; subst h; simp
  | cons i l ih =>
    intro b b' h
    unfold scanCol at h
    split at h
    · simp at h
    · rename_i h1
      split at h
      · simp at h
      · rename_i h2
        obtain ⟨ha, hb⟩ := ih _ _ h
        constructor
        · intro k hk
          rcases List.mem_cons.mp hk with rfl | hk
          · exact ⟨h1, h2⟩
          · exact ha k hk
        · intro hf
          have := hb hf
          simp only [Bool.or_eq_false_iff, decide_eq_false_iff_not] at this
          refine ⟨this.1.1, fun k hk => ?_⟩
          rcases List.mem_cons.mp hk with rfl | hk
          · exact this.1.2
          · exact this.2 k hk

/-- What is known about a candidate. -/
structure Good (I : Input) (c : Cand) : Prop where
  lt : c.col < I.P.nCols
  lower : I.P.colLower c.col = 0
  allowed : I.prohibited c.col = false
  int : c.int = I.P.isInt c.col
  rows : ∀ i ∈ rowsOf I.P c.col, flipAt I.P i ≠ 0 ∧
    ¬ (val I.P c.col i < 0 ∧ |flipAt I.P i| = 1 ∧ I.P.colUpper c.col < 10 ^ 20)
  type : c.type < 2 → I.cost c.col < 0 → ∀ i ∈ rowsOf I.P c.col, |flipAt I.P i| ≠ 1

theorem cands_good {I : Input} {c : Cand} (h : c ∈ cands I) : Good I c := by
  unfold cands at h
  obtain ⟨j, hj, hc⟩ := List.mem_filterMap.mp h
  unfold cand at hc
  split at hc
  · rename_i h1
    split at hc
    · simp at hc
    · rename_i b hb
      simp only [Option.some.injEq] at hc
      obtain ⟨ha, hb'⟩ := scanCol_spec _ _ _ hb
      subst hc
      refine ⟨List.mem_range.mp hj, h1.1, h1.2, rfl, ha, ?_⟩
      intro ht hcost
      dsimp only at ht hcost
      cases b with
      | false => exact (hb' rfl).2
      | true => simp [hcost] at ht
  · simp at hc

theorem cand_col {I : Input} {c d : Cand} (hc : c ∈ cands I) (hd : d ∈ cands I) (h : c.col = d.col) : c = d := by
  have key : ∀ e ∈ cands I, cand I e.col = some e := by
    intro e he
    unfold cands at he
    obtain ⟨j, hj, hc⟩ := List.mem_filterMap.mp he
    have : e.col = j := by
      unfold cand at hc
      split at hc
      · split at hc
        · simp at hc
        · simp only [Option.some.injEq] at hc; subst hc; rfl
      · simp at hc
    rw [this]; exact hc
  have h1 := key c hc
  have h2 := key d hd
  rw [h, h2] at h1
  exact (Option.some.inj h1).symm

/-- The new value of the better column. -/
def newVal (P : Prob) (x : Nat → ℚ) (a b : Nat) : ℚ :=
  if P.colUpper a < P.inf then min (P.colUpper a) (x a + x b) else x a + x b

/-- The value of `b` goes to `a`, as far as the bound of `a` allows. -/
def moved (P : Prob) (x : Nat → ℚ) (a b : Nat) : Nat → ℚ := Function.update (Function.update x a (newVal P x a b)) b 0

theorem value_update (n : Nat) (cost x : Nat → ℚ) (j : Nat) (t : ℚ) (hj : j < n) :
    value n cost (Function.update x j t) = value n cost x + cost j * (t - x j) := by
  unfold value
  rw [← Finset.add_sum_erase _ _ (Finset.mem_range.mpr hj), ← Finset.add_sum_erase _ _ (Finset.mem_range.mpr hj),
    Function.update_self]
  have : ∑ k ∈ (Finset.range n).erase j, cost k * Function.update x j t k = ∑ k ∈ (Finset.range n).erase j, cost k * x k :=
    Finset.sum_congr rfl fun k hk => by rw [Function.update_of_ne (Finset.ne_of_mem_erase hk)]
  rw [this]; ring

/-- The row keeps its upper side. -/
theorem num_le {ca cb s xb : ℚ} (hd : ca ≤ cb) (hs : 0 ≤ s) (hx : s ≤ xb) (h : s = xb ∨ 0 ≤ ca) : ca * s - cb * xb ≤ 0 := by
  rcases h with rfl | h
  · nlinarith
  · nlinarith [mul_le_mul_of_nonneg_left hx h]

theorem val_eq {P : Prob} {i j : Nat} {r : Row} (h : P.rows[i]? = some r) :
    val P j i = if flip P r < 0 then -coef r j else coef r j := by
  unfold val flipAt entry coef; rw [h]

theorem coef_of {P : Prob} {i j : Nat} {r : Row} (h : P.rows[i]? = some r) : i ∉ rowsOf P j → coef r j = 0 := by
  rw [mem_rowsOf]; unfold entry coef; rw [h]
  dsimp only
  generalize r.coefs.lookup j = o
  cases o <;> simp

theorem mem_coef {r : Row} {j : Nat} (h : coef r j ≠ 0) : (j, coef r j) ∈ r.coefs := by
  unfold coef at h ⊢
  cases hl : r.coefs.lookup j with
  | none => rw [hl] at h; simp at h
  | some v =>
    obtain ⟨l1, l2, he, -⟩ := List.lookup_eq_some_iff.mp hl
    rw [he]; simp

/-- The point stays feasible, and the objective does not grow. -/
theorem move (I : Input) (ht : Tidy I.P) (hnn : NonNegative I.P) (hg : NoGain I.P I.cost) {c d : Cand}
    (hc : Good I c) (hd : Good I d) (hne : c.col ≠ d.col) (hint : c.int = d.int) (hdom : Dom I c.col d.col)
    (htype : d.type < 2) {x : Nat → ℚ} (hx : I.P.Feasible x) :
    I.P.Feasible (moved I.P x c.col d.col) ∧
    value I.P.nCols I.cost (moved I.P x c.col d.col) ≤ value I.P.nCols I.cost x := by
  obtain ⟨P, cost, prohibited⟩ := I
  dsimp only at *
  obtain ⟨a, ta, ia⟩ := c
  obtain ⟨b, tb, ib⟩ := d
  dsimp only at *
  have hca := hc.lt; have hcb := hd.lt
  have hcia := hc.int; have hcib := hd.int
  dsimp only at hca hcb hcia hcib
  have hinf := neg_lt P ht
  have hx0 : ∀ j < P.nCols, 0 ≤ x j := fun j hj => le_trans (hnn j hj) (hx.lower j hj (lt_of_lt_of_le hinf (hnn j hj)))
  have hxa := hx0 a hca
  have hxb := hx0 b hcb
  have hs0 : x a ≤ newVal P x a b := by
    unfold newVal; split
    · rename_i h; exact le_min (hx.upper a hca h) (by linarith)
    · linarith
  have hs1 : newVal P x a b ≤ x a + x b := by
    unfold newVal; split
    · exact min_le_right _ _
    · exact le_refl _
  have hs2 : newVal P x a b = x a + x b ∨ P.colUpper a < P.inf ∧ newVal P x a b = P.colUpper a := by
    unfold newVal; split
    · rename_i h
      rcases min_choice (P.colUpper a) (x a + x b) with h1 | h1
      · exact Or.inr ⟨h, h1⟩
      · exact Or.inl h1
    · exact Or.inl rfl
  have hya : moved P x a b a = newVal P x a b := by
    unfold moved; rw [Function.update_of_ne hne, Function.update_self]
  have hyb : moved P x a b b = 0 := by unfold moved; rw [Function.update_self]
  have hyo : ∀ j, j ≠ a → j ≠ b → moved P x a b j = x j := by
    intro j h1 h2; unfold moved; rw [Function.update_of_ne h2, Function.update_of_ne h1]
  have hy0 : ∀ j < P.nCols, 0 ≤ moved P x a b j := by
    intro j hj
    by_cases h2 : j = b
    · rw [h2, hyb]
    · by_cases h1 : j = a
      · rw [h1, hya]; linarith
      · rw [hyo j h1 h2]; exact hx0 j hj
  have hbig : P.colUpper a < P.inf → P.colUpper a < 10 ^ 20 := by
    intro h
    rcases ht.colUpper a hca with h1 | h1
    · exact h1
    · rw [ht.inf] at h; linarith
  refine ⟨⟨?_, ?_, ?_, ?_⟩, ?_⟩
  · -- rows
    intro r hr
    obtain ⟨i, hi⟩ := List.getElem?_of_mem hr
    have hdot : SVec.dot r.coefs (moved P x a b) =
        SVec.dot r.coefs x + (coef r a * (newVal P x a b - x a) - coef r b * x b) := by
      unfold moved
      rw [dot_update _ _ _ (ht.wf.nodup r hr), dot_update _ _ _ (ht.wf.nodup r hr), Function.update_of_ne (Ne.symm hne)]
      unfold coef; ring
    have hrow := hx.rows r hr
    have hfl : flipAt P i = flip P r := by unfold flipAt; rw [hi]
    have hval := hdom.2 i
    dsimp only at hval
    rw [val_eq hi, val_eq hi] at hval
    have hra : coef r a ≠ 0 → flip P r ≠ 0 ∧
        ¬ (val P a i < 0 ∧ |flip P r| = 1 ∧ P.colUpper a < 10 ^ 20) := by
      intro h
      have := hc.rows i (by by_contra hn; exact h (coef_of hi hn))
      dsimp only at this
      rwa [hfl] at this
    have hrb : coef r b ≠ 0 → flip P r ≠ 0 := by
      intro h
      have := hd.rows i (by by_contra hn; exact h (coef_of hi hn))
      dsimp only at this
      rw [hfl] at this; exact this.1
    rcases lt_trichotomy (flip P r) 0 with hf | hf | hf
    · -- lower bound
      rw [if_pos hf, if_pos hf] at hval
      obtain ⟨hub, hk⟩ := flip_neg hf
      refine ⟨?_, ?_⟩
      · intro hl
        have h0 := hrow.1 hl
        by_cases hcap : newVal P x a b = x a + x b ∨ 0 ≤ -coef r a
        · have := num_le (s := newVal P x a b - x a) (xb := x b) hval (by linarith) (by linarith)
            (hcap.imp (fun h => by linarith) id)
          rw [hdot]; linarith
        · rw [not_or] at hcap
          obtain ⟨hu, hyu⟩ := hs2.resolve_left hcap.1
          have hneg : -coef r a < 0 := not_le.mp hcap.2
          have hne0 : coef r a ≠ 0 := by intro h; rw [h] at hneg; simp at hneg
          rcases hk with h1 | ⟨h1, hall⟩
          · exfalso
            refine (hra hne0).2 ⟨?_, by rw [h1]; decide, hbig hu⟩
            rw [val_eq hi, if_pos hf]; exact hneg
          · have hm := mem_coef hne0
            have h3 := dot_ge_one (y := moved P x a b) (p := (a, coef r a))
              (fun p hp => ⟨(hall p hp).1, hy0 _ (ht.wf.cols r hr p hp)⟩) hm
            have h4 := (hall _ hm).2
            dsimp only at h3 h4
            rw [hya, hyu] at h3
            linarith
      · intro hu; rw [hub, ht.inf] at hu; exact absurd hu (lt_irrefl _)
    · -- of no use
      have e1 : coef r a = 0 := by by_contra h; exact (hra h).1 hf
      have e2 : coef r b = 0 := by by_contra h; exact hrb h hf
      have : SVec.dot r.coefs (moved P x a b) = SVec.dot r.coefs x := by rw [hdot, e1, e2]; ring
      unfold Row.Sat; rw [this]; exact hrow
    · -- upper bound
      rw [if_neg (not_lt.mpr hf.le), if_neg (not_lt.mpr hf.le)] at hval
      obtain ⟨hlb, hk⟩ := flip_pos (ht.rowUpper r hr) hf
      refine ⟨?_, ?_⟩
      · intro hl; rw [ht.inf] at hl; linarith
      · intro hl
        have h0 := hrow.2 hl
        by_cases hcap : newVal P x a b = x a + x b ∨ 0 ≤ coef r a
        · have := num_le (s := newVal P x a b - x a) (xb := x b) hval (by linarith) (by linarith)
            (hcap.imp (fun h => by linarith) id)
          rw [hdot]; linarith
        · rw [not_or] at hcap
          obtain ⟨hu, hyu⟩ := hs2.resolve_left hcap.1
          have hneg : coef r a < 0 := not_le.mp hcap.2
          rcases hk with h1 | ⟨h1, hall⟩
          · exfalso
            refine (hra hneg.ne).2 ⟨?_, by rw [h1]; decide, hbig hu⟩
            rw [val_eq hi, if_neg (not_lt.mpr hf.le)]; exact hneg
          · have hm := mem_coef hneg.ne
            have h3 := dot_le_one (y := moved P x a b) (p := (a, coef r a))
              (fun p hp => ⟨(hall p hp).1, hy0 _ (ht.wf.cols r hr p hp)⟩) hm
            have h4 := (hall _ hm).2
            dsimp only at h3 h4
            rw [hya, hyu] at h3
            linarith
  · intro j hj hl
    by_cases h2 : j = b
    · rw [h2, hyb]; have := hd.lower; dsimp only at this; rw [this]
    · by_cases h1 : j = a
      · have := hx.lower j hj hl; rw [h1] at this; rw [h1, hya]; linarith
      · rw [hyo j h1 h2]; exact hx.lower j hj hl
  · intro j hj hu
    by_cases h2 : j = b
    · have := hx.upper j hj hu; rw [h2] at this; rw [h2, hyb]; linarith
    · by_cases h1 : j = a
      · rw [h1] at hu; rw [h1, hya]; unfold newVal; rw [if_pos hu]; exact min_le_left _ _
      · rw [hyo j h1 h2]; exact hx.upper j hj hu
  · intro j hj hji
    by_cases h2 : j = b
    · rw [h2, hyb]; exact ⟨0, by simp⟩
    · by_cases h1 : j = a
      · rw [h1] at hji; rw [h1, hya]
        have hbi : P.isInt b = true := by rw [← hcib, ← hint, hcia]; exact hji
        obtain ⟨z1, hz1⟩ := hx.int a hca hji
        obtain ⟨z2, hz2⟩ := hx.int b hcb hbi
        rcases hs2 with h | ⟨hu, h⟩
        · rw [h]; exact ⟨z1 + z2, by rw [hz1, hz2]; push_cast; ring⟩
        · rw [h]
          rcases ht.intUpper a hca hji with h3 | h3
          · exact h3
          · rw [ht.inf] at hu; linarith
      · rw [hyo j h1 h2]; exact hx.int j hj hji
  · -- objective
    have hv : value P.nCols cost (moved P x a b) =
        value P.nCols cost x + (cost a * (newVal P x a b - x a) - cost b * x b) := by
      unfold moved
      rw [value_update _ _ _ _ _ hcb, value_update _ _ _ _ _ hca, Function.update_of_ne (Ne.symm hne)]
      ring
    have hdc := hdom.1
    dsimp only at hdc
    have hb0 : 0 ≤ cost b := by
      rcases hg b hcb with h | ⟨r, hr, ⟨p, hp, hpb⟩, q, hq, hqi⟩
      · exact h
      · by_contra hneg
        obtain ⟨i, hi⟩ := List.getElem?_of_mem hr
        have hmem : i ∈ rowsOf P b := by
          rw [mem_rowsOf]; unfold entry; rw [hi]; dsimp only
          cases hl : r.coefs.lookup b with
          | some v => rfl
          | none =>
            have := List.lookup_eq_none_iff.mp hl p hp
            simp [hpb] at this
        have h1 := hd.type htype (not_le.mp hneg) i hmem
        have h2 := (hd.rows i hmem).1
        have hfl : flipAt P i = flip P r := by unfold flipAt; rw [hi]
        dsimp only at h1 h2
        rw [hfl] at h1 h2
        have hflip : flip P r = side r := by
          unfold flip
          rw [if_neg]
          rintro ⟨-, hall⟩
          have := List.all_eq_true.mp hall q hq
          rw [hqi] at this; simp at this
        rw [hflip] at h1 h2
        revert h1 h2
        unfold side
        split
        · simp
        · split <;> simp
    rw [hv]
    by_cases ha0 : 0 ≤ cost a
    · have := num_le (s := newVal P x a b - x a) (xb := x b) hdc (by linarith) (by linarith) (Or.inr ha0)
      linarith
    · have h1 : cost a * (newVal P x a b - x a) ≤ 0 := mul_nonpos_of_nonpos_of_nonneg (not_le.mp ha0).le (by linarith)
      have h2 := mul_nonneg hb0 hxb
      linarith

end Cgl.DomCols
