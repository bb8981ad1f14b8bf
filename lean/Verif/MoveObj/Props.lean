import Verif.MoveObj.Spec
import Mathlib.Tactic.FieldSimp
import Mathlib.Algebra.Order.Field.Basic
import Mathlib.Algebra.BigOperators.Ring.Finset

/-! # Moving costs: proofs -/

namespace Cgl.MoveObj

/-! ### The two sides of a row -/

/-- What is true of a side: `l` are the columns that came to it. -/
structure SideOk (nCols len : Nat) (s : Side) (l : SVec) : Prop where
  none : s.n = 0 → l = []
  one : s.n = 1 → l = [(s.col, s.value)]
  same : 0 < s.n → (∃ p ∈ l, p.1 = s.col) ∧ ∀ p ∈ l, p.2 = s.value
  bad : s.n < 0 → s.n + nCols + 2 ≤ len
  long : l ≠ [] → 1 ≤ len

theorem sideOk_add {nCols len : Nat} (h : len < nCols) {s : Side} {l : SVec} (p : Nat × ℚ) (hs : SideOk nCols len s l) :
    SideOk nCols (len + 1) (s.add nCols p) (l ++ [p]) := by
  unfold Side.add
  by_cases h1 : 0 < s.n ∧ p.2 ≠ s.value
  · rw [if_pos h1]
    obtain ⟨⟨q, hq, -⟩, -⟩ := hs.same h1.1
    have := hs.long (List.ne_nil_of_mem hq)
    exact ⟨fun h => by dsimp only at h; omega, fun h => by dsimp only at h; omega, fun h => by dsimp only at h; omega,
      fun _ => by dsimp only; push_cast; omega, fun _ => by omega⟩
  · rw [if_neg h1]
    by_cases h2 : s.n = 0
    · rw [if_pos h2, hs.none h2]
      exact ⟨fun h => by dsimp only at h; omega, fun _ => rfl, fun _ => ⟨⟨p, by simp, rfl⟩, by simp⟩,
        fun h => by dsimp only at h; omega, fun _ => by omega⟩
    · rw [if_neg h2]
      refine ⟨fun h => ?_, fun h => ?_, fun h => ?_, fun h => ?_, fun _ => by omega⟩
      · dsimp only at h
        have := hs.bad (by omega)
        omega
      · dsimp only at h; omega
      · dsimp only at h ⊢
        rcases lt_or_gt_of_ne h2 with hn | hn
        · have := hs.bad hn
          omega
        · obtain ⟨⟨q, hq, hqc⟩, ha⟩ := hs.same hn
          refine ⟨⟨q, by simp [hq], hqc⟩, fun t ht => ?_⟩
          rcases List.mem_append.mp ht with ht | ht
          · exact ha t ht
          · simp only [List.mem_singleton] at ht
            subst ht
            by_contra hne
            exact h1 ⟨hn, hne⟩
      · dsimp only at h ⊢
        have := hs.bad (by omega)
        push_cast; omega

theorem sideOk_mono {nCols len len' : Nat} (h : len ≤ len') {s : Side} {l : SVec} (hs : SideOk nCols len s l) :
    SideOk nCols len' s l :=
  ⟨hs.none, hs.one, hs.same, fun hb => by have := hs.bad hb; omega, fun hl => by have := hs.long hl; omega⟩

/-- The columns that are not fixed and have positive coefficients. -/
def plusCols (P : Prob) (v : SVec) : SVec := v.filter fun p => free P p.1 && decide (0 < p.2)

/-- The columns that are not fixed and have other coefficients. -/
def minusCols (P : Prob) (v : SVec) : SVec := v.filter fun p => free P p.1 && !decide (0 < p.2)

/-- What is true after some entries. -/
def ScanOk (P : Prob) (s : Scan) (v : SVec) : Prop :=
  SideOk P.nCols v.length s.plus (plusCols P v) ∧ SideOk P.nCols v.length s.minus (minusCols P v)

theorem scanEntry_ok (P : Prob) (s : Scan) (v : SVec) (p : Nat × ℚ) (hl : v.length < P.nCols) (hs : ScanOk P s v) :
    ScanOk P (scanEntry P s p) (v ++ [p]) := by
  unfold scanEntry
  unfold ScanOk plusCols minusCols at *
  rw [List.filter_append, List.filter_append, List.length_append, List.length_singleton]
  by_cases h1 : free P p.1 = true
  · rw [if_pos h1]
    by_cases h2 : 0 < p.2
    · rw [if_pos h2]
      refine ⟨?_, ?_⟩
      · rw [List.filter_singleton (a := p)]
        simp only [h1, h2, decide_true, Bool.and_self, Bool.cond_true]
        exact sideOk_add hl p hs.1
      · rw [List.filter_singleton (a := p)]
        simp only [h1, h2, decide_true, Bool.not_true, Bool.and_false, Bool.cond_false, List.append_nil]
        exact sideOk_mono (Nat.le_succ _) hs.2
    · rw [if_neg h2]
      refine ⟨?_, ?_⟩
      · rw [List.filter_singleton (a := p)]
        simp only [h1, h2, decide_false, Bool.and_false, Bool.cond_false, List.append_nil]
        exact sideOk_mono (Nat.le_succ _) hs.1
      · rw [List.filter_singleton (a := p)]
        simp only [h1, h2, decide_false, Bool.not_false, Bool.and_self, Bool.cond_true]
        exact sideOk_add hl p hs.2
  · rw [if_neg h1]
    rw [List.filter_singleton (a := p), List.filter_singleton (a := p)]
    simp only [h1, Bool.false_and, Bool.cond_false, List.append_nil]
    exact ⟨sideOk_mono (Nat.le_succ _) hs.1, sideOk_mono (Nat.le_succ _) hs.2⟩

theorem foldl_scan_ok (P : Prob) (w : SVec) : ∀ (s : Scan) (v : SVec), (v ++ w).length ≤ P.nCols → ScanOk P s v →
    ScanOk P (w.foldl (scanEntry P) s) (v ++ w) := by
  induction w with
  | nil => intro s v _ h; simpa using h
  | cons p w ih =>
    intro s v hl h
    have := ih (scanEntry P s p) (v ++ [p]) (by simpa using hl)
      (scanEntry_ok P s v p (by rw [List.length_append, List.length_cons] at hl; omega) h)
    simpa using this

theorem scan_ok (P : Prob) (v : SVec) (hl : v.length ≤ P.nCols) : ScanOk P (scan P v) v := by
  have := foldl_scan_ok P v ⟨⟨0, 0, 0⟩, ⟨0, 0, 0⟩, 0⟩ [] (by simpa using hl)
    ⟨⟨fun _ => rfl, fun h => by dsimp only at h; omega, fun h => by dsimp only at h; omega, fun h => by dsimp only at h; omega,
      fun h => absurd rfl h⟩, ⟨fun _ => rfl, fun h => by dsimp only at h; omega, fun h => by dsimp only at h; omega,
      fun h => by dsimp only at h; omega, fun h => absurd rfl h⟩⟩
  rw [List.nil_append] at this
  exact this

theorem length_le (P : Prob) (hP : P.WF) (r : Row) (hr : r ∈ P.rows) : r.coefs.length ≤ P.nCols := by
  have h : (r.coefs.map Prod.fst).toFinset ⊆ Finset.range P.nCols := by
    intro j hj
    rw [List.mem_toFinset, List.mem_map] at hj
    obtain ⟨p, hp, rfl⟩ := hj
    exact Finset.mem_range.mpr (hP.cols r hr p hp)
  have := Finset.card_le_card h
  rw [List.toFinset_card_of_nodup (hP.nodup r hr), Finset.card_range, List.length_map] at this
  exact this

theorem mem_plus {P : Prob} {v : SVec} {p : Nat × ℚ} : p ∈ plusCols P v ↔ p ∈ v ∧ P.colLower p.1 < P.colUpper p.1 ∧ 0 < p.2 := by
  unfold plusCols free; simp [List.mem_filter]

theorem mem_minus {P : Prob} {v : SVec} {p : Nat × ℚ} :
    p ∈ minusCols P v ↔ p ∈ v ∧ P.colLower p.1 < P.colUpper p.1 ∧ p.2 ≤ 0 := by
  unfold minusCols free; simp [List.mem_filter]

/-- What the test for a move means: a single free column on one side, columns with equal coefficients of the other sign on the
other. -/
structure Suit (P : Prob) (s : Scan) (v : SVec) : Prop where
  mem : ((one s).col, (one s).value) ∈ v
  oneFree : P.colLower (one s).col < P.colUpper (one s).col
  ex : ∃ p ∈ v, p.1 ≠ (one s).col ∧ P.colLower p.1 < P.colUpper p.1
  same : ∀ p ∈ v, P.colLower p.1 < P.colUpper p.1 → p.1 ≠ (one s).col → p.2 = (other s).value
  signs : (s.plus.n = 1 ∧ 0 < (one s).value ∧ (other s).value < 0) ∨ (s.plus.n ≠ 1 ∧ (one s).value < 0 ∧ 0 < (other s).value)

theorem eq_of_col {v : SVec} (hnd : (v.map Prod.fst).Nodup) {p q : Nat × ℚ} (hp : p ∈ v) (hq : q ∈ v) (h : p.1 = q.1) : p = q :=
  List.inj_on_of_nodup_map hnd hp hq h

theorem suit_plus {P : Prob} {s : Scan} {v : SVec} (hnd : (v.map Prod.fst).Nodup) (hnz : ∀ p ∈ v, p.2 ≠ 0) (h : ScanOk P s v)
    (h1 : s.plus.n = 1) (h2 : 0 < s.minus.n) : Suit P s v := by
  have e1 : one s = s.plus := by unfold one; rw [if_pos h1]
  have e2 : other s = s.minus := by unfold other; rw [if_pos h1]
  have hm : (s.plus.col, s.plus.value) ∈ plusCols P v := by rw [h.1.one h1]; simp
  have hm' := mem_plus.mp hm
  obtain ⟨⟨q, hq, -⟩, hsame⟩ := h.2.same h2
  have hq' := mem_minus.mp hq
  have hqv : s.minus.value < 0 := by
    rw [← hsame q hq]; exact lt_of_le_of_ne hq'.2.2 (hnz q hq'.1)
  refine ⟨by rw [e1]; exact hm'.1, by rw [e1]; exact hm'.2.1, ⟨q, hq'.1, ?_, hq'.2.1⟩, fun p hp hf hne => ?_,
    Or.inl ⟨h1, by rw [e1]; exact hm'.2.2, by rw [e2]; exact hqv⟩⟩
  · rw [e1]
    intro he
    have := eq_of_col hnd hq'.1 hm'.1 he
    have h3 := hm'.2.2
    have h4 := hq'.2.2
    rw [this] at h4
    exact absurd h3 (not_lt.mpr h4)
  · rw [e2]
    rw [e1] at hne
    by_cases hp0 : 0 < p.2
    · have : p ∈ plusCols P v := mem_plus.mpr ⟨hp, hf, hp0⟩
      rw [h.1.one h1, List.mem_singleton] at this
      exact absurd (by rw [this]) hne
    · exact hsame p (mem_minus.mpr ⟨hp, hf, not_lt.mp hp0⟩)

theorem suit_minus {P : Prob} {s : Scan} {v : SVec} (hnd : (v.map Prod.fst).Nodup) (hnz : ∀ p ∈ v, p.2 ≠ 0) (h : ScanOk P s v)
    (h0 : s.plus.n ≠ 1) (h1 : s.minus.n = 1) (h2 : 0 < s.plus.n) : Suit P s v := by
  have e1 : one s = s.minus := by unfold one; rw [if_neg h0]
  have e2 : other s = s.plus := by unfold other; rw [if_neg h0]
  have hm : (s.minus.col, s.minus.value) ∈ minusCols P v := by rw [h.2.one h1]; simp
  have hm' := mem_minus.mp hm
  obtain ⟨⟨q, hq, -⟩, hsame⟩ := h.1.same h2
  have hq' := mem_plus.mp hq
  refine ⟨by rw [e1]; exact hm'.1, by rw [e1]; exact hm'.2.1, ⟨q, hq'.1, ?_, hq'.2.1⟩, fun p hp hf hne => ?_,
    Or.inr ⟨h0, by rw [e1]; exact lt_of_le_of_ne hm'.2.2 (hnz _ hm'.1), by rw [e2, ← hsame q hq]; exact hq'.2.2⟩⟩
  · rw [e1]
    intro he
    have := eq_of_col hnd hq'.1 hm'.1 he
    have h3 := hm'.2.2
    have h4 := hq'.2.2
    rw [this] at h4
    exact absurd h4 (not_lt.mpr h3)
  · rw [e2]
    rw [e1] at hne
    by_cases hp0 : 0 < p.2
    · exact hsame p (mem_plus.mpr ⟨hp, hf, hp0⟩)
    · have : p ∈ minusCols P v := mem_minus.mpr ⟨hp, hf, not_lt.mp hp0⟩
      rw [h.2.one h1, List.mem_singleton] at this
      exact absurd (by rw [this]) hne

theorem single_iff {P : Prob} {cost : Nat → ℚ} {a b : Side} :
    single P cost a b = true ↔ a.n = 1 ∧ P.isInt a.col = true ∧ 0 < b.n ∧ cost a.col = 0 := by
  unfold single; simp [and_assoc]

theorem suits_suit {P : Prob} {cost : Nat → ℚ} {s : Scan} {v : SVec} (hnd : (v.map Prod.fst).Nodup) (hnz : ∀ p ∈ v, p.2 ≠ 0)
    (h : ScanOk P s v) (hs : suits P cost s = true) : Suit P s v := by
  unfold suits at hs
  rw [Bool.and_eq_true, Bool.or_eq_true, single_iff, single_iff] at hs
  by_cases h0 : s.plus.n = 1
  · rcases hs.1 with ⟨h1, -, h2, -⟩ | ⟨h1, -, -, -⟩
    · exact suit_plus hnd hnz h h1 h2
    · exact suit_plus hnd hnz h h0 (by omega)
  · rcases hs.1 with ⟨h1, -, h2, -⟩ | ⟨h1, -, h2, -⟩
    · exact absurd h1 h0
    · exact suit_minus hnd hnz h h0 h1 h2

/-! ### The change of the objective -/

theorem change_eq {P : Prob} {s : Scan} {v : SVec} (hnd : (v.map Prod.fst).Nodup) (h : Suit P s v) (move : ℚ) {p : Nat × ℚ}
    (hp : p ∈ v) : change P s move p = -(move / (other s).value) * p.2 := by
  have ho : (other s).value ≠ 0 := by
    rcases h.signs with ⟨-, -, h⟩ | ⟨-, -, h⟩
    · exact ne_of_lt h
    · exact ne_of_gt h
  unfold change
  by_cases h1 : p.1 ≠ (one s).col
  · rw [if_pos h1]
    by_cases h2 : free P p.1 = true
    · rw [if_pos h2, h.same p hp (by unfold free at h2; exact of_decide_eq_true h2) h1]
      field_simp
    · rw [if_neg h2]
      field_simp
  · rw [if_neg h1]
    have : p = ((one s).col, (one s).value) := eq_of_col hnd hp h.mem (not_not.mp h1)
    rw [this]
    unfold multiplier
    dsimp only
    have : |(one s).value / (other s).value| = -((one s).value / (other s).value) := by
      apply abs_of_neg
      rcases h.signs with ⟨-, h1, h2⟩ | ⟨-, h1, h2⟩
      · exact div_neg_of_pos_of_neg h1 h2
      · exact div_neg_of_neg_of_pos h1 h2
    rw [this]
    field_simp

theorem sum_addCost (n : Nat) (cost : Nat → ℚ) (i : Nat) (hi : i < n) (d : ℚ) (x : Nat → ℚ) :
    (∑ j ∈ Finset.range n, addCost cost i d j * x j) = (∑ j ∈ Finset.range n, cost j * x j) + d * x i := by
  have : ∀ j ∈ Finset.range n, addCost cost i d j * x j = cost j * x j + if j = i then d * x j else 0 := by
    intro j _
    unfold addCost
    by_cases h : j = i
    · rw [if_pos h, if_pos h]; ring
    · rw [if_neg h, if_neg h]; ring
  rw [Finset.sum_congr rfl this, Finset.sum_add_distrib, Finset.sum_ite_eq' (Finset.range n) i (fun j => d * x j),
    if_pos (Finset.mem_range.mpr hi)]

theorem sum_changeAll (P : Prob) (s : Scan) (move : ℚ) (x : Nat → ℚ) (v : SVec) (hv : ∀ p ∈ v, p.1 < P.nCols) :
    ∀ cost : Nat → ℚ, (∑ j ∈ Finset.range P.nCols, changeAll P s move v cost j * x j) =
      (∑ j ∈ Finset.range P.nCols, cost j * x j) + (v.map fun p => change P s move p * x p.1).sum := by
  induction v with
  | nil => intro cost; simp [changeAll]
  | cons p v ih =>
    intro cost
    have e : changeAll P s move (p :: v) cost = changeAll P s move v (addCost cost p.1 (change P s move p)) := rfl
    rw [e, ih (fun q hq => hv q (List.mem_cons_of_mem _ hq)), sum_addCost _ _ _ (hv p List.mem_cons_self), List.map_cons, List.sum_cons]
    ring

theorem sum_change {P : Prob} {s : Scan} {v : SVec} (hnd : (v.map Prod.fst).Nodup) (h : Suit P s v) (move : ℚ) (x : Nat → ℚ) :
    (v.map fun p => change P s move p * x p.1).sum = -(move / (other s).value) * SVec.dot v x := by
  unfold SVec.dot
  rw [← List.sum_map_mul_left]
  congr 1
  apply List.map_congr_left
  intro p hp
  rw [change_eq hnd h move hp]; ring

theorem dot_eq {inf : ℚ} {r : Row} {x : Nat → ℚ} (hf : |r.lb| < inf) (he : r.lb = r.ub) (hx : r.Sat inf x) :
    r.coefs.dot x = r.lb := by
  have := abs_lt.mp hf
  have h1 := hx.1 this.1
  have h2 := hx.2 (he ▸ this.2)
  rw [← he] at h2
  exact le_antisymm h2 h1

/-- The values of the objective before and after a move, at a point that satisfies the equation. -/
theorem value_apply {P : Prob} {s : Scan} {r : Row} (hv : ∀ p ∈ r.coefs, p.1 < P.nCols) (hnd : (r.coefs.map Prod.fst).Nodup)
    (h : Suit P s r.coefs) (m : ℚ × ℚ) (o : Obj) {x : Nat → ℚ} (hx : r.coefs.dot x = r.lb) :
    value P.nCols (apply P s r m o) x = value P.nCols o x - m.1 / (other s).value * r.lb - m.1 * m.2 * newRhs s r.lb := by
  unfold apply
  by_cases hm : m.1 ≠ 0
  · rw [if_pos hm]
    unfold value
    dsimp only
    rw [sum_changeAll P s m.1 x r.coefs hv, sum_change hnd h, hx]
    ring
  · rw [if_neg hm, not_not.mp hm]; ring

/-- One row changes the values of the objective at all points that satisfy it by the same number. -/
theorem value_moveRow (P : Prob) (hP : Tidy P) (o : Obj) (r : Row) (hr : r ∈ P.rows) :
    ∃ K, ∀ x, r.Sat P.inf x → value P.nCols (moveRow P o r) x = value P.nCols o x + K := by
  unfold moveRow
  by_cases h1 : r.lb ≠ r.ub
  · rw [if_pos h1]; exact ⟨0, fun x _ => by ring⟩
  · rw [if_neg h1]
    by_cases h2 : suits P o.cost (scan P r.coefs) = true
    · rw [if_pos h2]
      have hS := suits_suit (hP.wf.nodup r hr) (hP.nonzero r hr) (scan_ok P r.coefs (length_le P hP.wf r hr)) h2
      unfold suited
      generalize amount (extremes P o.cost (one (scan P r.coefs)).col r.coefs (dblMax, -dblMax)) = m
      refine ⟨-(m.1 / (other (scan P r.coefs)).value * r.lb + m.1 * m.2 * newRhs (scan P r.coefs) r.lb), fun x hx => ?_⟩
      rw [value_apply (hP.wf.cols r hr) (hP.wf.nodup r hr) hS _ o
        (dot_eq (hP.finite r hr (not_not.mp h1)) (not_not.mp h1) hx), sub_sub]
      exact sub_eq_add_neg _ _
    · rw [if_neg h2]; exact ⟨0, fun x _ => by ring⟩

/-- Moving costs changes the values of the objective at all feasible points by the same number. -/
theorem moveCosts_constant (P : Prob) (hP : Tidy P) (o : Obj) :
    ∃ K, ∀ x, P.Feasible x → value P.nCols (moveCosts P o) x = value P.nCols o x + K := by
  have key : ∀ (l : List Row), (∀ r ∈ l, r ∈ P.rows) → ∀ o : Obj,
      ∃ K, ∀ x, P.Feasible x → value P.nCols (l.foldl (moveRow P) o) x = value P.nCols o x + K := by
    intro l
    induction l with
    | nil => intro _ o; exact ⟨0, fun x _ => by simp⟩
    | cons r l ih =>
      intro hl o
      obtain ⟨K, hK⟩ := value_moveRow P hP o r (hl r List.mem_cons_self)
      obtain ⟨K', hK'⟩ := ih (fun q hq => hl q (List.mem_cons_of_mem _ hq)) (moveRow P o r)
      refine ⟨K + K', fun x hx => ?_⟩
      rw [List.foldl_cons, hK' x hx, hK x (hx.rows r (hl r List.mem_cons_self))]
      ring
  exact key P.rows (fun _ h => h) o

/-- Feasible points compare as before: the best ones are the same. -/
theorem moveCosts_order (P : Prob) (hP : Tidy P) (o : Obj) (x y : Nat → ℚ) (hx : P.Feasible x) (hy : P.Feasible y) :
    value P.nCols (moveCosts P o) x ≤ value P.nCols (moveCosts P o) y ↔ value P.nCols o x ≤ value P.nCols o y := by
  obtain ⟨K, hK⟩ := moveCosts_constant P hP o
  rw [hK x hx, hK y hy]
  exact add_le_add_iff_right K

/-! ### How much is moved -/

/-- The columns that costs are taken from. -/
def Giver (P : Prob) (j : Nat) (v : SVec) (i : Nat) : Prop := (∃ p ∈ v, p.1 = i) ∧ i ≠ j ∧ P.colLower i < P.colUpper i

/-- What `extremes` says about the columns of `v`, and where the numbers come from. -/
structure Ext (P : Prob) (cost : Nat → ℚ) (j : Nat) (v : SVec) (s e : ℚ × ℚ) : Prop where
  pos : ∀ i, Giver P j v i → 0 ≤ cost i → e.1 ≤ cost i
  neg : ∀ i, Giver P j v i → cost i < 0 → cost i ≤ e.2
  le : e.1 ≤ s.1
  ge : s.2 ≤ e.2
  fromPos : e.1 = s.1 ∨ ∃ i, Giver P j v i ∧ 0 ≤ cost i ∧ e.1 = cost i
  fromNeg : e.2 = s.2 ∨ ∃ i, Giver P j v i ∧ cost i < 0 ∧ e.2 = cost i

theorem giver_cons {P : Prob} {j : Nat} {p : Nat × ℚ} {v : SVec} {i : Nat} (h : Giver P j (p :: v) i) :
    i = p.1 ∧ p.1 ≠ j ∧ free P p.1 = true ∨ Giver P j v i := by
  obtain ⟨⟨q, hq, rfl⟩, hj, hf⟩ := h
  rcases List.mem_cons.mp hq with rfl | hq
  · exact Or.inl ⟨rfl, hj, by unfold free; exact decide_eq_true hf⟩
  · exact Or.inr ⟨⟨q, hq, rfl⟩, hj, hf⟩

theorem Giver.cons {P : Prob} {j : Nat} {p : Nat × ℚ} {v : SVec} {i : Nat} (h : Giver P j v i) : Giver P j (p :: v) i := by
  obtain ⟨⟨q, hq, rfl⟩, hj, hf⟩ := h
  exact ⟨⟨q, List.mem_cons_of_mem _ hq, rfl⟩, hj, hf⟩

theorem extremes_ok (P : Prob) (cost : Nat → ℚ) (j : Nat) (v : SVec) : ∀ s, Ext P cost j v s (extremes P cost j v s) := by
  induction v with
  | nil =>
    intro s
    exact ⟨fun i h => by obtain ⟨⟨q, hq, -⟩, -⟩ := h; simp at hq, fun i h => by obtain ⟨⟨q, hq, -⟩, -⟩ := h; simp at hq,
      le_refl _, le_refl _, Or.inl rfl, Or.inl rfl⟩
  | cons p v ih =>
    intro s
    simp only [extremes]
    by_cases h1 : p.1 ≠ j ∧ free P p.1 = true
    · have hg : Giver P j (p :: v) p.1 :=
        ⟨⟨p, List.mem_cons_self, rfl⟩, h1.1, by have := h1.2; unfold free at this; exact of_decide_eq_true this⟩
      rw [if_pos h1]
      by_cases h2 : 0 ≤ cost p.1
      · rw [if_pos h2]
        have h := ih (min s.1 (cost p.1), s.2)
        refine ⟨fun i hi h0 => ?_, fun i hi h0 => ?_, le_trans h.le (min_le_left _ _), h.ge, ?_, ?_⟩
        · rcases giver_cons hi with ⟨rfl, -⟩ | hi
          · exact le_trans h.le (min_le_right _ _)
          · exact h.pos i hi h0
        · rcases giver_cons hi with ⟨rfl, -⟩ | hi
          · exact absurd h2 (not_le.mpr h0)
          · exact h.neg i hi h0
        · rcases h.fromPos with he | ⟨i, hi, h0, he⟩
          · rcases min_choice s.1 (cost p.1) with hm | hm
            · exact Or.inl (by rw [he]; exact hm)
            · exact Or.inr ⟨p.1, hg, h2, by rw [he]; exact hm⟩
          · exact Or.inr ⟨i, hi.cons, h0, he⟩
        · rcases h.fromNeg with he | ⟨i, hi, h0, he⟩
          · exact Or.inl he
          · exact Or.inr ⟨i, hi.cons, h0, he⟩
      · rw [if_neg h2]
        have h := ih (s.1, max s.2 (cost p.1))
        refine ⟨fun i hi h0 => ?_, fun i hi h0 => ?_, h.le, le_trans (le_max_left _ _) h.ge, ?_, ?_⟩
        · rcases giver_cons hi with ⟨rfl, -⟩ | hi
          · exact absurd h0 h2
          · exact h.pos i hi h0
        · rcases giver_cons hi with ⟨rfl, -⟩ | hi
          · exact le_trans (le_max_right _ _) h.ge
          · exact h.neg i hi h0
        · rcases h.fromPos with he | ⟨i, hi, h0, he⟩
          · exact Or.inl he
          · exact Or.inr ⟨i, hi.cons, h0, he⟩
        · rcases h.fromNeg with he | ⟨i, hi, h0, he⟩
          · rcases max_choice s.2 (cost p.1) with hm | hm
            · exact Or.inl (by rw [he]; exact hm)
            · exact Or.inr ⟨p.1, hg, not_le.mp h2, by rw [he]; exact hm⟩
          · exact Or.inr ⟨i, hi.cons, h0, he⟩
    · rw [if_neg h1]
      have h := ih s
      refine ⟨fun i hi h0 => ?_, fun i hi h0 => ?_, h.le, h.ge, ?_, ?_⟩
      · rcases giver_cons hi with ⟨rfl, h2⟩ | hi
        · exact absurd h2 h1
        · exact h.pos i hi h0
      · rcases giver_cons hi with ⟨rfl, h2⟩ | hi
        · exact absurd h2 h1
        · exact h.neg i hi h0
      · rcases h.fromPos with he | ⟨i, hi, h0, he⟩
        · exact Or.inl he
        · exact Or.inr ⟨i, hi.cons, h0, he⟩
      · rcases h.fromNeg with he | ⟨i, hi, h0, he⟩
        · exact Or.inl he
        · exact Or.inr ⟨i, hi.cons, h0, he⟩

/-- What a move needs: all givers have positive costs and the smallest is moved, or all have negative costs and the largest is
moved. -/
theorem amount_cases {P : Prob} {cost : Nat → ℚ} {j : Nat} {v : SVec} (hc : ∀ i, Giver P j v i → |cost i| < dblMax)
    (hex : ∃ i, Giver P j v i) (hm : (amount (extremes P cost j v (dblMax, -dblMax))).1 ≠ 0) :
    (0 < (amount (extremes P cost j v (dblMax, -dblMax))).1 ∧ (amount (extremes P cost j v (dblMax, -dblMax))).2 = -1 ∧
      (∀ i, Giver P j v i → (amount (extremes P cost j v (dblMax, -dblMax))).1 ≤ cost i) ∧
      ∃ i, Giver P j v i ∧ cost i = (amount (extremes P cost j v (dblMax, -dblMax))).1) ∨
    ((amount (extremes P cost j v (dblMax, -dblMax))).1 < 0 ∧ (amount (extremes P cost j v (dblMax, -dblMax))).2 = 1 ∧
      (∀ i, Giver P j v i → cost i ≤ (amount (extremes P cost j v (dblMax, -dblMax))).1) ∧
      ∃ i, Giver P j v i ∧ cost i = (amount (extremes P cost j v (dblMax, -dblMax))).1) := by
  have h := extremes_ok P cost j v (dblMax, -dblMax)
  generalize extremes P cost j v (dblMax, -dblMax) = e at h hm
  unfold amount at hm ⊢
  by_cases h1 : 0 < e.1
  · rw [if_pos h1] at hm ⊢
    dsimp only at hm ⊢
    by_cases h2 : e.2 = -dblMax
    · rw [if_pos h2] at hm ⊢
      rw [if_pos h2]
      have hpos : ∀ i, Giver P j v i → 0 ≤ cost i := by
        intro i hi
        by_contra hn
        have h3 := h.neg i hi (not_le.mp hn)
        rw [h2] at h3
        exact absurd (abs_lt.mp (hc i hi)).1 (not_lt.mpr h3)
      refine Or.inl ⟨h1, rfl, fun i hi => h.pos i hi (hpos i hi), ?_⟩
      rcases h.fromPos with he | ⟨i, hi, -, he⟩
      · obtain ⟨i, hi⟩ := hex
        have h4 := h.pos i hi (hpos i hi)
        rw [he] at h4
        exact absurd (abs_lt.mp (hc i hi)).2 (not_lt.mpr h4)
      · exact ⟨i, hi, he.symm⟩
    · rw [if_neg h2] at hm ⊢
      rw [if_neg h2]
      by_cases h3 : e.1 = dblMax
      · rw [if_pos h3] at hm ⊢
        have hneg : ∀ i, Giver P j v i → cost i < 0 := by
          intro i hi
          by_contra hn
          have h4 := h.pos i hi (not_lt.mp hn)
          rw [h3] at h4
          exact absurd (abs_lt.mp (hc i hi)).2 (not_lt.mpr h4)
        rcases h.fromNeg with he | ⟨i, hi, h0, he⟩
        · exact absurd he h2
        · exact Or.inr ⟨by rw [he]; exact h0, rfl, fun k hk => h.neg k hk (hneg k hk), i, hi, he.symm⟩
      · rw [if_neg h3] at hm
        exact absurd rfl hm
  · rw [if_neg h1] at hm
    exact absurd rfl hm

/-- Where the costs of a column come from. -/
theorem changeAll_cost (P : Prob) (s : Scan) (move : ℚ) (v : SVec) (hnd : (v.map Prod.fst).Nodup) : ∀ (cost : Nat → ℚ) (i : Nat),
    ((∀ p ∈ v, p.1 ≠ i) → changeAll P s move v cost i = cost i) ∧
    ∀ p ∈ v, p.1 = i → changeAll P s move v cost i = cost i + change P s move p := by
  induction v with
  | nil => intro cost i; exact ⟨fun _ => rfl, fun p hp => by simp at hp⟩
  | cons q v ih =>
    intro cost i
    rw [List.map_cons, List.nodup_cons] at hnd
    have e : changeAll P s move (q :: v) cost = changeAll P s move v (addCost cost q.1 (change P s move q)) := rfl
    have h := ih hnd.2 (addCost cost q.1 (change P s move q)) i
    rw [e]
    refine ⟨fun hi => ?_, fun p hp hpi => ?_⟩
    · rw [h.1 fun p hp => hi p (List.mem_cons_of_mem _ hp)]
      unfold addCost
      rw [if_neg (fun he => hi q List.mem_cons_self he.symm)]
    · rcases List.mem_cons.mp hp with rfl | hp
      · rw [h.1 fun t ht hti => hnd.1 (List.mem_map.mpr ⟨t, ht, by rw [hti, hpi]⟩)]
        unfold addCost
        rw [if_pos hpi.symm]
      · rw [h.2 p hp hpi]
        unfold addCost
        rw [if_neg]
        intro he
        exact hnd.1 (List.mem_map.mpr ⟨p, hp, by rw [hpi, he]⟩)

/-- What a row does to the costs, if it does anything: the integer column `j`, which had no cost, gets one; the free other columns
of the row all had positive costs, all have become smaller by the same amount, and one of them has become zero — or the same with
negative costs.  Other free columns keep their costs. -/
structure Moved (P : Prob) (r : Row) (c c' : Nat → ℚ) (j : Nat) (m : ℚ) : Prop where
  inRow : ∃ p ∈ r.coefs, p.1 = j
  int : P.isInt j = true
  was : c j = 0
  now : 0 < c' j * m
  givers : ∀ p ∈ r.coefs, P.colLower p.1 < P.colUpper p.1 → p.1 ≠ j → c' p.1 = c p.1 - m ∧ 0 < c p.1 * m ∧ 0 ≤ c' p.1 * m
  zero : ∃ p ∈ r.coefs, P.colLower p.1 < P.colUpper p.1 ∧ p.1 ≠ j ∧ c' p.1 = 0
  rest : ∀ i, (∀ p ∈ r.coefs, p.1 ≠ i) → c' i = c i

theorem one_of_suits {P : Prob} {cost : Nat → ℚ} {s : Scan} {v : SVec} (hS : Suit P s v) (h : ScanOk P s v)
    (hs : suits P cost s = true) (hm : (∃ i, Giver P (one s).col v i ∧ cost i = 0) → False) :
    P.isInt (one s).col = true ∧ cost (one s).col = 0 := by
  unfold suits at hs
  rw [Bool.and_eq_true, Bool.or_eq_true, single_iff, single_iff] at hs
  by_cases h0 : s.plus.n = 1
  · have e1 : one s = s.plus := by unfold one; rw [if_pos h0]
    rcases hs.1 with ⟨-, h1, -, h2⟩ | ⟨h1, -, -, h2⟩
    · rw [e1]; exact ⟨h1, h2⟩
    · exfalso
      have hmem : (s.minus.col, s.minus.value) ∈ minusCols P v := by rw [h.2.one h1]; simp
      have hmem' := mem_minus.mp hmem
      refine hm ⟨s.minus.col, ⟨⟨_, hmem'.1, rfl⟩, fun he => ?_, hmem'.2.1⟩, h2⟩
      obtain ⟨p, hp, hpj, hpf⟩ := hS.ex
      have hp2 := hS.same p hp hpf hpj
      have hpm : p ∈ minusCols P v := by
        refine mem_minus.mpr ⟨hp, hpf, ?_⟩
        rw [hp2]
        rcases hS.signs with ⟨-, -, h⟩ | ⟨h, -⟩
        · exact le_of_lt h
        · exact absurd h0 h
      rw [h.2.one h1, List.mem_singleton] at hpm
      exact hpj (by rw [← he, hpm])
  · have e1 : one s = s.minus := by unfold one; rw [if_neg h0]
    rcases hs.1 with ⟨h1, -⟩ | ⟨-, h1, -, h2⟩
    · exact absurd h1 h0
    · rw [e1]; exact ⟨h1, h2⟩

theorem moveRow_moved (P : Prob) (hP : Tidy P) (o : Obj) (r : Row) (hr : r ∈ P.rows) (hc : ∀ p ∈ r.coefs, |o.cost p.1| < dblMax) :
    moveRow P o r = o ∨ (r.lb = r.ub ∧ ∃ j m, Moved P r o.cost (moveRow P o r).cost j m) := by
  unfold moveRow
  by_cases h1 : r.lb ≠ r.ub
  · rw [if_pos h1]; exact Or.inl rfl
  · rw [if_neg h1]
    by_cases h2 : suits P o.cost (scan P r.coefs) = true
    · rw [if_pos h2]
      have hK := scan_ok P r.coefs (length_le P hP.wf r hr)
      have hnd := hP.wf.nodup r hr
      have hS := suits_suit hnd (hP.nonzero r hr) hK h2
      generalize scan P r.coefs = s at hS hK h2
      have hG : ∀ i, Giver P (one s).col r.coefs i → |o.cost i| < dblMax := by
        rintro i ⟨⟨p, hp, rfl⟩, -⟩; exact hc p hp
      have hex : ∃ i, Giver P (one s).col r.coefs i := by
        obtain ⟨p, hp, hpj, hpf⟩ := hS.ex
        exact ⟨p.1, ⟨p, hp, rfl⟩, hpj, hpf⟩
      unfold suited apply
      by_cases hm : (amount (extremes P o.cost (one s).col r.coefs (dblMax, -dblMax))).1 ≠ 0
      · rw [if_pos hm]
        right
        refine ⟨not_not.mp h1, (one s).col, (amount (extremes P o.cost (one s).col r.coefs (dblMax, -dblMax))).1, ?_⟩
        dsimp only
        have hcases := amount_cases hG hex hm
        generalize amount (extremes P o.cost (one s).col r.coefs (dblMax, -dblMax)) = m at hm hcases
        have hch := changeAll_cost P s m.1 r.coefs hnd o.cost
        have hall : ∀ i, Giver P (one s).col r.coefs i → 0 < o.cost i * m.1 ∧ 0 ≤ (o.cost i - m.1) * m.1 := by
          intro i hi
          rcases hcases with ⟨h3, -, h4, -⟩ | ⟨h3, -, h4, -⟩
          · exact ⟨mul_pos (lt_of_lt_of_le h3 (h4 i hi)) h3, mul_nonneg (by linarith [h4 i hi]) (le_of_lt h3)⟩
          · exact ⟨mul_pos_of_neg_of_neg (lt_of_le_of_lt (h4 i hi) h3) h3,
              mul_nonneg_of_nonpos_of_nonpos (by linarith [h4 i hi]) (le_of_lt h3)⟩
        obtain ⟨hint, hwas⟩ := one_of_suits hS hK h2 (by
          rintro ⟨i, hi, h0⟩
          have := (hall i hi).1
          rw [h0, zero_mul] at this
          exact lt_irrefl _ this)
        have hg : ∀ p ∈ r.coefs, P.colLower p.1 < P.colUpper p.1 → p.1 ≠ (one s).col →
            changeAll P s m.1 r.coefs o.cost p.1 = o.cost p.1 - m.1 := by
          intro p hp hf hj
          rw [(hch p.1).2 p hp rfl]
          unfold change
          rw [if_pos hj, if_pos (by unfold free; exact decide_eq_true hf)]
          ring
        refine ⟨⟨_, hS.mem, rfl⟩, hint, hwas, ?_, fun p hp hf hj => ?_, ?_, fun i hi => (hch i).1 hi⟩
        · rw [(hch (one s).col).2 _ hS.mem rfl, hwas]
          unfold change
          rw [if_neg (by simp)]
          have : 0 < multiplier s := by
            unfold multiplier
            apply abs_pos.mpr
            rcases hS.signs with ⟨-, h1, h2⟩ | ⟨-, h1, h2⟩
            · exact ne_of_lt (div_neg_of_pos_of_neg h1 h2)
            · exact ne_of_lt (div_neg_of_neg_of_pos h1 h2)
          have h5 : 0 < m.1 * m.1 := mul_self_pos.mpr hm
          have := mul_pos h5 this
          calc 0 < m.1 * m.1 * multiplier s := this
            _ = (0 + m.1 * multiplier s) * m.1 := by ring
        · have h3 := hall p.1 ⟨⟨p, hp, rfl⟩, hj, hf⟩
          rw [hg p hp hf hj]
          exact ⟨rfl, h3.1, h3.2⟩
        · have : ∃ i, Giver P (one s).col r.coefs i ∧ o.cost i = m.1 := by
            rcases hcases with ⟨-, -, -, h⟩ | ⟨-, -, -, h⟩ <;> exact h
          obtain ⟨i, ⟨⟨p, hp, rfl⟩, hj, hf⟩, hi⟩ := this
          exact ⟨p, hp, hf, hj, by rw [hg p hp hf hj, hi]; ring⟩
      · rw [if_neg hm]; exact Or.inl rfl
    · rw [if_neg h2]; exact Or.inl rfl

/-! ### The offset -/

theorem value_moveRow_eq (P : Prob) (hP : Tidy P) (o : Obj) (r : Row) (hr : r ∈ P.rows) (hs : RightSign P o.cost r) {x : Nat → ℚ}
    (hx : r.Sat P.inf x) : value P.nCols (moveRow P o r) x = value P.nCols o x := by
  unfold moveRow
  by_cases h1 : r.lb ≠ r.ub
  · rw [if_pos h1]
  · rw [if_neg h1]
    by_cases h2 : suits P o.cost (scan P r.coefs) = true
    · rw [if_pos h2]
      have hS := suits_suit (hP.wf.nodup r hr) (hP.nonzero r hr) (scan_ok P r.coefs (length_le P hP.wf r hr)) h2
      unfold suited
      rw [value_apply (hP.wf.cols r hr) (hP.wf.nodup r hr) hS _ o
        (dot_eq (hP.finite r hr (not_not.mp h1)) (not_not.mp h1) hx)]
      generalize scan P r.coefs = s at hS
      rcases hs with h0 | hsig
      · rw [h0]; unfold newRhs; split <;> simp
      · have h := extremes_ok P o.cost (one s).col r.coefs (dblMax, -dblMax)
        generalize extremes P o.cost (one s).col r.coefs (dblMax, -dblMax) = e at h
        obtain ⟨p, hp, hpj, hpf⟩ := hS.ex
        have hg : Giver P (one s).col r.coefs p.1 := ⟨⟨p, hp, rfl⟩, hpj, hpf⟩
        have hps := hsig p hp hpf
        rw [hS.same p hp hpf hpj] at hps
        unfold amount
        by_cases h3 : 0 < e.1
        · rw [if_pos h3]
          dsimp only
          have hne : o.cost p.1 ≠ 0 := by
            intro h0
            have := h.pos p.1 hg (le_of_eq h0.symm)
            rw [h0] at this
            exact absurd h3 (not_lt.mpr this)
          rcases hS.signs with ⟨hn, -, ho⟩ | ⟨hn, -, ho⟩
          · have hneg : o.cost p.1 < 0 := by
              rcases lt_or_gt_of_ne hne with h | h
              · exact h
              · exact absurd hps.1 (not_le.mpr (mul_neg_of_pos_of_neg h ho))
            have he2 : e.2 ≠ -dblMax := by
              intro he
              have := h.neg p.1 hg hneg
              rw [he] at this
              exact absurd hps.2 (not_lt.mpr this)
            have ho' : (other s).value = s.minus.value := by unfold other; rw [if_pos hn]
            rw [if_neg he2, if_neg he2]
            unfold newRhs
            rw [if_pos hn, ho', div_neg]
            ring
          · have hpos : 0 < o.cost p.1 := by
              rcases lt_or_gt_of_ne hne with h | h
              · exact absurd hps.1 (not_le.mpr (mul_neg_of_neg_of_pos h ho))
              · exact h
            have ho' : (other s).value = s.plus.value := by unfold other; rw [if_neg hn]
            by_cases he2 : e.2 = -dblMax
            · rw [if_pos he2, if_pos he2]
              unfold newRhs
              rw [if_neg hn, ho']
              ring
            · exfalso
              rcases h.fromNeg with hf | ⟨i, ⟨⟨q, hq, rfl⟩, hqj, hqf⟩, hi, -⟩
              · exact he2 hf
              · have h5 := (hsig q hq hqf).1
                rw [hS.same q hq hqf hqj] at h5
                exact absurd h5 (not_le.mpr (mul_neg_of_neg_of_pos hi ho))
        · rw [if_neg h3]
          dsimp only
          ring
    · rw [if_neg h2]

/-- Moving costs keeps the value of the objective at every feasible point if the sign of the offset is right for all rows. -/
theorem moveCosts_value_partial (P : Prob) (hP : Tidy P) (o : Obj) (hs : RightSigns P P.rows o) (x : Nat → ℚ) (hx : P.Feasible x) :
    value P.nCols (moveCosts P o) x = value P.nCols o x := by
  have key : ∀ (l : List Row), (∀ r ∈ l, r ∈ P.rows) → ∀ o : Obj, RightSigns P l o →
      value P.nCols (l.foldl (moveRow P) o) x = value P.nCols o x := by
    intro l
    induction l with
    | nil => intro _ o _; rfl
    | cons r l ih =>
      intro hl o hs
      rw [List.foldl_cons, ih (fun q hq => hl q (List.mem_cons_of_mem _ hq)) _ hs.2]
      exact value_moveRow_eq P hP o r (hl r List.mem_cons_self) hs.1 (hx.rows r (hl r List.mem_cons_self))
  exact key P.rows (fun _ h => h) o hs

/-- Equations with right hand side 0 are enough. -/
theorem moveCosts_value_zero (P : Prob) (hP : Tidy P) (o : Obj) (hz : ∀ r ∈ P.rows, r.lb = r.ub → r.lb = 0) (x : Nat → ℚ)
    (hx : P.Feasible x) : value P.nCols (moveCosts P o) x = value P.nCols o x := by
  have key : ∀ (l : List Row), (∀ r ∈ l, r ∈ P.rows) → ∀ o : Obj,
      value P.nCols (l.foldl (moveRow P) o) x = value P.nCols o x := by
    intro l
    induction l with
    | nil => intro _ o; rfl
    | cons r l ih =>
      intro hl o
      rw [List.foldl_cons, ih (fun q hq => hl q (List.mem_cons_of_mem _ hq)) _]
      by_cases h : r.lb = r.ub
      · exact value_moveRow_eq P hP o r (hl r List.mem_cons_self) (Or.inl (hz r (hl r List.mem_cons_self) h))
          (hx.rows r (hl r List.mem_cons_self))
      · unfold moveRow; rw [if_pos h]
  exact key P.rows (fun _ h => h) o

end Cgl.MoveObj
