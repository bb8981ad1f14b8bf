import Verif.ProbCliques.Rows
import Mathlib.Algebra.Order.BigOperators.Group.List

/-! # The first loop of `createCliques` -/

namespace Cgl.ProbCliques

variable {P Q R : Prob}

/-! ### Fixing columns -/

theorem zeros_spec : ∀ (Z : List Nat) (Q : Prob), (Z.foldl (fun Q j => setUpper Q 0 j) Q).nCols = Q.nCols ∧
    (Z.foldl (fun Q j => setUpper Q 0 j) Q).inf = Q.inf ∧ (Z.foldl (fun Q j => setUpper Q 0 j) Q).rows = Q.rows ∧
    (Z.foldl (fun Q j => setUpper Q 0 j) Q).isInt = Q.isInt ∧
    (Z.foldl (fun Q j => setUpper Q 0 j) Q).colLower = Q.colLower ∧
    ∀ j, (Z.foldl (fun Q j => setUpper Q 0 j) Q).colUpper j = if j ∈ Z then 0 else Q.colUpper j := by
  intro Z
  induction Z with
  | nil => intro Q; exact ⟨rfl, rfl, rfl, rfl, rfl, fun j => by simp⟩
  | cons i Z ih =>
    intro Q
    obtain ⟨a, b, c, d, e, f⟩ := ih (setUpper Q 0 i)
    rw [List.foldl_cons]
    refine ⟨a, b, c, d, e, fun j => ?_⟩
    rw [f j]
    by_cases h : j ∈ Z
    · rw [if_pos h, if_pos (List.mem_cons_of_mem _ h)]
    · rw [if_neg h]
      unfold setUpper
      dsimp only
      by_cases hj : j = i
      · subst hj; rw [Function.update_self, if_pos List.mem_cons_self]
      · rw [Function.update_of_ne hj, if_neg (by simp [hj, h])]

theorem ones_spec : ∀ (Z : List Nat) (Q : Prob), (Z.foldl (fun Q j => setLower Q 1 j) Q).nCols = Q.nCols ∧
    (Z.foldl (fun Q j => setLower Q 1 j) Q).inf = Q.inf ∧ (Z.foldl (fun Q j => setLower Q 1 j) Q).rows = Q.rows ∧
    (Z.foldl (fun Q j => setLower Q 1 j) Q).isInt = Q.isInt ∧
    (Z.foldl (fun Q j => setLower Q 1 j) Q).colUpper = Q.colUpper ∧
    ∀ j, (Z.foldl (fun Q j => setLower Q 1 j) Q).colLower j = if j ∈ Z then 1 else Q.colLower j := by
  intro Z
  induction Z with
  | nil => intro Q; exact ⟨rfl, rfl, rfl, rfl, rfl, fun j => by simp⟩
  | cons i Z ih =>
    intro Q
    obtain ⟨a, b, c, d, e, f⟩ := ih (setLower Q 1 i)
    rw [List.foldl_cons]
    refine ⟨a, b, c, d, e, fun j => ?_⟩
    rw [f j]
    by_cases h : j ∈ Z
    · rw [if_pos h, if_pos (List.mem_cons_of_mem _ h)]
    · rw [if_neg h]
      unfold setLower
      dsimp only
      by_cases hj : j = i
      · subst hj; rw [Function.update_self, if_pos List.mem_cons_self]
      · rw [Function.update_of_ne hj, if_neg (by simp [hj, h])]

theorem fixSet_spec (Q : Prob) (Z O : List Nat) : (fixSet Q Z O).nCols = Q.nCols ∧ (fixSet Q Z O).inf = Q.inf ∧
    (fixSet Q Z O).rows = Q.rows ∧ (fixSet Q Z O).isInt = Q.isInt ∧
    (∀ j, (fixSet Q Z O).colUpper j = if j ∈ Z then 0 else Q.colUpper j) ∧
    ∀ j, (fixSet Q Z O).colLower j = if j ∈ O then 1 else Q.colLower j := by
  obtain ⟨a, b, c, d, e, f⟩ := zeros_spec Z Q
  obtain ⟨a', b', c', d', e', f'⟩ := ones_spec O (Z.foldl (fun Q j => setUpper Q 0 j) Q)
  unfold fixSet
  refine ⟨a'.trans a, b'.trans b, c'.trans c, d'.trans d, fun j => ?_, fun j => ?_⟩
  · rw [e', f]
  · rw [f', e]

/-- A column that can be in a clique. -/
def Unit01 (Q : Prob) (j : Nat) : Prop := Q.isInt j = true ∧ Q.colLower j = 0 ∧ Q.colUpper j = 1

theorem fixSet_derived (Q : Prob) {Z O : List Nat} (hZ : ∀ j ∈ Z, Unit01 Q j) (hO : ∀ j ∈ O, Unit01 Q j) :
    Derived Q (fixSet Q Z O) := by
  obtain ⟨a, b, c, d, e, f⟩ := fixSet_spec Q Z O
  refine ⟨a, b, c, d, fun j => ?_⟩
  rw [e, f]
  by_cases h1 : j ∈ Z
  · obtain ⟨u1, u2, u3⟩ := hZ j h1
    right
    rw [if_pos h1]
    refine ⟨u1, u2, u3, ?_, Or.inl rfl, ?_⟩
    · split
      · exact Or.inr rfl
      · exact Or.inl u2
    · split
      · norm_num
      · rw [u2]
  · rw [if_neg h1]
    by_cases h2 : j ∈ O
    · obtain ⟨u1, u2, u3⟩ := hO j h2
      right
      rw [if_pos h2]
      exact ⟨u1, u2, u3, Or.inr rfl, Or.inr u3, by rw [u3]⟩
    · left
      rw [if_neg h2]
      exact ⟨rfl, rfl⟩

theorem Derived.trans (h : Derived P Q) (g : Derived Q R) : Derived P R := by
  refine ⟨g.nCols.trans h.nCols, g.inf.trans h.inf, g.rows.trans h.rows, g.isInt.trans h.isInt, fun j => ?_⟩
  rcases g.cols j with ⟨g1, g2⟩ | ⟨g1, g2, g3, g4, g5, g6⟩
  · rw [g1, g2]; exact h.cols j
  · rcases h.cols j with ⟨h1, h2⟩ | ⟨-, -, -, -, -, h6⟩
    · right
      rw [h.isInt] at g1
      rw [h1] at g2
      rw [h2] at g3
      exact ⟨g1, g2, g3, g4, g5, g6⟩
    · rw [g2, g3] at h6
      norm_num at h6

/-- Fixing columns adds no point. -/
theorem Derived.relax (h : Derived P Q) (hM : Moderate P) {x : Nat → ℚ} (hx : Q.Feasible x) : P.Feasible x := by
  have hi := hM.inf
  refine ⟨?_, ?_, ?_, ?_⟩
  · have := hx.rows
    rwa [h.rows, h.inf] at this
  · intro j hj hl
    have := hx.lower j (by rw [h.nCols]; exact hj)
    rw [h.inf] at this
    rcases h.cols j with ⟨h1, h2⟩ | ⟨-, h1, -, h3, -, -⟩
    · rw [h1] at this; exact this hl
    · rw [h1]
      rcases h3 with h3 | h3
      · rw [h3] at this; exact this (by linarith)
      · rw [h3] at this
        have := this (by linarith)
        linarith
  · intro j hj hl
    have := hx.upper j (by rw [h.nCols]; exact hj)
    rw [h.inf] at this
    rcases h.cols j with ⟨h1, h2⟩ | ⟨-, -, h2, -, h3, -⟩
    · rw [h2] at this; exact this hl
    · rw [h2]
      rcases h3 with h3 | h3
      · rw [h3] at this
        have := this (by linarith)
        linarith
      · rw [h3] at this; exact this (by linarith)
  · intro j hj hi'
    exact hx.int j (by rw [h.nCols]; exact hj) (by rw [h.isInt]; exact hi')

/-! ### Good rows -/

theorem member_unit {bin : Nat → Bool} {j : Nat} {a : ℚ} (hb : ∀ j, bin j = true → Q.isInt j = true)
    (h : member bin Q j a = true) : Unit01 Q j ∧ |a| = 1 := by
  unfold member at h
  simp only [Bool.and_eq_true, decide_eq_true_eq] at h
  exact ⟨⟨hb j h.1.2, h.1.1.2, h.1.1.1⟩, h.2⟩

theorem good_of_scan {bin : Nat → Bool} (hb : ∀ j, bin j = true → Q.isInt j = true) {r : Row}
    (h : (scan bin Q r.coefs (scan0 r)).good = true) : Good Q r.coefs ∧
      scan bin Q r.coefs (scan0 r) = ⟨r.ub - fixedSum Q r, r.lb - fixedSum Q r, plus Q r, minus Q r, true⟩ := by
  obtain ⟨-, h2, h3⟩ := scan_good h
  refine ⟨fun p hp => (h2 p hp).imp_right fun hm => ?_, by rw [h3, rescan_row]⟩
  obtain ⟨⟨a, b, c⟩, d⟩ := member_unit hb hm
  exact ⟨a, b, c, d⟩

theorem Good.later (hg : Good Q l) (h : Derived Q R) : Good R l := by
  intro p hp
  cases hf : fixedCol R p.1 with
  | true => exact Or.inl rfl
  | false =>
    right
    obtain ⟨a, b⟩ := h.unfixed hf
    have hf' : fixedCol Q p.1 = false := by unfold fixedCol at hf ⊢; rwa [a, b] at hf
    have := (hg p hp).resolve_left (by rw [hf']; decide)
    rw [h.isInt, a, b]
    exact this

theorem good_members (hg : Good Q r.coefs) : (∀ j ∈ plus Q r, Unit01 Q j) ∧ ∀ j ∈ minus Q r, Unit01 Q j := by
  constructor
  · intro j hj
    obtain ⟨p, hp, rfl⟩ := List.mem_map.1 hj
    obtain ⟨h1, h2⟩ := List.mem_filter.1 hp
    rw [Bool.and_eq_true] at h2
    obtain ⟨a, b, c, -⟩ := (hg p h1).resolve_left (by simpa using h2.1)
    exact ⟨a, b, c⟩
  · intro j hj
    obtain ⟨p, hp, rfl⟩ := List.mem_map.1 hj
    obtain ⟨h1, h2⟩ := List.mem_filter.1 hp
    rw [Bool.and_eq_true] at h2
    obtain ⟨a, b, c, -⟩ := (hg p h1).resolve_left (by simpa using h2.1)
    exact ⟨a, b, c⟩

/-! ### What the bounds of a row say -/

theorem upper_count (h : Derived P Q) (hM : Moderate P) (hW : P.WF) {r : Row} (hr : r ∈ P.rows) (hg : Good Q r.coefs)
    {x : Nat → ℚ} (hx : Q.Feasible x) {iU : ℤ} (hu : r.ub - fixedSum Q r ≤ intMax)
    (hi : intUpper (r.ub - fixedSum Q r) = .ok iU) :
    (((entriesOf true (plus Q r) (minus Q r)).countP (fun e => decide (e.Strong x)) : Nat) : ℤ) ≤
      iU + (minus Q r).length := by
  obtain ⟨b1, b2⟩ := binary_at h hM hW hr hg hx
  have hc := strong_count b1 b2 true
  obtain ⟨z, hz⟩ := net_int b1 b2
  have hn := net_le h hM hW hr hg hx (by unfold intMax at hu; push_cast at hu; linarith)
  unfold net at hn
  rw [hz] at hn
  have := le_intUpper hi hu hn
  rw [if_pos rfl, hz] at hc
  have hc' : (((entriesOf true (plus Q r) (minus Q r)).countP (fun e => decide (e.Strong x)) : Nat) : ℤ) =
      (minus Q r).length + z := by exact_mod_cast hc
  omega

theorem lower_count (h : Derived P Q) (hM : Moderate P) (hW : P.WF) {r : Row} (hr : r ∈ P.rows) (hg : Good Q r.coefs)
    {x : Nat → ℚ} (hx : Q.Feasible x) {iL : ℤ} (hl : (intMin : ℚ) ≤ r.lb - fixedSum Q r)
    (hi : intLower (r.lb - fixedSum Q r) = .ok iL) :
    (((entriesOf false (plus Q r) (minus Q r)).countP (fun e => decide (e.Strong x)) : Nat) : ℤ) ≤
      (plus Q r).length - iL ∧
    iL + (minus Q r).length ≤
      (((entriesOf true (plus Q r) (minus Q r)).countP (fun e => decide (e.Strong x)) : Nat) : ℤ) := by
  obtain ⟨b1, b2⟩ := binary_at h hM hW hr hg hx
  have hc := strong_count b1 b2 false
  have hd := strong_count b1 b2 true
  obtain ⟨z, hz⟩ := net_int b1 b2
  have hn := le_net h hM hW hr hg hx (by unfold intMin at hl; push_cast at hl; linarith)
  unfold net at hn
  rw [hz] at hn
  have := intLower_le hi hl hn
  rw [if_neg (by decide), hz] at hc
  rw [if_pos rfl, hz] at hd
  have hc' : (((entriesOf false (plus Q r) (minus Q r)).countP (fun e => decide (e.Strong x)) : Nat) : ℤ) =
      (plus Q r).length - z := by
    have : (((entriesOf false (plus Q r) (minus Q r)).countP (fun e => decide (e.Strong x)) : Nat) : ℚ) =
      (((plus Q r).length - z : ℤ) : ℚ) := by rw [hc]; push_cast; rfl
    exact_mod_cast this
  have hd' : (((entriesOf true (plus Q r) (minus Q r)).countP (fun e => decide (e.Strong x)) : Nat) : ℤ) =
      (minus Q r).length + z := by exact_mod_cast hd
  omega

theorem upper_count_ge (h : Derived P Q) (hM : Moderate P) (hW : P.WF) {r : Row} (hr : r ∈ P.rows) (hg : Good Q r.coefs)
    {x : Nat → ℚ} (hx : Q.Feasible x) {iU : ℤ} (hu : r.ub - fixedSum Q r ≤ intMax)
    (hi : intUpper (r.ub - fixedSum Q r) = .ok iU) :
    (plus Q r).length - iU ≤
      (((entriesOf false (plus Q r) (minus Q r)).countP (fun e => decide (e.Strong x)) : Nat) : ℤ) := by
  obtain ⟨b1, b2⟩ := binary_at h hM hW hr hg hx
  have hc := strong_count b1 b2 false
  obtain ⟨z, hz⟩ := net_int b1 b2
  have hn := net_le h hM hW hr hg hx (by unfold intMax at hu; push_cast at hu; linarith)
  unfold net at hn
  rw [hz] at hn
  have := le_intUpper hi hu hn
  rw [if_neg (by decide), hz] at hc
  have hc' : (((entriesOf false (plus Q r) (minus Q r)).countP (fun e => decide (e.Strong x)) : Nat) : ℤ) =
      (plus Q r).length - z := by
    have : (((entriesOf false (plus Q r) (minus Q r)).countP (fun e => decide (e.Strong x)) : Nat) : ℚ) =
      (((plus Q r).length - z : ℤ) : ℚ) := by rw [hc]; push_cast; rfl
    exact_mod_cast this
  omega

theorem none_strong {x : Nat → ℚ} {p m : List Nat} {one : Bool}
    (h : (entriesOf one p m).countP (fun e => decide (e.Strong x)) = 0) :
    (∀ j ∈ p, x j ≠ if one then 1 else 0) ∧ ∀ j ∈ m, x j ≠ if one then 0 else 1 := by
  rw [List.countP_eq_zero] at h
  constructor
  · intro j hj hx
    have := h ⟨j, one⟩ (List.mem_append_left _ (List.mem_map.2 ⟨j, hj, rfl⟩))
    apply this
    rw [decide_eq_true_eq]
    exact hx
  · intro j hj hx
    have := h ⟨j, !one⟩ (List.mem_append_right _ (List.mem_map.2 ⟨j, hj, rfl⟩))
    apply this
    rw [decide_eq_true_eq]
    unfold Entry.Strong
    cases one <;> exact hx

theorem fixSet_keeps {x : Nat → ℚ} {Z O : List Nat} (hx : Q.Feasible x) (hZ : ∀ j ∈ Z, x j = 0) (hO : ∀ j ∈ O, x j = 1) :
    (fixSet Q Z O).Feasible x := by
  obtain ⟨a, b, c, d, e, f⟩ := fixSet_spec Q Z O
  refine ⟨?_, ?_, ?_, ?_⟩
  · rw [c, b]; exact hx.rows
  · intro j hj
    rw [a] at hj
    rw [b, f]
    split
    · intro _; rw [hO j ‹_›]
    · exact hx.lower j hj
  · intro j hj
    rw [a] at hj
    rw [b, e]
    split
    · intro _; rw [hZ j ‹_›]
    · exact hx.upper j hj
  · intro j hj hi
    rw [a] at hj
    rw [d] at hi
    exact hx.int j hj hi

/-! ### The loop -/

/-- Where a clique row comes from. -/
structure Origin (P Q : Prob) (minSize maxSize : ℤ) (r : Row) : Prop where
  mem : r ∈ P.rows
  found : ∃ R iU iL, Derived P R ∧ Derived R Q ∧ Good R r.coefs ∧ intUpper (r.ub - fixedSum R r) = .ok iU ∧
    intLower (r.lb - fixedSum R r) = .ok iL ∧
    (upperState (r.ub - fixedSum R r) iU (minus R r).length = 1 ∨
      (upperState (r.ub - fixedSum R r) iU (minus R r).length = 0 ∧
        lowerState (r.lb - fixedSum R r) iL (plus R r).length = -1)) ∧
    minSize ≤ (((plus R r).length + (minus R r).length : Nat) : ℤ) ∧
    (((plus R r).length + (minus R r).length : Nat) : ℤ) < maxSize

/-- The invariant of the loop over the rows. -/
structure Inv (P : Prob) (minSize maxSize : ℤ) (s : First) : Prop where
  derived : Derived P s.P
  keeps : ∀ x, P.Feasible x → s.P.Feasible x
  infeasible : s.infeasible = true → ∀ x, ¬ P.Feasible x
  rows : ∀ r ∈ s.rows, Origin P s.P minSize maxSize r
  entries : ((s.rows.map fun r => (plus s.P r).length + (minus s.P r).length).sum : Nat) ≤ s.entries

theorem plus_later (h : Derived Q R) (r : Row) : (plus R r).length + (minus R r).length ≤ (plus Q r).length + (minus Q r).length := by
  have key : ∀ p : Nat × ℚ, fixedCol R p.1 = false → fixedCol Q p.1 = false := by
    intro p hf
    obtain ⟨a, b⟩ := h.unfixed hf
    unfold fixedCol at hf ⊢
    rwa [a, b] at hf
  unfold plus minus
  rw [List.length_map, List.length_map, List.length_map, List.length_map, ← List.countP_eq_length_filter,
    ← List.countP_eq_length_filter, ← List.countP_eq_length_filter, ← List.countP_eq_length_filter]
  apply Nat.add_le_add
  · apply List.countP_mono_left
    intro p _ hp
    rw [Bool.and_eq_true] at hp ⊢
    have := key p (by simpa using hp.1)
    exact ⟨by rw [this]; rfl, hp.2⟩
  · apply List.countP_mono_left
    intro p _ hp
    rw [Bool.and_eq_true] at hp ⊢
    have := key p (by simpa using hp.1)
    exact ⟨by rw [this]; rfl, hp.2⟩

theorem Inv.change {minSize maxSize : ℤ} {s : First} (h : Inv P minSize maxSize s) {Q : Prob} (hd : Derived s.P Q)
    (hk : ∀ x, s.P.Feasible x → Q.Feasible x) : Inv P minSize maxSize { s with P := Q } := by
  refine ⟨h.derived.trans hd, fun x hx => hk x (h.keeps x hx), h.infeasible, fun r hr => ?_, ?_⟩
  · obtain ⟨a, R, iU, iL, b, c, d⟩ := h.rows r hr
    exact ⟨a, R, iU, iL, b, c.trans hd, d⟩
  · refine le_trans ?_ h.entries
    apply List.sum_le_sum
    intro r _
    exact plus_later hd r

theorem upperState_cases {up : ℚ} {iU : ℤ} {nM : Nat} : (up < 10 ^ 6 ∧
    ((upperState up iU nM = 1 ∧ iU = 1 - nM) ∨ (upperState up iU nM = 2 ∧ iU = -nM) ∨
      (upperState up iU nM = 3 ∧ iU < -nM))) ∨ upperState up iU nM = 0 := by
  unfold upperState
  by_cases h : up < 10 ^ 6
  · rw [if_pos h]
    by_cases h1 : iU = 1 - nM
    · rw [if_pos h1]; exact Or.inl ⟨h, Or.inl ⟨rfl, h1⟩⟩
    · rw [if_neg h1]
      by_cases h2 : iU = -nM
      · rw [if_pos h2]; exact Or.inl ⟨h, Or.inr (Or.inl ⟨rfl, h2⟩)⟩
      · rw [if_neg h2]
        by_cases h3 : iU < -nM
        · rw [if_pos h3]; exact Or.inl ⟨h, Or.inr (Or.inr ⟨rfl, h3⟩)⟩
        · rw [if_neg h3]; exact Or.inr rfl
  · rw [if_neg h]; exact Or.inr rfl

theorem lowerState_cases {lo : ℚ} {iL : ℤ} {nP : Nat} : (-10 ^ 6 < lo ∧
    ((lowerState lo iL nP = -1 ∧ -iL = 1 - nP) ∨ (lowerState lo iL nP = -2 ∧ -iL = -nP) ∨
      (lowerState lo iL nP = -3 ∧ -iL < -nP))) ∨ lowerState lo iL nP = 0 := by
  unfold lowerState
  by_cases h : -10 ^ 6 < lo
  · rw [if_pos h]
    by_cases h1 : -iL = 1 - nP
    · rw [if_pos h1]; exact Or.inl ⟨h, Or.inl ⟨rfl, h1⟩⟩
    · rw [if_neg h1]
      by_cases h2 : -iL = -(nP : ℤ)
      · rw [if_pos h2]; exact Or.inl ⟨h, Or.inr (Or.inl ⟨rfl, h2⟩)⟩
      · rw [if_neg h2]
        by_cases h3 : -iL < -(nP : ℤ)
        · rw [if_pos h3]; exact Or.inl ⟨h, Or.inr (Or.inr ⟨rfl, h3⟩)⟩
        · rw [if_neg h3]; exact Or.inr rfl
  · rw [if_neg h]; exact Or.inr rfl

theorem afterRow_inv (hM : Moderate P) (hW : P.WF) {bin : Nat → Bool} (hb : ∀ j, bin j = true → P.isInt j = true)
    {minSize maxSize : ℤ} {s : First} (h : Inv P minSize maxSize s) {r : Row} (hr : r ∈ P.rows) {iU iL : ℤ}
    (hU : intUpper (scan bin s.P r.coefs (scan0 r)).up = .ok iU) (hL : intLower (scan bin s.P r.coefs (scan0 r)).lo = .ok iL) :
    Inv P minSize maxSize (afterRow minSize maxSize r s (scan bin s.P r.coefs (scan0 r))
      (stateOf (scan bin s.P r.coefs (scan0 r)) iU iL)) := by
  unfold afterRow
  by_cases hgood : (scan bin s.P r.coefs (scan0 r)).good = true
  swap
  · rw [if_neg (by rw [Bool.and_eq_true]; exact fun h => hgood h.1)]; exact h
  obtain ⟨hg, he⟩ := good_of_scan (Q := s.P) (fun j hj => by rw [h.derived.isInt]; exact hb j hj) hgood
  rw [he] at hU hL ⊢
  dsimp only at hU hL ⊢
  obtain ⟨m1, m2⟩ := good_members hg
  have hsame : ∀ x, P.Feasible x → ∀ one, (entriesOf one (plus s.P r) (minus s.P r)).countP (fun e => decide (e.Strong x)) = 0 →
      ((∀ j ∈ plus s.P r, x j = if one then 0 else 1) ∧ ∀ j ∈ minus s.P r, x j = if one then 1 else 0) := by
    intro x hx one hc
    obtain ⟨b1, b2⟩ := binary_at h.derived hM hW hr hg (h.keeps x hx)
    obtain ⟨c1, c2⟩ := none_strong hc
    constructor
    · intro j hj
      have := c1 j hj
      cases one
      · exact (b1 j hj).resolve_left this
      · exact (b1 j hj).resolve_right this
    · intro j hj
      have := c2 j hj
      cases one
      · exact (b2 j hj).resolve_right this
      · exact (b2 j hj).resolve_left this
  have back : ∀ x, s.P.Feasible x → P.Feasible x := fun x hx => h.derived.relax hM hx
  have grow : ∀ (hs : upperState (r.ub - fixedSum s.P r) iU (minus s.P r).length = 1 ∨
      (upperState (r.ub - fixedSum s.P r) iU (minus s.P r).length = 0 ∧
        lowerState (r.lb - fixedSum s.P r) iL (plus s.P r).length = -1)),
      Inv P minSize maxSize (if minSize ≤ (((plus s.P r).length + (minus s.P r).length : Nat) : ℤ) ∧
          (((plus s.P r).length + (minus s.P r).length : Nat) : ℤ) < maxSize then
        { s with rows := s.rows ++ [r], entries := s.entries + ((plus s.P r).length + (minus s.P r).length) }
      else s) := by
    intro hs
    by_cases hsz : minSize ≤ (((plus s.P r).length + (minus s.P r).length : Nat) : ℤ) ∧
          (((plus s.P r).length + (minus s.P r).length : Nat) : ℤ) < maxSize
    · rw [if_pos hsz]
      refine ⟨h.derived, h.keeps, h.infeasible, fun r' hr' => ?_, ?_⟩
      · rcases List.mem_append.1 hr' with h1 | h1
        · exact h.rows r' h1
        · obtain rfl := List.mem_singleton.1 h1
          exact ⟨hr, s.P, iU, iL, h.derived, Derived.refl _, hg, hU, hL, hs, hsz.1, hsz.2⟩
      · change ((s.rows ++ [r]).map fun r => (plus s.P r).length + (minus s.P r).length).sum ≤ _
        rw [List.map_append, List.sum_append]
        have := h.entries
        simp only [List.map_cons, List.map_nil, List.sum_cons, List.sum_nil]
        omega
    · rw [if_neg hsz]; exact h
  unfold stateOf
  dsimp only
  rcases upperState_cases (up := r.ub - fixedSum s.P r) (iU := iU) (nM := (minus s.P r).length) with
    ⟨hup, ⟨e, hi⟩ | ⟨e, hi⟩ | ⟨e, hi⟩⟩ | e
  · rw [e]
    simpa using grow (Or.inl e)
  · rw [e]
    simp
    refine h.change (fixSet_derived _ m1 m2) fun x hx => ?_
    have := upper_count h.derived hM hW hr hg hx (le_intMax hup) hU
    have hz : (entriesOf true (plus s.P r) (minus s.P r)).countP (fun e => decide (e.Strong x)) = 0 := by omega
    obtain ⟨c1, c2⟩ := hsame x (back x hx) true hz
    exact fixSet_keeps hx c1 c2
  · rw [e]
    simp
    refine ⟨h.derived, h.keeps, fun _ x hx => ?_, h.rows, h.entries⟩
    have := upper_count h.derived hM hW hr hg (h.keeps x hx) (le_intMax hup) hU
    omega
  · rw [e]
    rcases lowerState_cases (lo := r.lb - fixedSum s.P r) (iL := iL) (nP := (plus s.P r).length) with
      ⟨hlo, ⟨f, hi⟩ | ⟨f, hi⟩ | ⟨f, hi⟩⟩ | f
    · rw [f]
      simpa using grow (Or.inr ⟨e, f⟩)
    · rw [f]
      simp
      refine h.change (fixSet_derived _ m2 m1) fun x hx => ?_
      have := (lower_count h.derived hM hW hr hg hx (intMin_le hlo) hL).1
      have hz : (entriesOf false (plus s.P r) (minus s.P r)).countP (fun e => decide (e.Strong x)) = 0 := by omega
      obtain ⟨c1, c2⟩ := hsame x (back x hx) false hz
      exact fixSet_keeps hx c2 c1
    · rw [f]
      simp
      refine ⟨h.derived, h.keeps, fun _ x hx => ?_, h.rows, h.entries⟩
      have := (lower_count h.derived hM hW hr hg (h.keeps x hx) (intMin_le hlo) hL).1
      omega
    · rw [f]
      simpa using h

theorem firstLoop_inv (hM : Moderate P) (hW : P.WF) {bin : Nat → Bool} (hb : ∀ j, bin j = true → P.isInt j = true)
    {minSize maxSize : ℤ} : ∀ (l : List Row) (s t : First), (∀ r ∈ l, r ∈ P.rows) → Inv P minSize maxSize s →
      firstLoop bin minSize maxSize l s = .ok t → Inv P minSize maxSize t := by
  intro l
  induction l with
  | nil => intro s t _ h ht; rw [firstLoop] at ht; rw [← Except.ok.inj ht]; exact h
  | cons r l ih =>
    intro s t hl h ht
    rw [firstLoop] at ht
    cases hU : intUpper (scan bin s.P r.coefs (scan0 r)).up with
    | error e => rw [hU] at ht; cases ht
    | ok iU =>
      cases hL : intLower (scan bin s.P r.coefs (scan0 r)).lo with
      | error e => rw [hU, hL] at ht; cases ht
      | ok iL =>
        rw [hU, hL] at ht
        simp only [Except.bind] at ht
        have hi := afterRow_inv hM hW hb h (hl r List.mem_cons_self) hU hL
        split at ht
        · rw [← Except.ok.inj ht]; exact hi
        · exact ih _ _ (fun r' hr' => hl r' (List.mem_cons_of_mem _ hr')) hi ht

theorem inv_start (P : Prob) (minSize maxSize : ℤ) : Inv P minSize maxSize ⟨P, [], 0, false⟩ :=
  ⟨Derived.refl P, fun _ h => h, fun h => by simp at h, fun r hr => by simp at hr, by simp⟩

theorem bin_int (P : Prob) : ∀ j, decide (colType P j = 1) = true → P.isInt j = true := by
  intro j h
  have h := of_decide_eq_true h
  unfold colType at h
  split at h
  · assumption
  · cases h

end Cgl.ProbCliques
