import Verif.ProbCliques.Spec
import Mathlib.Tactic.Linarith
import Mathlib.Tactic.NormNum
import Mathlib.Tactic.Push

/-! # The rows and the cliques they give -/

namespace Cgl.ProbCliques

/-! ### Scanning a row -/

/-- What a scan knows about the columns seen, in terms of the row. -/
theorem scan_good {bin : Nat → Bool} {P : Prob} : ∀ {l : SVec} {s : Scan}, (scan bin P l s).good = true →
    s.good = true ∧ (∀ p ∈ l, fixedCol P p.1 = true ∨ member bin P p.1 p.2 = true) ∧
    (scan bin P l s) = rescan P l s := by
  intro l
  induction l with
  | nil => intro s h; exact ⟨h, by simp, rfl⟩
  | cons p l ih =>
    intro s h
    rw [scan] at h
    rw [scan, rescan]
    by_cases hf : fixedCol P p.1 = true
    · rw [if_pos hf] at h ⊢
      rw [if_pos hf]
      obtain ⟨h1, h2, h3⟩ := ih h
      refine ⟨h1, ?_, h3⟩
      intro q hq
      rcases List.mem_cons.1 hq with rfl | hq
      · exact Or.inl hf
      · exact h2 q hq
    · rw [if_neg hf] at h ⊢
      rw [if_neg hf]
      by_cases hm : member bin P p.1 p.2 = true
      · rw [if_pos hm] at h ⊢
        obtain ⟨h1, h2, h3⟩ := ih h
        refine ⟨?_, ?_, h3⟩
        · unfold Scan.add at h1
          split at h1 <;> exact h1
        · intro q hq
          rcases List.mem_cons.1 hq with rfl | hq
          · exact Or.inr hm
          · exact h2 q hq
      · rw [if_neg hm] at h
        cases h

theorem scan_of_members {bin : Nat → Bool} {P : Prob} : ∀ {l : SVec} {s : Scan}, s.good = true →
    (∀ p ∈ l, fixedCol P p.1 = true ∨ member bin P p.1 p.2 = true) → (scan bin P l s).good = true := by
  intro l
  induction l with
  | nil => intro s h _; exact h
  | cons p l ih =>
    intro s h hm
    rw [scan]
    by_cases hf : fixedCol P p.1 = true
    · rw [if_pos hf]
      exact ih (s := s.fixed _) h fun q hq => hm q (List.mem_cons_of_mem _ hq)
    · rw [if_neg hf, if_pos ((hm p List.mem_cons_self).resolve_left hf)]
      refine ih (s := s.add _ _) ?_ fun q hq => hm q (List.mem_cons_of_mem _ hq)
      unfold Scan.add
      split <;> exact h

theorem rescan_good {P : Prob} : ∀ (l : SVec) (s : Scan), (rescan P l s).good = s.good := by
  intro l
  induction l with
  | nil => intro s; rfl
  | cons p l ih =>
    intro s
    rw [rescan]
    split
    · rw [ih]; rfl
    · rw [ih]; unfold Scan.add; split <;> rfl

theorem rescan_eq {P : Prob} : ∀ (l : SVec) (s : Scan), rescan P l s =
    { up := s.up - ((l.filter fun p => fixedCol P p.1).map fun p => P.colLower p.1 * p.2).sum
      lo := s.lo - ((l.filter fun p => fixedCol P p.1).map fun p => P.colLower p.1 * p.2).sum
      p1 := s.p1 ++ (l.filter fun p => !fixedCol P p.1 && decide (0 < p.2)).map Prod.fst
      m1 := s.m1 ++ (l.filter fun p => !fixedCol P p.1 && !decide (0 < p.2)).map Prod.fst
      good := s.good } := by
  intro l
  induction l with
  | nil => intro s; simp [rescan]
  | cons p l ih =>
    intro s
    rw [rescan]
    by_cases hf : fixedCol P p.1 = true
    · rw [if_pos hf, ih]
      simp [hf, Scan.fixed]
      constructor <;> ring
    · rw [if_neg hf, ih]
      have hf' : fixedCol P p.1 = false := by simpa using hf
      by_cases ha : 0 < p.2
      · simp [hf', Scan.add, ha]
      · simp [hf', Scan.add, ha]

/-- The result of a scan of a whole row. -/
theorem rescan_row (P : Prob) (r : Row) : rescan P r.coefs (scan0 r) =
    ⟨r.ub - fixedSum P r, r.lb - fixedSum P r, plus P r, minus P r, true⟩ := by
  rw [rescan_eq]
  unfold scan0 plus minus fixedSum
  simp

/-! ### The value of the row -/

/-- The sum of the plus columns minus the sum of the minus columns. -/
def net (P : Prob) (r : Row) (x : Nat → ℚ) : ℚ := ((plus P r).map x).sum - ((minus P r).map x).sum

/-- All columns are fixed or members (for some notion of binary columns that are integer). -/
def Good (P : Prob) (l : SVec) : Prop :=
  ∀ p ∈ l, fixedCol P p.1 = true ∨
    (P.isInt p.1 = true ∧ P.colLower p.1 = 0 ∧ P.colUpper p.1 = 1 ∧ |p.2| = 1)

theorem dot_split {P : Prob} {x : Nat → ℚ} : ∀ {l : SVec}, (∀ p ∈ l, fixedCol P p.1 = true → x p.1 = P.colLower p.1) →
    (∀ p ∈ l, fixedCol P p.1 = true ∨ |p.2| = 1) →
    l.dot x = ((l.filter fun p => fixedCol P p.1).map fun p => P.colLower p.1 * p.2).sum +
      ((((l.filter fun p => !fixedCol P p.1 && decide (0 < p.2)).map Prod.fst).map x).sum -
        (((l.filter fun p => !fixedCol P p.1 && !decide (0 < p.2)).map Prod.fst).map x).sum) := by
  intro l
  induction l with
  | nil => intro _ _; simp [SVec.dot]
  | cons p l ih =>
    intro h1 h2
    have ih' := ih (fun q hq => h1 q (List.mem_cons_of_mem _ hq)) fun q hq => h2 q (List.mem_cons_of_mem _ hq)
    rw [SVec.dot_cons, ih']
    by_cases hf : fixedCol P p.1 = true
    · rw [h1 p List.mem_cons_self hf]
      simp [hf]
      ring
    · have hf' : fixedCol P p.1 = false := by simpa using hf
      have ha := (h2 p List.mem_cons_self).resolve_left hf
      by_cases h0 : 0 < p.2
      · rw [abs_of_pos h0] at ha
        simp [hf', h0, ha]
        ring
      · rw [abs_of_nonpos (not_lt.1 h0)] at ha
        have : p.2 = -1 := by linarith
        simp [hf', this]
        ring

/-! ### The model while columns get fixed -/

/-- The model `Q` is the model `P` with some binary columns fixed. -/
structure Derived (P Q : Prob) : Prop where
  nCols : Q.nCols = P.nCols
  inf : Q.inf = P.inf
  rows : Q.rows = P.rows
  isInt : Q.isInt = P.isInt
  cols : ∀ j, (Q.colLower j = P.colLower j ∧ Q.colUpper j = P.colUpper j) ∨
    (P.isInt j = true ∧ P.colLower j = 0 ∧ P.colUpper j = 1 ∧ (Q.colLower j = 0 ∨ Q.colLower j = 1) ∧
      (Q.colUpper j = 0 ∨ Q.colUpper j = 1) ∧ Q.colUpper j ≤ Q.colLower j)

theorem Derived.refl (P : Prob) : Derived P P := ⟨rfl, rfl, rfl, rfl, fun _ => Or.inl ⟨rfl, rfl⟩⟩

variable {P Q : Prob}

theorem Derived.fixedVal (h : Derived P Q) (hM : Moderate P) {x : Nat → ℚ} (hx : Q.Feasible x) {j : Nat}
    (hj : j < P.nCols) (hf : fixedCol Q j = true) : x j = Q.colLower j := by
  have hl := hx.lower j (by rw [h.nCols]; exact hj)
  have hu := hx.upper j (by rw [h.nCols]; exact hj)
  rw [h.inf] at hl hu
  have hi := hM.inf
  rcases h.cols j with ⟨h1, h2⟩ | ⟨-, -, -, h1, h2, h3⟩
  · have hf' : fixedCol P j = true := by unfold fixedCol at hf ⊢; rwa [h1, h2] at hf
    obtain ⟨a, b, c⟩ := hM.fixed j hj hf'
    have e1 := hl (by rw [h1]; exact b)
    have e2 := hu (by rw [h2]; exact c)
    rw [h1] at e1 ⊢
    rw [h2] at e2
    linarith
  · have e1 := hl (by rcases h1 with h | h <;> rw [h] <;> linarith)
    have e2 := hu (by rcases h2 with h | h <;> rw [h] <;> linarith)
    linarith

theorem Derived.unfixed (h : Derived P Q) {j : Nat} (hf : fixedCol Q j = false) :
    Q.colLower j = P.colLower j ∧ Q.colUpper j = P.colUpper j := by
  rcases h.cols j with h1 | ⟨-, -, -, -, -, h3⟩
  · exact h1
  · exfalso
    unfold fixedCol at hf
    have := of_decide_eq_false hf
    apply this
    have : Q.colUpper j - Q.colLower j ≤ 0 := by linarith
    exact lt_of_le_of_lt this (by norm_num)

theorem Derived.term (h : Derived P Q) (p : Nat × ℚ) (hf : fixedCol Q p.1 = true) : |Q.colLower p.1 * p.2| ≤ weight P p := by
  unfold weight
  rcases h.cols p.1 with ⟨h1, h2⟩ | ⟨-, h1, h2, h3, -, -⟩
  · have hf' : fixedCol P p.1 = true := by unfold fixedCol at hf ⊢; rwa [h1, h2] at hf
    rw [if_pos hf', h1]
  · rw [if_neg (by
      unfold fixedCol
      rw [h1, h2]
      norm_num), if_pos ⟨h1, h2⟩]
    rcases h3 with h3 | h3
    · rw [h3, zero_mul, abs_zero]; exact abs_nonneg _
    · rw [h3, one_mul]

theorem weight_nonneg (P : Prob) (p : Nat × ℚ) : 0 ≤ weight P p := by
  unfold weight
  split
  · exact abs_nonneg _
  · split
    · exact abs_nonneg _
    · exact le_refl _

theorem Derived.sum (h : Derived P Q) (l : SVec) :
    |((l.filter fun p => fixedCol Q p.1).map fun p => Q.colLower p.1 * p.2).sum| ≤ (l.map (weight P)).sum := by
  induction l with
  | nil => simp
  | cons p l ih =>
    rw [List.map_cons, List.sum_cons]
    by_cases hf : fixedCol Q p.1 = true
    · rw [List.filter_cons, if_pos hf, List.map_cons, List.sum_cons]
      exact (abs_add_le _ _).trans (add_le_add (h.term p hf) ih)
    · rw [List.filter_cons, if_neg hf]
      exact ih.trans (by linarith [weight_nonneg P p])

theorem Derived.fixedSum_le (h : Derived P Q) (hM : Moderate P) {r : Row} (hr : r ∈ P.rows) :
    |fixedSum Q r| ≤ P.inf - 10 ^ 10 := by
  have := h.sum r.coefs
  have h2 := hM.rows r hr
  unfold fixedSum
  linarith

/-- The columns of the row are fixed or binary with coefficient 1 or -1. -/
theorem net_eq (h : Derived P Q) (hM : Moderate P) (hW : P.WF) {r : Row} (hr : r ∈ P.rows) (hg : Good Q r.coefs)
    {x : Nat → ℚ} (hx : Q.Feasible x) : r.coefs.dot x = fixedSum Q r + net Q r x := by
  unfold fixedSum net plus minus
  apply dot_split
  · intro p hp hf
    exact h.fixedVal hM hx (hW.cols r hr p hp) hf
  · intro p hp
    exact (hg p hp).imp_right fun h => h.2.2.2

theorem net_le (h : Derived P Q) (hM : Moderate P) (hW : P.WF) {r : Row} (hr : r ∈ P.rows) (hg : Good Q r.coefs)
    {x : Nat → ℚ} (hx : Q.Feasible x) (hu : r.ub - fixedSum Q r < 10 ^ 10) : net Q r x ≤ r.ub - fixedSum Q r := by
  have h1 := (hx.rows r (by rw [h.rows]; exact hr)).2
  rw [net_eq h hM hW hr hg hx] at h1
  have h2 := abs_le.1 (h.fixedSum_le hM hr)
  have := h1 (by rw [h.inf]; linarith [h2.2])
  linarith

theorem le_net (h : Derived P Q) (hM : Moderate P) (hW : P.WF) {r : Row} (hr : r ∈ P.rows) (hg : Good Q r.coefs)
    {x : Nat → ℚ} (hx : Q.Feasible x) (hu : -10 ^ 10 < r.lb - fixedSum Q r) : r.lb - fixedSum Q r ≤ net Q r x := by
  have h1 := (hx.rows r (by rw [h.rows]; exact hr)).1
  rw [net_eq h hM hW hr hg hx] at h1
  have h2 := abs_le.1 (h.fixedSum_le hM hr)
  have := h1 (by rw [h.inf]; linarith [h2.1])
  linarith

/-! ### Counting -/

theorem count_ones {x : Nat → ℚ} : ∀ {l : List Nat}, (∀ j ∈ l, x j = 0 ∨ x j = 1) →
    ((l.countP (fun j => decide (x j = 1)) : Nat) : ℚ) = (l.map x).sum := by
  intro l
  induction l with
  | nil => intro _; simp
  | cons j l ih =>
    intro h
    rw [List.countP_cons, List.map_cons, List.sum_cons, Nat.cast_add, ih fun k hk => h k (List.mem_cons_of_mem _ hk)]
    rcases h j List.mem_cons_self with h0 | h0
    · rw [h0]; simp
    · rw [h0]; simp; ring

theorem count_zeros {x : Nat → ℚ} : ∀ {l : List Nat}, (∀ j ∈ l, x j = 0 ∨ x j = 1) →
    ((l.countP (fun j => decide (x j = 0)) : Nat) : ℚ) = l.length - (l.map x).sum := by
  intro l
  induction l with
  | nil => intro _; simp
  | cons j l ih =>
    intro h
    rw [List.countP_cons, List.map_cons, List.sum_cons, Nat.cast_add, ih fun k hk => h k (List.mem_cons_of_mem _ hk),
      List.length_cons]
    rcases h j List.mem_cons_self with h0 | h0
    · rw [h0]; simp; ring
    · rw [h0]; simp; ring

/-- The entries of a clique from a row. -/
def entriesOf (one : Bool) (p m : List Nat) : List Entry :=
  p.map (fun j => ⟨j, one⟩) ++ m.map (fun j => ⟨j, !one⟩)

theorem strong_count {x : Nat → ℚ} {p m : List Nat} (hp : ∀ j ∈ p, x j = 0 ∨ x j = 1) (hm : ∀ j ∈ m, x j = 0 ∨ x j = 1)
    (one : Bool) : (((entriesOf one p m).countP (fun e => decide (e.Strong x)) : Nat) : ℚ) =
      if one then m.length + ((p.map x).sum - (m.map x).sum) else p.length - ((p.map x).sum - (m.map x).sum) := by
  unfold entriesOf
  rw [List.countP_append, List.countP_map, List.countP_map, Nat.cast_add]
  cases one
  · have h1 := count_zeros hp
    have h2 := count_ones hm
    have e1 : ((fun e : Entry => decide (e.Strong x)) ∘ fun j => (⟨j, false⟩ : Entry)) = fun j => decide (x j = 0) := rfl
    have e2 : ((fun e : Entry => decide (e.Strong x)) ∘ fun j => (⟨j, true⟩ : Entry)) = fun j => decide (x j = 1) := rfl
    change ((p.countP ((fun e : Entry => decide (e.Strong x)) ∘ fun j => (⟨j, false⟩ : Entry)) : Nat) : ℚ) +
      ((m.countP ((fun e : Entry => decide (e.Strong x)) ∘ fun j => (⟨j, true⟩ : Entry)) : Nat) : ℚ) = _
    rw [e1, e2, h1, h2]
    simp
    ring
  · have h1 := count_ones hp
    have h2 := count_zeros hm
    have e1 : ((fun e : Entry => decide (e.Strong x)) ∘ fun j => (⟨j, false⟩ : Entry)) = fun j => decide (x j = 0) := rfl
    have e2 : ((fun e : Entry => decide (e.Strong x)) ∘ fun j => (⟨j, true⟩ : Entry)) = fun j => decide (x j = 1) := rfl
    change ((p.countP ((fun e : Entry => decide (e.Strong x)) ∘ fun j => (⟨j, true⟩ : Entry)) : Nat) : ℚ) +
      ((m.countP ((fun e : Entry => decide (e.Strong x)) ∘ fun j => (⟨j, false⟩ : Entry)) : Nat) : ℚ) = _
    rw [e1, e2, h1, h2]
    simp
    ring

theorem binary_at (h : Derived P Q) (hM : Moderate P) (hW : P.WF) {r : Row} (hr : r ∈ P.rows) (hg : Good Q r.coefs)
    {x : Nat → ℚ} (hx : Q.Feasible x) : (∀ j ∈ plus Q r, x j = 0 ∨ x j = 1) ∧ ∀ j ∈ minus Q r, x j = 0 ∨ x j = 1 := by
  have key : ∀ p ∈ r.coefs, fixedCol Q p.1 = false → x p.1 = 0 ∨ x p.1 = 1 := by
    intro p hp hf
    obtain ⟨h1, h2, h3, -⟩ := (hg p hp).resolve_left (by rw [hf]; decide)
    have hj : p.1 < Q.nCols := by rw [h.nCols]; exact hW.cols r hr p hp
    have hi := hM.inf
    have a := hx.lower p.1 hj (by rw [h.inf, h2]; linarith)
    have b := hx.upper p.1 hj (by rw [h.inf, h3]; linarith)
    obtain ⟨z, hz⟩ := hx.int p.1 hj h1
    rw [h2, hz] at a
    rw [h3, hz] at b
    have a' : 0 ≤ z := by exact_mod_cast a
    have b' : z ≤ 1 := by exact_mod_cast b
    rw [hz]
    rcases (by omega : z = 0 ∨ z = 1) with rfl | rfl
    · left; norm_num
    · right; norm_num
  constructor
  · intro j hj
    obtain ⟨p, hp, rfl⟩ := List.mem_map.1 hj
    obtain ⟨h1, h2⟩ := List.mem_filter.1 hp
    rw [Bool.and_eq_true] at h2
    exact key p h1 (by simpa using h2.1)
  · intro j hj
    obtain ⟨p, hp, rfl⟩ := List.mem_map.1 hj
    obtain ⟨h1, h2⟩ := List.mem_filter.1 hp
    rw [Bool.and_eq_true] at h2
    exact key p h1 (by simpa using h2.1)

/-- The net sum is an integer. -/
theorem net_int {x : Nat → ℚ} {p m : List Nat} (hp : ∀ j ∈ p, x j = 0 ∨ x j = 1) (hm : ∀ j ∈ m, x j = 0 ∨ x j = 1) :
    ∃ z : ℤ, (p.map x).sum - (m.map x).sum = z :=
  ⟨(p.countP (fun j => decide (x j = 1)) : Nat) - (m.countP (fun j => decide (x j = 1)) : Nat), by
    rw [← count_ones hp, ← count_ones hm]; push_cast; rfl⟩

theorem intUpper_ok {v : ℚ} {i : ℤ} (h : intUpper v = .ok i) (hv : v ≤ intMax) : i = ⌊v + 1 / 10 ^ 5⌋ := by
  unfold intUpper at h
  rw [if_neg (not_lt.2 hv)] at h
  split at h
  · cases h
  · exact (Except.ok.inj h).symm

theorem intLower_ok {v : ℚ} {i : ℤ} (h : intLower v = .ok i) (hv : (intMin : ℚ) ≤ v) : i = ⌈v - 1 / 10 ^ 5⌉ := by
  unfold intLower at h
  rw [if_neg (not_lt.2 hv)] at h
  split at h
  · cases h
  · exact (Except.ok.inj h).symm

theorem intUpper_big {v : ℚ} {i : ℤ} (h : intUpper v = .ok i) (hv : (intMax : ℚ) < v) : i = intMax := by
  unfold intUpper at h
  rw [if_pos hv] at h
  exact (Except.ok.inj h).symm

theorem intLower_small {v : ℚ} {i : ℤ} (h : intLower v = .ok i) (hv : v < (intMin : ℚ)) : i = intMin := by
  unfold intLower at h
  rw [if_pos hv] at h
  exact (Except.ok.inj h).symm

theorem le_intMax {v : ℚ} (h : v < 10 ^ 6) : v ≤ (intMax : ℚ) := by unfold intMax; push_cast; linarith

theorem intMin_le {v : ℚ} (h : -10 ^ 6 < v) : (intMin : ℚ) ≤ v := by unfold intMin; push_cast; linarith

/-- An integer below the upper value is below `iUpper`. -/
theorem le_intUpper {v : ℚ} {i z : ℤ} (h : intUpper v = .ok i) (hv : v ≤ intMax) (hz : (z : ℚ) ≤ v) : z ≤ i := by
  rw [intUpper_ok h hv, Int.le_floor]
  linarith

theorem intLower_le {v : ℚ} {i z : ℤ} (h : intLower v = .ok i) (hv : (intMin : ℚ) ≤ v) (hz : v ≤ (z : ℚ)) : i ≤ z := by
  rw [intLower_ok h hv, Int.ceil_le]
  linarith

end Cgl.ProbCliques
