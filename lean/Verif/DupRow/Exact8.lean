import Verif.DupRow.Exact4
import Verif.DupRow.Sub8
import Mathlib.Algebra.Order.BigOperators.Group.List

/-!
# Mode 8: the fixings hold for all feasible points, and the rows that go are implied by those that stay
-/

namespace Cgl.DupRow

/-- A column that counts as fixed. -/
def isFix (P : Prob) (j : Nat) : Bool := decide (P.colUpper j - P.colLower j < 1 / 10 ^ 8)

/-- What the fixed columns contribute to a row. -/
def fixSum (P : Prob) (v : SVec) : ℚ := SVec.dot (v.filter fun p => isFix P p.1) P.colLower

/-- The other columns of a row. -/
def openCols (P : Prob) (v : SVec) : List Nat := (v.filter fun p => ! isFix P p.1).map Prod.fst

/-- A row with fixed columns, and columns between 0 and 1 with coefficient 1. -/
def Plain (P : Prob) (v : SVec) : Prop :=
  ∀ p ∈ v, isFix P p.1 = true ∨ (P.colLower p.1 = 0 ∧ P.colUpper p.1 = 1 ∧ p.2 = 1)

instance (P : Prob) (v : SVec) : Decidable (Plain P v) := by unfold Plain; infer_instance

/-- At most one of two or more columns can be one. -/
def CliqueRow (P : Prob) (r : Row) : Prop :=
  Plain P r.coefs ∧ r.ub - fixSum P r.coefs = 1 ∧ 2 ≤ (openCols P r.coefs).length

instance (P : Prob) (r : Row) : Decidable (CliqueRow P r) := by unfold CliqueRow; infer_instance

instance (k i : List Nat) : Decidable (SticksOut k i) := by unfold SticksOut; infer_instance

/-- The problems for which mode 8 is claimed to be sound: columns that count as fixed are fixed, rows of 0-1 columns have
integral bounds without the fixed columns, clique rows with the same columns agree on whether they are equalities, and no
clique sticks out of a longer one only beyond its last column. -/
structure Tame8 (P : Prob) : Prop where
  inf : 10 ^ 20 < P.inf
  fixed : ∀ j < P.nCols, isFix P j = true → P.colLower j = P.colUpper j ∧ -P.inf < P.colLower j ∧ P.colLower j < P.inf
  rows : ∀ r ∈ P.rows, Plain P r.coefs → IsInteger (r.lb - fixSum P r.coefs) ∧ IsInteger (r.ub - fixSum P r.coefs) ∧
    r.lb ≤ r.ub ∧ |fixSum P r.coefs| ≤ 10 ^ 9
  type : ∀ r ∈ P.rows, ∀ r' ∈ P.rows, CliqueRow P r → CliqueRow P r' →
    (openCols P r.coefs).Perm (openCols P r'.coefs) →
    (r.lb - fixSum P r.coefs = 1 ↔ r'.lb - fixSum P r'.coefs = 1)
  apart : ∀ r ∈ P.rows, ∀ r' ∈ P.rows, CliqueRow P r → CliqueRow P r' →
    ¬ SticksOut (openCols P r.coefs) (openCols P r'.coefs)

instance (P : Prob) : Decidable (Tame8 P) :=
  decidable_of_iff (10 ^ 20 < P.inf ∧
      (∀ j < P.nCols, isFix P j = true → P.colLower j = P.colUpper j ∧ -P.inf < P.colLower j ∧ P.colLower j < P.inf) ∧
      (∀ r ∈ P.rows, Plain P r.coefs → IsInteger (r.lb - fixSum P r.coefs) ∧ IsInteger (r.ub - fixSum P r.coefs) ∧
        r.lb ≤ r.ub ∧ |fixSum P r.coefs| ≤ 10 ^ 9) ∧
      (∀ r ∈ P.rows, ∀ r' ∈ P.rows, CliqueRow P r → CliqueRow P r' →
        (openCols P r.coefs).Perm (openCols P r'.coefs) →
        (r.lb - fixSum P r.coefs = 1 ↔ r'.lb - fixSum P r'.coefs = 1)) ∧
      (∀ r ∈ P.rows, ∀ r' ∈ P.rows, CliqueRow P r → CliqueRow P r' →
        ¬ SticksOut (openCols P r.coefs) (openCols P r'.coefs)))
    ⟨fun h => ⟨h.1, h.2.1, h.2.2.1, h.2.2.2.1, h.2.2.2.2⟩, fun h => ⟨h.inf, h.fixed, h.rows, h.type, h.apart⟩⟩

/-! ### Reading the rows -/

theorem read8_false (P : Prob) (v : SVec) (lo up : ℚ) (acc : List Nat) : (read8 P v false lo up acc).1 = false := by
  induction v generalizing lo up acc with
  | nil => rfl
  | cons p v ih =>
    obtain ⟨j, a⟩ := p
    unfold read8
    split
    · exact ih _ _ _
    · split
      · rfl
      · split
        · exact ih _ _ _
        · exact ih _ _ _

theorem read8_spec {P : Prob} (v : SVec) {lo up : ℚ} {acc : List Nat} (h : (read8 P v true lo up acc).1 = true) :
    Plain P v ∧ read8 P v true lo up acc = (true, lo - fixSum P v, up - fixSum P v, acc ++ openCols P v) := by
  induction v generalizing lo up acc with
  | nil => exact ⟨fun p hp => (by cases hp), by simp [read8, fixSum, openCols]⟩
  | cons p v ih =>
    obtain ⟨j, a⟩ := p
    unfold read8 at h ⊢
    by_cases hf : P.colUpper j - P.colLower j < 1 / 10 ^ 8
    · rw [if_pos hf] at h ⊢
      obtain ⟨h1, h2⟩ := ih h
      have hfix : isFix P j = true := decide_eq_true hf
      refine ⟨?_, ?_⟩
      · intro p hp
        rcases List.mem_cons.mp hp with rfl | hp
        · exact Or.inl hfix
        · exact h1 p hp
      · rw [h2]
        have e1 : fixSum P ((j, a) :: v) = a * P.colLower j + fixSum P v := by
          unfold fixSum; rw [List.filter_cons]; simp only [hfix, if_true]; rw [SVec.dot_cons]
        have e2 : openCols P ((j, a) :: v) = openCols P v := by
          unfold openCols; rw [List.filter_cons]; simp [hfix]
        rw [e1, e2]
        refine Prod.ext rfl (Prod.ext ?_ (Prod.ext ?_ rfl))
        · show _ = _; dsimp only; ring
        · show _ = _; dsimp only; ring
    · rw [if_neg hf] at h ⊢
      by_cases hb : ¬ (P.colLower j = 0 ∧ P.colUpper j = 1)
      · rw [if_pos hb] at h; cases h
      · rw [if_neg hb] at h ⊢
        by_cases ha : a ≠ 1
        · rw [if_pos ha, read8_false] at h; cases h
        · rw [if_neg ha] at h ⊢
          obtain ⟨h1, h2⟩ := ih h
          have hfix : isFix P j = false := decide_eq_false hf
          have hb' := not_not.mp hb
          refine ⟨?_, ?_⟩
          · intro p hp
            rcases List.mem_cons.mp hp with rfl | hp
            · exact Or.inr ⟨hb'.1, hb'.2, not_not.mp ha⟩
            · exact h1 p hp
          · rw [h2]
            have e1 : fixSum P ((j, a) :: v) = fixSum P v := by
              unfold fixSum; rw [List.filter_cons]; simp [hfix]
            have e2 : openCols P ((j, a) :: v) = j :: openCols P v := by
              unfold openCols; rw [List.filter_cons]; simp [hfix]
            rw [e1, e2, List.append_assoc]; rfl

theorem truncQ_int (z : ℤ) : truncQ (z : ℚ) = z := by
  unfold truncQ
  split <;> simp

theorem iUpper_int {q : ℚ} (hq : IsInteger q) {u : ℤ} (h : iUpper q = some u) (hs : q < 10 ^ 6) : (u : ℚ) = q := by
  obtain ⟨z, rfl⟩ := hq
  unfold iUpper at h
  split at h
  · rename_i h1
    have : (10 : ℚ) ^ 6 ≤ (intMax : ℚ) := by norm_num [intMax]
    linarith
  · have hf : ⌊(z : ℚ) + 1 / 10 ^ 5⌋ = z := by
      rw [Int.floor_eq_iff]; constructor
      · have : (0 : ℚ) ≤ 1 / 10 ^ 5 := by norm_num
        linarith
      · have : (1 : ℚ) / 10 ^ 5 < 1 := by norm_num
        linarith
    rw [hf] at h
    unfold castInt at h
    split at h
    · rw [← Option.some.inj h, truncQ_int]
    · cases h

theorem iLower_int {q : ℚ} (hq : IsInteger q) {l : ℤ} (h : iLower q = some l) : l = 1 ↔ q = 1 := by
  obtain ⟨z, rfl⟩ := hq
  unfold iLower at h
  split at h
  · rename_i h1
    obtain rfl := Option.some.inj h
    have : ((intMin : ℤ) : ℚ) ≤ 0 := by norm_num [intMin]
    constructor
    · intro h; norm_num [intMin] at h
    · intro h; linarith
  · have hf : ⌈(z : ℚ) - 1 / 10 ^ 5⌉ = z := by
      rw [Int.ceil_eq_iff]; constructor
      · have : (1 : ℚ) / 10 ^ 5 < 1 := by norm_num
        linarith
      · have : (0 : ℚ) ≤ 1 / 10 ^ 5 := by norm_num
        linarith
    rw [hf] at h
    unfold castInt at h
    split at h
    · obtain rfl := Option.some.inj h
      rw [truncQ_int]
      norm_cast
    · cases h

/-- A row that is used is a clique row, or a row that cannot be satisfied. -/
theorem row8_spec {P : Prob} (ht : Tame8 P) {r : Row} (hr : r ∈ P.rows) {k : Kind} (h : row8 P r = .ok k) :
    (∀ c e, k = .clique c e → CliqueRow P r ∧ c = openCols P r.coefs ∧ (e = true ↔ r.lb - fixSum P r.coefs = 1)) ∧
    (k = .infeasible → Plain P r.coefs ∧ r.ub - fixSum P r.coefs < 0) := by
  unfold row8 at h
  dsimp only at h
  split at h
  · rename_i u l hu hl
    obtain rfl := Except.ok.inj h
    unfold kindOf
    by_cases hc : (read8 P r.coefs true r.lb r.ub []).1 = true ∧ (read8 P r.coefs true r.lb r.ub []).2.2.1 < 10 ^ 6 ∧
        ¬ 1 / 10 ^ 9 < |(u : ℚ) - (read8 P r.coefs true r.lb r.ub []).2.2.1| ∧
        ¬ (read8 P r.coefs true r.lb r.ub []).2.2.2.length < 2
    · rw [if_pos hc]
      obtain ⟨c1, c2, c3, c4⟩ := hc
      obtain ⟨hp, he⟩ := read8_spec r.coefs c1
      rw [he] at c2 c3 c4 hu hl
      rw [he]
      dsimp only at *
      rw [List.nil_append] at *
      obtain ⟨il, iu, -, -⟩ := ht.rows r hr hp
      have hu' := iUpper_int iu hu c2
      have hl' := iLower_int il hl
      by_cases h1 : u = 1
      · rw [if_pos h1]
        refine ⟨?_, fun h => (by cases h)⟩
        intro c e hk
        injection hk with hk1 hk2
        subst hk1 hk2
        refine ⟨⟨hp, ?_, by omega⟩, rfl, ?_⟩
        · rw [← hu', h1]; norm_num
        · rw [decide_eq_true_iff, h1]; exact hl'
      · rw [if_neg h1]
        split
        · rename_i hneg
          refine ⟨fun c e h => (by cases h), fun _ => ⟨hp, ?_⟩⟩
          rw [← hu']
          exact_mod_cast hneg
        · exact ⟨fun c e h => (by cases h), fun h => (by cases h)⟩
    · rw [if_neg hc]
      exact ⟨fun c e h => (by cases h), fun h => (by cases h)⟩
  · cases h

theorem rows8_spec {P : Prob} (rs : List Row) {i : Nat} {l : List Clq} {b : Bool} (h : rows8 P i rs = .ok (l, b)) :
    (∀ c ∈ l, ∃ (m : Nat) (r : Row), rs[m]? = some r ∧ c.row = i + m ∧ row8 P r = .ok (.clique c.cols c.eq)) ∧
    (l.map Clq.row).Nodup ∧ (b = false → ∃ r ∈ rs, row8 P r = .ok .infeasible) := by
  induction rs generalizing i l b with
  | nil =>
    unfold rows8 at h
    obtain ⟨rfl, rfl⟩ := Prod.mk.inj (Except.ok.inj h)
    exact ⟨fun c hc => (by cases hc), List.nodup_nil, fun h => (by cases h)⟩
  | cons r rs ih =>
    have step : ∀ {l' : List Clq}, (∀ c ∈ l', ∃ (m : Nat) (w : Row), rs[m]? = some w ∧ c.row = i + 1 + m ∧
        row8 P w = .ok (.clique c.cols c.eq)) → ∀ c ∈ l', ∃ (m : Nat) (w : Row), (r :: rs)[m]? = some w ∧ c.row = i + m ∧
        row8 P w = .ok (.clique c.cols c.eq) := by
      intro l' hl' c hc
      obtain ⟨m, w, h1, h2, h3⟩ := hl' c hc
      exact ⟨m + 1, w, by simpa using h1, by omega, h3⟩
    unfold rows8 at h
    split at h
    · cases h
    · rename_i hk
      obtain ⟨rfl, rfl⟩ := Prod.mk.inj (Except.ok.inj h)
      exact ⟨fun c hc => (by cases hc), List.nodup_nil, fun _ => ⟨r, List.mem_cons_self, hk⟩⟩
    · obtain ⟨h1, h2, h3⟩ := ih h
      refine ⟨step h1, h2, fun hb => ?_⟩
      obtain ⟨w, hw, h4⟩ := h3 hb
      exact ⟨w, List.mem_cons_of_mem _ hw, h4⟩
    · rename_i c e hk
      split at h
      · cases h
      · rename_i l' b' hr
        obtain ⟨rfl, rfl⟩ := Prod.mk.inj (Except.ok.inj h)
        obtain ⟨h1, h2, h3⟩ := ih hr
        refine ⟨?_, ?_, fun hb => ?_⟩
        · intro q hq
          rcases List.mem_cons.mp hq with rfl | hq
          · exact ⟨0, r, rfl, rfl, hk⟩
          · exact step h1 q hq
        · rw [List.map_cons, List.nodup_cons]
          refine ⟨?_, h2⟩
          intro hm
          obtain ⟨q, hq, he⟩ := List.mem_map.mp hm
          obtain ⟨m, w, -, h5, -⟩ := h1 q hq
          dsimp only at he
          omega
        · obtain ⟨w, hw, h4⟩ := h3 hb
          exact ⟨w, List.mem_cons_of_mem _ hw, h4⟩

/-! ### Points -/

/-- The point lies within the bounds. -/
def InBox (P : Prob) (x : Nat → ℚ) : Prop := ∀ j < P.nCols, lbOk P.inf (P.colLower j) (x j) ∧ ubOk P.inf (P.colUpper j) (x j)

/-- Sum over columns. -/
def colSum (x : Nat → ℚ) (l : List Nat) : ℚ := (l.map x).sum

theorem plain_dot {P : Prob} (ht : Tame8 P) {x : Nat → ℚ} (hx : InBox P x) (v : SVec) (hc : ∀ p ∈ v, p.1 < P.nCols)
    (hp : Plain P v) : v.dot x = fixSum P v + colSum x (openCols P v) := by
  induction v with
  | nil => simp [fixSum, colSum, openCols]
  | cons p v ih =>
    obtain ⟨j, a⟩ := p
    have ih := ih (fun q hq => hc q (List.mem_cons_of_mem _ hq)) fun q hq => hp q (List.mem_cons_of_mem _ hq)
    have hj := hc (j, a) List.mem_cons_self
    rw [SVec.dot_cons, ih]
    dsimp only at *
    rcases hfix : isFix P j
    · have ha : a = 1 := by
        rcases hp (j, a) List.mem_cons_self with h | h
        · dsimp only at h; rw [hfix] at h; cases h
        · exact h.2.2
      have e1 : fixSum P ((j, a) :: v) = fixSum P v := by
        unfold fixSum; rw [List.filter_cons]; simp [hfix]
      have e2 : openCols P ((j, a) :: v) = j :: openCols P v := by
        unfold openCols; rw [List.filter_cons]; simp [hfix]
      rw [e1, e2, ha]
      simp only [colSum, List.map_cons, List.sum_cons]
      ring
    · have e1 : fixSum P ((j, a) :: v) = a * P.colLower j + fixSum P v := by
        unfold fixSum; rw [List.filter_cons]; simp only [hfix, if_true]; rw [SVec.dot_cons]
      have e2 : openCols P ((j, a) :: v) = openCols P v := by
        unfold openCols; rw [List.filter_cons]; simp [hfix]
      obtain ⟨f1, f2, f3⟩ := ht.fixed j hj hfix
      obtain ⟨b1, b2⟩ := hx j hj
      have b1 := b1 f2
      have b2 := b2 (by rw [← f1]; exact f3)
      have : x j = P.colLower j := le_antisymm (by rw [f1]; exact b2) b1
      rw [e1, e2, this]
      ring

theorem openCols_mem {P : Prob} {v : SVec} (hp : Plain P v) {j : Nat} (h : j ∈ openCols P v) :
    (∃ p ∈ v, p.1 = j) ∧ P.colLower j = 0 ∧ P.colUpper j = 1 := by
  obtain ⟨p, hp', rfl⟩ := List.mem_map.mp h
  obtain ⟨h1, h2⟩ := List.mem_filter.mp hp'
  refine ⟨⟨p, h1, rfl⟩, ?_⟩
  rcases hp p h1 with h3 | h3
  · rw [h3] at h2; cases h2
  · exact ⟨h3.1, h3.2.1⟩

theorem openCols_nonneg {P : Prob} (ht : Tame8 P) {x : Nat → ℚ} (hx : InBox P x) {v : SVec} (hc : ∀ p ∈ v, p.1 < P.nCols)
    (hp : Plain P v) : ∀ j ∈ openCols P v, 0 ≤ x j := by
  intro j hj
  obtain ⟨⟨p, hpv, rfl⟩, h1, -⟩ := openCols_mem hp hj
  have := (hx p.1 (hc p hpv)).1
  rw [h1] at this
  exact this (by have := ht.inf; linarith)

theorem colSum_nonneg {x : Nat → ℚ} {l : List Nat} (h : ∀ j ∈ l, 0 ≤ x j) : 0 ≤ colSum x l := by
  refine List.sum_nonneg ?_
  intro q hq
  obtain ⟨j, hj, rfl⟩ := List.mem_map.mp hq
  exact h j hj

/-- A clique row says what its type says. -/
theorem cliqueRow_sat {P : Prob} (hwf : P.WF) (ht : Tame8 P) {x : Nat → ℚ} (hx : InBox P x) {r : Row} (hr : r ∈ P.rows)
    (hc : CliqueRow P r) : r.Sat P.inf x ↔ colSum x (openCols P r.coefs) ≤ 1 ∧
      (r.lb - fixSum P r.coefs = 1 → colSum x (openCols P r.coefs) = 1) := by
  obtain ⟨hp, hu, -⟩ := hc
  have hcol := hwf.cols r hr
  obtain ⟨⟨z, hz⟩, -, hle, hs⟩ := ht.rows r hr hp
  have hd := plain_dot ht hx r.coefs hcol hp
  have h0 := colSum_nonneg (openCols_nonneg ht hx hcol hp)
  have hinf := ht.inf
  have hs' := abs_le.mp hs
  have hz1 : z ≤ 1 := by
    have : (z : ℚ) ≤ 1 := by rw [← hz]; linarith
    exact_mod_cast this
  unfold Row.Sat lbOk ubOk
  rw [hd]
  norm_num at hs' hinf
  constructor
  · rintro ⟨h1, h2⟩
    have a := h2 (by linarith)
    refine ⟨by linarith, fun he => ?_⟩
    have b := h1 (by linarith)
    linarith
  · rintro ⟨h1, h2⟩
    refine ⟨fun _ => ?_, fun _ => by linarith⟩
    by_cases he : z = 1
    · have hl1 : r.lb - fixSum P r.coefs = 1 := by rw [hz, he]; norm_num
      have := h2 hl1
      linarith
    · have : z ≤ 0 := by omega
      have : (z : ℚ) ≤ 0 := by exact_mod_cast this
      linarith

theorem colSum_perm {x : Nat → ℚ} {l l' : List Nat} (h : l.Perm l') : colSum x l = colSum x l' := (h.map x).sum_eq

theorem colSum_subset {x : Nat → ℚ} {l l' : List Nat} (hnd : l.Nodup) (hsub : ∀ c ∈ l, c ∈ l') (h0 : ∀ j ∈ l', 0 ≤ x j) :
    colSum x l ≤ colSum x l' := by
  obtain ⟨m, hm, hsl⟩ := hnd.subperm hsub
  rw [← colSum_perm hm]
  refine (hsl.map x).sum_le_sum ?_
  intro q hq
  obtain ⟨j, hj, rfl⟩ := List.mem_map.mp hq
  exact h0 j hj

theorem SticksOut.perm {k k' i i' : List Nat} (hk : k.Perm k') (hi : i.Perm i') (h : SticksOut k i) : SticksOut k' i' := by
  obtain ⟨h1, m, h2, h3, h4, h5, c, h6, h7⟩ := h
  exact ⟨by rw [← hk.length_eq, ← hi.length_eq]; exact h1, m, hk.mem_iff.mp h2, hi.mem_iff.mp h3,
    fun c hc => h4 c (hi.mem_iff.mpr hc), fun c hc hle => hi.mem_iff.mp (h5 c (hk.mem_iff.mpr hc) hle), c, hk.mem_iff.mp h6, h7⟩

/-! ### The whole call -/

/-- The sorted cliques. -/
def sorted8 (l : List Clq) : List (List Nat) := l.map fun c => c.cols.insertionSort (· ≤ ·)

theorem clAt_sorted8 (l : List Clq) (k : Nat) : clAt (sorted8 l) k = (l[k]?.map fun c => c.cols.insertionSort (· ≤ ·)).getD [] := by
  unfold clAt sorted8
  rw [List.getElem?_map]

/-- What is known of the cliques of a problem. -/
structure Cliques (P : Prob) (l : List Clq) : Prop where
  from_ : ∀ c ∈ l, ∃ (m : Nat) (r : Row), P.rows[m]? = some r ∧ c.row = m ∧ CliqueRow P r ∧ c.cols = openCols P r.coefs ∧
    (c.eq = true ↔ r.lb - fixSum P r.coefs = 1)
  rows : (l.map Clq.row).Nodup

theorem cliques_ok {P : Prob} (hwf : P.WF) (ht : Tame8 P) {l : List Clq} (h : Cliques P l) :
    CliquesOK (sorted8 l) ∧ (∀ c ∈ sorted8 l, ∀ j ∈ c, j < P.nCols) ∧
    ∀ k i, k < (sorted8 l).length → i < (sorted8 l).length → clAt (sorted8 l) k = clAt (sorted8 l) i →
      (l[k]?.map Clq.eq).getD false = (l[i]?.map Clq.eq).getD false := by
  have hperm : ∀ c : Clq, (c.cols.insertionSort (· ≤ ·)).Perm c.cols := fun c => List.perm_insertionSort _ _
  refine ⟨⟨?_, ?_⟩, ?_, ?_⟩
  · intro s hs
    obtain ⟨c, hc, rfl⟩ := List.mem_map.mp hs
    obtain ⟨m, r, h1, -, -, h4, -⟩ := h.from_ c hc
    have hnd : (c.cols.insertionSort (· ≤ ·)).Nodup := by
      rw [(hperm c).nodup_iff, h4]
      exact (hwf.nodup r (List.mem_of_getElem? h1)).sublist ((List.filter_sublist).map _)
    have hle : (c.cols.insertionSort (· ≤ ·)).Pairwise (· ≤ ·) := List.pairwise_insertionSort _ _
    exact (List.pairwise_and_iff.mpr ⟨hle, hnd⟩).imp fun h => lt_of_le_of_ne h.1 h.2
  · intro s hs s' hs' hst
    obtain ⟨c, hc, rfl⟩ := List.mem_map.mp hs
    obtain ⟨c', hc', rfl⟩ := List.mem_map.mp hs'
    obtain ⟨m, r, h1, -, h3, h4, -⟩ := h.from_ c hc
    obtain ⟨m', r', h1', -, h3', h4', -⟩ := h.from_ c' hc'
    refine ht.apart r (List.mem_of_getElem? h1) r' (List.mem_of_getElem? h1') h3 h3' ?_
    rw [← h4, ← h4']
    exact hst.perm (hperm c) (hperm c')
  · intro s hs j hj
    obtain ⟨c, hc, rfl⟩ := List.mem_map.mp hs
    obtain ⟨m, r, h1, -, h3, h4, -⟩ := h.from_ c hc
    have hj := (hperm c).mem_iff.mp hj
    rw [h4] at hj
    obtain ⟨⟨p, hp, rfl⟩, -⟩ := openCols_mem h3.1 hj
    exact hwf.cols r (List.mem_of_getElem? h1) p hp
  · intro k i hk hi he
    have hk : k < l.length := by simpa [sorted8] using hk
    have hi : i < l.length := by simpa [sorted8] using hi
    rw [clAt_sorted8, clAt_sorted8, List.getElem?_eq_getElem hk, List.getElem?_eq_getElem hi] at he
    rw [List.getElem?_eq_getElem hk, List.getElem?_eq_getElem hi]
    simp only [Option.map_some, Option.getD_some] at he ⊢
    obtain ⟨m, r, h1, -, h3, h4, h5⟩ := h.from_ _ (List.getElem_mem hk)
    obtain ⟨m', r', h1', -, h3', h4', h5'⟩ := h.from_ _ (List.getElem_mem hi)
    have hp : (openCols P r.coefs).Perm (openCols P r'.coefs) := by
      rw [← h4, ← h4']
      exact ((hperm _).symm.trans (by rw [he])).trans (hperm _)
    have := ht.type r (List.mem_of_getElem? h1) r' (List.mem_of_getElem? h1') h3 h3' hp
    rw [Bool.eq_iff_iff, h5, h5']
    exact this

theorem feasible_inBox {P : Prob} {x : Nat → ℚ} (hx : P.Feasible x) : InBox P x := fun j hj => ⟨hx.lower j hj, hx.upper j hj⟩

/-- Everything mode 8 finds holds at every feasible point, and what is left of the problem has no further points. -/
theorem cuts8_sound {o : Obj} {P : Prob} (hwf : P.WF) (ht : Tame8 P) {u : Out} (hc : cuts8 o P = .ok u) {x : Nat → ℚ} :
    (P.Feasible x → ColCut.Sat ⟨u.lbs, u.ubs⟩ x ∧ u.infeas = false) ∧
    (Prob.Feasible { P with rows := keptRows P u.dup } x → P.Feasible x) := by
  unfold cuts8 at hc
  split at hc
  · cases hc
  · split at hc
    · cases hc
    · split at hc
      · cases hc
      · rename_i l feas hrows
        split at hc
        · cases hc
        · rename_i gone fixed hout
          obtain rfl := Except.ok.inj hc
          obtain ⟨r1, r2, r3⟩ := rows8_spec P.rows hrows
          have hcl : Cliques P l := by
            refine ⟨?_, r2⟩
            intro c hc
            obtain ⟨m, r, h1, h2, h3⟩ := r1 c hc
            obtain ⟨h4, -⟩ := row8_spec ht (List.mem_of_getElem? h1) h3
            obtain ⟨a, b, d⟩ := h4 _ _ rfl
            exact ⟨m, r, h1, by omega, a, b, d⟩
          obtain ⟨k1, k2, k3⟩ := cliques_ok hwf ht hcl
          obtain ⟨g1, g2, g3⟩ := outDups8_sound k1 k2 k3 hout
          have hperm : ∀ c : Clq, (c.cols.insertionSort (· ≤ ·)).Perm c.cols := fun c => List.perm_insertionSort _ _
          have hgl : gone.length = l.length := by rw [g1]; simp [sorted8]
          have hclAt : ∀ (k : Nat) (c : Clq), l[k]? = some c → (clAt (sorted8 l) k).Perm c.cols := by
            intro k c hk
            rw [clAt_sorted8, hk]; exact hperm c
          have hnodup : ∀ k, (clAt (sorted8 l) k).Nodup := fun k => (clAt_sorted k1 k).imp fun h => Nat.ne_of_lt h
          refine ⟨?_, ?_⟩
          · intro hx
            have hb := feasible_inBox hx
            refine ⟨⟨fun p hp => (by cases hp), ?_⟩, ?_⟩
            · intro p hp
              obtain ⟨j, hj, rfl⟩ := List.mem_map.mp hp
              have hj := (List.mem_filter.mp hj).2
              rw [List.contains_iff_mem] at hj
              obtain ⟨k, i, h1, h2, h3, h4⟩ := g3 j hj
              rcases hlk : l[k]? with _ | ck
              · rw [hlk] at h1; cases h1
              · rw [hlk] at h1
                have h1 : ck.eq = true := h1
                rcases hli : l[i]? with _ | ci
                · rw [clAt_sorted8, hli] at h3; cases h3
                · obtain ⟨m, r, a1, -, a3, a4, a5⟩ := hcl.from_ ck (List.mem_of_getElem? hlk)
                  obtain ⟨m', r', b1, -, b3, b4, -⟩ := hcl.from_ ci (List.mem_of_getElem? hli)
                  have sk := (cliqueRow_sat hwf ht hb (List.mem_of_getElem? a1) a3).mp (hx.rows r (List.mem_of_getElem? a1))
                  have si := (cliqueRow_sat hwf ht hb (List.mem_of_getElem? b1) b3).mp (hx.rows r' (List.mem_of_getElem? b1))
                  have e1 := sk.2 (a5.mp h1)
                  rw [← a4, ← colSum_perm (hclAt k ck hlk)] at e1
                  have e2 := si.1
                  rw [← b4, ← colSum_perm (hclAt i ci hli)] at e2
                  have hsub := colSum_subset (x := x) (l := j :: clAt (sorted8 l) k) (l' := clAt (sorted8 l) i)
                    (List.nodup_cons.mpr ⟨h4, hnodup k⟩) (by
                      intro c hc
                      rcases List.mem_cons.mp hc with rfl | hc
                      · exact h3
                      · exact h2 c hc) (by
                      intro c hc
                      refine openCols_nonneg ht hb (hwf.cols r' (List.mem_of_getElem? b1)) b3.1 c ?_
                      rw [← b4]; exact (hclAt i ci hli).mem_iff.mp hc)
                  have : colSum x (j :: clAt (sorted8 l) k) = x j + colSum x (clAt (sorted8 l) k) := by simp [colSum]
                  rw [this] at hsub
                  show x j ≤ 0
                  linarith
            · rcases feas with _ | _
              · obtain ⟨r, hr, h1⟩ := r3 rfl
                obtain ⟨hp, hneg⟩ := (row8_spec ht hr h1).2 rfl
                exfalso
                have hs := (hx.rows r hr).2
                have hd := plain_dot ht hb r.coefs (hwf.cols r hr) hp
                have h0 := colSum_nonneg (openCols_nonneg ht hb (hwf.cols r hr) hp)
                have hsz := abs_le.mp (ht.rows r hr hp).2.2.2
                have hinf := ht.inf
                norm_num at hsz hinf
                have := hs (by linarith)
                linarith
              · rfl
          · intro hx
            have hb : InBox P x := fun j hj => ⟨hx.lower j hj, hx.upper j hj⟩
            refine ⟨?_, hx.lower, hx.upper, hx.int⟩
            intro w hw
            obtain ⟨m, hm⟩ := List.mem_iff_getElem?.mp hw
            have hdl : (flags8 P.rows.length l gone).length = P.rows.length := by
              unfold flags8; rw [foldl_set_length, List.length_replicate]
            have hmlt : m < (flags8 P.rows.length l gone).length := by
              rw [hdl]; exact (List.getElem?_eq_some_iff.mp hm).1
            by_cases hk : w ∈ keptRows P (flags8 P.rows.length l gone)
            · exact hx.rows w hk
            · have hflag : (flags8 P.rows.length l gone)[m] = -2 ∨ 0 ≤ (flags8 P.rows.length l gone)[m] := by
                by_contra hc
                exact hk (kept_of_flag hm (List.getElem?_eq_getElem hmlt) hc)
              rcases foldl_set_get _ _ _ _ _ _ (List.getElem?_eq_getElem hmlt : (flags8 P.rows.length l gone)[m]? = _) with
                h | ⟨p, hp, h1, h2⟩
              · have := List.eq_of_mem_replicate (List.mem_of_getElem? h)
                rw [this] at hflag
                norm_num at hflag
              · obtain ⟨k, hk'⟩ := List.mem_iff_getElem?.mp hp
                rw [List.getElem?_zip_eq_some] at hk'
                rw [← h2] at hflag
                have hgone : p.2 = true := by
                  rcases hp2 : p.2
                  · rw [hp2] at hflag; norm_num at hflag
                  · rfl
                rw [hgone] at hk'
                obtain ⟨i, q1, q2, q3⟩ := g2 k hk'.2
                have hil : i < l.length := by rw [← hgl]; exact (List.getElem?_eq_some_iff.mp q1).1
                have hli : l[i]? = some l[i] := List.getElem?_eq_getElem hil
                obtain ⟨m', w', b1, b2, b3, b4, b5⟩ := hcl.from_ l[i] (List.getElem_mem hil)
                obtain ⟨m1, w1, a1, a2, a3, a4, a5⟩ := hcl.from_ p.1 (List.mem_of_getElem? hk'.1)
                have : m1 = m := by omega
                subst this
                rw [hm] at a1
                obtain rfl := Option.some.inj a1
                -- the row of the clique that stays is there
                have hkept : w' ∈ keptRows P (flags8 P.rows.length l gone) := by
                  have hlt' : m' < P.rows.length := (List.getElem?_eq_some_iff.mp b1).1
                  obtain ⟨p', hp', f1, f2⟩ := foldl_set_mem (fun p : Clq × Bool => p.1.row) (fun p => if p.2 then (-2 : ℤ) else -1)
                    (l.zip gone) (List.replicate P.rows.length (-3)) m' (by rw [List.length_replicate]; exact hlt')
                    (p := (l[i], false)) (List.mem_iff_getElem?.mpr ⟨i, List.getElem?_zip_eq_some.mpr ⟨hli, q1⟩⟩) b2
                  have hp2 : p'.2 = false := by
                    obtain ⟨k', hk2⟩ := List.mem_iff_getElem?.mp hp'
                    rw [List.getElem?_zip_eq_some] at hk2
                    have hki : k' = i := by
                      have hnd := hcl.rows
                      have t1 : (l.map Clq.row)[k']? = some m' := by rw [List.getElem?_map, hk2.1]; exact congrArg some f1
                      have t2 : (l.map Clq.row)[i]? = some m' := by rw [List.getElem?_map, hli]; exact congrArg some b2
                      obtain ⟨t3, t4⟩ := List.getElem?_eq_some_iff.mp t1
                      obtain ⟨t5, t6⟩ := List.getElem?_eq_some_iff.mp t2
                      exact (hnd.getElem_inj_iff (hi := t3) (hj := t5)).mp (by rw [t4, t6])
                    rw [hki, q1] at hk2
                    exact (Option.some.inj hk2.2).symm
                  rw [hp2] at f2
                  exact kept_of_flag (d := -1) b1 f2 (by norm_num)
                have si := (cliqueRow_sat hwf ht hb (List.mem_of_getElem? b1) b3).mp (hx.rows w' hkept)
                rw [cliqueRow_sat hwf ht hb hw a3]
                rw [← b4, ← colSum_perm (hclAt i _ hli)] at si
                rw [← a4, ← colSum_perm (hclAt k _ hk'.1)]
                refine ⟨?_, ?_⟩
                · refine le_trans (colSum_subset (hnodup k) q2 ?_) si.1
                  intro c hc
                  refine openCols_nonneg ht hb (hwf.cols w' (List.mem_of_getElem? b1)) b3.1 c ?_
                  rw [← b4]; exact (hclAt i _ hli).mem_iff.mp hc
                · intro he
                  have heq : ((l[k]?.map Clq.eq).getD false) = true := by
                    rw [hk'.1]; exact a5.mpr he
                  obtain ⟨e1, e2⟩ := q3 heq
                  rw [hli] at e2
                  rw [← e1]
                  exact si.2 (b5.mp e2)

end Cgl.DupRow
