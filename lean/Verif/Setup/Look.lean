import Verif.Setup.Scale

/-! # Rounding of bounds, and what is found in a row -/

namespace Cgl.Setup

/-! ### Rounding of bounds -/

theorem clean_box (P : Prob) (hi : IsInteger P.inf) (x : Nat → ℚ) : Box (clean P) x ↔ Box P x := by
  obtain ⟨N, hN⟩ := hi
  constructor
  · intro h
    refine ⟨fun j hj => ?_, fun j hj => ?_, h.int⟩
    · have := h.lower j hj
      unfold lbOk clean at this
      dsimp only at this
      intro hb
      by_cases hint : P.isInt j = true
      · rw [if_pos hint] at this
        exact le_trans (le_max_left _ _) (this (lt_of_lt_of_le hb (le_max_left _ _)))
      · rw [if_neg hint] at this
        exact this hb
    · have := h.upper j hj
      unfold ubOk clean at this
      dsimp only at this
      intro hb
      by_cases hint : P.isInt j = true
      · rw [if_pos hint] at this
        exact le_trans (this (lt_of_le_of_lt (min_le_left _ _) hb)) (min_le_left _ _)
      · rw [if_neg hint] at this
        exact this hb
  · intro h
    refine ⟨fun j hj => ?_, fun j hj => ?_, h.int⟩
    · unfold lbOk clean
      dsimp only
      by_cases hint : P.isInt j = true
      · rw [if_pos hint]
        intro hb
        by_cases hl : -P.inf < P.colLower j
        · have hx := h.lower j hj hl
          obtain ⟨z, hz⟩ := h.int j hj hint
          refine max_le hx ?_
          rw [hz] at hx ⊢
          exact_mod_cast Int.ceil_le.mpr (by push_cast; linarith)
        · exfalso
          have hl := not_lt.mp hl
          have : (⌈P.colLower j - 1 / 10 ^ 6⌉ : ℚ) ≤ -P.inf := by
            rw [hN] at hl ⊢
            have : ⌈P.colLower j - 1 / 10 ^ 6⌉ ≤ -N := Int.ceil_le.mpr (by push_cast; linarith)
            exact_mod_cast this
          exact absurd hb (not_lt.mpr (max_le hl this))
      · rw [if_neg hint]
        exact h.lower j hj
    · unfold ubOk clean
      dsimp only
      by_cases hint : P.isInt j = true
      · rw [if_pos hint]
        intro hb
        by_cases hl : P.colUpper j < P.inf
        · have hx := h.upper j hj hl
          obtain ⟨z, hz⟩ := h.int j hj hint
          refine le_min hx ?_
          rw [hz] at hx ⊢
          exact_mod_cast Int.le_floor.mpr (by push_cast; linarith)
        · exfalso
          have hl := not_lt.mp hl
          have : P.inf ≤ (⌊P.colUpper j + 1 / 10 ^ 6⌋ : ℚ) := by
            rw [hN] at hl ⊢
            have : N ≤ ⌊P.colUpper j + 1 / 10 ^ 6⌋ := Int.le_floor.mpr (by linarith)
            exact_mod_cast this
          exact absurd hb (not_lt.mpr (le_min hl this))
      · rw [if_neg hint]
        exact h.upper j hj

/-- What the look at the rows needs to know about the bounds. -/
structure Fine (P : Prob) : Prop where
  inf : 10 ^ 30 ≤ P.inf
  fixedCols : ∀ j < P.nCols, P.colUpper j - P.colLower j < 1 / 10 ^ 8 →
    P.colUpper j ≤ P.colLower j ∧ |P.colLower j| ≤ 10 ^ 9 ∧ |P.colUpper j| ≤ 10 ^ 9

theorem fine_fixed {P : Prob} (hF : Fine P) {x : Nat → ℚ} (hx : Box P x) {j : ℕ} (hj : j < P.nCols)
    (hd : P.colUpper j - P.colLower j < 1 / 10 ^ 8) : x j = P.colLower j := by
  obtain ⟨h1, h2, h3⟩ := hF.fixedCols j hj hd
  have hi := hF.inf
  have h2' := abs_le.mp h2
  have h3' := abs_le.mp h3
  have hl := hx.lower j hj (by linarith [h2'.1])
  have hu := hx.upper j hj (by linarith [h3'.2])
  linarith

theorem clean_infeasible (P : Prob) (hF : Fine (clean P)) (h : cleanOk P = false) (x : Nat → ℚ) : ¬ Box (clean P) x := by
  intro hx
  unfold cleanOk at h
  rw [← Bool.not_eq_true, List.all_eq_true] at h
  apply h
  intro j hj
  have hj : j < P.nCols := List.mem_range.mp hj
  rw [Bool.or_eq_true]
  by_cases hint : P.isInt j = true
  · right
    rw [decide_eq_true_eq]
    by_contra hc
    have hc := not_le.mp hc
    have hd : (clean P).colUpper j - (clean P).colLower j < 1 / 10 ^ 8 := by linarith
    obtain ⟨-, h2, h3⟩ := hF.fixedCols j hj hd
    have hi := hF.inf
    have hl := hx.lower j hj (by linarith [(abs_le.mp h2).1])
    have hu := hx.upper j hj (by linarith [(abs_le.mp h3).2])
    linarith
  · left
    simp [hint]

/-! ### What is found in a row -/

/-- A column that is not fixed and takes the values 0 and 1. -/
def Binary (P : Prob) (j : ℕ) : Prop := j < P.nCols ∧ P.isInt j = true ∧ P.colLower j = 0 ∧ P.colUpper j = 1

theorem binary_of {P : Prob} {j : ℕ} (hj : j < P.nCols) (h : isBinary P j = true) (hd : ¬ P.colUpper j - P.colLower j < 1 / 10 ^ 8) :
    Binary P j := by
  unfold isBinary at h
  rw [Bool.and_eq_true, Bool.and_eq_true, decide_eq_true_eq, decide_eq_true_eq] at h
  obtain ⟨⟨h1, h2⟩, h3⟩ := h
  rcases h2 with h2 | h2 <;> rcases h3 with h3 | h3 <;> rw [h2, h3] at hd
  · exact ⟨hj, h1, h3, h2⟩
  · exact absurd (by norm_num) hd
  · exact absurd (by norm_num) hd
  · exact absurd (by norm_num) hd

theorem binary_val {P : Prob} (hi : 10 ^ 30 ≤ P.inf) {x : Nat → ℚ} (hx : Box P x) {j : ℕ} (h : Binary P j) : x j = 0 ∨ x j = 1 := by
  obtain ⟨h1, h2, h3, h4⟩ := h
  have hl := hx.lower j h1
  have hu := hx.upper j h1
  rw [h3] at hl
  rw [h4] at hu
  have hl := hl (by linarith)
  have hu := hu (by linarith)
  obtain ⟨z, hz⟩ := hx.int j h1 h2
  rw [hz] at hl hu ⊢
  have a : 0 ≤ z := by exact_mod_cast hl
  have b : z ≤ 1 := by exact_mod_cast hu
  have : z = 0 ∨ z = 1 := by omega
  rcases this with rfl | rfl
  · left; simp
  · right; simp

/-- Sum of the values of columns. -/
def total (x : Nat → ℚ) (l : List ℕ) : ℚ := (l.map x).sum

@[simp] theorem total_nil (x : Nat → ℚ) : total x [] = 0 := rfl
@[simp] theorem total_cons (x : Nat → ℚ) (j : ℕ) (l : List ℕ) : total x (j :: l) = x j + total x l := by simp [total]
@[simp] theorem total_append (x : Nat → ℚ) (l k : List ℕ) : total x (l ++ k) = total x l + total x k := by simp [total]

theorem size_cons (p : ℕ × ℚ) (v : SVec) : size (p :: v) = |p.2| + size v := by simp [size]

/-- What the entries of a row add up to. -/
theorem look_fold (P : Prob) (hF : Fine P) (v : SVec) (hc : ∀ p ∈ v, p.1 < P.nCols) (k0 : Look) :
    ∃ A : ℚ, |A| ≤ size v * 10 ^ 9 ∧ (v.foldl (lookEntry P) k0).up = k0.up - A ∧ (v.foldl (lookEntry P) k0).lo = k0.lo - A ∧
      ((v.foldl (lookEntry P) k0).good = true → k0.good = true ∧
        ∃ ps ms, (v.foldl (lookEntry P) k0).plus = k0.plus ++ ps ∧ (v.foldl (lookEntry P) k0).minus = k0.minus ++ ms ∧
          (∀ j ∈ ps, Binary P j) ∧ (∀ j ∈ ms, Binary P j) ∧
          ∀ x, Box P x → SVec.dot v x = A + total x ps - total x ms) := by
  induction v generalizing k0 with
  | nil =>
    refine ⟨0, by simp [size], by simp, by simp, fun h => ⟨h, [], [], by simp, by simp, by simp, by simp, fun x _ => by simp⟩⟩
  | cons p v ih =>
    have hp := hc p List.mem_cons_self
    obtain ⟨A, hA, hup, hlo, hgood⟩ := ih (fun q hq => hc q (List.mem_cons_of_mem _ hq)) (lookEntry P k0 p)
    rw [List.foldl_cons, size_cons]
    by_cases hd : P.colUpper p.1 - P.colLower p.1 < 1 / 10 ^ 8
    · have he : lookEntry P k0 p = { k0 with up := k0.up - P.colLower p.1 * p.2, lo := k0.lo - P.colLower p.1 * p.2 } := by
        unfold lookEntry; rw [if_pos hd]
      rw [he] at hup hlo hgood ⊢
      obtain ⟨-, h2, -⟩ := hF.fixedCols p.1 hp hd
      refine ⟨A + P.colLower p.1 * p.2, ?_, by rw [hup]; ring, by rw [hlo]; ring, fun hg => ?_⟩
      · have : |P.colLower p.1 * p.2| ≤ 10 ^ 9 * |p.2| := by
          rw [abs_mul]; exact mul_le_mul_of_nonneg_right h2 (abs_nonneg _)
        calc |A + P.colLower p.1 * p.2| ≤ |A| + |P.colLower p.1 * p.2| := abs_add_le _ _
          _ ≤ size v * 10 ^ 9 + 10 ^ 9 * |p.2| := add_le_add hA this
          _ = (|p.2| + size v) * 10 ^ 9 := by ring
      · obtain ⟨g, ps, ms, h3, h4, h5, h6, h7⟩ := hgood hg
        refine ⟨g, ps, ms, h3, h4, h5, h6, fun x hx => ?_⟩
        rw [SVec.dot_cons, h7 x hx, fine_fixed hF hx hp hd]; ring
    · have hA' : |A| ≤ (|p.2| + size v) * 10 ^ 9 := by
        have := abs_nonneg p.2
        nlinarith
      by_cases hv : |p.2| ≠ 1
      · have he : lookEntry P k0 p = { k0 with good := false } := by
          unfold lookEntry; rw [if_neg hd, if_pos hv]
        rw [he] at hup hlo hgood ⊢
        exact ⟨A, hA', hup, hlo, fun hg => absurd (hgood hg).1 (by simp)⟩
      · have hv := not_not.mp hv
        by_cases hpos : 0 < p.2
        · have he : lookEntry P k0 p = { k0 with plus := k0.plus ++ [p.1], good := k0.good && isBinary P p.1 } := by
            unfold lookEntry; rw [if_neg hd, if_neg (by rw [hv]; simp), if_pos hpos]
          rw [he] at hup hlo hgood ⊢
          refine ⟨A, hA', hup, hlo, fun hg => ?_⟩
          obtain ⟨g, ps, ms, h3, h4, h5, h6, h7⟩ := hgood hg
          dsimp only at g h3 h4
          rw [Bool.and_eq_true] at g
          refine ⟨g.1, p.1 :: ps, ms, by rw [h3, List.append_assoc]; rfl, h4, ?_, h6, fun x hx => ?_⟩
          · intro j hj
            rcases List.mem_cons.mp hj with rfl | hj
            · exact binary_of hp g.2 hd
            · exact h5 j hj
          · have : p.2 = 1 := by rw [abs_of_pos hpos] at hv; exact hv
            rw [SVec.dot_cons, h7 x hx, this, total_cons]; ring
        · have he : lookEntry P k0 p = { k0 with minus := k0.minus ++ [p.1], good := k0.good && isBinary P p.1 } := by
            unfold lookEntry; rw [if_neg hd, if_neg (by rw [hv]; simp), if_neg hpos]
          rw [he] at hup hlo hgood ⊢
          refine ⟨A, hA', hup, hlo, fun hg => ?_⟩
          obtain ⟨g, ps, ms, h3, h4, h5, h6, h7⟩ := hgood hg
          dsimp only at g h3 h4
          rw [Bool.and_eq_true] at g
          refine ⟨g.1, ps, p.1 :: ms, h3, by rw [h4, List.append_assoc]; rfl, h5, ?_, fun x hx => ?_⟩
          · intro j hj
            rcases List.mem_cons.mp hj with rfl | hj
            · exact binary_of hp g.2 hd
            · exact h6 j hj
          · have : p.2 = -1 := by rw [abs_of_nonpos (not_lt.mp hpos)] at hv; linarith
            rw [SVec.dot_cons, h7 x hx, this, total_cons]; ring

/-- The row. -/
theorem look_ok (P : Prob) (hF : Fine P) (a : Row × SVec) (hcopy : a.2 = a.1.coefs) (hc : ∀ p ∈ a.2, p.1 < P.nCols)
    (hs : size a.2 ≤ 10 ^ 11) :
    ∃ A : ℚ, |A| ≤ 10 ^ 20 ∧ (look P a).up = a.1.ub - A ∧ (look P a).lo = a.1.lb - A ∧
      ((look P a).good = true → (∀ j ∈ (look P a).plus, Binary P j) ∧ (∀ j ∈ (look P a).minus, Binary P j) ∧
          ∀ x, Box P x → SVec.dot a.1.coefs x = A + total x (look P a).plus - total x (look P a).minus) := by
  obtain ⟨A, hA, h1, h2, h3⟩ := look_fold P hF a.2 hc ⟨a.1.ub, a.1.lb, [], [], true⟩
  refine ⟨A, by linarith, h1, h2, fun hg => ?_⟩
  obtain ⟨-, ps, ms, h4, h5, h6, h7, h8⟩ := h3 hg
  rw [List.nil_append] at h4 h5
  unfold look
  rw [h4, h5, ← hcopy]
  exact ⟨h6, h7, h8⟩

theorem total_nonneg (x : Nat → ℚ) (l : List ℕ) (h : ∀ j ∈ l, x j = 0 ∨ x j = 1) : 0 ≤ total x l := by
  induction l with
  | nil => simp
  | cons j l ih =>
    rw [total_cons]
    have := ih fun i hi => h i (List.mem_cons_of_mem _ hi)
    rcases h j List.mem_cons_self with h | h <;> rw [h] <;> linarith

theorem total_le (x : Nat → ℚ) (l : List ℕ) (h : ∀ j ∈ l, x j = 0 ∨ x j = 1) : total x l ≤ l.length := by
  induction l with
  | nil => simp
  | cons j l ih =>
    rw [total_cons, List.length_cons]
    have := ih fun i hi => h i (List.mem_cons_of_mem _ hi)
    push_cast
    rcases h j List.mem_cons_self with h | h <;> rw [h] <;> linarith

theorem total_int (x : Nat → ℚ) (l : List ℕ) (h : ∀ j ∈ l, x j = 0 ∨ x j = 1) : IsInteger (total x l) := by
  induction l with
  | nil => exact ⟨0, by simp⟩
  | cons j l ih =>
    obtain ⟨z, hz⟩ := ih fun i hi => h i (List.mem_cons_of_mem _ hi)
    rw [total_cons, hz]
    rcases h j List.mem_cons_self with h | h <;> rw [h]
    · exact ⟨z, by ring⟩
    · exact ⟨1 + z, by push_cast; ring⟩

theorem total_small (x : Nat → ℚ) (l : List ℕ) (h : ∀ j ∈ l, x j = 0 ∨ x j = 1) (hs : total x l < 1) : ∀ j ∈ l, x j = 0 := by
  induction l with
  | nil => simp
  | cons i l ih =>
    have h' := fun i hi => h i (List.mem_cons_of_mem _ hi)
    have h0 := total_nonneg x l h'
    rw [total_cons] at hs
    intro j hj
    have hi : x i = 0 := by
      rcases h i List.mem_cons_self with h | h
      · exact h
      · rw [h] at hs; linarith
    rcases List.mem_cons.mp hj with rfl | hj
    · exact hi
    · exact ih h' (by rw [hi] at hs; linarith) j hj

theorem total_big (x : Nat → ℚ) (l : List ℕ) (h : ∀ j ∈ l, x j = 0 ∨ x j = 1) (hs : (l.length : ℚ) - 1 < total x l) :
    ∀ j ∈ l, x j = 1 := by
  induction l with
  | nil => simp
  | cons i l ih =>
    have h' := fun i hi => h i (List.mem_cons_of_mem _ hi)
    have h0 := total_le x l h'
    rw [total_cons, List.length_cons] at hs
    push_cast at hs
    intro j hj
    have hi : x i = 1 := by
      rcases h i List.mem_cons_self with h | h
      · rw [h] at hs; linarith
      · exact h
    rcases List.mem_cons.mp hj with rfl | hj
    · exact hi
    · exact ih h' (by rw [hi] at hs; linarith) j hj

/-- The right hand side is close to the integer that was taken for it. -/
theorem kind_near {k : Look} (h : kind k ≠ .nothing) :
    k.good = true ∧ |(⌊k.up + 1 / 10 ^ 5⌋ : ℚ) - k.up| ≤ 1 / 10 ^ 9 := by
  unfold kind at h
  by_cases h1 : k.good = false ∨ 1 / 10 ^ 9 < |(⌊k.up + 1 / 10 ^ 5⌋ : ℚ) - k.up|
  · rw [if_pos h1] at h; exact absurd rfl h
  · rw [not_or, Bool.not_eq_false, not_lt] at h1; exact h1

theorem kind_val {k : Look} :
    (kind k = .clique → ⌊k.up + 1 / 10 ^ 5⌋ = 1 - (k.minus.length : ℤ)) ∧
    (kind k = .fix → ⌊k.up + 1 / 10 ^ 5⌋ = -(k.minus.length : ℤ)) ∧
    (kind k = .infeasible → ⌊k.up + 1 / 10 ^ 5⌋ < -(k.minus.length : ℤ)) := by
  unfold kind
  by_cases h1 : k.good = false ∨ 1 / 10 ^ 9 < |(⌊k.up + 1 / 10 ^ 5⌋ : ℚ) - k.up|
  · rw [if_pos h1]; simp
  · rw [if_neg h1]
    by_cases h2 : ⌊k.up + 1 / 10 ^ 5⌋ = 1 - (k.minus.length : ℤ)
    · rw [if_pos h2]; exact ⟨fun _ => h2, by simp, by simp⟩
    · rw [if_neg h2]
      by_cases h3 : ⌊k.up + 1 / 10 ^ 5⌋ = -(k.minus.length : ℤ)
      · rw [if_pos h3]; exact ⟨by simp, fun _ => h3, by simp⟩
      · rw [if_neg h3]
        by_cases h4 : ⌊k.up + 1 / 10 ^ 5⌋ < -(k.minus.length : ℤ)
        · rw [if_pos h4]; exact ⟨by simp, by simp, fun _ => h4⟩
        · rw [if_neg h4]; simp

/-- What is assumed about a scaled row and its copy. -/
structure RowFine (P : Prob) (a : Row × SVec) : Prop where
  copy : a.2 = a.1.coefs
  cols : ∀ p ∈ a.2, p.1 < P.nCols
  sized : size a.2 ≤ 10 ^ 11
  ordered : a.1.lb ≤ a.1.ub

/-- The right hand side of a row that is not passed over is finite, and its value is known. -/
theorem row_upper (P : Prob) (hF : Fine P) (a : Row × SVec) (hR : RowFine P a) (hsk : ¬ (10 ^ 6 ≤ (look P a).up ∨ (look P a).lo ≤ -10 ^ 6))
    (hg : (look P a).good = true) (x : Nat → ℚ) (hx : Box P x) (hsat : a.1.Sat P.inf x) :
    total x (look P a).plus - total x (look P a).minus ≤ (look P a).up := by
  obtain ⟨A, hA, h1, h2, h3⟩ := look_ok P hF a hR.copy hR.cols hR.sized
  obtain ⟨-, -, h4⟩ := h3 hg
  rw [not_or, not_le, not_le] at hsk
  have hi := hF.inf
  have hu := hsat.2 (by have := (abs_le.mp hA).2; linarith [hsk.1])
  rw [h4 x hx] at hu
  linarith

theorem row_infeasible (P : Prob) (hF : Fine P) (a : Row × SVec) (hR : RowFine P a)
    (hsk : ¬ (10 ^ 6 ≤ (look P a).up ∨ (look P a).lo ≤ -10 ^ 6)) (hk : kind (look P a) = .infeasible) (x : Nat → ℚ) (hx : Box P x)
    (hsat : a.1.Sat P.inf x) : False := by
  obtain ⟨hg, hn⟩ := kind_near (k := look P a) (by rw [hk]; simp)
  have hv := kind_val.2.2 hk
  have hu := row_upper P hF a hR hsk hg x hx hsat
  obtain ⟨A, hA, h1, h2, h3⟩ := look_ok P hF a hR.copy hR.cols hR.sized
  obtain ⟨hp, hm, -⟩ := h3 hg
  have t1 := total_nonneg x _ fun j hj => binary_val hF.inf hx (hp j hj)
  have t2 := total_le x _ fun j hj => binary_val hF.inf hx (hm j hj)
  have hv' : (⌊(look P a).up + 1 / 10 ^ 5⌋ : ℚ) ≤ -((look P a).minus.length : ℚ) - 1 := by
    have : ⌊(look P a).up + 1 / 10 ^ 5⌋ ≤ -((look P a).minus.length : ℤ) - 1 := by omega
    exact_mod_cast this
  have := abs_le.mp hn
  linarith [this.1]

theorem row_fix (P : Prob) (hF : Fine P) (a : Row × SVec) (hR : RowFine P a)
    (hsk : ¬ (10 ^ 6 ≤ (look P a).up ∨ (look P a).lo ≤ -10 ^ 6)) (hk : kind (look P a) = .fix) (x : Nat → ℚ) (hx : Box P x)
    (hsat : a.1.Sat P.inf x) : (∀ j ∈ (look P a).plus, x j = 0) ∧ ∀ j ∈ (look P a).minus, x j = 1 := by
  obtain ⟨hg, hn⟩ := kind_near (k := look P a) (by rw [hk]; simp)
  have hv := kind_val.2.1 hk
  have hu := row_upper P hF a hR hsk hg x hx hsat
  obtain ⟨A, hA, h1, h2, h3⟩ := look_ok P hF a hR.copy hR.cols hR.sized
  obtain ⟨hp, hm, -⟩ := h3 hg
  have b1 := fun j hj => binary_val hF.inf hx (hp j hj)
  have b2 := fun j hj => binary_val hF.inf hx (hm j hj)
  have t1 := total_nonneg x _ b1
  have t2 := total_le x _ b2
  have hv' : (⌊(look P a).up + 1 / 10 ^ 5⌋ : ℚ) = -((look P a).minus.length : ℚ) := by exact_mod_cast hv
  have := abs_le.mp hn
  exact ⟨total_small x _ b1 (by linarith [this.1]), total_big x _ b2 (by linarith [this.1])⟩

/-- The bounds are only made narrower, and stay as the look needs them. -/
theorem fixAll_fine (P : Prob) (hF : Fine P) (k : Look) (hm : ∀ j ∈ k.minus, Binary P j) (hp : ∀ j ∈ k.plus, Binary P j) :
    Fine (fixAll P k) := by
  refine ⟨hF.inf, fun j hj hd => ?_⟩
  unfold fixAll at hd ⊢
  dsimp only at hd ⊢
  by_cases h1 : j ∈ k.plus
  · rw [if_pos h1] at hd ⊢
    by_cases h2 : j ∈ k.minus
    · rw [if_pos h2]; norm_num
    · rw [if_neg h2, (hp j h1).2.2.1]; norm_num
  · rw [if_neg h1] at hd ⊢
    by_cases h2 : j ∈ k.minus
    · rw [if_pos h2, (hm j h2).2.2.2]; norm_num
    · rw [if_neg h2] at hd ⊢
      exact hF.fixedCols j hj hd

theorem fixAll_box (P : Prob) (k : Look) (x : Nat → ℚ) (hx : Box P x) (h1 : ∀ j ∈ k.plus, x j = 0) (h2 : ∀ j ∈ k.minus, x j = 1) :
    Box (fixAll P k) x := by
  refine ⟨fun j hj => ?_, fun j hj => ?_, hx.int⟩
  · unfold fixAll
    dsimp only
    by_cases h : j ∈ k.minus
    · rw [if_pos h, h2 j h]; exact fun _ => le_refl _
    · rw [if_neg h]; exact hx.lower j hj
  · unfold fixAll
    dsimp only
    by_cases h : j ∈ k.plus
    · rw [if_pos h, h1 j h]; exact fun _ => le_refl _
    · rw [if_neg h]; exact hx.upper j hj

theorem box_fixAll (P : Prob) (hi : 10 ^ 30 ≤ P.inf) (k : Look) (hm : ∀ j ∈ k.minus, Binary P j) (hp : ∀ j ∈ k.plus, Binary P j)
    (x : Nat → ℚ) (hx : Box (fixAll P k) x) : Box P x := by
  refine ⟨fun j hj => ?_, fun j hj => ?_, hx.int⟩
  · have := hx.lower j hj
    unfold fixAll at this
    dsimp only at this
    by_cases h : j ∈ k.minus
    · rw [if_pos h] at this
      rw [(hm j h).2.2.1]
      intro _
      have := this (by linarith)
      linarith
    · rw [if_neg h] at this; exact this
  · have := hx.upper j hj
    unfold fixAll at this
    dsimp only at this
    by_cases h : j ∈ k.plus
    · rw [if_pos h] at this
      rw [(hp j h).2.2.2]
      intro _
      have := this (by linarith)
      linarith
    · rw [if_neg h] at this; exact this

end Cgl.Setup
