import Verif.SimpleRounding.NoUB

/-!
# Properties of `CglSimpleRounding` (C01, C02)
-/

namespace Cgl.SimpleRounding

/-- An integer column that is not (within 1e-8) fixed. -/
def FreeInt (P : Prob) (j : Nat) : Prop := P.isInt j = true ∧ 1 / 10 ^ 8 ≤ P.colUpper j - P.colLower j

/-- Data the generator's built-in tolerances treat exactly: no stored coefficient of a continuous column in
(0, 1e-8], coefficients of non-fixed integer columns above 1e-8 and with at most twelve decimals, fixed integer
columns finitely and exactly fixed (or with an integral upper bound). -/
structure CleanRow (P : Prob) (r : Row) : Prop where
  cont : ∀ p ∈ r.coefs, P.isInt p.1 = false → p.2 = 0 ∨ 1 / 10 ^ 8 < |p.2|
  fixed : ∀ p ∈ r.coefs, P.isInt p.1 = true → P.colUpper p.1 - P.colLower p.1 < 1 / 10 ^ 8 →
    -P.inf < P.colLower p.1 ∧ P.colUpper p.1 < P.inf ∧
      (IsInteger (P.colUpper p.1) ∨ P.colLower p.1 = P.colUpper p.1)
  free : ∀ p ∈ r.coefs, FreeInt P p.1 → 1 / 10 ^ 8 < |p.2| ∧ IsInteger (p.2 * 10 ^ 12)

instance (P : Prob) (j : Nat) : Decidable (FreeInt P j) := by unfold FreeInt; infer_instance
instance (P : Prob) (r : Row) : Decidable (CleanRow P r) :=
  decidable_of_iff ((∀ p ∈ r.coefs, P.isInt p.1 = false → p.2 = 0 ∨ 1 / 10 ^ 8 < |p.2|) ∧
      (∀ p ∈ r.coefs, P.isInt p.1 = true → P.colUpper p.1 - P.colLower p.1 < 1 / 10 ^ 8 →
        -P.inf < P.colLower p.1 ∧ P.colUpper p.1 < P.inf ∧
          (IsInteger (P.colUpper p.1) ∨ P.colLower p.1 = P.colUpper p.1)) ∧
      ∀ p ∈ r.coefs, FreeInt P p.1 → 1 / 10 ^ 8 < |p.2| ∧ IsInteger (p.2 * 10 ^ 12))
    ⟨fun h => ⟨h.1, h.2.1, h.2.2⟩, fun h => ⟨h.1, h.2, h.3⟩⟩

theorem isFree_iff (P : Prob) (j : Nat) : isFree P j = true ↔ FreeInt P j := by
  unfold isFree FreeInt epsilon
  simp only [Bool.and_eq_true, Bool.not_eq_true', decide_eq_false_iff_not, not_lt]

/-- **C01.** For every problem with clean data and every set of cuts already present: every cut in the returned
collection was there before or is satisfied by every feasible point of the mixed-integer problem. -/
theorem generateCuts_valid (P : Prob) (hwf : P.WF) (hclean : ∀ r ∈ P.rows, CleanRow P r)
    (cs cs' : List RowCut) (h : generateCuts P cs = some cs') :
    ∀ c ∈ cs', c ∈ cs ∨ c.Valid P := by
  unfold generateCuts at h
  rw [Option.map_eq_some_iff] at h
  obtain ⟨⟨cs1, neg1⟩, h1, rfl⟩ := h
  have ht : ∀ r ∈ P.rows, NoTiny P r := fun r hr p hp hf =>
    ((hclean r hr).free p hp ((isFree_iff P p.1).mp hf)).1
  obtain ⟨_, h2⟩ := processRows_spec P P.rows cs cs1 neg1 hwf.nodup ht h1
  intro c hc
  rcases h2 c hc with h3 | ⟨r, hr, ⟨hcut⟩⟩
  · exact Or.inl h3
  right
  intro x hx
  refine hcut.sat x (fun p hp => (hclean r hr).fixed p hp)
    (fun p hp => ⟨hx.lower _ (hwf.cols r hr p hp), hx.upper _ (hwf.cols r hr p hp),
      hx.int _ (hwf.cols r hr p hp)⟩) ?_
  have hexact := psi_exact hcut (ht r hr) (fun p hp hf => ((hclean r hr).free p hp ((isFree_iff P p.1).mp hf)).2)
  have : (pertRow P hcut.sign (psi hcut.p) r).coefs = r.coefs := by
    unfold pertRow
    simp only
    conv_rhs => rw [← List.map_id r.coefs]
    apply List.map_congr_left
    intro p hp
    unfold pert
    by_cases hf : isFree P p.1 = true
    · rw [if_pos hf]
      have hmem : (p.1, hcut.sign * p.2) ∈ hcut.fr := by
        rw [hcut.hfr]
        exact List.mem_map.mpr ⟨p, List.mem_filter.mpr ⟨hp, hf⟩, rfl⟩
      have he : psi hcut.p (hcut.sign * p.2) = hcut.sign * p.2 := hexact (p.1, hcut.sign * p.2) hmem
      rw [he]
      have : hcut.sign * (hcut.sign * p.2) = p.2 := by
        rcases hcut.hsign with h | h <;> rw [h] <;> ring
      rw [this]; rfl
    · rw [if_neg hf]
      split
      · rename_i hti
        rcases (hclean r hr).cont p hp hti.1 with h0 | h0
        · rw [← h0]; rfl
        · exact absurd hti.2 (not_le.mpr h0)
      · rfl
  have h4 := hx.rows r hr
  unfold Row.Sat at h4 ⊢
  rw [this]
  exact h4

/-- A row whose coefficients differ from those of `r` by at most 1e-12 on integer columns and 1e-8 on continuous
ones (same columns, same bounds). -/
def CloseRow (P : Prob) (r r' : Row) : Prop :=
  r'.lb = r.lb ∧ r'.ub = r.ub ∧
    List.Forall₂ (fun p q : Nat × ℚ => q.1 = p.1 ∧
      |q.2 - p.2| ≤ if P.isInt p.1 then 1 / 10 ^ 12 else 1 / 10 ^ 8) r.coefs r'.coefs

/-- **C01, arbitrary coefficients** (doubles that are not short decimals): every new cut is implied by column
bounds, integrality and one row within data tolerance of a row of the problem. -/
theorem generateCuts_backward_valid (P : Prob) (hwf : P.WF)
    (hfix : ∀ r ∈ P.rows, ∀ p ∈ r.coefs, P.isInt p.1 = true → P.colUpper p.1 - P.colLower p.1 < 1 / 10 ^ 8 →
      -P.inf < P.colLower p.1 ∧ P.colUpper p.1 < P.inf ∧
        (IsInteger (P.colUpper p.1) ∨ P.colLower p.1 = P.colUpper p.1))
    (htiny : ∀ r ∈ P.rows, ∀ p ∈ r.coefs, FreeInt P p.1 → 1 / 10 ^ 8 < |p.2|)
    (cs cs' : List RowCut) (h : generateCuts P cs = some cs') :
    ∀ c ∈ cs', c ∈ cs ∨ ∃ r ∈ P.rows, ∃ r', CloseRow P r r' ∧ c.Valid { P with rows := [r'] } := by
  unfold generateCuts at h
  rw [Option.map_eq_some_iff] at h
  obtain ⟨⟨cs1, neg1⟩, h1, rfl⟩ := h
  have ht : ∀ r ∈ P.rows, NoTiny P r := fun r hr p hp hf => htiny r hr p hp ((isFree_iff P p.1).mp hf)
  obtain ⟨_, h2⟩ := processRows_spec P P.rows cs cs1 neg1 hwf.nodup ht h1
  intro c hc
  rcases h2 c hc with h3 | ⟨r, hr, ⟨hcut⟩⟩
  · exact Or.inl h3
  right
  refine ⟨r, hr, pertRow P hcut.sign (psi hcut.p) r, ⟨rfl, rfl, ?_⟩, ?_⟩
  · unfold pertRow
    simp only
    rw [List.forall₂_map_right_iff]
    apply List.forall₂_same.mpr
    intro p hp
    refine ⟨rfl, ?_⟩
    unfold pert
    simp only
    by_cases hf : isFree P p.1 = true
    · have hint : P.isInt p.1 = true := by
        simp only [isFree, Bool.and_eq_true] at hf; exact hf.1
      rw [if_pos hf, if_pos hint]
      have hmem : (p.1, hcut.sign * p.2) ∈ hcut.fr := by
        rw [hcut.hfr]
        exact List.mem_map.mpr ⟨p, List.mem_filter.mpr ⟨hp, hf⟩, rfl⟩
      have he := psi_close hcut (ht r hr) (p.1, hcut.sign * p.2) hmem
      simp only at he
      have : hcut.sign * psi hcut.p (hcut.sign * p.2) - p.2
          = hcut.sign * (psi hcut.p (hcut.sign * p.2) - hcut.sign * p.2) := by
        rcases hcut.hsign with h | h <;> rw [h] <;> ring
      rw [this, abs_mul]
      have : |hcut.sign| = 1 := by rcases hcut.hsign with h | h <;> rw [h] <;> simp
      rw [this, one_mul]; exact he.le
    · rw [if_neg hf]
      by_cases hti : P.isInt p.1 = false ∧ |p.2| ≤ epsilon
      · rw [if_pos hti, hti.1]
        simp only [zero_sub, abs_neg, Bool.false_eq_true, if_false]
        exact hti.2
      · rw [if_neg hti]
        simp only [sub_self, abs_zero]
        split <;> norm_num
  · intro x hx
    refine hcut.sat x (fun p hp => hfix r hr p hp)
      (fun p hp => ⟨hx.lower _ (hwf.cols r hr p hp), hx.upper _ (hwf.cols r hr p hp),
        hx.int _ (hwf.cols r hr p hp)⟩) (hx.rows _ (by simp))

/-- **C02.** Cuts already present are kept, in order, at the front; every other cut comes from one row: it has a
single (upper) bound that is an integer, its columns are the non-fixed integer columns of that row, and its
coefficients are integers, none zero, whose only common divisors are units. -/
theorem generateCuts_shape (P : Prob) (hwf : P.WF)
    (htiny : ∀ r ∈ P.rows, ∀ p ∈ r.coefs, FreeInt P p.1 → 1 / 10 ^ 8 < |p.2|)
    (cs cs' : List RowCut) (h : generateCuts P cs = some cs') :
    cs <+: cs' ∧ ∀ c ∈ cs', c ∈ cs ∨
      (c.lb = -dblMax ∧ IsInteger c.ub ∧ c.row ≠ [] ∧
        (∃ r ∈ P.rows, ∀ j, j ∈ c.row.map Prod.fst ↔ j ∈ r.coefs.map Prod.fst ∧ FreeInt P j) ∧
        ∃ zs : List ℤ, c.row.map Prod.snd = zs.map (fun z : ℤ => (z : ℚ)) ∧ (∀ z ∈ zs, z ≠ 0) ∧
          ∀ d : ℤ, (∀ z ∈ zs, d ∣ z) → d ∣ 1) := by
  unfold generateCuts at h
  rw [Option.map_eq_some_iff] at h
  obtain ⟨⟨cs1, neg1⟩, h1, rfl⟩ := h
  have ht : ∀ r ∈ P.rows, NoTiny P r := fun r hr p hp hf => htiny r hr p hp ((isFree_iff P p.1).mp hf)
  obtain ⟨hpre, h2⟩ := processRows_spec P P.rows cs cs1 neg1 hwf.nodup ht h1
  refine ⟨hpre, fun c hc => ?_⟩
  rcases h2 c hc with h3 | ⟨r, hr, ⟨hcut⟩⟩
  · exact Or.inl h3
  right
  have hrow := congrArg RowCut.row hcut.hc
  simp only at hrow
  have hg := hcut.hg
  refine ⟨congrArg RowCut.lb hcut.hc, ⟨_, congrArg RowCut.ub hcut.hc⟩, ?_, ⟨r, hr, ?_⟩, ?_⟩
  · rw [hrow]; simpa using hcut.hne
  · intro j
    rw [hrow, hcut.hfr]
    simp only [List.map_map, List.mem_map, List.mem_filter, Function.comp]
    constructor
    · rintro ⟨p, ⟨hp1, hp2⟩, rfl⟩
      exact ⟨⟨p, hp1, rfl⟩, (isFree_iff P p.1).mp hp2⟩
    · rintro ⟨⟨p, hp1, rfl⟩, hp2⟩
      exact ⟨p, ⟨hp1, (isFree_iff P p.1).mpr hp2⟩, rfl⟩
  · have htf := fr_tiny (ht r hr) hcut.hsign
    rw [← hcut.hfr] at htf
    have hpos : ∀ q ∈ hcut.fr, 0 < scaleInt hcut.p (mag q.2) := by
      intro q hq
      have := hcut.hpow q hq
      apply scaleInt_pos _ _ _ this.1 this.2
      rw [(mag_eq_abs (htf q hq)).1]; exact htf q hq
    refine ⟨hcut.fr.map fun q => sgn q.2 * (scaleInt hcut.p (mag q.2)).tdiv hcut.g, ?_, ?_, ?_⟩
    · rw [hrow]; simp [List.map_map, Function.comp_def]
    · intro z hz
      simp only [List.mem_map] at hz
      obtain ⟨q, hq, rfl⟩ := hz
      obtain ⟨k, hk⟩ := hcut.hdvd q hq
      have htd : (scaleInt hcut.p (mag q.2)).tdiv hcut.g = k := by
        rw [hk]; exact Int.mul_tdiv_cancel_left _ (by omega)
      have hk0 : k ≠ 0 := by rintro rfl; have := hpos q hq; rw [hk] at this; simp at this
      rw [htd]
      rcases sgn_sq q.2 with h | h <;> rw [h] <;> omega
    · intro d hd
      have h5 : d * hcut.g ∣ hcut.g := by
        apply hcut.hgreatest
        intro q hq
        obtain ⟨k, hk⟩ := hcut.hdvd q hq
        have htd : (scaleInt hcut.p (mag q.2)).tdiv hcut.g = k := by
          rw [hk]; exact Int.mul_tdiv_cancel_left _ (by omega)
        have h6 := hd _ (List.mem_map.mpr ⟨q, hq, rfl⟩)
        rw [htd] at h6
        have h7 : d ∣ k := by
          rcases sgn_sq q.2 with h | h <;> rw [h] at h6
          · simpa using h6
          · simpa using h6
        rw [hk, mul_comm hcut.g k]
        exact mul_dvd_mul_right h7 _
      have h8 : d * hcut.g ∣ 1 * hcut.g := by simpa using h5
      exact Int.dvd_of_mul_dvd_mul_right (by omega) h8

/-- **C02, termination without undefined behaviour**: if the coefficients on non-fixed integer columns are
non-zero integers that fit an `int`, the call returns normally. -/
theorem generateCuts_no_ub (P : Prob) (hwf : P.WF)
    (hint : ∀ r ∈ P.rows, ∀ p ∈ r.coefs, FreeInt P p.1 → ∃ z : ℤ, p.2 = z ∧ z ≠ 0 ∧ |z| ≤ 2147483647)
    (cs : List RowCut) : ∃ cs', generateCuts P cs = some cs' := by
  have hi : ∀ r ∈ P.rows, IntRow P r := fun r hr p hp hf => hint r hr p hp ((isFree_iff P p.1).mp hf)
  obtain ⟨st, hst⟩ := processRows_some P P.rows cs hwf.nodup hi
  exact ⟨st.1, by unfold generateCuts; rw [hst]; rfl⟩

/-! ### Concrete instances -/

/-- 2x + 4y - c ≤ 8 with c ∈ [0,1] continuous, and -3x - 3.5z ≥ -5; x, y, z integer in [0,10]. -/
def exProb : Prob where
  nCols := 4
  inf := 10 ^ 30
  colLower := fun _ => 0
  colUpper := fun j => if j = 3 then 1 else 10
  isInt := fun j => j != 3
  rows := [⟨-10 ^ 30, 8, [(0, 2), (1, 4), (3, -1)]⟩, ⟨-5, 10 ^ 30, [(0, -3), (2, -7/2)]⟩]

/-- The hypotheses of the theorems above hold of `exProb`, and two cuts come out of it. -/
example : exProb.WF ∧ (∀ r ∈ exProb.rows, CleanRow exProb r) ∧
    generateCuts exProb [] = some [⟨-dblMax, 4, [(0, 1), (1, 2)]⟩, ⟨-dblMax, 10, [(0, 6), (2, 7)]⟩] :=
  by decide +kernel

/-- Without the tolerance hypothesis on continuous coefficients the claim is false of the code: in
`x + 1e-9 y ≤ 1/2`, `y ∈ [-1e10, 0]`, the term in `y` is dropped and the invalid cut `x ≤ 0` results. -/
def tinyProb : Prob where
  nCols := 2
  inf := 10 ^ 30
  colLower := fun j => if j = 0 then 0 else -10 ^ 10
  colUpper := fun j => if j = 0 then 10 else 0
  isInt := fun j => j == 0
  rows := [⟨-10 ^ 30, 1/2, [(0, 1), (1, 1 / 10 ^ 9)]⟩]

theorem generateCuts_tiny_invalid :
    generateCuts tinyProb [] = some [⟨-dblMax, 0, [(0, 1)]⟩] ∧
      ¬ RowCut.Valid tinyProb ⟨-dblMax, 0, [(0, 1)]⟩ := by
  refine ⟨by decide +kernel, fun h => ?_⟩
  have := h (fun j => if j = 0 then 1 else -10 ^ 10) (by decide +kernel)
  revert this; decide +kernel

/-- Undefined behaviour is reachable: in `30000 x + 0.00001 y ≤ 1` each coefficient passes the per-element
overflow test at its own power of ten, but `30000 * 10^5` does not fit an `int`. -/
def overflowProb : Prob where
  nCols := 2
  inf := 10 ^ 30
  colLower := fun _ => 0
  colUpper := fun _ => 10
  isInt := fun _ => true
  rows := [⟨-10 ^ 30, 1, [(0, 30000), (1, 1 / 10 ^ 5)]⟩]

theorem generateCuts_overflow_ub : generateCuts overflowProb [] = none := by decide +kernel

/-- An explicitly stored zero on an integer column divides by zero. -/
def zeroProb : Prob where
  nCols := 2
  inf := 10 ^ 30
  colLower := fun _ => 0
  colUpper := fun _ => 10
  isInt := fun _ => true
  rows := [⟨-10 ^ 30, 1, [(0, 3), (1, 0)]⟩]

theorem generateCuts_zero_coefficient_ub : generateCuts zeroProb [] = none := by decide +kernel

end Cgl.SimpleRounding
