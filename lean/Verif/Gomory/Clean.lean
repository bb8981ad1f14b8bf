import Verif.Gomory.Row
import Verif.GMI.Limits

/-!
# What is done to a cut after it is computed
-/

namespace Cgl.Gomory

/-- Within the column bounds. -/
def InBounds (P : Prob) (x : Nat → ℚ) : Prop :=
  ∀ j < P.nCols, lbOk P.inf (P.colLower j) (x j) ∧ ubOk P.inf (P.colUpper j) (x j)

/-- The columns of a vector are columns of the problem. -/
def Cols (P : Prob) (v : SVec) : Prop := ∀ p ∈ v, p.1 < P.nCols

theorem packDown_le {P : Prob} {sol x : Nat → ℚ} (hinf : large ≤ P.inf) (hb : InBounds P x) : ∀ (v : SVec) (rhs w : ℚ),
    Cols P v → (∀ p ∈ v, |p.2| ≤ 1 / 10 ^ 13 →
      p.2 = 0 ∨ (p.2 < 0 ∧ - large < P.colLower p.1) ∨ (0 < p.2 ∧ P.colUpper p.1 < large)) →
    - SVec.dot v x ≤ rhs → Le (packDown P sol v rhs w).elems (packDown P sol v rhs w).rhs x := by
  intro v
  induction v with
  | nil => intro rhs w _ _ h; simpa [packDown, Le] using h
  | cons p v ih =>
    obtain ⟨j, e⟩ := p
    intro rhs w hc ht h
    have hj : j < P.nCols := hc (j, e) List.mem_cons_self
    have hc' : Cols P v := fun q hq => hc q (List.mem_cons_of_mem _ hq)
    have ht' := fun q (hq : q ∈ v) => ht q (List.mem_cons_of_mem _ hq)
    rw [SVec.dot_cons] at h
    dsimp only at h
    -- keeping the entry
    have keep : Le ((j, - e) :: (packDown P sol v rhs w).elems) (packDown P sol v rhs w).rhs x ↔
        - e * x j + SVec.dot (packDown P sol v rhs w).elems x ≤ (packDown P sol v rhs w).rhs := by
      unfold Le; rw [SVec.dot_cons]
    have shift : ∀ d : ℚ, (packDown P sol v (rhs + d) w).elems = (packDown P sol v rhs w).elems ∧
        (packDown P sol v (rhs + d) w).rhs = (packDown P sol v rhs w).rhs + d := by
      clear keep h ih hc' ht' hc ht
      intro d
      suffices h : ∀ (v : SVec) (rhs w w' : ℚ), (packDown P sol v (rhs + d) w).elems = (packDown P sol v rhs w').elems ∧
          (packDown P sol v (rhs + d) w).rhs = (packDown P sol v rhs w').rhs + d from h v rhs w w
      intro v
      induction v with
      | nil => intro rhs w w'; simp [packDown]
      | cons p v ih =>
        obtain ⟨k, f⟩ := p
        intro rhs w w'
        unfold packDown
        split
        · dsimp only; rw [(ih rhs w w').1, (ih rhs w w').2]; exact ⟨rfl, rfl⟩
        · split
          · have := ih (rhs - -f * P.colLower k) (w - |-f * (sol k - P.colLower k)|) (w' - |-f * (sol k - P.colLower k)|)
            rw [show rhs + d - -f * P.colLower k = rhs - -f * P.colLower k + d by ring]
            exact this
          · split
            · have := ih (rhs - -f * P.colUpper k) (w - |-f * (sol k - P.colUpper k)|) (w' - |-f * (sol k - P.colUpper k)|)
              rw [show rhs + d - -f * P.colUpper k = rhs - -f * P.colUpper k + d by ring]
              exact this
            · split
              · dsimp only; rw [(ih rhs w w').1, (ih rhs w w').2]; exact ⟨rfl, rfl⟩
              · exact ih rhs w w'
    have kept : Le ((j, - e) :: (packDown P sol v rhs w).elems) (packDown P sol v rhs w).rhs x := by
      rw [keep]
      have := ih (rhs + e * x j) w hc' ht' (by linarith)
      unfold Le at this
      rw [(shift _).1, (shift _).2] at this
      linarith
    unfold packDown
    split
    · exact kept
    · split
      · rename_i h1
        have hl : P.colLower j ≤ x j := (hb j hj).1 (lt_of_le_of_lt (by linarith) h1.2)
        refine ih _ _ hc' ht' ?_
        have := mul_le_mul_of_nonneg_left hl h1.1.le
        linarith
      · split
        · rename_i h1 h2
          have hu : x j ≤ P.colUpper j := (hb j hj).2 (lt_of_lt_of_le h2.2 hinf)
          refine ih _ _ hc' ht' ?_
          have := mul_le_mul_of_nonneg_left hu (show 0 ≤ e by linarith)
          linarith
        · rename_i h1 h2
          split
          · exact kept
          · rename_i h3
            refine ih _ _ hc' ht' ?_
            rcases ht (j, e) List.mem_cons_self (not_lt.mp h3) with h4 | h4 | h4
            · dsimp only at h4; rw [h4] at h; linarith
            · exact absurd ⟨by have := h4.1; dsimp only at this; linarith, h4.2⟩ h1
            · exact absurd ⟨by have := h4.1; dsimp only at this; linarith, h4.2⟩ h2

/-- The columns after packing are among the columns before. -/
theorem packDown_cols {P : Prob} {sol : Nat → ℚ} : ∀ (v : SVec) (rhs w : ℚ),
    ∀ p ∈ (packDown P sol v rhs w).elems, (p.1, - p.2) ∈ v := by
  intro v
  induction v with
  | nil => intro rhs w p hp; simp [packDown] at hp
  | cons q v ih =>
    obtain ⟨j, e⟩ := q
    intro rhs w p hp
    unfold packDown at hp
    split at hp
    · rcases List.mem_cons.1 hp with h | h
      · subst h; simp
      · exact List.mem_cons_of_mem _ (ih _ _ p h)
    · split at hp
      · exact List.mem_cons_of_mem _ (ih _ _ p hp)
      · split at hp
        · exact List.mem_cons_of_mem _ (ih _ _ p hp)
        · split at hp
          · rcases List.mem_cons.1 hp with h | h
            · subst h; simp
            · exact List.mem_cons_of_mem _ (ih _ _ p h)
          · exact List.mem_cons_of_mem _ (ih _ _ p hp)

/-! ### Rounding to integers -/

/-- If a vector with entries close to integers is at most `b` at an integer point that is not too large, then the
rounded vector is at most the rounded `b`. -/
theorem round_le {x : Nat → ℚ} {ε b : ℚ} {zb : ℤ} (hb : b ≤ zb + ε) (l : List ((Nat × ℚ) × ℤ))
    (hz : ∀ p ∈ l, |p.1.2 - p.2| ≤ ε) (hx : ∀ p ∈ l, IsInteger (x p.1.1))
    (hs : ε * (1 + (l.map fun p => |x p.1.1|).sum) < 1)
    (h : SVec.dot (l.map Prod.fst) x ≤ b) : SVec.dot (l.map fun p => (p.1.1, (p.2 : ℚ))) x ≤ zb := by
  have key : ∀ l : List ((Nat × ℚ) × ℤ), (∀ p ∈ l, |p.1.2 - p.2| ≤ ε) → (∀ p ∈ l, IsInteger (x p.1.1)) →
      (∃ k : ℤ, SVec.dot (l.map fun p => (p.1.1, (p.2 : ℚ))) x = k) ∧
      SVec.dot (l.map fun p => (p.1.1, (p.2 : ℚ))) x ≤ SVec.dot (l.map Prod.fst) x +
        ε * (l.map fun p => |x p.1.1|).sum := by
    intro l
    induction l with
    | nil => intro _ _; exact ⟨⟨0, by simp⟩, by simp⟩
    | cons p l ih =>
      intro hz hx
      obtain ⟨⟨k, hk⟩, h2⟩ := ih (fun q hq => hz q (List.mem_cons_of_mem _ hq)) (fun q hq => hx q (List.mem_cons_of_mem _ hq))
      obtain ⟨m, hm⟩ := hx p List.mem_cons_self
      have h3 := hz p List.mem_cons_self
      simp only [List.map_cons, SVec.dot_cons, List.sum_cons]
      refine ⟨⟨p.2 * m + k, by rw [hk, hm]; push_cast; ring⟩, ?_⟩
      have h4 : (p.2 - p.1.2) * x p.1.1 ≤ ε * |x p.1.1| := by
        calc (p.2 - p.1.2) * x p.1.1 ≤ |(p.2 - p.1.2) * x p.1.1| := le_abs_self _
          _ = |p.1.2 - p.2| * |x p.1.1| := by rw [abs_mul, abs_sub_comm]
          _ ≤ ε * |x p.1.1| := mul_le_mul_of_nonneg_right h3 (abs_nonneg _)
      nlinarith
  obtain ⟨⟨k, hk⟩, h2⟩ := key l hz hx
  rw [hk] at h2 ⊢
  have : (k : ℚ) < zb + 1 := by nlinarith
  have : k < zb + 1 := by exact_mod_cast this
  exact_mod_cast (by omega : k ≤ zb)

theorem computeGcd_pos' {a b g : ℤ} (ha : 0 < a) (hb : 0 ≤ b) (h : GMI.computeGcd a b = some g) : 0 < g := by
  rcases hb.lt_or_eq with h1 | h1
  · exact GMI.computeGcd_pos ha h1 h
  · subst h1
    unfold GMI.computeGcd at h
    rw [if_pos ha, if_pos ha] at h
    simp only [if_true, if_neg ha.ne'] at h
    rw [← Option.some.inj h]; exact ha

theorem computeGcd_dvd {a b g : ℤ} (h : GMI.computeGcd a b = some g) : g ∣ a ∧ g ∣ b := by
  have := GMI.computeGcd_natAbs h
  constructor
  · rw [← Int.natAbs_dvd, this]; exact Int.gcd_dvd_left ..
  · rw [← Int.natAbs_dvd, this]; exact Int.gcd_dvd_right ..

theorem gcdRest_spec : ∀ (zs : List ℤ) (g g' : ℤ), 0 < g → (∀ z ∈ zs, 0 ≤ z) → gcdRest g zs = some g' →
    0 < g' ∧ g' ∣ g ∧ ∀ z ∈ zs, g' ∣ z := by
  intro zs
  induction zs with
  | nil => intro g g' hg _ h; unfold gcdRest at h; cases h; exact ⟨hg, dvd_refl _, by simp⟩
  | cons z zs ih =>
    intro g g' hg hz h
    unfold gcdRest at h
    have hz' := fun y (hy : y ∈ zs) => hz y (List.mem_cons_of_mem _ hy)
    split at h
    · rename_i h0
      obtain ⟨h1, h2, h3⟩ := ih g g' hg hz' h
      refine ⟨h1, h2, fun y hy => ?_⟩
      rcases List.mem_cons.1 hy with rfl | hy
      · rw [h0]; exact dvd_zero _
      · exact h3 y hy
    · split at h
      · cases h
      · rename_i g1 hg1
        have hd := computeGcd_dvd hg1
        obtain ⟨h1, h2, h3⟩ := ih g1 g' (computeGcd_pos' hg (hz z List.mem_cons_self) hg1) hz' h
        refine ⟨h1, h2.trans hd.1, fun y hy => ?_⟩
        rcases List.mem_cons.1 hy with rfl | hy
        · exact h2.trans hd.2
        · exact h3 y hy

theorem xGcd_spec : ∀ (zs : List ℤ) (g : ℤ), (∀ z ∈ zs, 0 ≤ z) → xGcd zs = some g →
    0 < g ∧ ∀ z ∈ zs, g ∣ z := by
  intro zs
  induction zs with
  | nil => intro g _ h; cases h
  | cons z zs ih =>
    intro g hz h
    cases zs with
    | nil => cases h
    | cons z' zs =>
      unfold xGcd at h
      have hz' := fun y (hy : y ∈ z' :: zs) => hz y (List.mem_cons_of_mem _ hy)
      split at h
      · rename_i h0
        obtain ⟨h1, h2⟩ := ih g hz' h
        refine ⟨h1, fun y hy => ?_⟩
        rcases List.mem_cons.1 hy with rfl | hy
        · rw [h0]; exact dvd_zero _
        · exact h2 y hy
      · rename_i h0
        split at h
        · cases h
        · rename_i g1 hg1
          have hd := computeGcd_dvd hg1
          have hp := hz z List.mem_cons_self
          obtain ⟨h1, h2, h3⟩ := gcdRest_spec (z' :: zs) g1 g
            (computeGcd_pos' (lt_of_le_of_ne hp (Ne.symm h0)) (hz' z' List.mem_cons_self) hg1) hz' h
          refine ⟨h1, fun y hy => ?_⟩
          rcases List.mem_cons.1 hy with rfl | hy
          · exact h2.trans hd.1
          · exact h3 y hy

theorem nearestLoop_den (maxDen : ℤ) : ∀ (n : Nat) (v : ℚ) (a b a' b' : ℤ × ℤ), v < 1 → 0 ≤ a.2 → 1 ≤ b.2 →
    (a.2 = 0 → b.2 ≤ maxDen) → nearestLoop maxDen n v a b = some (a', b') →
    0 ≤ a'.2 ∧ 1 ≤ b'.2 ∧ (a'.2 = 0 → b'.2 ≤ maxDen) := by
  intro n
  induction n with
  | zero =>
    intro v a b a' b' _ ha hb hab h
    unfold nearestLoop at h
    split at h
    · cases h
    · cases h; exact ⟨ha, hb, hab⟩
  | succ n ih =>
    intro v a b a' b' hv ha hb hab h
    unfold nearestLoop at h
    split at h
    · rename_i hc
      have hv0 : 0 < v := lt_trans (by norm_num) hc.1
      have h1 : 1 ≤ 1 / v := by rw [le_div_iff₀ hv0]; linarith
      have hz : 1 ≤ ⌊1 / v + 1 / 10 ^ 14⌋ := by
        rw [Int.le_floor]; push_cast
        have : (0 : ℚ) ≤ 1 / 10 ^ 14 := by norm_num
        linarith
      dsimp only at h
      refine ih _ _ _ a' b' ?_ (by linarith) ?_ ?_ h
      · have := Int.lt_floor_add_one (1 / v + 1 / 10 ^ 14)
        have h3 : (0 : ℚ) < 1 / 10 ^ 14 := by norm_num
        linarith
      · dsimp only; nlinarith
      · intro h0; omega
    · cases h; exact ⟨ha, hb, hab⟩

/-- The denominator of `nearestRational` is positive unless there is none. -/
theorem nearestRational_den (v : ℚ) : 0 < (nearestRational v 100000).2 ∨ nearestRational v 100000 = (-1, -1) := by
  unfold nearestRational
  split
  · left; decide
  · split
    · right; rfl
    · rename_i a b h
      obtain ⟨h1, h2, h3⟩ := nearestLoop_den 100000 50 _ _ _ a b (by have := frac_lt_one v; linarith) (le_refl _) (le_refl _)
        (by intro _; norm_num) h
      split
      · split
        · left; omega
        · right; rfl
      · rename_i hb
        split
        · left
          have : a.2 ≠ 0 := fun h0 => hb (h3 h0)
          omega
        · right; rfl

theorem lcmLoop_pos : ∀ (qs : List ℚ) (any : Bool) (l m : ℤ), 0 < l → lcmLoop qs any l = .found m → 0 < m := by
  intro qs
  induction qs with
  | nil =>
    intro any l m hl h
    unfold lcmLoop at h
    split at h
    · cases h; exact hl
    · cases h
  | cons q qs ih =>
    intro any l m hl h
    unfold lcmLoop at h
    split at h
    · exact ih any l m hl h
    · split at h
      · cases h
      · rename_i hd
        have hd : 0 < (nearestRational (aboveInteger |q|) 100000).2 := by
          rcases nearestRational_den (aboveInteger |q|) with h1 | h1
          · exact h1
          · rw [h1] at hd; exact absurd (by decide) hd
        split at h
        · cases h
        · rename_i g hg
          split at h
          · have hgp := computeGcd_pos' hl hd.le hg
            refine ih true _ m ?_ h
            exact mul_pos (Int.ediv_pos_of_pos_of_dvd hl hgp.le (computeGcd_dvd hg).1) hd
          · cases h

theorem xInt_spec {m : ℤ} (hm : 0 ≤ m) : ∀ (qs : List ℚ) (zs : List ℤ), xInt m qs = some zs →
    List.Forall₂ (fun (q : ℚ) (z : ℤ) => 0 ≤ z ∧ abs (|q| * m - (z : ℚ)) ≤ 1 / 10 ^ 8 ∧ z = ⌊|q| * m + 1 / 2⌋) qs zs := by
  intro qs
  induction qs with
  | nil => intro zs h; unfold xInt at h; cases h; exact List.Forall₂.nil
  | cons q qs ih =>
    intro zs h
    unfold xInt at h
    split at h
    · cases h
    · split at h
      · cases h
      · rename_i h1
        split at h
        · cases h
        · rename_i l hl
          cases h
          refine List.Forall₂.cons ⟨?_, not_lt.mp h1, rfl⟩ (ih l hl)
          rw [Int.le_floor]; push_cast
          have : (0 : ℚ) ≤ |q| * m := mul_nonneg (abs_nonneg _) (by exact_mod_cast hm)
          linarith

/-- The rounded number with its sign. -/
def signed (q : ℚ) (z : ℤ) : ℤ := if 0 < q then z else - z

theorem signed_err {q : ℚ} {z m : ℤ} : |q * m - (signed q z : ℚ)| = abs (|q| * m - (z : ℚ)) := by
  unfold signed
  split
  · rename_i h; rw [abs_of_pos h]
  · rename_i h
    rw [abs_of_nonpos (not_lt.mp h)]
    push_cast
    rw [show q * m - -(z : ℚ) = - (- q * m - z) by ring, abs_neg]

theorem reScale_mul {g z : ℤ} {q : ℚ} (hd : g ∣ z) : reScale g q z * g = (signed q z : ℚ) := by
  obtain ⟨k, rfl⟩ := hd
  unfold reScale signed
  by_cases hg : g = 0
  · subst hg; simp
  · rw [Int.mul_ediv_cancel_left _ hg]
    split
    · push_cast; ring
    · push_cast; ring

theorem forall₂_right {R : ℚ → ℤ → Prop} {qs : List ℚ} {zs : List ℤ} (h : List.Forall₂ R qs zs) :
    ∀ z ∈ zs, ∃ q, R q z := by
  induction h with
  | nil => intro z hz; cases hz
  | cons h1 _ ih =>
    intro z hz
    rcases List.mem_cons.1 hz with rfl | hz
    · exact ⟨_, h1⟩
    · exact ih z hz

theorem forall₂_zip_last {R : ℚ → ℤ → Prop} : ∀ (v : SVec) (r : ℚ) (zs : List ℤ),
    List.Forall₂ R (v.map Prod.snd ++ [r]) zs →
    (∀ p ∈ v.zip zs, R p.1.2 p.2) ∧ (v.zip zs).map Prod.fst = v ∧ R r (zs.getLastD 0) ∧ zs.getLastD 0 ∈ zs ∧
      ∀ p ∈ v.zip zs, p.2 ∈ zs := by
  intro v
  induction v with
  | nil =>
    intro r zs h
    cases h with
    | cons h1 h2 => cases h2; simp [h1]
  | cons p v ih =>
    intro r zs h
    cases h with
    | @cons _ z _ zs h1 h2 =>
      obtain ⟨i1, i2, i3, i4, i5⟩ := ih r zs h2
      have hne : zs ≠ [] := List.ne_nil_of_mem i4
      have hl : (z :: zs).getLastD 0 = zs.getLastD 0 := by
        cases zs with
        | nil => exact absurd rfl hne
        | cons y ys => simp [List.getLastD]
      refine ⟨?_, ?_, ?_, ?_, ?_⟩
      · intro q hq
        rw [List.zip_cons_cons] at hq
        rcases List.mem_cons.1 hq with rfl | hq
        · exact h1
        · exact i1 q hq
      · rw [List.zip_cons_cons, List.map_cons, i2]
      · rw [hl]; exact i3
      · rw [hl]; exact List.mem_cons_of_mem _ i4
      · intro q hq
        rw [List.zip_cons_cons] at hq
        rcases List.mem_cons.1 hq with rfl | hq
        · exact List.mem_cons_self
        · exact List.mem_cons_of_mem _ (i5 q hq)

theorem nonInteger_zero {P : Prob} {v : SVec} (h : nonInteger P v = 0) : ∀ p ∈ v, P.isInt p.1 = true := by
  intro p hp
  unfold nonInteger at h
  rw [List.length_eq_zero_iff, List.filter_eq_nil_iff] at h
  simpa using h p hp

theorem box_sum {P : Prob} {x : Nat → ℚ} (hb : InBounds P x) : ∀ v : SVec, Cols P v →
    (∀ p ∈ v, - P.inf < P.colLower p.1 ∧ P.colUpper p.1 < P.inf) → (v.map fun p => |x p.1|).sum ≤ box P v := by
  intro v
  induction v with
  | nil => intro _ _; simp [box]
  | cons p v ih =>
    intro hc hf
    have h1 := ih (fun q hq => hc q (List.mem_cons_of_mem _ hq)) (fun q hq => hf q (List.mem_cons_of_mem _ hq))
    have h2 := hb p.1 (hc p List.mem_cons_self)
    have h3 := hf p List.mem_cons_self
    have h4 := h2.1 h3.1
    have h5 := h2.2 h3.2
    unfold box at h1 ⊢
    rw [List.map_cons, List.map_cons, List.sum_cons, List.sum_cons]
    have : |x p.1| ≤ max |P.colLower p.1| |P.colUpper p.1| := by
      rw [abs_le]
      constructor
      · have := neg_abs_le (P.colLower p.1)
        have := le_max_left |P.colLower p.1| |P.colUpper p.1|
        linarith
      · have := le_abs_self (P.colUpper p.1)
        have := le_max_right |P.colLower p.1| |P.colUpper p.1|
        linarith
    linarith

theorem dot_map_smul (x : Nat → ℚ) (m : ℚ) : ∀ (l : List ((Nat × ℚ) × ℤ)),
    SVec.dot (l.map fun p => (p.1.1, p.1.2 * m)) x = m * SVec.dot (l.map Prod.fst) x := by
  intro l
  induction l with
  | nil => simp
  | cons p l ih => simp only [List.map_cons, SVec.dot_cons, ih]; ring

/-- Rational cleaning keeps every feasible point. -/
theorem rational_le {P : Prob} {v : SVec} {rhs : ℚ} {w : Work} (hc : Cols P v) (hr : RoundOk P v rhs)
    (h : rational P v rhs = some w) {x : Nat → ℚ} (hf : P.Feasible x) (hle : Le v rhs x) : Le w.elems w.rhs x := by
  have hb : InBounds P x := fun j hj => ⟨hf.lower j hj, hf.upper j hj⟩
  unfold rational at h
  dsimp only at h
  split at h
  · rename_i hcond
    split at h
    · cases h
    · cases h; exact hle
    · cases h; exact hle
    · rename_i l hl
      have hlp := lcmLoop_pos _ _ _ _ (by decide) hl
      split at h
      · cases h; exact hle
      · rename_i zs hzs
        split at h
        · cases h
        · rename_i g hg
          cases h
          have hx := xInt_spec hlp.le _ _ hzs
          have hz0 : ∀ z ∈ zs, 0 ≤ z := fun z hz => by
            obtain ⟨q, hq⟩ := forall₂_right hx z hz
            exact hq.1
          obtain ⟨hgp, hgd⟩ := xGcd_spec zs g hz0 hg
          obtain ⟨i1, i2, i3, i4, i5⟩ := forall₂_zip_last v rhs zs hx
          have hgq : (0 : ℚ) < g := by exact_mod_cast hgp
          have hlq : (0 : ℚ) ≤ l := by exact_mod_cast hlp.le
          unfold Le at hle ⊢
          dsimp only
          -- multiply by g
          have hmul : SVec.dot ((v.zip zs).map fun p => (p.1.1, reScale g p.1.2 p.2)) x * g =
              SVec.dot ((v.zip zs).map fun p => (p.1.1, (signed p.1.2 p.2 : ℚ))) x := by
            have : ∀ l : List ((Nat × ℚ) × ℤ), (∀ p ∈ l, g ∣ p.2) →
                SVec.dot (l.map fun p => (p.1.1, reScale g p.1.2 p.2)) x * g =
                SVec.dot (l.map fun p => (p.1.1, (signed p.1.2 p.2 : ℚ))) x := by
              intro l
              induction l with
              | nil => intro _; simp
              | cons p l ih =>
                intro hd
                simp only [List.map_cons, SVec.dot_cons]
                rw [← ih fun q hq => hd q (List.mem_cons_of_mem _ hq), ← reScale_mul (hd p List.mem_cons_self)]
                ring
            exact this _ fun p hp => hgd _ (i5 p hp)
          have hgoal : SVec.dot ((v.zip zs).map fun p => (p.1.1, (signed p.1.2 p.2 : ℚ))) x ≤
              (signed rhs (zs.getLastD 0) : ℚ) := by
            have hsc : SVec.dot ((v.zip zs).map fun p => (p.1.1, p.1.2 * (l : ℚ))) x ≤ rhs * l := by
              rw [dot_map_smul, i2, mul_comm rhs]
              exact mul_le_mul_of_nonneg_left hle hlq
            rcases hr with ⟨r1, r2, r3⟩ | ⟨r1, r2⟩
            · have hint := nonInteger_zero r1
              have hmem : ∀ p ∈ v.zip zs, p.1 ∈ v := fun p hp => (List.of_mem_zip hp).1
              have := round_le (x := x) (ε := 1 / 10 ^ 8) (b := rhs * l) (zb := signed rhs (zs.getLastD 0))
                (by
                  have := i3.2.1
                  rw [← signed_err, abs_le] at this
                  linarith [this.2])
                ((v.zip zs).map fun p => ((p.1.1, p.1.2 * (l : ℚ)), signed p.1.2 p.2))
                (by
                  intro p hp
                  obtain ⟨q, hq, rfl⟩ := List.mem_map.1 hp
                  dsimp only
                  rw [signed_err]
                  exact (i1 q hq).2.1)
                (by
                  intro p hp
                  obtain ⟨q, hq, rfl⟩ := List.mem_map.1 hp
                  exact hf.int q.1.1 (hc q.1 (hmem q hq)) (hint q.1 (hmem q hq)))
                (by
                  rw [List.map_map]
                  have e : ((fun p : (Nat × ℚ) × ℤ => |x p.1.1|) ∘ fun p : (Nat × ℚ) × ℤ =>
                      ((p.1.1, p.1.2 * (l : ℚ)), signed p.1.2 p.2)) = (fun p : Nat × ℚ => |x p.1|) ∘ Prod.fst := rfl
                  rw [e, ← List.map_map, i2]
                  have := box_sum hb v hc r3
                  linarith)
                (by rw [List.map_map]; exact hsc)
              rw [List.map_map] at this
              exact this
            · rcases hcond.1 with h1 | h1
              · exact absurd h1 r1
              · rcases r2 with r2 | r2
                · omega
                · have hex := r2 l hl
                  have hround : ∀ q z, q ∈ v.map Prod.snd ++ [rhs] → z = ⌊|q| * (l : ℚ) + 1 / 2⌋ →
                      (signed q z : ℚ) = q * l := by
                    intro q z hq hz
                    obtain ⟨k, hk⟩ := hex q hq
                    have hzk : z = k := by
                      rw [hz, hk, Int.floor_intCast_add]
                      norm_num
                    have h0 : abs (|q| * (l : ℚ) - (z : ℚ)) = 0 := by rw [hk, hzk]; simp
                    rw [← signed_err, abs_eq_zero] at h0
                    linarith
                  rw [hround rhs _ (by simp) i3.2.2]
                  have : ((v.zip zs).map fun p => (p.1.1, (signed p.1.2 p.2 : ℚ))) =
                      (v.zip zs).map fun p => (p.1.1, p.1.2 * (l : ℚ)) := by
                    apply List.map_congr_left
                    intro p hp
                    rw [hround p.1.2 p.2 _ (i1 p hp).2.2]
                    exact List.mem_append_left _ (List.mem_map.2 ⟨p.1, (List.of_mem_zip hp).1, rfl⟩)
                  rw [this]; exact hsc
          rw [← hmul] at hgoal
          rw [← reScale_mul (hgd _ i4)] at hgoal
          exact le_of_mul_le_mul_right hgoal hgq
  · cases h; exact hle

theorem rational_cols {P : Prob} {v : SVec} {rhs : ℚ} {w : Work} (h : rational P v rhs = some w) :
    w.elems.map Prod.fst = v.map Prod.fst ∧ (w.cleaned = false → nonInteger P v = 0) := by
  have hn : ∀ n : Nat, decide (0 < n) = false → n = 0 := by intro n h; simpa using h
  unfold rational at h
  dsimp only at h
  split at h
  · split at h
    · cases h
    · cases h; exact ⟨rfl, hn _⟩
    · cases h; exact ⟨rfl, hn _⟩
    · rename_i l hl
      split at h
      · cases h; exact ⟨rfl, fun h => by cases h⟩
      · rename_i zs hzs
        split at h
        · cases h
        · cases h
          refine ⟨?_, fun h => by cases h⟩
          have hx := xInt_spec (lcmLoop_pos _ _ _ _ (by decide) hl).le _ _ hzs
          have i2 := (forall₂_zip_last v rhs zs hx).2.1
          dsimp only
          rw [List.map_map]
          conv_rhs => rw [← i2, List.map_map]
          rfl
  · cases h; exact ⟨rfl, hn _⟩

theorem sumCoefficients_nonneg (sol : Nat → ℚ) : ∀ v : SVec, 0 ≤ sumCoefficients sol v := by
  intro v
  induction v with
  | nil => exact le_refl _
  | cons p v ih =>
    unfold sumCoefficients
    have := abs_nonneg p.2
    split <;> linarith

theorem relax_le {x : Nat → ℚ} {s : ℚ} {n : Nat} {w : Work} (hs : 0 ≤ s) (h : Le w.elems w.rhs x) :
    Le (relax s n w).elems (relax s n w).rhs x := by
  unfold relax
  split
  · exact h
  · unfold Le at h ⊢
    dsimp only
    have h1 : (0 : ℚ) ≤ 1 / 10 ^ 7 * s := mul_nonneg (by norm_num) hs
    have h2 : (0 : ℚ) ≤ 1 / 10 ^ 8 * n := mul_nonneg (by norm_num) (Nat.cast_nonneg _)
    have h3 : (0 : ℚ) ≤ 1 / 10 ^ 7 := by norm_num
    linarith

theorem relax_elems (s : ℚ) (n : Nat) (w : Work) : (relax s n w).elems = w.elems ∧ (relax s n w).cleaned = w.cleaned := by
  unfold relax; split <;> exact ⟨rfl, rfl⟩

/-- Taking off tiny elements and fixed columns keeps every feasible point. -/
theorem takeTiny_le {P : Prob} {g : Bool} (hx : ExactData P) {x : Nat → ℚ} (hf : P.Feasible x) :
    ∀ (v : SVec) (rhs : ℚ) (ni : ℤ) (t : Taken), Cols P v → takeTiny P g v rhs ni = some t →
    SVec.dot t.elems x - t.rhs ≤ SVec.dot v x - rhs := by
  have hl : (0 : ℚ) < large := by unfold large; norm_num
  intro v
  induction v with
  | nil => intro rhs ni t _ h; unfold takeTiny at h; cases h; simp
  | cons p v ih =>
    obtain ⟨j, e⟩ := p
    intro rhs ni t hc h
    have hj : j < P.nCols := hc (j, e) List.mem_cons_self
    have hc' : Cols P v := fun q hq => hc q (List.mem_cons_of_mem _ hq)
    rw [SVec.dot_cons]
    dsimp only
    unfold takeTiny at h
    split at h
    · split at h
      · rename_i hr
        have hfin := hx.range j hj hr
        have h1 := hf.lower j hj hfin.1
        have h2 := hf.upper j hj hfin.2
        have := ih _ _ t hc' h
        split at this
        · rename_i h0
          rw [abs_of_pos h0] at this
          have := mul_le_mul_of_nonneg_left h1 h0.le
          linarith
        · rename_i h0
          rw [abs_of_nonpos (not_lt.mp h0)] at this
          have := mul_le_mul_of_nonneg_left h2 (show 0 ≤ - e by linarith)
          linarith
      · cases h
    · split at h
      · split at h
        · cases h
        · rename_i t' ht'
          cases h
          have := ih _ _ t' hc' ht'
          rw [SVec.dot_cons]
          dsimp only
          linarith
      · rename_i hne
        push Not at hne
        have := ih _ _ t hc' h
        have he := feasible_fixed hx hf hj (by rw [hne.1]; norm_num)
        rw [he.2]
        linarith

theorem takeTiny_cols {P : Prob} {g : Bool} : ∀ (v : SVec) (rhs : ℚ) (ni : ℤ) (t : Taken),
    takeTiny P g v rhs ni = some t → t.elems.Sublist v ∧
      ∀ p ∈ t.elems, 1 / 10 ^ 12 ≤ |p.2| ∧ (P.colUpper p.1 ≠ P.colLower p.1 ∨ g = true) := by
  intro v
  induction v with
  | nil => intro rhs ni t h; unfold takeTiny at h; cases h; exact ⟨List.Sublist.refl _, by simp⟩
  | cons p v ih =>
    obtain ⟨j, e⟩ := p
    intro rhs ni t h
    unfold takeTiny at h
    split at h
    · split at h
      · obtain ⟨h1, h2⟩ := ih _ _ t h
        exact ⟨h1.cons _, h2⟩
      · cases h
    · rename_i hbig
      split at h
      · rename_i hne
        split at h
        · cases h
        · rename_i t' ht'
          cases h
          obtain ⟨h1, h2⟩ := ih _ _ t' ht'
          refine ⟨h1.cons_cons _, fun q hq => ?_⟩
          rcases List.mem_cons.1 hq with rfl | hq
          · exact ⟨not_lt.mp hbig, hne⟩
          · exact h2 q hq
      · obtain ⟨h1, h2⟩ := ih _ _ t h
        exact ⟨h1.cons _, h2⟩

theorem smallLarge_pos : ∀ (v : SVec) (m : ℚ × ℚ), 0 < m.1 → 0 ≤ m.2 → (∀ p ∈ v, 0 < |p.2|) →
    0 < (v.foldl (fun m p => (min m.1 |p.2|, max m.2 |p.2|)) m).1 ∧
    (0 < m.2 ∨ v ≠ [] → 0 < (v.foldl (fun m p => (min m.1 |p.2|, max m.2 |p.2|)) m).2) := by
  intro v
  induction v with
  | nil => intro m h1 h2 _; exact ⟨h1, fun h => by simpa using h⟩
  | cons p v ih =>
    intro m h1 h2 h
    have hp := h p List.mem_cons_self
    rw [List.foldl_cons]
    obtain ⟨i1, i2⟩ := ih (min m.1 |p.2|, max m.2 |p.2|) (lt_min h1 hp) (le_trans h2 (le_max_left _ _))
      fun q hq => h q (List.mem_cons_of_mem _ hq)
    exact ⟨i1, fun _ => i2 (Or.inl (lt_of_lt_of_le hp (le_max_right _ _)))⟩

theorem scale_le {P : Prob} {g : Bool} {sqrt : ℚ → ℚ} (hs : ∀ q, 0 < q → 0 < sqrt q) {v : SVec} {rhs : ℚ} {ni : ℤ} {t : Taken}
    (h : takeTiny P g v rhs ni = some t) (hb : badRange t = false) {x : Nat → ℚ} (hle : Le t.elems t.rhs x) :
    Le (scale sqrt t).elems (scale sqrt t).rhs x := by
  unfold scale
  split
  · exact hle
  · have hne : t.elems ≠ [] := by
      intro h0
      unfold badRange at hb
      rw [h0] at hb
      simp at hb
    have hp := smallLarge_pos t.elems (10 ^ 30, 0) (by norm_num) (le_refl _)
      fun p hp => lt_of_lt_of_le (by norm_num) ((takeTiny_cols v rhs ni t h).2 p hp).1
    have hm : 0 < 1 / sqrt ((smallLarge t.elems).2 * (smallLarge t.elems).1) :=
      one_div_pos.mpr (hs _ (mul_pos (hp.2 (Or.inr hne)) hp.1))
    generalize 1 / sqrt ((smallLarge t.elems).2 * (smallLarge t.elems).1) = m at hm
    unfold Le at hle ⊢
    dsimp only
    have : SVec.dot (t.elems.map fun p => (p.1, p.2 * m)) x = m * SVec.dot t.elems x := by
      generalize t.elems = l
      induction l with
      | nil => simp
      | cons p l ih => rw [List.map_cons, SVec.dot_cons, SVec.dot_cons, ih]; ring
    rw [this, mul_comm t.rhs]
    exact mul_le_mul_of_nonneg_left hle hm.le

theorem scale_cols (sqrt : ℚ → ℚ) (t : Taken) : (scale sqrt t).elems.map Prod.fst = t.elems.map Prod.fst := by
  unfold scale
  split
  · rfl
  · dsimp only; rw [List.map_map]; rfl

theorem upper_ge {tol6 tol9 test : ℚ} (h6 : 0 ≤ tol6) (h9 : 0 ≤ tol9) (t : Taken) : t.rhs ≤ upper tol6 tol9 test t := by
  unfold upper
  dsimp only
  have h1 : t.rhs ≤ (if 50 < t.elems.length ∧ t.nonInt ≠ 0 then t.rhs + tol6 + 1 / 10 ^ 8 * |t.rhs|
    else if 5 < t.elems.length ∧ 1 < t.nonInt then t.rhs + tol6 + 1 / 10 ^ 8 * |t.rhs| else t.rhs) := by
    have := mul_nonneg (show (0 : ℚ) ≤ 1 / 10 ^ 8 by norm_num) (abs_nonneg t.rhs)
    split
    · linarith
    · split
      · linarith
      · exact le_refl _
  generalize (if 50 < t.elems.length ∧ t.nonInt ≠ 0 then t.rhs + tol6 + 1 / 10 ^ 8 * |t.rhs|
    else if 5 < t.elems.length ∧ 1 < t.nonInt then t.rhs + tol6 + 1 / 10 ^ 8 * |t.rhs| else t.rhs) = b at h1
  have h2 : t.rhs ≤ (if b < ⌊b + 1 / 2⌋ ∧ (⌊b + 1 / 2⌋ : ℚ) - 1 / 10 ^ 4 < b then (⌊b + 1 / 2⌋ : ℚ) else b) := by
    split
    · rename_i h; linarith [h.1]
    · exact h1
  refine le_trans h2 ?_
  generalize (if b < ⌊b + 1 / 2⌋ ∧ (⌊b + 1 / 2⌋ : ℚ) - 1 / 10 ^ 4 < b then (⌊b + 1 / 2⌋ : ℚ) else b) = c
  split
  · rename_i h
    have : 0 ≤ min (test * |t.rhs|) tol9 :=
      le_min (mul_nonneg (le_trans (by norm_num) h.2.2.le) (abs_nonneg _)) h9
    linarith
  · exact le_refl _

theorem range_ge {P : Prob} (hx : ExactData P) {x : Nat → ℚ} (hf : P.Feasible x) : ∀ v : SVec, Cols P v →
    (∀ p ∈ v, P.isInt p.1 = true ∧ P.colUpper p.1 ≠ P.colLower p.1 ∧ - P.inf < P.colLower p.1 ∧ P.colUpper p.1 < P.inf) →
    0 ≤ range P v ∧ (v ≠ [] → 1 ≤ range P v) := by
  intro v
  induction v with
  | nil => intro _ _; exact ⟨by simp [range], fun h => absurd rfl h⟩
  | cons p v ih =>
    intro hc h
    obtain ⟨i1, i2⟩ := ih (fun q hq => hc q (List.mem_cons_of_mem _ hq)) (fun q hq => h q (List.mem_cons_of_mem _ hq))
    have hj := hc p List.mem_cons_self
    obtain ⟨h1, h2, h3, h4⟩ := h p List.mem_cons_self
    obtain ⟨a, ha⟩ := hx.intLower p.1 hj h1 h3
    obtain ⟨b, hb⟩ := hx.intUpper p.1 hj h1 h4
    have hab : P.colLower p.1 ≤ P.colUpper p.1 := le_trans (hf.lower p.1 hj h3) (hf.upper p.1 hj h4)
    have : 1 ≤ min (P.colUpper p.1 - P.colLower p.1) 1000 := by
      rw [ha, hb] at hab h2 ⊢
      have h5 : a ≤ b := by exact_mod_cast hab
      have h6 : b ≠ a := by intro h; exact h2 (by rw [h])
      have h7 : a + 1 ≤ b := by omega
      have : (a : ℚ) + 1 ≤ b := by exact_mod_cast h7
      exact le_min (by linarith) (by norm_num)
    have e : range P (p :: v) = min (P.colUpper p.1 - P.colLower p.1) 1000 + range P v := by
      unfold range; rw [List.map_cons, List.sum_cons]
    rw [e]
    exact ⟨by linarith, fun _ => by linarith⟩

/-- Tidying to integers keeps every feasible point. -/
theorem tidy_le {P : Prob} (hx : ExactData P) {x : Nat → ℚ} (hf : P.Feasible x) {v : SVec} {b : ℚ} (hc : Cols P v)
    (hv : ∀ p ∈ v, P.isInt p.1 = true ∧ P.colUpper p.1 ≠ P.colLower p.1 ∧ - P.inf < P.colLower p.1 ∧
      P.colUpper p.1 < P.inf) (hbox : box P v ≤ 900000) (hle : Le v b x) : Le (tidy P v b).1 (tidy P v b).2 x := by
  have hb : InBounds P x := fun j hj => ⟨hf.lower j hj, hf.upper j hj⟩
  unfold tidy
  split
  · rename_i h
    by_cases hne : v = []
    · subst hne
      unfold Le at hle ⊢
      simp only [List.map_nil, SVec.dot_nil] at hle ⊢
      have : (0 : ℤ) ≤ ⌊b + 1 / 2⌋ := by rw [Int.le_floor]; push_cast; linarith
      exact_mod_cast this
    · have hr := (range_ge hx hf v hc hv).2 hne
      have small : ∀ q : ℚ, 0 ≤ q → q * range P v ≤ 1 / 10 ^ 6 → q ≤ 1 / 10 ^ 6 := by
        intro q hq h; nlinarith
      have := round_le (x := x) (ε := 1 / 10 ^ 6) (b := b) (zb := ⌊b + 1 / 2⌋)
        (by
          have := small _ (abs_nonneg _) h.1.le
          rw [abs_le] at this; linarith [this.2])
        (v.map fun p => (p, ⌊p.2 + 1 / 2⌋))
        (by
          intro p hp
          obtain ⟨q, hq, rfl⟩ := List.mem_map.1 hp
          exact small _ (abs_nonneg _) (h.2 q hq))
        (by
          intro p hp
          obtain ⟨q, hq, rfl⟩ := List.mem_map.1 hp
          exact hf.int q.1 (hc q hq) (hv q hq).1)
        (by
          rw [List.map_map]
          have e : ((fun p : (Nat × ℚ) × ℤ => |x p.1.1|) ∘ fun p : Nat × ℚ => (p, ⌊p.2 + 1 / 2⌋)) =
            fun p : Nat × ℚ => |x p.1| := rfl
          rw [e]
          have := box_sum hb v hc fun p hp => (hv p hp).2.2
          linarith)
        (by
          rw [List.map_map]
          have e : (Prod.fst ∘ fun p : Nat × ℚ => (p, ⌊p.2 + 1 / 2⌋)) = id := rfl
          rw [e, List.map_id]; exact hle)
      rw [List.map_map] at this
      exact this
  · exact hle

/-! ### Singletons -/

/-- No value beyond the solver's infinity. -/
def Representable (P : Prob) (x : Nat → ℚ) : Prop := ∀ j < P.nCols, - P.inf ≤ x j ∧ x j ≤ P.inf

theorem lower_le {P : Prob} {x : Nat → ℚ} (hf : P.Feasible x) (hr : Representable P x) {j : Nat} (hj : j < P.nCols) :
    P.colLower j ≤ x j := by
  by_cases h : - P.inf < P.colLower j
  · exact hf.lower j hj h
  · exact le_trans (not_lt.mp h) (hr j hj).1

theorem le_upper {P : Prob} {x : Nat → ℚ} (hf : P.Feasible x) (hr : Representable P x) {j : Nat} (hj : j < P.nCols) :
    x j ≤ P.colUpper j := by
  by_cases h : P.colUpper j < P.inf
  · exact hf.upper j hj h
  · exact le_trans (hr j hj).2 (not_lt.mp h)

/-- What a singleton gives holds at every feasible point. -/
theorem singleton_spec {P : Prob} {j : Nat} (hj : j < P.nCols) {value ub : ℚ} {x : Nat → ℚ} (hf : P.Feasible x)
    (hr : Representable P x) (hle : value * x j ≤ ub) :
    (∀ c, singleton P j value ub = .row c → False) ∧ (∀ c, singleton P j value ub ≠ .second c) ∧
      ∀ c, singleton P j value ub = .col c → c.Sat x := by
  have hlow := lower_le hf hr hj
  have hupp := le_upper hf hr hj
  unfold singleton
  split
  · exact ⟨fun c h => (by cases h), fun c h => (by cases h), fun c h => by cases h⟩
  · rename_i h0
    dsimp only
    have hl : (if value < 0 then (if P.isInt j then (⌈ub / value - 1 / 10 ^ 4⌉ : ℚ) else ub / value) else P.colLower j) ≤ x j := by
      split
      · rename_i hneg
        have h1 : ub / value ≤ x j := by rw [div_le_iff_of_neg hneg]; linarith
        split
        · rename_i hi
          obtain ⟨k, hk⟩ := hf.int j hj hi
          rw [hk] at h1 ⊢
          have : ⌈ub / value - 1 / 10 ^ 4⌉ ≤ k := by rw [Int.ceil_le]; linarith
          exact_mod_cast this
        · exact h1
      · exact hlow
    have hu : x j ≤ (if value < 0 then P.colUpper j else (if P.isInt j then (⌊ub / value + 1 / 10 ^ 4⌋ : ℚ) else ub / value)) := by
      split
      · exact hupp
      · rename_i hneg
        have hpos : 0 < value := lt_of_le_of_ne (not_lt.mp hneg) (Ne.symm h0)
        have h1 : x j ≤ ub / value := by rw [le_div_iff₀ hpos]; linarith
        split
        · rename_i hi
          obtain ⟨k, hk⟩ := hf.int j hj hi
          rw [hk] at h1 ⊢
          have : k ≤ ⌊ub / value + 1 / 10 ^ 4⌋ := by rw [Int.le_floor]; linarith
          exact_mod_cast this
        · exact h1
    generalize (if value < 0 then (if P.isInt j then (⌈ub / value - 1 / 10 ^ 4⌉ : ℚ) else ub / value) else P.colLower j) = lb' at hl
    generalize (if value < 0 then P.colUpper j else (if P.isInt j then (⌊ub / value + 1 / 10 ^ 4⌋ : ℚ) else ub / value)) = ub' at hu
    split
    · rename_i h
      exfalso; linarith
    · split
      · split
        · refine ⟨fun c h => (by cases h), fun c h => (by cases h), fun c h => ?_⟩
          cases h
          unfold ColCut.Sat
          constructor
          · intro p hp
            dsimp only at hp
            split at hp
            · rw [List.mem_singleton] at hp; rw [hp]; exact hl
            · cases hp
          · intro p hp
            dsimp only at hp
            split at hp
            · rw [List.mem_singleton] at hp; rw [hp]; exact hu
            · cases hp
        · exact ⟨fun c h => (by cases h), fun c h => (by cases h), fun c h => by cases h⟩
      · exact ⟨fun c h => (by cases h), fun c h => (by cases h), fun c h => by cases h⟩

end Cgl.Gomory
