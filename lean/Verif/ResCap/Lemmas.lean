import Verif.ResCap.Model

namespace Cgl.ResCap

/-! ### The residual capacity inequality -/

/-- The arithmetic core: `T ≤ S`, `T ≤ b + d y`, `y` integer give `T - r y ≤ S - r mu`. -/
theorem rescap_core {T S b d : ℚ} (hd : 0 < d) (y : ℤ) (h1 : T ≤ S) (h2 : T ≤ b + d * y) :
    T - (S - b - d * ⌊(S - b) / d⌋) * y ≤ S - (S - b - d * ⌊(S - b) / d⌋) * ⌈(S - b) / d⌉ := by
  set q := (S - b) / d with hq
  set r := S - b - d * (⌊q⌋ : ℚ) with hr
  have hqd : S - b = d * q := by rw [hq]; field_simp
  have hf1 : (⌊q⌋ : ℚ) ≤ q := Int.floor_le q
  have hf2 : q < ⌊q⌋ + 1 := Int.lt_floor_add_one q
  have hr0 : 0 ≤ r := by rw [hr, hqd]; nlinarith
  have hrd : r ≤ d := by rw [hr, hqd]; nlinarith
  rcases le_or_gt ⌈q⌉ y with hy | hy
  · have hy' : (⌈q⌉ : ℚ) ≤ y := by exact_mod_cast hy
    nlinarith
  · have hy' : (y : ℚ) + 1 ≤ ⌈q⌉ := by exact_mod_cast hy
    have hc : (⌈q⌉ : ℚ) = ⌊q⌋ ∨ (⌈q⌉ : ℚ) = ⌊q⌋ + 1 := by
      have a := Int.ceil_le_floor_add_one q
      have b := Int.floor_le_ceil q
      rcases (by omega : ⌈q⌉ = ⌊q⌋ ∨ ⌈q⌉ = ⌊q⌋ + 1) with h | h
      · left; rw [h]
      · right; rw [h]; push_cast; ring
    rcases hc with hc | hc
    · have hqe : q = ⌊q⌋ := le_antisymm (le_trans (Int.le_ceil q) (le_of_eq hc)) hf1
      have hr00 : r = 0 := by rw [hr, hqd]; nlinarith
      rw [hr00]; linarith
    · rw [hc] at hy' ⊢
      have : b = S - r - d * ⌊q⌋ := by rw [hr]; ring
      nlinarith [mul_nonneg (sub_nonneg.mpr hrd) (by linarith : (0:ℚ) ≤ ⌊q⌋ - y)]

/-- What separation needs of a row `coefs · x ≤ rhs` at a point. -/
structure Suit (eps : ℚ) (P : Prob) (coefs : SVec) (rhs : ℚ) (x : Nat → ℚ) : Prop where
  eps_nonneg : 0 ≤ eps
  sep : ∀ p ∈ coefs, P.isInt p.1 = true → p.2 = 0 ∨ eps < p.2 ∨ p.2 < -eps
  cont : ∀ p ∈ contEnts eps P coefs, 0 ≤ x p.1 ∧ x p.1 ≤ P.colUpper p.1 ∧
    (0 ≤ p.2 * P.colUpper p.1 ∨ p.2 * P.colUpper p.1 < -eps)
  one : ∃ d : ℚ, 0 < d ∧ intEnts eps P coefs ≠ [] ∧ ∀ p ∈ intEnts eps P coefs, p.2 = -d
  int : ∀ p ∈ coefs, P.isInt p.1 = true → IsInteger (x p.1)
  row : coefs.dot x ≤ rhs

theorem canon_orig (eps : ℚ) (P : Prob) (xlp : Nat → ℚ) (p : Nat × ℚ) : (canon eps P xlp p).orig = p := by
  unfold canon; dsimp only; split <;> rfl

/-- The value of one canonical term lies between 0 and its coefficient. -/
theorem canon_bounds {eps : ℚ} {P : Prob} (heps : 0 ≤ eps) (xlp : Nat → ℚ) {p : Nat × ℚ} {v : ℚ} (h0 : 0 ≤ v)
    (h1 : v ≤ P.colUpper p.1) (h : 0 ≤ p.2 * P.colUpper p.1 ∨ p.2 * P.colUpper p.1 < -eps) :
    0 ≤ p.2 * v + canonRhs eps P p ∧ p.2 * v + canonRhs eps P p ≤ (canon eps P xlp p).coef ∧
    -canonRhs eps P p ≤ (if p.2 < -eps then p.2 * P.colUpper p.1 else 0) := by
  unfold canon canonRhs
  have hu : 0 ≤ P.colUpper p.1 := le_trans h0 h1
  dsimp only
  by_cases hc : p.2 * P.colUpper p.1 < -eps
  · rw [if_pos hc, if_pos hc]
    have hn : p.2 < 0 := by
      by_contra hn
      have := mul_nonneg (le_of_not_gt hn) hu
      linarith
    refine ⟨by nlinarith, by nlinarith, ?_⟩
    split <;> linarith
  · rw [if_neg hc, if_neg hc]
    have h' : 0 ≤ p.2 * P.colUpper p.1 := h.resolve_right hc
    rcases eq_or_lt_of_le hu with hu0 | hu0
    · have hv : v = 0 := le_antisymm (by linarith) h0
      subst hv
      simp only [← hu0, mul_zero]
      refine ⟨by norm_num, by norm_num, ?_⟩
      split <;> norm_num
    · have hp : 0 ≤ p.2 := by
        by_contra hn
        have := mul_neg_of_neg_of_pos (lt_of_not_ge hn) hu0
        linarith
      refine ⟨by have := mul_nonneg hp h0; linarith, by simp only [add_zero]; exact mul_le_mul_of_nonneg_left h1 hp, ?_⟩
      split <;> linarith

/-- A row splits into its continuous and its integer entries. -/
theorem split_dot {eps : ℚ} {P : Prob} (heps : 0 ≤ eps) (x : Nat → ℚ) (coefs : SVec)
    (h : ∀ p ∈ coefs, P.isInt p.1 = true → p.2 = 0 ∨ eps < p.2 ∨ p.2 < -eps) :
    coefs.dot x = (contEnts eps P coefs).dot x + (intEnts eps P coefs).dot x := by
  induction coefs with
  | nil => simp [contEnts, intEnts]
  | cons p ps ih =>
    have ih' := ih (fun q hq => h q (List.mem_cons_of_mem _ hq))
    unfold contEnts intEnts at ih' ⊢
    rw [List.filter_cons, List.filter_cons, SVec.dot_cons, ih']
    by_cases hi : P.isInt p.1 = true
    · rcases h p (List.mem_cons_self ..) hi with h1 | h1 | h1
      · have n1 : ¬ (0:ℚ) < -eps := by linarith
        have n2 : ¬ eps < 0 := by linarith
        simp [hi, h1, n1, n2]
      · have n1 : ¬ p.2 < -eps := by linarith
        simp [hi, h1, n1]; ring
      · have n1 : ¬ eps < p.2 := by linarith
        simp [hi, h1, n1]; ring
    · simp [hi]; ring

theorem sum_le_of_sublist {l m : List (Nat × ℚ)} (f : Nat × ℚ → ℚ) (h : l.Sublist m) (hf : ∀ p ∈ m, 0 ≤ f p) :
    (l.map f).sum ≤ (m.map f).sum := by
  induction h with
  | slnil => simp
  | cons a _ ih =>
    have := ih (fun p hp => hf p (List.mem_cons_of_mem _ hp))
    have := hf a (List.mem_cons_self ..)
    simp only [List.map_cons, List.sum_cons]; linarith
  | cons_cons a _ ih =>
    have := ih (fun p hp => hf p (List.mem_cons_of_mem _ hp))
    simp only [List.map_cons, List.sum_cons]; linarith

theorem sum_add (l : List (Nat × ℚ)) (f g : Nat × ℚ → ℚ) :
    (l.map fun p => f p + g p).sum = (l.map f).sum + (l.map g).sum := by
  induction l with
  | nil => simp
  | cons a t ih => simp only [List.map_cons, List.sum_cons, ih]; ring

theorem sum_le (l : List (Nat × ℚ)) (f g : Nat × ℚ → ℚ) (h : ∀ p ∈ l, f p ≤ g p) : (l.map f).sum ≤ (l.map g).sum := by
  induction l with
  | nil => simp
  | cons a t ih =>
    have := ih (fun p hp => h p (List.mem_cons_of_mem _ hp))
    have := h a (List.mem_cons_self ..)
    simp only [List.map_cons, List.sum_cons]; linarith

theorem int_sum {x : Nat → ℚ} (l : SVec) (h : ∀ p ∈ l, IsInteger (x p.1)) : ∃ y : ℤ, (l.map fun p => x p.1).sum = y := by
  induction l with
  | nil => exact ⟨0, by simp⟩
  | cons a t ih =>
    obtain ⟨y, hy⟩ := ih (fun p hp => h p (List.mem_cons_of_mem _ hp))
    obtain ⟨z, hz⟩ := h a (List.mem_cons_self ..)
    exact ⟨z + y, by simp only [List.map_cons, List.sum_cons, hy, hz]; push_cast; ring⟩

theorem dot_const {x : Nat → ℚ} {d : ℚ} (l : SVec) (h : ∀ p ∈ l, p.2 = d) : l.dot x = d * (l.map fun p => x p.1).sum := by
  induction l with
  | nil => simp
  | cons a t ih =>
    rw [SVec.dot_cons, ih (fun p hp => h p (List.mem_cons_of_mem _ hp)), h a (List.mem_cons_self ..)]
    simp only [List.map_cons, List.sum_cons]; ring

theorem dot_eq_map (l : SVec) (x : Nat → ℚ) : l.dot x = (l.map fun p => p.2 * x p.1).sum := rfl

/-- The cut built from any selection of the continuous entries holds. -/
theorem buildCut_valid {eps : ℚ} {P : Prob} {coefs : SVec} {rhs : ℚ} {x : Nat → ℚ} (h : Suit eps P coefs rhs x)
    (xlp : Nat → ℚ) (sel : SVec) (hsel : sel.Sublist (contEnts eps P coefs)) :
    (buildCut eps P (intEnts eps P coefs) (rhs + ((contEnts eps P coefs).map (canonRhs eps P)).sum)
      (sel.map (canon eps P xlp))).row.dot x ≤
    (buildCut eps P (intEnts eps P coefs) (rhs + ((contEnts eps P coefs).map (canonRhs eps P)).sum)
      (sel.map (canon eps P xlp))).ub := by
  obtain ⟨d, hd, hne, hone⟩ := h.one
  have hlast : ∃ p, (intEnts eps P coefs).getLast? = some p ∧ -p.2 = d := by
    refine ⟨(intEnts eps P coefs).getLast hne, List.getLast?_eq_some_getLast hne, ?_⟩
    rw [hone _ (List.getLast_mem hne)]; ring
  obtain ⟨pl, hl, hpl⟩ := hlast
  unfold buildCut
  rw [hl]
  simp only [hpl, List.map_map, SVec.dot_append]
  have e1 : List.map (Cont.orig ∘ canon eps P xlp) sel = sel := by
    conv_rhs => rw [← List.map_id sel]
    exact List.map_congr_left fun p _ => canon_orig eps P xlp p
  rw [e1]
  have e2 : (fun c : Cont => if c.orig.2 < -eps then c.orig.2 * P.colUpper c.orig.1 else 0) ∘ canon eps P xlp =
      fun p => if p.2 < -eps then p.2 * P.colUpper p.1 else 0 := by
    funext p; simp only [Function.comp, canon_orig]
  rw [e2]
  have hint : ∀ p ∈ intEnts eps P coefs, IsInteger (x p.1) := fun p hp => by
    unfold intEnts at hp
    simp only [List.mem_filter, decide_eq_true_eq] at hp
    exact h.int p hp.1 hp.2.2
  obtain ⟨y, hy⟩ := int_sum _ hint
  have hb : ∀ p ∈ contEnts eps P coefs, _ := fun p hp =>
    canon_bounds h.eps_nonneg xlp (h.cont p hp).1 (h.cont p hp).2.1 (h.cont p hp).2.2
  -- the selected terms
  have hT1 : sel.dot x + (sel.map (canonRhs eps P)).sum ≤ (sel.map (Cont.coef ∘ canon eps P xlp)).sum := by
    rw [dot_eq_map, ← sum_add]
    exact sum_le _ _ _ fun p hp => (hb p (hsel.subset hp)).2.1
  have hT2 : sel.dot x + (sel.map (canonRhs eps P)).sum ≤
      (contEnts eps P coefs).dot x + ((contEnts eps P coefs).map (canonRhs eps P)).sum := by
    rw [dot_eq_map, dot_eq_map, ← sum_add, ← sum_add]
    exact sum_le_of_sublist _ hsel fun p hp => (hb p hp).1
  have hrow := h.row
  rw [split_dot h.eps_nonneg x coefs h.sep, dot_const _ hone, hy] at hrow
  have hcomp : -(sel.map (canonRhs eps P)).sum ≤
      (sel.map fun p => if p.2 < -eps then p.2 * P.colUpper p.1 else 0).sum := by
    rw [neg_le_iff_add_nonneg, ← sum_add]
    have := sum_le sel (fun _ => 0) (fun p => (if p.2 < -eps then p.2 * P.colUpper p.1 else 0) + canonRhs eps P p)
      (fun p hp => by have := (hb p (hsel.subset hp)).2.2; linarith)
    simpa using this
  have hcore := rescap_core hd y hT1 (b := rhs + ((contEnts eps P coefs).map (canonRhs eps P)).sum) (by linarith)
  have hi : ∀ r : ℚ, SVec.dot (List.map (fun p => (p.1, -r)) (intEnts eps P coefs)) x = -r * y := fun r => by
    rw [dot_const (d := -r)]
    · rw [List.map_map]
      have : ((fun p : Nat × ℚ => x p.1) ∘ fun p : Nat × ℚ => (p.1, -r)) = fun p => x p.1 := rfl
      rw [this, hy]
    · intro p hp
      obtain ⟨q, _, rfl⟩ := List.mem_map.mp hp
      rfl
  rw [hi]
  linarith

/-- A cut found by separation has no lower bound and holds. -/
theorem separation_valid {eps tol : ℚ} {P : Prob} {coefs : SVec} {rhs : ℚ} {xlp : Nat → ℚ} {c : RowCut}
    (hc : resCapSeparation eps tol P coefs rhs xlp = some c) :
    c.lb = -P.inf ∧ tol < c.row.dot xlp - c.ub ∧ ∀ x, Suit eps P coefs rhs x → c.row.dot x ≤ c.ub := by
  unfold resCapSeparation at hc
  simp only [List.length_eq_zero_iff] at hc
  split at hc
  · cases hc
  · split at hc
    · rename_i hv
      simp only [Option.some.injEq] at hc
      subst hc
      refine ⟨rfl, hv, fun x hx => ?_⟩
      rw [List.filter_map]
      exact buildCut_valid hx xlp _ List.filter_sublist
    · cases hc

/-! ### What preprocessing establishes -/

/-- What `treatScan` checks. -/
theorem treatScan_spec {eps : ℚ} (heps : 0 ≤ eps) {P : Prob} (l : SVec) {ic : Option ℚ} {cont : Bool} {ic' : Option ℚ} {cont' : Bool}
    (h : treatScan eps P l ic cont = some (ic', cont')) :
    (∀ p ∈ l, (p.2 > eps ∨ P.isInt p.1 = false) → -eps ≤ P.colLower p.1 ∧ P.colUpper p.1 ≤ 10 ^ 10) ∧
    (∀ c, ic = some c → ic' = some c) ∧
    (ic = none → ∀ c, ic' = some c → ∃ p ∈ l, p.2 < -eps ∧ ¬ (p.2 > eps ∨ P.isInt p.1 = false) ∧ p.2 = c) ∧
    (∀ p ∈ l, p.2 < -eps → ¬ (p.2 > eps ∨ P.isInt p.1 = false) → ∃ c, ic' = some c ∧ |p.2 - c| ≤ eps) := by
  induction l generalizing ic cont with
  | nil =>
    simp only [treatScan, Option.some.injEq, Prod.mk.injEq] at h
    rw [h.1]
    exact ⟨by simp, fun c hc => hc, fun h1 c h2 => by (rw [h1] at h2; cases h2), by simp⟩
  | cons p ps ih =>
    unfold treatScan at h
    by_cases hc : p.2 > eps ∨ P.isInt p.1 = false
    · rw [if_pos hc] at h
      by_cases hb : P.colLower p.1 < -eps ∨ P.colUpper p.1 > 10 ^ 10
      · rw [if_pos hb] at h; cases h
      · rw [if_neg hb] at h
        obtain ⟨i1, i2, i3, i4⟩ := ih h
        push Not at hb
        refine ⟨?_, i2, fun h1 c h2 => ?_, ?_⟩
        · intro q hq hq'
          rcases List.mem_cons.mp hq with rfl | hq
          · exact hb
          · exact i1 q hq hq'
        · obtain ⟨q, hq, hq'⟩ := i3 h1 c h2
          exact ⟨q, List.mem_cons_of_mem _ hq, hq'⟩
        · intro q hq hq1 hq2
          rcases List.mem_cons.mp hq with rfl | hq
          · exact absurd hc hq2
          · exact i4 q hq hq1 hq2
    · rw [if_neg hc] at h
      have step : ∀ {ic1 : Option ℚ}, treatScan eps P ps ic1 cont = some (ic', cont') →
          (∀ q ∈ p :: ps, (q.2 > eps ∨ P.isInt q.1 = false) → -eps ≤ P.colLower q.1 ∧ P.colUpper q.1 ≤ 10 ^ 10) := by
        intro ic1 h1 q hq hq'
        rcases List.mem_cons.mp hq with rfl | hq
        · exact absurd hq' hc
        · exact (ih h1).1 q hq hq'
      cases ic with
      | none =>
        simp only at h
        split at h
        · rename_i hp
          have hic := (ih h).2.1 p.2 rfl
          refine ⟨step h, by simp, fun _ c hcc => ⟨p, List.mem_cons_self .., hp, hc, ?_⟩, ?_⟩
          · rw [hic] at hcc; simpa using hcc
          · intro q hq hq1 hq2
            rcases List.mem_cons.mp hq with rfl | hq
            · exact ⟨_, hic, by simpa using heps⟩
            · exact (ih h).2.2.2 q hq hq1 hq2
        · rename_i hp
          refine ⟨step h, by simp, fun h1 c h2 => ?_, ?_⟩
          · obtain ⟨q, hq, hq'⟩ := (ih h).2.2.1 rfl c h2
            exact ⟨q, List.mem_cons_of_mem _ hq, hq'⟩
          · intro q hq hq1 hq2
            rcases List.mem_cons.mp hq with rfl | hq
            · exact absurd hq1 hp
            · exact (ih h).2.2.2 q hq hq1 hq2
      | some c =>
        simp only at h
        split at h
        · cases h
        · rename_i hp
          refine ⟨step h, fun c' hc' => (ih h).2.1 c' hc', by simp, ?_⟩
          intro q hq hq1 hq2
          rcases List.mem_cons.mp hq with rfl | hq
          · refine ⟨c, (ih h).2.1 c rfl, ?_⟩
            push Not at hp
            exact hp hq1
          · exact (ih h).2.2.2 q hq hq1 hq2

theorem treat_spec {eps : ℚ} (heps : 0 ≤ eps) {P : Prob} {l : SVec} (h : treatAsLessThan eps P l = true) :
    (∀ p ∈ l, (p.2 > eps ∨ P.isInt p.1 = false) → -eps ≤ P.colLower p.1 ∧ P.colUpper p.1 ≤ 10 ^ 10) ∧
    ∃ p ∈ l, p.2 < -eps ∧ P.isInt p.1 = true ∧ ∀ q ∈ l, q.2 < -eps → P.isInt q.1 = true → |q.2 - p.2| ≤ eps := by
  unfold treatAsLessThan at h
  split at h
  · rename_i c hs
    obtain ⟨h1, _, h3, h4⟩ := treatScan_spec heps l hs
    obtain ⟨p, hp, hp1, hp2, hp3⟩ := h3 rfl c rfl
    push Not at hp2
    refine ⟨h1, p, hp, hp1, by simpa using hp2.2, fun q hq hq1 hq2 => ?_⟩
    obtain ⟨c', e, he⟩ := h4 q hq hq1 (by push Not; exact ⟨by linarith, by simp [hq2]⟩)
    simp only [Option.some.injEq] at e
    rw [hp3, e]; exact he
  · cases h

end Cgl.ResCap
