import Verif.Knapsack.Data

/-!
# Rows with variable bounds substituted
-/

namespace Cgl.Knapsack

/-- Activity of the fixed columns. -/
def fixSum (P : Prob) (v : SVec) : ℚ := ((v.filter fun p => !decide (unfixed P p.1)).map fun p => P.colLower p.1 * p.2).sum

/-- The columns that can move. -/
def unf (P : Prob) (v : SVec) : SVec := v.filter fun p => decide (unfixed P p.1)

theorem fixSum_cons (P : Prob) (p : Nat × ℚ) (t : SVec) :
    fixSum P (p :: t) = (if unfixed P p.1 then 0 else P.colLower p.1 * p.2) + fixSum P t := by
  unfold fixSum
  by_cases h : unfixed P p.1 <;> simp [h]

theorem unf_cons (P : Prob) (p : Nat × ℚ) (t : SVec) (x : Nat → ℚ) :
    (unf P (p :: t)).dot x = (if unfixed P p.1 then p.2 * x p.1 else 0) + (unf P t).dot x := by
  unfold unf
  by_cases h : unfixed P p.1 <;> simp [h]

theorem dot_split {δ : ℚ} {P : Prob} (g : GridData δ P) {x : Nat → ℚ} (hx : Relaxed P x) : ∀ (v : SVec), (∀ p ∈ v, p.1 < P.nCols) →
    v.dot x = fixSum P v + (unf P v).dot x
  | [], _ => by simp [fixSum, unf]
  | p :: t, h => by
    have ih := dot_split g hx t fun q hq => h q (List.mem_cons_of_mem _ hq)
    rw [SVec.dot_cons, fixSum_cons, unf_cons, ih]
    by_cases hu : unfixed P p.1
    · simp only [hu, if_true]; ring
    · simp only [hu, if_false]
      have hp := h p List.mem_cons_self
      obtain ⟨o1, o2, o3⟩ := g.order p.1 hp
      have heq : P.colLower p.1 = P.colUpper p.1 := le_antisymm o1 (not_lt.mp hu)
      have h1 := hx.lower p.1 hp (by rw [heq]; exact o3)
      have h2 := hx.upper p.1 hp (by rw [← heq]; exact o2)
      have : x p.1 = P.colLower p.1 := le_antisymm (by rw [heq]; exact h2) h1
      rw [this]; ring

theorem fixSum_grid {δ : ℚ} {P : Prob} (g : GridData δ P) : ∀ (v : SVec), (∀ p ∈ v, p.1 < P.nCols) → (∀ p ∈ v, Grid δ p.2) →
    Grid δ (fixSum P v)
  | [], _, _ => by simpa [fixSum] using Grid.zero δ
  | p :: t, h, hg => by
    have ih := fixSum_grid g t (fun q hq => h q (List.mem_cons_of_mem _ hq)) (fun q hq => hg q (List.mem_cons_of_mem _ hq))
    rw [fixSum_cons]
    refine Grid.add ?_ ih
    split
    · exact Grid.zero δ
    · rename_i hu
      have hp := h p List.mem_cons_self
      obtain ⟨o1, o2, o3⟩ := g.order p.1 hp
      have heq : P.colLower p.1 = P.colUpper p.1 := le_antisymm o1 (not_lt.mp hu)
      exact Grid.imul (g.lower p.1 hp (by rw [heq]; exact o3)) (hg p List.mem_cons_self)

/-- Column taken for a binary by the scan. -/
def BinC (v : VB) (p : Nat × ℚ) : Prop := v.vubRow p.1 = -2 ∨ v.vlbRow p.1 = -2

theorem scanRow_spec (P : Prob) (xs : Nat → ℚ) (v : VB) (mult : ℚ) : ∀ (l : SVec) (s0 s : Scan), scanRow P xs v mult l s0 = s →
    s.up = s0.up - fixSum P l ∧ s.lo = s0.lo - fixSum P l ∧ s.sum = s0.sum + (unf P l).dot xs ∧ s0.nCont ≤ s.nCont ∧
    (s.nCont = s0.nCont → s.iCont = s0.iCont ∧ s.vCont = s0.vCont ∧ ∀ p ∈ l, unfixed P p.1 → BinC v p) ∧
    (s.nCont = s0.nCont + 1 → 0 ≤ s.iCont → ∃ (l1 : SVec) (j : Nat) (l2 : SVec), l = l1 ++ (j, s.vCont) :: l2 ∧ s.iCont = (j : ℤ) ∧ unfixed P j ∧
      v.vubRow j = -1 ∧ ∀ p ∈ l1 ++ l2, unfixed P p.1 → BinC v p) := by
  intro l
  induction l with
  | nil =>
    intro s0 s h
    simp only [scanRow] at h
    subst h
    refine ⟨by simp [fixSum], by simp [fixSum], by simp [unf], le_refl _, fun _ => ⟨rfl, rfl, by simp⟩, fun h => by omega⟩
  | cons q t ih =>
    obtain ⟨j, a⟩ := q
    intro s0 s h
    unfold scanRow at h
    rw [fixSum_cons, unf_cons]
    by_cases hu : P.colLower j < P.colUpper j
    · have hu' : unfixed P j := hu
      simp only [hu, if_true] at h
      simp only [hu', if_true]
      -- a column counted as binary
      have bin : BinC v (j, a) → ∀ s1 : Scan, s1.up = s0.up → s1.lo = s0.lo → s1.sum = s0.sum + xs j * a → s1.nCont = s0.nCont →
          s1.iCont = s0.iCont → s1.vCont = s0.vCont → scanRow P xs v mult t s1 = s →
          s.up = s0.up - (0 + fixSum P t) ∧ s.lo = s0.lo - (0 + fixSum P t) ∧ s.sum = s0.sum + (a * xs j + (unf P t).dot xs) ∧
          s0.nCont ≤ s.nCont ∧
          (s.nCont = s0.nCont → s.iCont = s0.iCont ∧ s.vCont = s0.vCont ∧ ∀ p ∈ (j, a) :: t, unfixed P p.1 → BinC v p) ∧
          (s.nCont = s0.nCont + 1 → 0 ≤ s.iCont → ∃ (l1 : SVec) (j' : Nat) (l2 : SVec), (j, a) :: t = l1 ++ (j', s.vCont) :: l2 ∧ s.iCont = (j' : ℤ) ∧
            unfixed P j' ∧ v.vubRow j' = -1 ∧ ∀ p ∈ l1 ++ l2, unfixed P p.1 → BinC v p) := by
        intro hb s1 e1 e2 e3 e4 e5 e6 hs
        obtain ⟨g1, g2, g3, g4, g5, g6⟩ := ih s1 s hs
        rw [e1] at g1; rw [e2] at g2; rw [e3] at g3; rw [e4] at g4 g5 g6; rw [e5, e6] at g5
        refine ⟨by rw [g1]; ring, by rw [g2]; ring, by rw [g3]; ring, g4, ?_, ?_⟩
        · intro hn
          obtain ⟨k1, k2, k3⟩ := g5 hn
          refine ⟨k1, k2, ?_⟩
          intro p hp
          rcases List.mem_cons.mp hp with rfl | hp
          · intro _; exact hb
          · exact k3 p hp
        · intro hn hi
          obtain ⟨l1, j', l2, k1, k2, k3, k4, k5⟩ := g6 hn hi
          refine ⟨(j, a) :: l1, j', l2, by rw [k1]; rfl, k2, k3, k4, ?_⟩
          intro p hp
          rcases List.mem_cons.mp hp with rfl | hp
          · intro _; exact hb
          · exact k5 p hp
      split at h
      · rename_i hb
        exact bin (Or.inl hb.1) ⟨s0.up, s0.lo, s0.sum + xs j * a, s0.nBin + 1, s0.nCont, s0.iCont, s0.vCont⟩ rfl rfl rfl rfl rfl rfl h
      · split at h
        · rename_i hb
          exact bin (Or.inr hb.1) ⟨s0.up, s0.lo, s0.sum + xs j * a, s0.nBin + 1, s0.nCont, s0.iCont, s0.vCont⟩ rfl rfl rfl rfl rfl rfl h
        · split at h
          · rename_i hb
            obtain ⟨g1, g2, g3, g4, g5, g6⟩ := ih _ s h
            simp only at g1 g2 g3 g4 g5 g6
            refine ⟨by rw [g1]; ring, by rw [g2]; ring, by rw [g3]; ring, by omega, fun hn => by omega, ?_⟩
            intro hn hi
            obtain ⟨k1, k2, k3⟩ := g5 hn
            refine ⟨[], j, t, by rw [k2]; rfl, k1, hu', hb, by simpa using k3⟩
          · obtain ⟨g1, g2, g3, g4, g5, g6⟩ := ih _ s h
            simp only at g1 g2 g3 g4 g5 g6
            refine ⟨by rw [g1]; ring, by rw [g2]; ring, by rw [g3]; ring, by omega, fun hn => by omega, ?_⟩
            intro hn hi
            obtain ⟨k1, k2, k3⟩ := g5 hn
            rw [k1] at hi
            omega
    · have hu' : ¬ unfixed P j := hu
      simp only [hu, if_false] at h
      simp only [hu', if_false]
      obtain ⟨g1, g2, g3, g4, g5, g6⟩ := ih _ s h
      simp only at g1 g2 g3 g4 g5 g6
      refine ⟨by rw [g1]; ring, by rw [g2]; ring, by rw [g3]; ring, g4, ?_, ?_⟩
      · intro hn
        obtain ⟨k1, k2, k3⟩ := g5 hn
        refine ⟨k1, k2, ?_⟩
        intro p hp
        rcases List.mem_cons.mp hp with rfl | hp
        · intro hh; exact absurd hh hu'
        · exact k3 p hp
      · intro hn hi
        obtain ⟨l1, j', l2, k1, k2, k3, k4, k5⟩ := g6 hn hi
        refine ⟨(j, a) :: l1, j', l2, by rw [k1]; rfl, k2, k3, k4, ?_⟩
        intro p hp
        rcases List.mem_cons.mp hp with rfl | hp
        · intro hh; exact absurd hh hu'
        · exact k5 p hp

/-- Row `r` bounds column `j`, with coefficient `w`, by free binaries. -/
def VBRow (P : Prob) (r : Row) (j : Nat) (w : ℚ) : Prop :=
  ∃ l1 l2, r.coefs = l1 ++ (j, w) :: l2 ∧ unfixed P j ∧ freeBinary P j = false ∧ ∀ p ∈ l1 ++ l2, unfixed P p.1 → freeBinary P p.1 = true

/-- Invariant of the scan of the rows. -/
structure VBInv (P : Prob) (n : Nat) (v : VB) : Prop where
  ub : ∀ j < P.nCols, v.vubRow j = -2 ↔ freeBinary P j = true
  lb : ∀ j < P.nCols, v.vlbRow j = -2 ↔ freeBinary P j = true
  fix : ∀ j < P.nCols, v.vubRow j = -10 ↔ ¬ unfixed P j
  ltu : ∀ j, v.vubRow j < n
  ltl : ∀ j, v.vlbRow j < n
  effU : ∀ i < n, ∀ r, P.rows[i]? = some r → v.effUp i = dblMax ∨ (v.effUp i = r.ub - fixSum P r.coefs ∧ r.ub < P.inf)
  effL : ∀ i < n, ∀ r, P.rows[i]? = some r → v.effLo i = -dblMax ∨ (v.effLo i = r.lb - fixSum P r.coefs ∧ -P.inf < r.lb)
  vb : ∀ i < n, ∀ r, P.rows[i]? = some r → ∀ j : Nat, v.vub i = j → ∃ w, VBRow P r j w ∧ (v.vubRow j = i → v.vubValue i = w) ∧
    (v.vlbRow j = i → v.vlbValue i = w)

theorem vbStart_spec {δ : ℚ} {P : Prob} (g : GridData δ P) {j : Nat} (hj : j < P.nCols) :
    (vbStart P j = -2 ↔ freeBinary P j = true) ∧ (vbStart P j = -10 ↔ ¬ unfixed P j) := by
  obtain ⟨o1, _, _⟩ := g.order j hj
  unfold vbStart
  have hfix : ¬ unfixed P j ↔ P.colUpper j = P.colLower j := by
    unfold unfixed
    constructor
    · intro h; exact le_antisymm (not_lt.mp h) o1
    · intro h; rw [h]; exact lt_irrefl _
  have hfb : freeBinary P j = true ↔ colType P j = 1 ∧ P.colUpper j ≠ P.colLower j := by
    rw [freeBinary_iff]
    unfold colType
    constructor
    · rintro ⟨h1, h2, h3⟩
      rw [if_pos h1, if_pos ⟨Or.inl h2, Or.inl h3⟩, h2, h3]
      exact ⟨rfl, by norm_num⟩
    · rintro ⟨h1, h2⟩
      split at h1
      · rename_i hi
        split at h1
        · rename_i hb
          refine ⟨hi, ?_⟩
          rcases hb.1 with e1 | e1 <;> rcases hb.2 with e2 | e2
          · exact ⟨e1, e2⟩
          · rw [e1, e2] at h2; exact absurd rfl h2
          · rw [e1, e2] at h2; exact absurd rfl h2
          · rw [e1, e2] at o1; norm_num at o1
        · omega
      · omega
  rw [hfix, hfb]
  split
  · rename_i hc
    split
    · rename_i hne; simp [hc, hne]
    · rename_i hne; push Not at hne; simp [hne]
  · rename_i hc
    split
    · rename_i he; simp [hc, he]
    · rename_i he; simp [hc, he]

theorem vbRow_inv {δ : ℚ} {P : Prob} (g : GridData δ P) (wf : P.WF) {xs : Nat → ℚ} (lp : LPPoint P xs) (pm : Params) {tol : ℚ}
    (htol : tol ≤ 10000) {v : VB} {n : Nat} {r : Row} (hr : P.rows[n]? = some r) (inv : VBInv P n v) :
    VBInv P (n + 1) (vbRow pm P xs tol v n r) := by
  have hrm : r ∈ P.rows := List.mem_of_getElem? hr
  have hcols := wf.cols r hrm
  unfold vbRow
  simp only
  generalize hs : scanRow P xs v (multiplier r) r.coefs ⟨r.ub, r.lb, 0, 0, 0, -1, 0⟩ = s
  obtain ⟨s1, s2, s3, s4, s5, s6⟩ := scanRow_spec P xs v (multiplier r) r.coefs _ s hs
  simp only [zero_add] at s1 s2 s3 s4 s5 s6
  have hact := lp.act r hrm
  have hdot := dot_split g lp.relaxed r.coefs hcols
  have hup : |s.sum - s.up| < tol → r.ub < P.inf := by
    intro h
    by_contra hc
    rw [s1, s3] at h
    have h1 := le_abs_self (r.coefs.dot xs)
    have h2 := neg_abs_le ((unf P r.coefs).dot xs - (r.ub - fixSum P r.coefs))
    linarith
  have hlo : |s.sum - s.lo| < tol → -P.inf < r.lb := by
    intro h
    by_contra hc
    rw [s2, s3] at h
    have h1 := neg_abs_le (r.coefs.dot xs)
    have h2 := le_abs_self ((unf P r.coefs).dot xs - (r.lb - fixSum P r.coefs))
    linarith
  -- a state that differs from `v` only in the entries of row `n`
  have base : ∀ w : VB, w.vubRow = v.vubRow → w.vlbRow = v.vlbRow → (∀ i, i ≠ n → w.vub i = v.vub i) → w.vub n < 0 →
      w.vubValue = v.vubValue → w.vlbValue = v.vlbValue →
      w.effUp = Function.update v.effUp n (if decide (|s.sum - s.up| < tol) = true then s.up else dblMax) →
      w.effLo = Function.update v.effLo n (if decide (|s.sum - s.lo| < tol) = true then s.lo else -dblMax) → VBInv P (n + 1) w := by
    intro w e1 e2 e3 e3' e4 e5 e6 e7
    refine ⟨?_, ?_, ?_, ?_, ?_, ?_, ?_, ?_⟩
    · rw [e1]; exact inv.ub
    · rw [e2]; exact inv.lb
    · rw [e1]; exact inv.fix
    · intro j; rw [e1]; have := inv.ltu j; push_cast; omega
    · intro j; rw [e2]; have := inv.ltl j; push_cast; omega
    · intro i hi r' hr'
      rw [e6]
      by_cases hin : i = n
      · subst hin
        rw [hr] at hr'
        simp only [Option.some.injEq] at hr'
        subst hr'
        rw [Function.update_self]
        split
        · rename_i h; simp only [decide_eq_true_eq] at h; right; exact ⟨s1, hup h⟩
        · left; rfl
      · rw [Function.update_of_ne hin]; exact inv.effU i (by omega) r' hr'
    · intro i hi r' hr'
      rw [e7]
      by_cases hin : i = n
      · subst hin
        rw [hr] at hr'
        simp only [Option.some.injEq] at hr'
        subst hr'
        rw [Function.update_self]
        split
        · rename_i h; simp only [decide_eq_true_eq] at h; right; exact ⟨s2, hlo h⟩
        · left; rfl
      · rw [Function.update_of_ne hin]; exact inv.effL i (by omega) r' hr'
    · intro i hi r' hr' j hj
      by_cases hin : i = n
      · subst hin; rw [hj] at e3'; omega
      · rw [e3 i hin] at hj
        rw [e1, e2, e4, e5]
        exact inv.vb i (by omega) r' hr' j hj
  have uself : ∀ (f : Nat → ℤ) (a : ℤ) (i : Nat), i ≠ n → Function.update f n a i = f i := fun f a i h => Function.update_of_ne h _ _
  split
  · rename_i hc1
    split
    · rename_i hc2
      obtain ⟨l1, j, l2, k1, k2, k3, k4, k5⟩ := s6 hc2.1 hc2.2.1
      have hjm : (j, s.vCont) ∈ r.coefs := by rw [k1]; simp
      have hjc : j < P.nCols := hcols _ hjm
      have hjf : freeBinary P j = false := by
        have := inv.ub j hjc
        cases hf : freeBinary P j
        · rfl
        · exfalso; have := this.mpr hf; omega
      have hlj : v.vlbRow j ≠ -2 := by
        intro h
        have := (inv.lb j hjc).mp h
        rw [hjf] at this; cases this
      have hvb : VBRow P r j s.vCont := by
        refine ⟨l1, l2, k1, k3, hjf, ?_⟩
        intro p hp hu
        have hpc : p.1 < P.nCols := by
          apply hcols
          rw [k1]
          rcases List.mem_append.mp hp with h | h
          · exact List.mem_append_left _ h
          · exact List.mem_append_right _ (List.mem_cons_of_mem _ h)
        rcases k5 p hp hu with h | h
        · exact (inv.ub p.1 hpc).mp h
        · exact (inv.lb p.1 hpc).mp h
      have hnat : s.iCont.toNat = j := by rw [k2]; simp
      have hu10 : ¬ v.vubRow j = -10 := by omega
      -- common facts
      have effU' : ∀ i < n + 1, ∀ r', P.rows[i]? = some r' →
          Function.update v.effUp n (if decide (|s.sum - s.up| < tol) = true then s.up else dblMax) i = dblMax ∨
          (Function.update v.effUp n (if decide (|s.sum - s.up| < tol) = true then s.up else dblMax) i = r'.ub - fixSum P r'.coefs ∧ r'.ub < P.inf) := by
        intro i hi r' hr'
        by_cases hin : i = n
        · subst hin
          rw [hr] at hr'
          simp only [Option.some.injEq] at hr'
          subst hr'
          rw [Function.update_self]
          split
          · rename_i h; simp only [decide_eq_true_eq] at h; right; exact ⟨s1, hup h⟩
          · left; rfl
        · rw [Function.update_of_ne hin]; exact inv.effU i (by omega) r' hr'
      have effL' : ∀ i < n + 1, ∀ r', P.rows[i]? = some r' →
          Function.update v.effLo n (if decide (|s.sum - s.lo| < tol) = true then s.lo else -dblMax) i = -dblMax ∨
          (Function.update v.effLo n (if decide (|s.sum - s.lo| < tol) = true then s.lo else -dblMax) i = r'.lb - fixSum P r'.coefs ∧ -P.inf < r'.lb) := by
        intro i hi r' hr'
        by_cases hin : i = n
        · subst hin
          rw [hr] at hr'
          simp only [Option.some.injEq] at hr'
          subst hr'
          rw [Function.update_self]
          split
          · rename_i h; simp only [decide_eq_true_eq] at h; right; exact ⟨s2, hlo h⟩
          · left; rfl
        · rw [Function.update_of_ne hin]; exact inv.effL i (by omega) r' hr'
      split
      · refine ⟨?_, ?_, ?_, ?_, ?_, effU', effL', ?_⟩
        · intro j' hj'
          simp only [hnat]
          by_cases hjj : j' = j
          · subst hjj; rw [Function.update_self, hjf]; simp
          · rw [Function.update_of_ne hjj]; exact inv.ub j' hj'
        · exact inv.lb
        · intro j' hj'
          simp only [hnat]
          by_cases hjj : j' = j
          · subst hjj; rw [Function.update_self]
            constructor
            · intro h; omega
            · intro h; exact absurd k3 h
          · rw [Function.update_of_ne hjj]; exact inv.fix j' hj'
        · intro j'
          simp only [hnat]
          by_cases hjj : j' = j
          · subst hjj; rw [Function.update_self]; push_cast; omega
          · rw [Function.update_of_ne hjj]; have := inv.ltu j'; push_cast; omega
        · intro j'; have := inv.ltl j'; simp only; push_cast; omega
        · intro i hi r' hr' j' hj'
          simp only [hnat] at hj' ⊢
          by_cases hin : i = n
          · subst hin
            rw [hr] at hr'
            simp only [Option.some.injEq] at hr'
            subst hr'
            rw [Function.update_self, k2] at hj'
            have : j = j' := by exact_mod_cast hj'
            subst this
            refine ⟨s.vCont, hvb, fun _ => Function.update_self _ _ _, fun h => ?_⟩
            have := inv.ltl j
            omega
          · rw [Function.update_of_ne hin, Function.update_of_ne hin] at hj'
            obtain ⟨w, w1, w2, w3⟩ := inv.vb i (by omega) r' hr' j' hj'
            refine ⟨w, w1, fun h => ?_, w3⟩
            rw [Function.update_of_ne hin]
            by_cases hjj : j' = j
            · subst hjj; rw [Function.update_self] at h; omega
            · rw [Function.update_of_ne hjj] at h; exact w2 h
      · refine ⟨?_, ?_, ?_, ?_, ?_, effU', effL', ?_⟩
        · exact inv.ub
        · intro j' hj'
          simp only [hnat]
          by_cases hjj : j' = j
          · subst hjj; rw [Function.update_self, hjf]; simp
          · rw [Function.update_of_ne hjj]; exact inv.lb j' hj'
        · exact inv.fix
        · intro j'; have := inv.ltu j'; simp only; push_cast; omega
        · intro j'
          simp only [hnat]
          by_cases hjj : j' = j
          · subst hjj; rw [Function.update_self]; push_cast; omega
          · rw [Function.update_of_ne hjj]; have := inv.ltl j'; push_cast; omega
        · intro i hi r' hr' j' hj'
          simp only [hnat] at hj' ⊢
          by_cases hin : i = n
          · subst hin
            rw [hr] at hr'
            simp only [Option.some.injEq] at hr'
            subst hr'
            rw [Function.update_self, k2] at hj'
            have : j = j' := by exact_mod_cast hj'
            subst this
            refine ⟨s.vCont, hvb, fun h => ?_, fun _ => Function.update_self _ _ _⟩
            have := inv.ltu j
            omega
          · rw [Function.update_of_ne hin, Function.update_of_ne hin] at hj'
            obtain ⟨w, w1, w2, w3⟩ := inv.vb i (by omega) r' hr' j' hj'
            refine ⟨w, w1, w2, fun h => ?_⟩
            rw [Function.update_of_ne hin]
            by_cases hjj : j' = j
            · subst hjj; rw [Function.update_self] at h; omega
            · rw [Function.update_of_ne hjj] at h; exact w3 h
    · split
      · exact base _ rfl rfl (fun i hi => uself _ _ i hi) (by simp) rfl rfl rfl rfl
      · exact base _ rfl rfl (fun i hi => by simp only; rw [uself _ _ i hi, uself _ _ i hi]) (by simp) rfl rfl rfl rfl
  · split
    · exact base _ rfl rfl (fun i hi => by simp only; rw [uself _ _ i hi, uself _ _ i hi]) (by simp) rfl rfl rfl rfl
    · exact base _ rfl rfl (fun i hi => uself _ _ i hi) (by simp) rfl rfl rfl rfl

theorem vbRows_inv {δ : ℚ} {P : Prob} (g : GridData δ P) (wf : P.WF) {xs : Nat → ℚ} (lp : LPPoint P xs) (pm : Params) {tol : ℚ}
    (htol : tol ≤ 10000) : ∀ (rows : List Row) (n : Nat) (v : VB), P.rows.drop n = rows → VBInv P n v →
    VBInv P (n + rows.length) (vbRows pm P xs tol rows n v) := by
  intro rows
  induction rows with
  | nil => intro n v _ inv; simpa [vbRows] using inv
  | cons r t ih =>
    intro n v hd inv
    have hr : P.rows[n]? = some r := by
      have : (P.rows.drop n)[0]? = some r := by rw [hd]; rfl
      rwa [List.getElem?_drop, Nat.add_zero] at this
    have ht : P.rows.drop (n + 1) = t := by
      rw [← List.drop_drop, hd]; rfl
    have := ih (n + 1) _ ht (vbRow_inv g wf lp pm htol hr inv)
    unfold vbRows
    rw [List.length_cons]
    have e : n + (t.length + 1) = n + 1 + t.length := by omega
    rw [e]; exact this

theorem vbTable_inv {δ : ℚ} {P : Prob} (g : GridData δ P) (wf : P.WF) {xs : Nat → ℚ} (lp : LPPoint P xs) (pm : Params) {tol : ℚ}
    (htol : tol ≤ 10000) : VBInv P P.rows.length (vbTable pm P xs tol) := by
  unfold vbTable
  have := vbRows_inv g wf lp pm htol P.rows 0 ⟨vbStart P, vbStart P, fun _ => -1, fun _ => 0, fun _ => 0, fun _ => 0, fun _ => 0, 0⟩
    (by simp) (by
    have hneg : ∀ j, vbStart P j < 0 := by
      intro j; unfold vbStart; split
      · split <;> norm_num
      · split <;> norm_num
    exact ⟨fun j hj => (vbStart_spec g hj).1, fun j hj => (vbStart_spec g hj).1, fun j hj => (vbStart_spec g hj).2,
      fun j => by have := hneg j; simpa using this, fun j => by have := hneg j; simpa using this,
      fun i hi => by omega, fun i hi => by omega, fun i hi => by omega⟩)
  simpa using this

/-! ## Substitution -/

theorem addCoef_dot (j : Nat) (d : ℚ) (x : Nat → ℚ) : ∀ (row : SVec), (addCoef j d row).dot x = row.dot x + d * x j
  | [] => by simp [addCoef]
  | (k, c) :: t => by
    unfold addCoef
    split
    · rename_i h; subst h; simp only [SVec.dot_cons]; ring
    · simp only [SVec.dot_cons, addCoef_dot j d x t]; ring

theorem addCoef_fst (j : Nat) (d : ℚ) : ∀ (row : SVec), (addCoef j d row).map Prod.fst = row.map Prod.fst ∨
    (j ∉ row.map Prod.fst ∧ (addCoef j d row).map Prod.fst = row.map Prod.fst ++ [j])
  | [] => by right; simp [addCoef]
  | (k, c) :: t => by
    unfold addCoef
    split
    · left; rfl
    · rename_i h
      rcases addCoef_fst j d t with e | ⟨e1, e2⟩
      · left; simp only [List.map_cons, e]
      · right
        refine ⟨?_, by simp only [List.map_cons, e2, List.cons_append]⟩
        simp only [List.map_cons, List.mem_cons, not_or]
        exact ⟨fun hh => h hh.symm, e1⟩

theorem addCoef_mem (j : Nat) (d : ℚ) : ∀ (row : SVec) (p : Nat × ℚ), p ∈ addCoef j d row →
    p ∈ row ∨ p = (j, d) ∨ ∃ c, (j, c) ∈ row ∧ p = (j, c + d)
  | [], p, h => by
    simp only [addCoef, List.mem_singleton] at h
    exact Or.inr (Or.inl h)
  | (k, c) :: t, p, h => by
    unfold addCoef at h
    split at h
    · rename_i hk
      subst hk
      rcases List.mem_cons.mp h with rfl | h
      · exact Or.inr (Or.inr ⟨c, by simp, rfl⟩)
      · exact Or.inl (List.mem_cons_of_mem _ h)
    · rcases List.mem_cons.mp h with rfl | h
      · exact Or.inl (by simp)
      · rcases addCoef_mem j d t p h with h | h | ⟨c', hc, e⟩
        · exact Or.inl (List.mem_cons_of_mem _ h)
        · exact Or.inr (Or.inl h)
        · exact Or.inr (Or.inr ⟨c', List.mem_cons_of_mem _ hc, e⟩)

/-- The row being built by the substitution: `r` is the row it started from. -/
structure SubOk (δ : ℚ) (P : Prob) (r : Row) (dSign : ℚ) (row : SVec) (b : ℚ) : Prop where
  cols : ∀ p ∈ row, p.1 < P.nCols
  nodup : (row.map Prod.fst).Nodup
  grid : ∀ p ∈ row, Grid δ p.2
  bgrid : Grid δ b
  orig : ∀ p ∈ row, freeBinary P p.1 = false → p.2 = 0 ∨ p ∈ r.coefs
  sound : ∀ x, Relaxed P x → dSign * (row.dot x - b) ≤ 0

theorem subBin_spec {δ : ℚ} {P : Prob} {v : VB} {n : Nat} (inv : VBInv P n v) {r : Row} (scale : ℚ) : ∀ (l row : SVec),
    (∀ p ∈ l, p.1 < P.nCols) → (∀ p ∈ l, Grid δ (scale * p.2)) → (∀ p ∈ row, p.1 < P.nCols) → (row.map Prod.fst).Nodup →
    (∀ p ∈ row, Grid δ p.2) → (∀ p ∈ row, freeBinary P p.1 = false → p.2 = 0 ∨ p ∈ r.coefs) →
    (∀ p ∈ subBin v scale l row, p.1 < P.nCols) ∧ ((subBin v scale l row).map Prod.fst).Nodup ∧
    (∀ p ∈ subBin v scale l row, Grid δ p.2) ∧ (∀ p ∈ subBin v scale l row, freeBinary P p.1 = false → p.2 = 0 ∨ p ∈ r.coefs) ∧
    ∀ x, (subBin v scale l row).dot x = row.dot x - scale * SVec.dot (l.filter fun p => freeBinary P p.1) x := by
  intro l
  induction l with
  | nil => intro row _ _ h3 h4 h5 h6; exact ⟨h3, h4, h5, h6, fun x => by simp [subBin]⟩
  | cons q t ih =>
    obtain ⟨j, e⟩ := q
    intro row h1 h2 h3 h4 h5 h6
    have hj : j < P.nCols := h1 (j, e) List.mem_cons_self
    have h1' : ∀ p ∈ t, p.1 < P.nCols := fun p hp => h1 p (List.mem_cons_of_mem _ hp)
    have h2' : ∀ p ∈ t, Grid δ (scale * p.2) := fun p hp => h2 p (List.mem_cons_of_mem _ hp)
    unfold subBin
    by_cases hb : v.vubRow j = -2
    · have hf := (inv.ub j hj).mp hb
      rw [if_pos hb]
      have hmem := addCoef_mem j (-(scale * e)) row
      have he : Grid δ (scale * e) := h2 (j, e) List.mem_cons_self
      have k1 : ∀ p ∈ addCoef j (-(scale * e)) row, p.1 < P.nCols := by
        intro p hp
        rcases hmem p hp with h | rfl | ⟨c, _, rfl⟩
        · exact h3 p h
        · exact hj
        · exact hj
      have k2 : ((addCoef j (-(scale * e)) row).map Prod.fst).Nodup := by
        rcases addCoef_fst j (-(scale * e)) row with e' | ⟨e1, e2⟩
        · rw [e']; exact h4
        · rw [e2]
          exact List.nodup_append.mpr ⟨h4, by simp, by intro a ha b hb hab; simp at hb; subst hb; subst hab; exact e1 ha⟩
      have k3 : ∀ p ∈ addCoef j (-(scale * e)) row, Grid δ p.2 := by
        intro p hp
        rcases hmem p hp with h | rfl | ⟨c, hc, rfl⟩
        · exact h5 p h
        · exact he.neg
        · exact (h5 _ hc).add he.neg
      have k4 : ∀ p ∈ addCoef j (-(scale * e)) row, freeBinary P p.1 = false → p.2 = 0 ∨ p ∈ r.coefs := by
        intro p hp hnf
        rcases hmem p hp with h | rfl | ⟨c, _, rfl⟩
        · exact h6 p h hnf
        · simp only [hf] at hnf; cases hnf
        · simp only [hf] at hnf; cases hnf
      obtain ⟨g1, g2, g3, g4, g5⟩ := ih _ h1' h2' k1 k2 k3 k4
      refine ⟨g1, g2, g3, g4, ?_⟩
      intro x
      rw [g5, addCoef_dot, List.filter_cons]
      simp only [hf, if_true, SVec.dot_cons]
      ring
    · rw [if_neg hb]
      obtain ⟨g1, g2, g3, g4, g5⟩ := ih row h1' h2' h3 h4 h5 h6
      refine ⟨g1, g2, g3, g4, ?_⟩
      intro x
      have hf : freeBinary P j = false := by
        cases hf : freeBinary P j
        · rfl
        · exact absurd ((inv.ub j hj).mpr hf) hb
      rw [g5, List.filter_cons]
      simp only [hf, Bool.false_eq_true, if_false]

/-- Coefficient of a column in a row (0 if it is not there). -/
theorem coef_cases (row : SVec) (j : Nat) :
    (((row.find? fun p => p.1 = j).map Prod.snd).getD 0 = 0) ∨ (j, ((row.find? fun p => p.1 = j).map Prod.snd).getD 0) ∈ row := by
  cases h : row.find? fun p => p.1 = j with
  | none => left; rfl
  | some p =>
    right
    have h1 := List.find?_some h
    have h2 := List.mem_of_find?_eq_some h
    simp only [decide_eq_true_eq] at h1
    subst h1
    exact h2

theorem zero_of_not_mem {row : SVec} {j : Nat} (h : j ∉ row.map Prod.fst) : zeroCoef j row = row := by
  unfold zeroCoef
  conv_rhs => rw [← List.map_id row]
  apply List.map_congr_left
  intro p hp
  have : p.1 ≠ j := by
    rintro rfl
    exact h (List.mem_map_of_mem hp)
  rw [if_neg this]; rfl

theorem zeroCoef_dot (j : Nat) (x : Nat → ℚ) : ∀ (row : SVec), (row.map Prod.fst).Nodup →
    (zeroCoef j row).dot x = row.dot x - ((row.find? fun p => p.1 = j).map Prod.snd).getD 0 * x j
  | [], _ => by simp [zeroCoef]
  | (k, c) :: t, h => by
    have hn := List.nodup_cons.mp h
    have ih := zeroCoef_dot j x t hn.2
    have e : zeroCoef j ((k, c) :: t) = (if k = j then (k, (0 : ℚ)) else (k, c)) :: zeroCoef j t := rfl
    rw [e, List.find?_cons]
    by_cases hk : k = j
    · subst hk
      rw [zero_of_not_mem hn.1]
      simp
    · simp only [hk, if_false, decide_false, SVec.dot_cons, ih]
      ring

theorem zeroCoef_fst (j : Nat) (row : SVec) : (zeroCoef j row).map Prod.fst = row.map Prod.fst := by
  unfold zeroCoef
  rw [List.map_map]
  apply List.map_congr_left
  intro p _
  simp only [Function.comp]
  split <;> rfl

theorem zeroCoef_mem {j : Nat} {row : SVec} {p : Nat × ℚ} (h : p ∈ zeroCoef j row) : (∃ q ∈ row, q.1 = p.1) ∧ (p.2 = 0 ∨ p ∈ row) := by
  obtain ⟨q, hq, e⟩ := List.mem_map.mp h
  split at e
  · subst e; exact ⟨⟨q, hq, rfl⟩, Or.inl rfl⟩
  · subst e; exact ⟨⟨q, hq, rfl⟩, Or.inr hq⟩

/-- What a variable-bound row says: its moving part is the bounded column plus the free binaries. -/
theorem VBRow.unf_dot {P : Prob} {r : Row} {j : Nat} {w : ℚ} (h : VBRow P r j w) (x : Nat → ℚ) :
    (unf P r.coefs).dot x = w * x j + SVec.dot (r.coefs.filter fun p => freeBinary P p.1) x := by
  obtain ⟨l1, l2, e, hu, hf, hb⟩ := h
  have key : ∀ l : SVec, (∀ p ∈ l, unfixed P p.1 → freeBinary P p.1 = true) → unf P l = l.filter fun p => freeBinary P p.1 := by
    intro l hl
    unfold unf
    apply List.filter_congr
    intro p hp
    by_cases h : unfixed P p.1
    · simp [h, hl p hp h]
    · have : freeBinary P p.1 = false := by
        cases hfb : freeBinary P p.1
        · rfl
        · obtain ⟨_, h1, h0⟩ := freeBinary_iff.mp hfb
          exact absurd (by unfold unfixed; rw [h1, h0]; norm_num) h
      simp [h, this]
  have k1 := key l1 fun p hp => hb p (List.mem_append_left _ hp)
  have k2 := key l2 fun p hp => hb p (List.mem_append_right _ hp)
  rw [e]
  have e1 : unf P (l1 ++ (j, w) :: l2) = unf P l1 ++ (j, w) :: unf P l2 := by
    unfold unf
    rw [List.filter_append, List.filter_cons]
    simp [hu]
  rw [e1, k1, k2, List.filter_append, List.filter_cons]
  simp only [hf, Bool.false_eq_true, if_false, SVec.dot_append, SVec.dot_cons]
  ring

theorem big_lt_dblMax : (10 : ℚ) ^ 20 < dblMax := by decide +kernel

theorem vbChoice_spec {P : Prob} {v : VB} (inv : VBInv P P.rows.length v) {dSign : ℚ} {i j : Nat} {c : ℚ} {kind : ℤ} {jr : Nat}
    {vb : ℚ} (h : vbChoice v dSign i j c = some (kind, jr, vb)) :
    ∃ r', P.rows[jr]? = some r' ∧ VBRow P r' j vb ∧ kind = vbKind v jr vb (decide (0 < dSign * c)) ∧ kind ≠ 0 := by
  have row : ∀ jr < P.rows.length, ∃ r', P.rows[jr]? = some r' := fun jr hjr => ⟨P.rows[jr], List.getElem?_eq_getElem hjr⟩
  have second : (if 0 ≤ v.vubRow j then
      if v.vub (v.vubRow j).toNat = j ∧ (v.vubRow j).toNat ≠ i then
        if vbKind v (v.vubRow j).toNat (v.vubValue (v.vubRow j).toNat) (decide (0 < dSign * c)) = 0 then none
        else some (vbKind v (v.vubRow j).toNat (v.vubValue (v.vubRow j).toNat) (decide (0 < dSign * c)), (v.vubRow j).toNat,
          v.vubValue (v.vubRow j).toNat)
      else none
    else none) = some (kind, jr, vb) →
      ∃ r', P.rows[jr]? = some r' ∧ VBRow P r' j vb ∧ kind = vbKind v jr vb (decide (0 < dSign * c)) ∧ kind ≠ 0 := by
    intro h
    split at h
    · rename_i h0
      split at h
      · rename_i h1
        split at h
        · cases h
        · rename_i h2
          simp only [Option.some.injEq, Prod.mk.injEq] at h
          obtain ⟨e1, e2, e3⟩ := h
          have hlt := inv.ltu j
          rw [e2] at e1 e3 h1 h2
          obtain ⟨r', hr'⟩ := row jr (by omega)
          obtain ⟨w, w1, w2, w3⟩ := inv.vb jr (by omega) r' hr' j h1.1
          have : v.vubValue jr = w := w2 (by omega)
          rw [this] at e3; subst e3
          rw [this] at e1 h2
          exact ⟨r', hr', w1, e1.symm, by rw [← e1]; exact h2⟩
      · cases h
    · cases h
  unfold vbChoice at h
  simp only at h
  split at h
  · rename_i rr hc
    simp only [Option.some.injEq] at h
    subst h
    split at hc
    · rename_i h0
      split at hc
      · rename_i h1
        split at hc
        · cases hc
        · rename_i h2
          simp only [Option.some.injEq, Prod.mk.injEq] at hc
          obtain ⟨e1, e2, e3⟩ := hc
          have hlt := inv.ltl j
          rw [e2] at e1 e3 h1 h2
          obtain ⟨r', hr'⟩ := row jr (by omega)
          obtain ⟨w, w1, w2, w3⟩ := inv.vb jr (by omega) r' hr' j h1.1
          have : v.vlbValue jr = w := w3 (by omega)
          rw [this] at e3; subst e3
          rw [this] at e1 h2
          exact ⟨r', hr', w1, e1.symm, by rw [← e1]; exact h2⟩
      · cases hc
    · cases hc
  · exact second h

theorem replaceAll_spec {δ : ℚ} {P : Prob} (g : GridData δ P) (wf : P.WF) {v : VB} (inv : VBInv P P.rows.length v) {r : Row}
    (hr : r ∈ P.rows) {dSign : ℚ} (i : Nat) : ∀ (todo row : SVec) (b : ℚ) (n : Nat) (row' : SVec) (b' : ℚ) (n' : Nat),
    SubOk δ P r dSign row b → replaceAll P v dSign i todo (row, b, n) = (row', b', n') → SubOk δ P r dSign row' b' := by
  intro todo
  induction todo with
  | nil =>
    intro row b n row' b' n' ok h
    simp only [replaceAll, Prod.mk.injEq] at h
    obtain ⟨rfl, rfl, _⟩ := h
    exact ok
  | cons q t ih =>
    obtain ⟨j, a⟩ := q
    intro row b n row' b' n' ok h
    unfold replaceAll at h
    simp only at h
    generalize hcdef : ((row.find? fun p => p.1 = j).map Prod.snd).getD 0 = c at h
    cases hch : vbChoice v dSign i j c with
    | none => rw [hch] at h; exact ih _ _ _ _ _ _ ok h
    | some kk =>
      obtain ⟨kind, jr, vb⟩ := kk
      rw [hch] at h
      simp only at h
      refine ih _ _ _ _ _ _ ?_ h
      obtain ⟨r', hr', hvb, hk, hk0⟩ := vbChoice_spec inv hch
      have hrm : r' ∈ P.rows := List.mem_of_getElem? hr'
      have hjr : jr < P.rows.length := by
        by_contra hc
        rw [List.getElem?_eq_none (by omega)] at hr'; cases hr'
      rw [hr']
      simp only [Option.map_some, Option.getD_some]
      obtain ⟨l1, l2, e, hu, hf, hb⟩ := id hvb
      have hvm : (j, vb) ∈ r'.coefs := by rw [e]; simp
      have hvb0 : vb ≠ 0 := g.nz r' hrm _ hvm
      have hsc : IsInteger (c / vb) := by
        rcases coef_cases row j with h0 | hm
        · rw [hcdef] at h0; rw [h0]; exact ⟨0, by simp⟩
        · rw [hcdef] at hm
          rcases ok.orig _ hm hf with h0 | hm
          · simp only at h0; rw [h0]; exact ⟨0, by simp⟩
          · refine g.ratio r hr r' hrm j c vb hm hvm hf hu ?_
            intro p hp hpj hpu
            rw [e] at hp
            rcases List.mem_append.mp hp with h1 | h1
            · exact hb p (List.mem_append_left _ h1) hpu
            · rcases List.mem_cons.mp h1 with rfl | h1
              · exact absurd rfl hpj
              · exact hb p (List.mem_append_right _ h1) hpu
      have hz0 : (zeroCoef j row).map Prod.fst = row.map Prod.fst := zeroCoef_fst j row
      obtain ⟨g1, g2, g3, g4, g5⟩ := subBin_spec (δ := δ) inv (r := r) (c / vb) r'.coefs (zeroCoef j row) (wf.cols r' hrm)
        (fun p hp => Grid.imul hsc (g.coef r' hrm p hp))
        (fun p hp => by
          obtain ⟨⟨q, hq, e⟩, _⟩ := zeroCoef_mem hp
          rw [← e]; exact ok.cols q hq)
        (by rw [hz0]; exact ok.nodup)
        (fun p hp => by
          rcases (zeroCoef_mem hp).2 with h | h
          · rw [h]; exact Grid.zero δ
          · exact ok.grid p h)
        (fun p hp hpf => by
          rcases (zeroCoef_mem hp).2 with h | h
          · exact Or.inl h
          · exact ok.orig p h hpf)
      have hfg := fixSum_grid g r'.coefs (wf.cols r' hrm) (g.coef r' hrm)
      -- the right-hand side that is used
      have hrhs : Grid δ (if kind < 0 then v.effLo jr else v.effUp jr) ∧ ∀ x, Relaxed P x →
          0 ≤ dSign * (c / vb) * ((unf P r'.coefs).dot x - (if kind < 0 then v.effLo jr else v.effUp jr)) := by
        have low : -(10 ^ 20) < v.effLo jr → Grid δ (v.effLo jr) ∧ ∀ x, Relaxed P x → v.effLo jr ≤ (unf P r'.coefs).dot x := by
          intro hl
          rcases inv.effL jr hjr r' hr' with h | ⟨h1, h2⟩
          · have := big_lt_dblMax; linarith
          · refine ⟨by rw [h1]; exact (g.rlb r' hrm h2).sub hfg, ?_⟩
            intro x hx
            have h3 := (hx.rows r' hrm).1 h2
            rw [dot_split g hx r'.coefs (wf.cols r' hrm)] at h3
            rw [h1]; linarith
        have upp : v.effUp jr < 10 ^ 20 → Grid δ (v.effUp jr) ∧ ∀ x, Relaxed P x → (unf P r'.coefs).dot x ≤ v.effUp jr := by
          intro hl
          rcases inv.effU jr hjr r' hr' with h | ⟨h1, h2⟩
          · have := big_lt_dblMax; linarith
          · refine ⟨by rw [h1]; exact (g.rub r' hrm h2).sub hfg, ?_⟩
            intro x hx
            have h3 := (hx.rows r' hrm).2 h2
            rw [dot_split g hx r'.coefs (wf.cols r' hrm)] at h3
            rw [h1]; linarith
        have assoc : dSign * (c / vb) = dSign * c / vb := by ring
        rw [assoc]
        unfold vbKind at hk
        by_cases hw : 0 < dSign * c
        · simp only [hw, decide_true, if_true] at hk
          split at hk
          · rename_i hc
            have hkn : kind < 0 := by omega
            simp only [hkn, if_true]
            obtain ⟨q1, q2⟩ := low hc.1
            exact ⟨q1, fun x hx => mul_nonneg (div_nonneg hw.le hc.2.le) (by have := q2 x hx; linarith)⟩
          · split at hk
            · rename_i hc
              have hkn : ¬ kind < 0 := by omega
              simp only [hkn, if_false]
              obtain ⟨q1, q2⟩ := upp hc.1
              exact ⟨q1, fun x hx => mul_nonneg_of_nonpos_of_nonpos (div_nonpos_of_nonneg_of_nonpos hw.le hc.2.le)
                (by have := q2 x hx; linarith)⟩
            · exact absurd hk hk0
        · simp only [hw, decide_false, Bool.false_eq_true, if_false] at hk
          push Not at hw
          split at hk
          · rename_i hc
            have hkn : kind < 0 := by omega
            simp only [hkn, if_true]
            obtain ⟨q1, q2⟩ := low hc.1
            exact ⟨q1, fun x hx => mul_nonneg (div_nonneg_of_nonpos hw hc.2.le) (by have := q2 x hx; linarith)⟩
          · split at hk
            · rename_i hc
              have hkn : ¬ kind < 0 := by omega
              simp only [hkn, if_false]
              obtain ⟨q1, q2⟩ := upp hc.1
              exact ⟨q1, fun x hx => mul_nonneg_of_nonpos_of_nonpos (div_nonpos_of_nonpos_of_nonneg hw hc.2.le)
                (by have := q2 x hx; linarith)⟩
            · exact absurd hk hk0
      refine ⟨g1, g2, g3, ok.bgrid.sub (Grid.imul hsc hrhs.1), g4, ?_⟩
      intro x hx
      rw [g5, zeroCoef_dot j x row ok.nodup, hcdef]
      have h1 := ok.sound x hx
      have h2 := hrhs.2 x hx
      rw [hvb.unf_dot] at h2
      generalize (if kind < 0 then v.effLo jr else v.effUp jr) = u at h2 ⊢
      generalize SVec.dot (r'.coefs.filter fun p => freeBinary P p.1) x = bx at h2 ⊢
      have h3 : c / vb * (vb * x j) = c * x j := by field_simp
      have h4 : dSign * (row.dot x - c * x j - c / vb * bx - (b - c / vb * u)) =
          dSign * (row.dot x - b) - dSign * (c / vb) * (vb * x j + bx - u) := by
        have : dSign * (c / vb) * (vb * x j + bx - u) = dSign * (c / vb * (vb * x j)) + dSign * (c / vb) * (bx - u) := by ring
        rw [this, h3]; ring
      rw [h4]; linarith

theorem dot_nonzero : ∀ (row : SVec) (x : Nat → ℚ), SVec.dot (row.filter fun p => decide (p.2 ≠ 0)) x = row.dot x
  | [], _ => rfl
  | q :: t, x => by
    have ih := dot_nonzero t x
    rw [List.filter_cons]
    by_cases hq : q.2 = 0
    · rw [if_neg (by simp [hq]), ih, SVec.dot_cons, hq]; ring
    · rw [if_pos (by simp [hq]), SVec.dot_cons, SVec.dot_cons, ih]

/-- The rows handed to `derive` are implied by the problem. -/
theorem tryRow_spec {δ : ℚ} {P : Prob} (g : GridData δ P) (wf : P.WF) {v : VB} (inv : VBInv P P.rows.length v) {r : Row} {i : Nat}
    (hr : P.rows[i]? = some r) {pm : Params} {itry : Nat} (h4 : itry < 4) {row : SVec} {b : ℚ} (h : tryRow pm P v i r itry = some (row, b)) :
    RowOk δ P row b ∧ ∀ x, Relaxed P x → Holds (decide (itry % 2 = 1)) row b x := by
  have hrm : r ∈ P.rows := List.mem_of_getElem? hr
  have hir : i < P.rows.length := by
    by_contra hc
    rw [List.getElem?_eq_none (by omega)] at hr; cases hr
  have hfg := fixSum_grid g r.coefs (wf.cols r hrm) (g.coef r hrm)
  have hU := inv.effU i hir r hr
  have hL := inv.effL i hir r hr
  unfold tryRow at h
  simp only at h
  generalize heffd : (if itry % 2 = 0 then v.effLo i else v.effUp i) = eff at h
  split at h
  · cases h
  rename_i heff
  push Not at heff
  have hL' : itry % 2 = 0 → v.effLo i = r.lb - fixSum P r.coefs ∧ -P.inf < r.lb := by
    intro he
    rw [← heffd, if_pos he] at heff
    rcases hL with h | h
    · rw [h, abs_neg, abs_of_pos dblMax_pos] at heff
      have := big_lt_dblMax; linarith
    · exact h
  have hU' : ¬ itry % 2 = 0 → v.effUp i = r.ub - fixSum P r.coefs ∧ r.ub < P.inf := by
    intro he
    rw [← heffd, if_neg he] at heff
    rcases hU with h | h
    · rw [h, abs_of_pos dblMax_pos] at heff
      have := big_lt_dblMax; linarith
    · exact h
  split at h
  · rename_i h2
    simp only [Option.some.injEq, Prod.mk.injEq] at h
    obtain ⟨rfl, rfl⟩ := h
    have e : itry = 0 ∨ itry = 1 := by omega
    rcases e with rfl | rfl
    · obtain ⟨_, q⟩ := hL' rfl
      refine ⟨⟨wf.cols r hrm, wf.nodup r hrm, g.nz r hrm, g.coef r hrm, g.rlb r hrm q⟩, ?_⟩
      intro x hx
      exact (hx.rows r hrm).1 q
    · obtain ⟨_, q⟩ := hU' (by omega)
      refine ⟨⟨wf.cols r hrm, wf.nodup r hrm, g.nz r hrm, g.coef r hrm, g.rub r hrm q⟩, ?_⟩
      intro x hx
      exact (hx.rows r hrm).2 q
  · rename_i h2
    generalize hrow0 : (r.coefs.map fun p => if v.vubRow p.1 = -10 then (p.1, (0 : ℚ)) else p) = row0 at h
    generalize hd : (if itry = 2 then (-1 : ℚ) else 1) = dSign at h
    have hmem : ∀ p ∈ row0, (∃ q ∈ r.coefs, q.1 = p.1) ∧ (p.2 = 0 ∨ p ∈ r.coefs) := by
      intro p hp
      rw [← hrow0] at hp
      obtain ⟨q, hq, e⟩ := List.mem_map.mp hp
      split at e
      · subst e; exact ⟨⟨q, hq, rfl⟩, Or.inl rfl⟩
      · subst e; exact ⟨⟨q, hq, rfl⟩, Or.inr hq⟩
    have hdot : ∀ x, SVec.dot row0 x = (unf P r.coefs).dot x := by
      intro x
      rw [← hrow0]
      have : ∀ l : SVec, (∀ p ∈ l, p.1 < P.nCols) →
          SVec.dot (l.map fun p => if v.vubRow p.1 = -10 then (p.1, (0 : ℚ)) else p) x = (unf P l).dot x := by
        intro l
        induction l with
        | nil => intro _; rfl
        | cons q t ih =>
          intro hl
          rw [unf_cons, List.map_cons, SVec.dot_cons, ih fun p hp => hl p (List.mem_cons_of_mem _ hp)]
          have hq := inv.fix q.1 (hl q List.mem_cons_self)
          by_cases hu : unfixed P q.1
          · rw [if_pos hu, if_neg (fun hh => absurd hu (hq.mp hh))]
          · rw [if_neg hu, if_pos (hq.mpr hu)]; simp
      exact this r.coefs (wf.cols r hrm)
    have hfst : row0.map Prod.fst = r.coefs.map Prod.fst := by
      rw [← hrow0, List.map_map]
      apply List.map_congr_left
      intro p _
      simp only [Function.comp]
      split <;> rfl
    have start : SubOk δ P r dSign row0 eff := by
      refine ⟨?_, by rw [hfst]; exact wf.nodup r hrm, ?_, ?_, fun p hp _ => (hmem p hp).2, ?_⟩
      · intro p hp
        obtain ⟨⟨q, hq, e⟩, _⟩ := hmem p hp
        rw [← e]; exact wf.cols r hrm q hq
      · intro p hp
        rcases (hmem p hp).2 with h | h
        · rw [h]; exact Grid.zero δ
        · exact g.coef r hrm p h
      · rw [← heffd]
        split
        · rename_i he; obtain ⟨q1, q2⟩ := hL' he; rw [q1]; exact (g.rlb r hrm q2).sub hfg
        · rename_i he; obtain ⟨q1, q2⟩ := hU' he; rw [q1]; exact (g.rub r hrm q2).sub hfg
      · intro x hx
        have hs := dot_split g hx r.coefs (wf.cols r hrm)
        rw [hdot, ← heffd, ← hd]
        have e : itry = 2 ∨ itry = 3 := by omega
        rcases e with rfl | rfl
        · obtain ⟨q1, q2⟩ := hL' rfl
          have h3 := (hx.rows r hrm).1 q2
          simp only [if_true]
          rw [q1]
          linarith
        · obtain ⟨q1, q2⟩ := hU' (by omega)
          have h3 := (hx.rows r hrm).2 q2
          rw [if_neg (by norm_num), if_neg (by norm_num), q1]
          linarith
    generalize hra : replaceAll P v dSign i r.coefs (row0, eff, 0) = res at h
    obtain ⟨row', b', n'⟩ := res
    have ok := replaceAll_spec g wf inv hrm i _ _ _ _ _ _ _ start hra
    simp only at h
    split at h
    · cases h
    · split at h
      · cases h
      · simp only [Option.some.injEq, Prod.mk.injEq] at h
        obtain ⟨rfl, rfl⟩ := h
        have hfd := dot_nonzero row'
        refine ⟨⟨?_, ?_, ?_, ?_, ok.bgrid⟩, ?_⟩
        · intro p hp; exact ok.cols p (List.mem_of_mem_filter hp)
        · exact ok.nodup.sublist (List.filter_sublist.map _)
        · intro p hp; simpa using (List.mem_filter.mp hp).2
        · intro p hp; exact ok.grid p (List.mem_of_mem_filter hp)
        · intro x hx
          have hs := ok.sound x hx
          unfold Holds
          rw [hfd]
          have e : itry = 2 ∨ itry = 3 := by omega
          rcases e with rfl | rfl
          · simp only [if_true] at hd
            subst hd
            simp
            linarith
          · rw [if_neg (by norm_num)] at hd
            subst hd
            simp
            linarith

end Cgl.Knapsack
