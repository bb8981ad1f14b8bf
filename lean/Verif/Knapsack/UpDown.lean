import Verif.Knapsack.Lite
import Verif.Knapsack.Lift
import Mathlib.Data.List.Perm.Subperm

/-!
# `liftUpDownAndUncomplementAndAdd` gives valid inequalities
-/

namespace Cgl.Knapsack

/-- Left-hand side of a lifted inequality. -/
def aval (items : List Lifted) (y : Nat → ℚ) : ℚ := (items.map fun i => i.alpha * y i.col).sum
/-- Weight of the items. -/
def wval (items : List Lifted) (y : Nat → ℚ) : ℚ := (items.map fun i => i.a * y i.col).sum
/-- Sum of the values. -/
def asum (items : List Lifted) : ℚ := (items.map Lifted.alpha).sum
/-- Sum of the weights. -/
def wsum (items : List Lifted) : ℚ := (items.map Lifted.a).sum

theorem aval_perm {l m : List Lifted} (h : l.Perm m) (y : Nat → ℚ) : aval l y = aval m y := (h.map _).sum_eq
theorem wval_perm {l m : List Lifted} (h : l.Perm m) (y : Nat → ℚ) : wval l y = wval m y := (h.map _).sum_eq
theorem asum_perm {l m : List Lifted} (h : l.Perm m) : asum l = asum m := (h.map _).sum_eq
theorem wsum_perm {l m : List Lifted} (h : l.Perm m) : wsum l = wsum m := (h.map _).sum_eq

theorem aval_snoc (l : List Lifted) (i : Lifted) (y : Nat → ℚ) : aval (l ++ [i]) y = aval l y + i.alpha * y i.col := by
  simp [aval]
theorem wval_snoc (l : List Lifted) (i : Lifted) (y : Nat → ℚ) : wval (l ++ [i]) y = wval l y + i.a * y i.col := by
  simp [wval]

/-- The items of `exactSolveKnapsack`. -/
def pw (items : List Lifted) : List (ℚ × ℚ) := items.map fun i => (i.alpha, i.a)

/-- A 0-1 vector as a choice. -/
theorem sel_of_y : ∀ (items : List Lifted) (y : Nat → ℚ), (∀ i ∈ items, y i.col = 0 ∨ y i.col = 1) →
    ∃ sol : List Bool, sol.length = (pw items).length ∧ weight (pw items) sol = wval items y ∧ value (pw items) sol = aval items y
  | [], y, _ => ⟨[], by simp [pw], by simp [pw, weight, wval], by simp [pw, value, aval]⟩
  | i :: t, y, h => by
    obtain ⟨sol, h1, h2, h3⟩ := sel_of_y t y (fun j hj => h j (List.mem_cons_of_mem _ hj))
    simp only [pw] at h1 h2 h3
    refine ⟨decide (y i.col = 1) :: sol, by simp only [pw, List.length_cons, List.map_cons]; rw [h1], ?_, ?_⟩
    · simp only [pw, List.map_cons, weight, h2, wval, List.sum_cons]
      rcases h i List.mem_cons_self with h | h <;> simp [h]
    · simp only [pw, List.map_cons, value, h3, aval, List.sum_cons]
      rcases h i List.mem_cons_self with h | h <;> simp [h]

/-- A sublist as a choice. -/
theorem sel_of_sub {l items : List Lifted} (h : l.Sublist items) :
    ∃ sol : List Bool, sol.length = (pw items).length ∧ weight (pw items) sol = wsum l ∧ value (pw items) sol = asum l := by
  induction h with
  | slnil => exact ⟨[], by simp [pw], by simp [pw, weight, wsum], by simp [pw, value, asum]⟩
  | @cons l m i _ ih =>
    obtain ⟨sol, h1, h2, h3⟩ := ih
    simp only [pw] at h1 h2 h3
    exact ⟨false :: sol, by simp only [pw, List.length_cons, List.map_cons]; rw [h1], by simp [pw, weight, h2],
      by simp [pw, value, h3]⟩
  | @cons_cons l m i _ ih =>
    obtain ⟨sol, h1, h2, h3⟩ := ih
    simp only [pw] at h1 h2 h3
    exact ⟨true :: sol, by simp only [pw, List.length_cons, List.map_cons]; rw [h1], by simp [pw, weight, h2, wsum],
      by simp [pw, value, h3, asum]⟩

/-- A choice as a sublist. -/
theorem sub_of_sel : ∀ (items : List Lifted) (sol : List Bool), sol.length = (pw items).length →
    ∃ l : List Lifted, l.Sublist items ∧ wsum l = weight (pw items) sol ∧ asum l = value (pw items) sol
  | [], sol, _ => ⟨[], List.Sublist.slnil, by simp [pw, weight, wsum], by simp [pw, value, asum]⟩
  | i :: t, [], h => by simp [pw] at h
  | i :: t, b :: sol, h => by
    obtain ⟨l, h1, h2, h3⟩ := sub_of_sel t sol (by simpa [pw] using h)
    simp only [pw] at h2 h3
    cases b
    · exact ⟨l, h1.cons _, by simp [pw, weight, h2], by simp [pw, value, h3]⟩
    · refine ⟨i :: l, h1.cons_cons _, ?_, ?_⟩
      · simp only [pw, List.map_cons, weight, ← h2, wsum, List.sum_cons, if_true]
      · simp only [pw, List.map_cons, value, ← h3, asum, List.sum_cons, if_true]

/-- Items on which `exactSolveKnapsack` is exact. -/
structure IOk (items : List Lifted) : Prop where
  w : ∀ i ∈ items, 0 < i.a
  p : ∀ i ∈ items, 0 ≤ i.alpha
  int : ∀ i ∈ items, IsInteger i.alpha
  ratio : ∀ i ∈ items, i.ratio = i.alpha / i.a
  sorted : items.Pairwise fun i j => j.ratio ≤ i.ratio

theorem IOk.good {items : List Lifted} (h : IOk items) : Good (pw items) := by
  refine ⟨?_, ?_, ?_, ?_⟩
  · intro q hq; obtain ⟨i, hi, rfl⟩ := List.mem_map.mp hq; exact h.w i hi
  · intro q hq; obtain ⟨i, hi, rfl⟩ := List.mem_map.mp hq; exact h.p i hi
  · intro q hq; obtain ⟨i, hi, rfl⟩ := List.mem_map.mp hq; exact h.int i hi
  · refine List.pairwise_map.mpr ?_
    refine List.Pairwise.imp_of_mem ?_ h.sorted
    intro i j hi hj hij
    rw [h.ratio i hi, h.ratio j hj] at hij
    exact hij

theorem IOk.add {items : List Lifted} (h : IOk items) (S : Sorter) {i : Lifted} (h1 : 0 < i.a) (h2 : 0 ≤ i.alpha)
    (h3 : IsInteger i.alpha) (h4 : i.ratio = i.alpha / i.a) : IOk (S.run Lifted.ratio (items ++ [i])) := by
  have hm : ∀ j ∈ S.run Lifted.ratio (items ++ [i]), j ∈ items ∨ j = i := by
    intro j hj
    have := (S.perm Lifted.ratio (items ++ [i])).mem_iff.mp hj
    simpa using this
  refine ⟨?_, ?_, ?_, ?_, S.sorted _ _⟩
  all_goals
    intro j hj
    rcases hm j hj with hj | rfl
  · exact h.w j hj
  · exact h1
  · exact h.p j hj
  · exact h2
  · exact h.int j hj
  · exact h3
  · exact h.ratio j hj
  · exact h4

/-- `exactSolveKnapsack` on lifted items. -/
theorem psi_ok {items : List Lifted} (h : IOk items) {c : ℚ} (hc : 0 ≤ c + eps2) :
    ∃ z, psi items c = some z ∧ IsInteger z ∧
      (∀ y : Nat → ℚ, (∀ i ∈ items, y i.col = 0 ∨ y i.col = 1) → wval items y ≤ c → aval items y ≤ z) ∧
      (∀ l : List Lifted, l.Subperm items → wsum l ≤ c + eps2 → asum l ≤ z) ∧
      ∃ l : List Lifted, l.Sublist items ∧ wsum l ≤ c + eps2 ∧ asum l = z := by
  obtain ⟨z, best, e, hz, _, _, _, hmax⟩ := exactSolve_spec h.good hc
  obtain ⟨z', best', e', hl, hf, hv⟩ := exactSolve_fit (items := pw items) (fun i hi => (h.good.w i hi).le) hc
  rw [e] at e'
  simp only [Option.some.injEq, Prod.mk.injEq] at e'
  obtain ⟨rfl, rfl⟩ := e'
  refine ⟨z, ?_, hz, ?_, ?_, ?_⟩
  · show (exactSolve (pw items) c).map Prod.fst = some z
    rw [e]; rfl
  · intro y hy hw
    obtain ⟨sol, h1, h2, h3⟩ := sel_of_y items y hy
    rw [← h3]
    refine hmax sol h1 ?_
    rw [h2]
    have : (0 : ℚ) ≤ eps2 := by norm_num [eps2]
    linarith
  · rintro l ⟨l', hp, hs⟩ hw
    obtain ⟨sol, h1, h2, h3⟩ := sel_of_sub hs
    rw [← asum_perm hp, ← h3]
    refine hmax sol h1 ?_
    rw [h2, wsum_perm hp]; exact hw
  · obtain ⟨l, h1, h2, h3⟩ := sub_of_sel items best hl
    exact ⟨l, h1, by rw [h2]; exact hf, by rw [h3, hv]⟩

/-- `exactSolveKnapsack` ends with an integral value whenever the profits are integral. -/
theorem psi_int {items : List Lifted} (hw : ∀ i ∈ items, 0 < i.a) (hi : ∀ i ∈ items, IsInteger i.alpha) {c : ℚ} (hc : 0 ≤ c + eps2) :
    ∃ z, psi items c = some z ∧ IsInteger z := by
  obtain ⟨z, best, e, hl, hf, hv⟩ := exactSolve_fit (items := pw items)
    (fun q hq => by obtain ⟨i, hi, rfl⟩ := List.mem_map.mp hq; exact (hw i hi).le) hc
  refine ⟨z, ?_, ?_⟩
  · show (exactSolve (pw items) c).map Prod.fst = some z
    rw [e]; rfl
  · rw [← hv]
    exact value_int _ _ fun q hq => by obtain ⟨i, h, rfl⟩ := List.mem_map.mp hq; exact hi i h

/-- Invariant of the lifting loops: `W` lists the columns dealt with. -/
structure LInv (W : SVec) (s : LS) : Prop where
  ok : IOk s.items
  rint : IsInteger s.rhs
  cut : ∀ y, s.cut.dot y = aval s.items y
  cols : ∀ i ∈ s.items, ∃ p ∈ W, p.1 = i.col
  wle : ∀ y, (∀ p ∈ W, 0 ≤ y p.1) → wval s.items y ≤ W.dot y
  pos : 0 < s.unsatRhs
  valid : ∀ y, Bin W y → wval s.items y ≤ s.unsatRhs → aval s.items y ≤ s.rhs

/-- Some choice of items reaches the right-hand side. -/
def Att (s : LS) : Prop := ∃ l : List Lifted, l.Subperm s.items ∧ wsum l ≤ s.unsatRhs + eps2 ∧ s.rhs ≤ asum l

theorem Bin.nonneg {W : SVec} {y : Nat → ℚ} (h : Bin W y) : ∀ p ∈ W, 0 ≤ y p.1 := by
  intro p hp
  rcases h p hp with h | h
  · rw [h]
  · rw [h]; norm_num

theorem LInv.binItems {W : SVec} {s : LS} (inv : LInv W s) {y : Nat → ℚ} (hy : Bin W y) : ∀ i ∈ s.items, y i.col = 0 ∨ y i.col = 1 := by
  intro i hi
  obtain ⟨p, hp, e⟩ := inv.cols i hi
  rw [← e]; exact hy p hp

theorem eps_pos : (0 : ℚ) < eps := by norm_num [eps]
theorem eps2_pos : (0 : ℚ) < eps2 := by norm_num [eps2]

/-- Lifting up. -/
theorem liftUp_inv (S : Sorter) : ∀ (rem : SVec) (W : SVec) (s s' : LS), (∀ p ∈ rem, 0 < p.2) → LInv W s →
    liftUp S rem s = some s' → LInv (W ++ rem) s' ∧ (Att s' ∨ s' = s) ∧ (Att s → Att s') ∧ s'.rhs = s.rhs ∧ s'.unsatRhs = s.unsatRhs := by
  intro rem
  induction rem with
  | nil =>
    intro W s s' _ inv h
    simp only [liftUp, Option.some.injEq] at h
    subst h
    rw [List.append_nil]
    exact ⟨inv, Or.inr rfl, id, rfl, rfl⟩
  | cons q t ih =>
    obtain ⟨j, a⟩ := q
    intro W s s' hpos inv h
    have ha : 0 < a := hpos (j, a) List.mem_cons_self
    have hcons : W ++ (j, a) :: t = (W ++ [(j, a)]) ++ t := by simp
    have hpos' : ∀ p ∈ t, 0 < p.2 := fun p hp => hpos p (List.mem_cons_of_mem _ hp)
    -- the state without lifting
    have skip : LInv (W ++ [(j, a)]) s := by
      refine ⟨inv.ok, inv.rint, inv.cut, ?_, ?_, inv.pos, ?_⟩
      · intro i hi; obtain ⟨p, hp, e⟩ := inv.cols i hi; exact ⟨p, List.mem_append_left _ hp, e⟩
      · intro y hy
        have h1 := inv.wle y fun p hp => hy p (List.mem_append_left _ hp)
        have h2 : 0 ≤ y j := hy (j, a) (by simp)
        rw [SVec.dot_append]
        simp only [SVec.dot_cons, SVec.dot_nil]
        have := mul_nonneg ha.le h2
        linarith
      · intro y hy; exact inv.valid y (Bin.append.mp hy).1
    rw [hcons]
    unfold liftUp at h
    split at h
    · cases h
    · rename_i ps hps
      split at h
      · rename_i hlt
        -- the column is lifted
        have hca : eps ≤ s.unsatRhs - a := by
          by_contra hc
          rw [if_neg hc] at hps
          simp only [Option.some.injEq] at hps
          rw [hps] at hlt
          have := eps_pos
          linarith
        rw [if_pos hca] at hps
        obtain ⟨z, e, hz, hub, _, l, hl1, hl2, hl3⟩ := psi_ok inv.ok (c := s.unsatRhs - a) (by have := eps_pos; have := eps2_pos; linarith)
        rw [e] at hps
        simp only [Option.some.injEq] at hps
        subst hps
        set i : Lifted := ⟨j, a, s.rhs - z, (s.rhs - z) / a⟩ with hidef
        have hperm := S.perm Lifted.ratio (s.items ++ [i])
        have hpos0 : (0 : ℚ) < s.rhs - z := by have := eps_pos; linarith
        have inv' : LInv (W ++ [(j, a)]) { s with items := S.run Lifted.ratio (s.items ++ [i]), cut := s.cut ++ [(j, s.rhs - z)] } := by
          refine ⟨inv.ok.add S ha hpos0.le (IsInteger.sub' inv.rint hz) rfl, inv.rint, ?_, ?_, ?_, inv.pos, ?_⟩
          · intro y
            show SVec.dot (s.cut ++ [(j, s.rhs - z)]) y = aval (S.run Lifted.ratio (s.items ++ [i])) y
            rw [aval_perm hperm, aval_snoc, SVec.dot_append, inv.cut]
            simp [hidef]
          · intro k hk
            have hk' := hperm.mem_iff.mp hk
            rcases List.mem_append.mp hk' with hk' | hk'
            · obtain ⟨p, hp, e⟩ := inv.cols k hk'; exact ⟨p, List.mem_append_left _ hp, e⟩
            · simp only [List.mem_singleton] at hk'
              subst hk'
              exact ⟨(j, a), by simp, rfl⟩
          · intro y hy
            have h1 := inv.wle y fun p hp => hy p (List.mem_append_left _ hp)
            show wval (S.run Lifted.ratio (s.items ++ [i])) y ≤ _
            rw [wval_perm hperm, wval_snoc, SVec.dot_append]
            simp only [SVec.dot_cons, SVec.dot_nil, hidef]
            linarith
          · intro y hy hw
            replace hw : wval (S.run Lifted.ratio (s.items ++ [i])) y ≤ s.unsatRhs := hw
            show aval (S.run Lifted.ratio (s.items ++ [i])) y ≤ s.rhs
            rw [wval_perm hperm, wval_snoc] at hw
            rw [aval_perm hperm, aval_snoc]
            obtain ⟨b1, b2⟩ := Bin.append.mp hy
            rcases b2 (j, a) (by simp) with h0 | h1
            · simp only [hidef] at hw ⊢
              simp only at h0
              rw [h0] at hw ⊢
              have := inv.valid y b1 (by linarith)
              linarith
            · simp only [hidef] at hw ⊢
              simp only at h1
              rw [h1] at hw ⊢
              have := hub y (inv.binItems b1) (by linarith)
              linarith
        have att' : Att { s with items := S.run Lifted.ratio (s.items ++ [i]), cut := s.cut ++ [(j, s.rhs - z)] } := by
          refine ⟨l ++ [i], ?_, ?_, ?_⟩
          · exact (List.Sublist.append hl1 (List.Sublist.refl _)).subperm.trans hperm.symm.subperm
          · show wsum (l ++ [i]) ≤ s.unsatRhs + eps2
            have : wsum (l ++ [i]) = wsum l + a := by simp [wsum, hidef]
            rw [this]; linarith
          · show s.rhs ≤ asum (l ++ [i])
            have : asum (l ++ [i]) = asum l + (s.rhs - z) := by simp [asum, hidef]
            rw [this, hl3]; linarith
        obtain ⟨g1, g2, g3, g4, g5⟩ := ih _ _ s' hpos' inv' h
        exact ⟨g1, Or.inl (g3 att'), fun _ => g3 att', g4, g5⟩
      · exact ih _ s s' hpos' skip h

theorem small_int {q : ℚ} (h : IsInteger q) (hs : ¬ eps < |q|) : q = 0 := by
  obtain ⟨z, rfl⟩ := h
  by_contra hne
  have hz : z ≠ 0 := by rintro rfl; simp at hne
  have h1 : (1 : ℚ) ≤ |(z : ℚ)| := by rw [← Int.cast_abs]; exact_mod_cast Int.one_le_abs hz
  have : eps < 1 := by norm_num [eps]
  exact hs (lt_of_lt_of_le this h1)

/-- Lifting down. -/
theorem liftDown_inv (S : Sorter) : ∀ (one : SVec) (W : SVec) (s s' : LS), (∀ p ∈ one, 0 < p.2) → LInv W s → Att s →
    liftDown S one s = some (some s') → LInv (W ++ one) s' ∧ s'.unsatRhs = s.unsatRhs + total one := by
  intro one
  induction one with
  | nil =>
    intro W s s' _ inv _ h
    simp only [liftDown, Option.some.injEq] at h
    subst h
    rw [List.append_nil]
    exact ⟨inv, by simp [total]⟩
  | cons q t ih =>
    obtain ⟨j, a⟩ := q
    intro W s s' hpos inv att h
    have ha : 0 < a := hpos (j, a) List.mem_cons_self
    have hcons : W ++ (j, a) :: t = (W ++ [(j, a)]) ++ t := by simp
    have hpos' : ∀ p ∈ t, 0 < p.2 := fun p hp => hpos p (List.mem_cons_of_mem _ hp)
    rw [hcons]
    unfold liftDown at h
    obtain ⟨z, e, hz, hub, hsub, l, hl1, hl2, hl3⟩ := psi_ok inv.ok (c := s.unsatRhs + a) (by have := inv.pos; have := eps2_pos; linarith)
    rw [e] at h
    simp only at h
    split at h
    · simp at h
    · obtain ⟨l0, k1, k2, k3⟩ := att
      have hge : s.rhs ≤ z := le_trans k3 (hsub l0 k1 (by linarith))
      set i : Lifted := ⟨j, a, z - s.rhs, (z - s.rhs) / a⟩ with hidef
      have hperm := S.perm Lifted.ratio (s.items ++ [i])
      have hai : IsInteger (z - s.rhs) := IsInteger.sub' hz inv.rint
      have inv' : LInv (W ++ [(j, a)]) ⟨S.run Lifted.ratio (s.items ++ [i]),
          if eps < |z - s.rhs| then s.cut ++ [(j, z - s.rhs)] else s.cut, z, s.unsatRhs + a⟩ := by
        refine ⟨inv.ok.add S ha (by simp only [hidef]; linarith) hai rfl, hz, ?_, ?_, ?_, ?_, ?_⟩
        · intro y
          show SVec.dot (if eps < |z - s.rhs| then s.cut ++ [(j, z - s.rhs)] else s.cut) y = aval (S.run Lifted.ratio (s.items ++ [i])) y
          rw [aval_perm hperm, aval_snoc]
          split
          · rw [SVec.dot_append, inv.cut]; simp [hidef]
          · rename_i hs
            rw [inv.cut]
            simp [hidef, small_int hai hs]
        · intro k hk
          have hk' := hperm.mem_iff.mp hk
          rcases List.mem_append.mp hk' with hk' | hk'
          · obtain ⟨p, hp, e⟩ := inv.cols k hk'; exact ⟨p, List.mem_append_left _ hp, e⟩
          · simp only [List.mem_singleton] at hk'
            subst hk'
            exact ⟨(j, a), by simp, rfl⟩
        · intro y hy
          have h1 := inv.wle y fun p hp => hy p (List.mem_append_left _ hp)
          show wval (S.run Lifted.ratio (s.items ++ [i])) y ≤ _
          rw [wval_perm hperm, wval_snoc, SVec.dot_append]
          simp only [SVec.dot_cons, SVec.dot_nil, hidef]
          linarith
        · have := inv.pos
          show 0 < s.unsatRhs + a
          linarith
        · intro y hy hw
          replace hw : wval (S.run Lifted.ratio (s.items ++ [i])) y ≤ s.unsatRhs + a := hw
          show aval (S.run Lifted.ratio (s.items ++ [i])) y ≤ z
          rw [wval_perm hperm, wval_snoc] at hw
          rw [aval_perm hperm, aval_snoc]
          obtain ⟨b1, b2⟩ := Bin.append.mp hy
          rcases b2 (j, a) (by simp) with h0 | h1
          · simp only [hidef] at hw ⊢
            simp only at h0
            rw [h0] at hw ⊢
            have := hub y (inv.binItems b1) (by linarith)
            linarith
          · simp only [hidef] at hw ⊢
            simp only at h1
            rw [h1] at hw ⊢
            have := inv.valid y b1 (by linarith)
            linarith
      have att' : Att ⟨S.run Lifted.ratio (s.items ++ [i]),
          if eps < |z - s.rhs| then s.cut ++ [(j, z - s.rhs)] else s.cut, z, s.unsatRhs + a⟩ :=
        ⟨l, (hl1.trans (List.sublist_append_left _ _)).subperm.trans hperm.symm.subperm, hl2, by rw [hl3]⟩
      obtain ⟨g1, g2⟩ := ih _ _ s' hpos' inv' att' h
      refine ⟨g1, ?_⟩
      rw [g2]
      simp [total]; ring

/-- Lifting down does not change the violation at a point that is one on the lifted columns. -/
theorem liftDown_act (S : Sorter) {xs : Nat → ℚ} : ∀ (one : SVec) (s s' : LS), (∀ p ∈ one, 0 < p.2 ∧ xs p.1 = 1) →
    (∀ i ∈ s.items, 0 < i.a ∧ IsInteger i.alpha) → IsInteger s.rhs → 0 < s.unsatRhs → liftDown S one s = some (some s') →
    s'.cut.dot xs - s'.rhs = s.cut.dot xs - s.rhs := by
  intro one
  induction one with
  | nil =>
    intro s s' _ _ _ _ h
    simp only [liftDown, Option.some.injEq] at h
    subst h; rfl
  | cons q t ih =>
    obtain ⟨j, a⟩ := q
    intro s s' h1 hi hr hu h
    obtain ⟨ha, hx⟩ := h1 (j, a) List.mem_cons_self
    simp only at ha hx
    unfold liftDown at h
    obtain ⟨z, e, hz⟩ := psi_int (fun i hi' => (hi i hi').1) (fun i hi' => (hi i hi').2) (c := s.unsatRhs + a)
      (by have := eps2_pos; linarith)
    rw [e] at h
    simp only at h
    split at h
    · simp at h
    · have hai : IsInteger (z - s.rhs) := IsInteger.sub' hz hr
      rw [ih _ s' (fun p hp => h1 p (List.mem_cons_of_mem _ hp)) ?_ hz (by show 0 < s.unsatRhs + a; linarith) h]
      · show SVec.dot (if eps < |z - s.rhs| then s.cut ++ [(j, z - s.rhs)] else s.cut) xs - z = _
        split
        · rw [SVec.dot_append]; simp only [SVec.dot_cons, SVec.dot_nil, hx]; ring
        · rename_i hs
          have := small_int hai hs
          linarith
      · intro i hi'
        have hm := (S.perm Lifted.ratio (s.items ++ [⟨j, a, z - s.rhs, (z - s.rhs) / a⟩])).mem_iff.mp hi'
        rcases List.mem_append.mp hm with hm | hm
        · exact hi i hm
        · simp only [List.mem_singleton] at hm
          subst hm
          exact ⟨ha, hai⟩

/-- The first state. -/
theorem first_inv (S : Sorter) {frac : SVec} {U : ℚ} (hp : ∀ p ∈ frac, eps < p.2) (hU : 0 < U) (hcov : U < total frac) :
    LInv frac ⟨firstItems S frac, frac.map (fun p => (p.1, 1)), (frac.length : ℚ) - 1, U⟩ := by
  set base : List Lifted := frac.map fun p => ⟨p.1, p.2, 1, if eps < |p.2| then 1 / p.2 else 0⟩ with hb
  have hperm : (firstItems S frac).Perm base := S.perm _ _
  have hmem : ∀ i ∈ firstItems S frac, ∃ p ∈ frac, i = ⟨p.1, p.2, 1, 1 / p.2⟩ := by
    intro i hi
    obtain ⟨p, hpm, rfl⟩ := List.mem_map.mp (hperm.mem_iff.mp hi)
    refine ⟨p, hpm, ?_⟩
    have := hp p hpm
    rw [if_pos (lt_of_lt_of_le this (le_abs_self _))]
  have ha : ∀ y, aval (firstItems S frac) y = SVec.dot (frac.map fun p => (p.1, (1 : ℚ))) y := by
    intro y
    rw [aval_perm hperm]
    simp [aval, hb, SVec.dot, List.map_map, Function.comp_def]
  have hw : ∀ y, wval (firstItems S frac) y = frac.dot y := by
    intro y
    rw [wval_perm hperm]
    simp [wval, hb, SVec.dot, List.map_map, Function.comp_def]
  have e0 := eps_pos
  refine ⟨⟨?_, ?_, ?_, ?_, S.sorted _ _⟩, ?_, fun y => (ha y).symm, ?_, fun y _ => (hw y).le, hU, ?_⟩
  · intro i hi; obtain ⟨p, hpm, rfl⟩ := hmem i hi; have := hp p hpm; show 0 < p.2; linarith
  · intro i hi; obtain ⟨p, hpm, rfl⟩ := hmem i hi; norm_num
  · intro i hi; obtain ⟨p, hpm, rfl⟩ := hmem i hi; exact ⟨1, by simp⟩
  · intro i hi; obtain ⟨p, hpm, rfl⟩ := hmem i hi; rfl
  · exact ⟨(frac.length : ℤ) - 1, by push_cast; rfl⟩
  · intro i hi; obtain ⟨p, hpm, rfl⟩ := hmem i hi; exact ⟨p, hpm, rfl⟩
  · intro y hy hle
    replace hle : wval (firstItems S frac) y ≤ U := hle
    show aval (firstItems S frac) y ≤ _
    rw [ha]
    rw [hw] at hle
    have := lifts_valid (b := U) (cover := S.run Prod.snd frac) (rem := []) (l := [])
    obtain ⟨c1, c2⟩ := cover_count frac y hy
    rw [c1]
    have : 1 ≤ (frac.map fun p => decide (y p.1 = 0)).count true := by
      by_contra hc
      have hz : ∀ p ∈ frac, y p.1 ≠ 0 := by
        intro p hp h0
        have : 0 < (frac.map fun p => decide (y p.1 = 0)).count true :=
          List.count_pos_iff.mpr (List.mem_map.mpr ⟨p, hp, by simp [h0]⟩)
        omega
      have : frac.dot y = total frac := by
        unfold SVec.dot total
        congr 1
        apply List.map_congr_left
        intro p hp
        rcases hy p hp with h | h
        · exact absurd h (hz p hp)
        · rw [h, mul_one]
      linarith
    have : (1 : ℚ) ≤ (((frac.map fun p => decide (y p.1 = 0)).count true : ℕ) : ℚ) := by exact_mod_cast this
    linarith

/-- `liftUpDownAndUncomplementAndAdd` is valid. -/
theorem liftUpDown_valid (S : Sorter) {k : Knap} {frac one rem : SVec} {c : RowCut} (hf : ∀ p ∈ frac, eps < p.2)
    (ho : ∀ p ∈ one, 0 < p.2 ∧ k.xs p.1 = 1) (hr : ∀ p ∈ rem, 0 < p.2) (hU : 0 < k.b - total one) (hcov : k.b - total one < total frac)
    (hatt : (∃ l : SVec, l.Subperm frac ∧ l.length + 1 = frac.length ∧ total l ≤ k.b - total one + eps2) ∨
      (frac.map fun p => k.xs p.1).sum ≤ (frac.length : ℚ) - 1)
    (h : liftUpDown S k frac one rem = some (some c)) {x y : Nat → ℚ} (hxy : ∀ j, y j = if j ∈ k.comp then 1 - x j else x j)
    (hbf : Bin frac y) (hbo : Bin one y) (hbr : Bin rem y) (hk : frac.dot y + one.dot y + rem.dot y ≤ k.b) :
    c.lb = -dblMax ∧ c.row.dot x ≤ c.ub := by
  unfold liftUpDown at h
  simp only at h
  have inv0 := first_inv S hf hU hcov
  set s0 : LS := ⟨firstItems S frac, frac.map (fun p => (p.1, 1)), (frac.length : ℚ) - 1, k.b - total one⟩ with hs0
  have hat0 : Att s0 ∨ s0.cut.dot k.xs - s0.rhs ≤ 0 := by
    rcases hatt with ⟨l, hl, hlen, hle⟩ | hx
    · left
      set g : Nat × ℚ → Lifted := fun p => ⟨p.1, p.2, 1, if eps < |p.2| then 1 / p.2 else 0⟩ with hg
      refine ⟨l.map g, ?_, ?_, ?_⟩
      · have h1 : (l.map g).Subperm (frac.map g) := by
          obtain ⟨l', hp, hs⟩ := hl
          exact ⟨l'.map g, hp.map g, hs.map g⟩
        exact h1.trans (S.perm Lifted.ratio (frac.map g)).symm.subperm
      · have : wsum (l.map g) = total l := by simp [wsum, total, hg, List.map_map, Function.comp_def]
        rw [this]; exact hle
      · have : asum (l.map g) = (l.length : ℚ) := by
          simp [asum, hg, List.map_map, Function.comp_def]
        rw [this]
        show (frac.length : ℚ) - 1 ≤ _
        rw [← hlen]; push_cast; linarith
    · right
      have : s0.cut.dot k.xs = (frac.map fun p => k.xs p.1).sum := by
        simp [hs0, SVec.dot, List.map_map, Function.comp_def]
      rw [this]
      show _ - ((frac.length : ℚ) - 1) ≤ 0
      linarith
  have fin : ∀ (W : SVec) (s : LS), LInv W s → Bin W y → wval s.items y ≤ s.unsatRhs →
      (match uncomp k.comp s.cut s.rhs with | (v, r) => some (some (⟨-dblMax, r, v⟩ : RowCut))) = some (some c) →
      c.lb = -dblMax ∧ c.row.dot x ≤ c.ub := by
    intro W s inv hb hw hc
    have hu := uncomp_spec k.comp hxy s.cut s.rhs
    generalize uncomp k.comp s.cut s.rhs = q at hc hu
    obtain ⟨v, r⟩ := q
    simp only [Option.some.injEq] at hc
    subst hc
    refine ⟨rfl, ?_⟩
    have := inv.valid y hb hw
    rw [← inv.cut] at this
    show v.dot x ≤ r
    simp only at hu
    linarith
  split at h
  · cases h
  · cases h
  · rename_i s hs
    split at h
    · rename_i hviol
      split at hs
      · rename_i hcond
        split at hs
        · cases hs
        · rename_i s1 hup
          have hrs : ∀ p ∈ S.run (fun p => k.xs p.1) rem, 0 < p.2 := fun p hp => hr p ((S.perm _ _).mem_iff.mp hp)
          obtain ⟨g1, g2, g3, g4, g5⟩ := liftUp_inv S _ frac s0 s1 hrs inv0 hup
          have hatt1 : Att s1 := by
            rcases g2 with g2 | g2
            · exact g2
            · rcases hat0 with ha | ha
              · exact g3 ha
              · exfalso
                subst g2
                have := liftDown_act S one s0 s ho (fun i hi => ⟨g1.ok.w i hi, g1.ok.int i hi⟩) g1.rint g1.pos hs
                have := eps2_pos
                linarith
          obtain ⟨k1, k2⟩ := liftDown_inv S one _ s1 s (fun p hp => (ho p hp).1) g1 hatt1 hs
          have hby : Bin (frac ++ S.run (fun p => k.xs p.1) rem ++ one) y :=
            Bin.append.mpr ⟨Bin.append.mpr ⟨hbf, hbr.perm (S.perm _ _).symm⟩, hbo⟩
          refine fin _ s k1 hby ?_ h
          refine le_trans (k1.wle y hby.nonneg) ?_
          rw [SVec.dot_append, SVec.dot_append, SVec.dot_perm (S.perm _ rem), k2, g5]
          show _ ≤ k.b - total one + total one
          linarith
      · rename_i hcond
        have hemp : rem = [] ∧ one = [] := by
          have hnc : ¬ (0 < rem.length + one.length) := fun h => hcond ⟨hU, h⟩
          exact ⟨List.length_eq_zero_iff.mp (by omega), List.length_eq_zero_iff.mp (by omega)⟩
        simp only [Option.some.injEq] at hs
        subst hs
        refine fin _ s0 inv0 hbf ?_ h
        refine le_trans (inv0.wle y hbf.nonneg) ?_
        show frac.dot y ≤ k.b - total one
        rw [hemp.1, hemp.2] at hk
        rw [hemp.2]
        simp [total] at hk ⊢
        linarith
    · simp at h

end Cgl.Knapsack
