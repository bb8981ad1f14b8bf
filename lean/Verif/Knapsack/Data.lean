import Verif.Knapsack.Cover

/-!
# Assumptions on the data of a knapsack problem

`CglKnapsackCover` compares floating-point sums with the absolute tolerances `1e-7` and `1e-5`.  The cuts are exact when
all the data lie on a grid that is coarser than these tolerances; without such an assumption they are not valid in
general (see `Witness.lean`).
-/

namespace Cgl.Knapsack

/-- The column can move. -/
def unfixed (P : Prob) (j : Nat) : Prop := P.colLower j < P.colUpper j

instance (P : Prob) (j : Nat) : Decidable (unfixed P j) := by unfold unfixed; infer_instance

/-- All the data of the problem are multiples of `δ ≥ 1e-4` (so `δ = 1` for integral data). -/
structure GridData (δ : ℚ) (P : Prob) : Prop where
  /-- the grid is coarser than the tolerances -/
  coarse : 1 / 10000 ≤ δ
  /-- stored coefficients are nonzero multiples of `δ` -/
  nz : ∀ r ∈ P.rows, ∀ p ∈ r.coefs, p.2 ≠ 0
  coef : ∀ r ∈ P.rows, ∀ p ∈ r.coefs, Grid δ p.2
  /-- finite row bounds are multiples of `δ` -/
  rlb : ∀ r ∈ P.rows, -P.inf < r.lb → Grid δ r.lb
  rub : ∀ r ∈ P.rows, r.ub < P.inf → Grid δ r.ub
  /-- finite column bounds are integers -/
  lower : ∀ j < P.nCols, -P.inf < P.colLower j → IsInteger (P.colLower j)
  upper : ∀ j < P.nCols, P.colUpper j < P.inf → IsInteger (P.colUpper j)
  /-- the bounds of a column are in order, and no column is fixed at infinity -/
  order : ∀ j < P.nCols, P.colLower j ≤ P.colUpper j ∧ P.colLower j < P.inf ∧ -P.inf < P.colUpper j
  /-- where row `r'` bounds column `j` by free binaries, the coefficient of `j` in `r'` divides that in any other row -/
  ratio : ∀ r ∈ P.rows, ∀ r' ∈ P.rows, ∀ j c v, (j, c) ∈ r.coefs → (j, v) ∈ r'.coefs → freeBinary P j = false → unfixed P j →
    (∀ p ∈ r'.coefs, p.1 ≠ j → unfixed P p.1 → freeBinary P p.1 = true) → IsInteger (c / v)

/-- Feasible for the linear relaxation. -/
structure Relaxed (P : Prob) (x : Nat → ℚ) : Prop where
  rows : ∀ r ∈ P.rows, r.Sat P.inf x
  lower : ∀ j < P.nCols, lbOk P.inf (P.colLower j) (x j)
  upper : ∀ j < P.nCols, ubOk P.inf (P.colUpper j) (x j)

theorem _root_.Cgl.Prob.Feasible.relaxed {P : Prob} {x : Nat → ℚ} (h : P.Feasible x) : Relaxed P x := ⟨h.rows, h.lower, h.upper⟩

/-- An LP solution: feasible for the relaxation and within the bounds as numbers; binaries that are within `1e-7` of 0 or
1 are exactly 0 or 1; row activities stay away from infinity. -/
structure LPPoint (P : Prob) (xs : Nat → ℚ) : Prop where
  rows : ∀ r ∈ P.rows, r.Sat P.inf xs
  lower : ∀ j < P.nCols, P.colLower j ≤ xs j
  upper : ∀ j < P.nCols, xs j ≤ P.colUpper j
  clean0 : ∀ j < P.nCols, freeBinary P j = true → xs j < eps → xs j = 0
  clean1 : ∀ j < P.nCols, freeBinary P j = true → onetol < xs j → xs j = 1
  act : ∀ r ∈ P.rows, |r.coefs.dot xs| + 10000 ≤ P.inf

theorem LPPoint.relaxed {P : Prob} {xs : Nat → ℚ} (h : LPPoint P xs) : Relaxed P xs :=
  ⟨h.rows, fun j hj _ => h.lower j hj, fun j hj _ => h.upper j hj⟩

theorem dot_congr {v : SVec} {x y : Nat → ℚ} (h : ∀ p ∈ v, x p.1 = y p.1) : v.dot x = v.dot y := by
  unfold SVec.dot
  congr 1
  apply List.map_congr_left
  intro p hp
  rw [h p hp]

/-- Moving an LP solution inside the bounds does nothing. -/
theorem LPPoint.clip {P : Prob} (wf : P.WF) {xs : Nat → ℚ} (h : LPPoint P xs) : LPPoint P (clip P xs) := by
  have e : ∀ j < P.nCols, Knapsack.clip P xs j = xs j := by
    intro j hj
    unfold Knapsack.clip
    rw [if_neg (by have := h.upper j hj; linarith), if_neg (by have := h.lower j hj; linarith)]
  have ed : ∀ r ∈ P.rows, r.coefs.dot (Knapsack.clip P xs) = r.coefs.dot xs :=
    fun r hr => dot_congr fun p hp => e p.1 (wf.cols r hr p hp)
  refine ⟨?_, ?_, ?_, ?_, ?_, ?_⟩
  · intro r hr
    have := h.rows r hr
    unfold Row.Sat at this ⊢
    rw [ed r hr]; exact this
  · intro j hj; rw [e j hj]; exact h.lower j hj
  · intro j hj; rw [e j hj]; exact h.upper j hj
  · intro j hj; rw [e j hj]; exact h.clean0 j hj
  · intro j hj; rw [e j hj]; exact h.clean1 j hj
  · intro r hr; rw [ed r hr]; exact h.act r hr

theorem freeBinary_iff {P : Prob} {j : Nat} : freeBinary P j = true ↔ P.isInt j = true ∧ P.colUpper j = 1 ∧ P.colLower j = 0 := by
  unfold freeBinary
  simp [and_assoc]

theorem free01 {P : Prob} (hinf : 1 < P.inf) {x : Nat → ℚ} (hx : Relaxed P x) {j : Nat} (hj : j < P.nCols) (hf : freeBinary P j = true) :
    0 ≤ x j ∧ x j ≤ 1 := by
  obtain ⟨_, h1, h0⟩ := freeBinary_iff.mp hf
  have a := hx.lower j hj
  have b := hx.upper j hj
  unfold lbOk at a
  unfold ubOk at b
  rw [h0] at a
  rw [h1] at b
  exact ⟨a (by linarith), b hinf⟩

/-- A row as an inequality in the direction that `derive` is asked for. -/
def Holds (isL : Bool) (row : SVec) (rhs : ℚ) (x : Nat → ℚ) : Prop := if isL then row.dot x ≤ rhs else rhs ≤ row.dot x

/-- A row that can be handed to `derive`. -/
structure RowOk (δ : ℚ) (P : Prob) (row : SVec) (rhs : ℚ) : Prop where
  cols : ∀ p ∈ row, p.1 < P.nCols
  nodup : (row.map Prod.fst).Nodup
  nz : ∀ p ∈ row, p.2 ≠ 0
  grid : ∀ p ∈ row, Grid δ p.2
  rgrid : Grid δ rhs

theorem grid_big {δ a : ℚ} (hδ : 1 / 10000 ≤ δ) (h : Grid δ a) (hn : a ≠ 0) : eps < |a| := by
  obtain ⟨n, rfl⟩ := h
  have hn' : n ≠ 0 := by rintro rfl; simp at hn
  have h1 : (1 : ℚ) ≤ |(n : ℚ)| := by rw [← Int.cast_abs]; exact_mod_cast Int.one_le_abs hn'
  have h0 : 0 < δ := by linarith
  rw [abs_mul, abs_of_pos h0]
  have h2 : 1 * δ ≤ |(n : ℚ)| * δ := mul_le_mul_of_nonneg_right h1 h0.le
  have : eps < 1 / 10000 := by norm_num [eps]
  linarith

theorem netOut_spec {δ : ℚ} {P : Prob} (g : GridData δ P) : ∀ (le : SVec) (b : ℚ) (k : SVec) (b1 : ℚ), (∀ p ∈ le, p.1 < P.nCols) →
    (∀ p ∈ le, p.2 ≠ 0) → (∀ p ∈ le, Grid δ p.2) → Grid δ b → netOut P le b = some (k, b1) →
    k.Sublist le ∧ (∀ p ∈ k, freeBinary P p.1 = true) ∧ Grid δ b1 ∧
      ∀ x, Relaxed P x → k.dot x - b1 ≤ le.dot x - b := by
  intro le
  induction le with
  | nil =>
    intro b k b1 _ _ _ hb h
    simp only [netOut, Option.some.injEq, Prod.mk.injEq] at h
    obtain ⟨rfl, rfl⟩ := h
    exact ⟨List.Sublist.refl _, by simp, hb, fun x _ => le_refl _⟩
  | cons q t ih =>
    obtain ⟨j, a⟩ := q
    intro b k b1 hc hn hg hb h
    have hc' : ∀ p ∈ t, p.1 < P.nCols := fun p hp => hc p (List.mem_cons_of_mem _ hp)
    have hn' : ∀ p ∈ t, p.2 ≠ 0 := fun p hp => hn p (List.mem_cons_of_mem _ hp)
    have hg' : ∀ p ∈ t, Grid δ p.2 := fun p hp => hg p (List.mem_cons_of_mem _ hp)
    have hj : j < P.nCols := hc (j, a) List.mem_cons_self
    have ha : Grid δ a := hg (j, a) List.mem_cons_self
    have ha0 : a ≠ 0 := hn (j, a) List.mem_cons_self
    have e0 := eps_pos
    unfold netOut at h
    split at h
    · rename_i hf
      split at h
      · cases h
      · rename_i k' b' hk
        simp only [Option.some.injEq, Prod.mk.injEq] at h
        obtain ⟨rfl, rfl⟩ := h
        obtain ⟨h1, h2, h3, h4⟩ := ih b k' b' hc' hn' hg' hb hk
        refine ⟨h1.cons_cons _, ?_, h3, ?_⟩
        · intro p hp
          rcases List.mem_cons.mp hp with rfl | hp
          · exact hf
          · exact h2 p hp
        · intro x hx
          have := h4 x hx
          simp only [SVec.dot_cons]
          linarith
    · split at h
      · rename_i hneg
        split at h
        · rename_i hu
          obtain ⟨h1, h2, h3, h4⟩ := ih (b - a * P.colUpper j) k b1 hc' hn' hg'
            (hb.sub (by rw [mul_comm]; exact Grid.imul (g.upper j hj hu) ha)) h
          refine ⟨h1.cons _, h2, h3, ?_⟩
          intro x hx
          have h5 := h4 x hx
          have h6 := hx.upper j hj hu
          have : a * P.colUpper j ≤ a * x j := mul_le_mul_of_nonpos_left h6 (by linarith)
          simp only [SVec.dot_cons]
          linarith
        · cases h
      · split at h
        · rename_i hpos
          split at h
          · rename_i hl
            obtain ⟨h1, h2, h3, h4⟩ := ih (b - a * P.colLower j) k b1 hc' hn' hg'
              (hb.sub (by rw [mul_comm]; exact Grid.imul (g.lower j hj hl) ha)) h
            refine ⟨h1.cons _, h2, h3, ?_⟩
            intro x hx
            have h5 := h4 x hx
            have h6 := hx.lower j hj hl
            have : a * P.colLower j ≤ a * x j := mul_le_mul_of_nonneg_left h6 (by linarith)
            simp only [SVec.dot_cons]
            linarith
          · cases h
        · rename_i h1 h2
          exfalso
          have := grid_big g.coarse ha ha0
          rcases lt_abs.mp this with h | h
          · exact h2 h
          · exact h1 (by linarith)

/-- Complementing. -/
theorem flip_dot : ∀ (k : SVec) (C : List Nat) (x y : Nat → ℚ), (∀ p ∈ k, (p.1 ∈ C ↔ p.2 < -eps)) →
    (∀ j, y j = if j ∈ C then 1 - x j else x j) → (flip k).dot y = k.dot x + flipSum k
  | [], C, x, y, _, _ => by simp [flip, flipSum]
  | p :: t, C, x, y, h, hy => by
    have ih := flip_dot t C x y (fun q hq => h q (List.mem_cons_of_mem _ hq)) hy
    have hp := h p List.mem_cons_self
    simp only [flip, flipSum, List.map_cons, SVec.dot_cons, List.filter_cons] at ih ⊢
    by_cases hc : p.2 < -eps
    · simp only [hc, if_true, decide_true, List.map_cons, List.sum_cons]
      rw [hy, if_pos (hp.mpr hc), ih]
      ring
    · simp only [hc, if_false, decide_false]
      rw [hy, if_neg (fun hh => hc (hp.mp hh)), ih]
      simp
      ring

theorem flipped_mem {k : SVec} (hnd : (k.map Prod.fst).Nodup) : ∀ p ∈ k, (p.1 ∈ flipped k ↔ p.2 < -eps) := by
  intro p hp
  unfold flipped
  constructor
  · intro h
    obtain ⟨q, hq, e⟩ := List.mem_map.mp h
    obtain ⟨hq1, hq2⟩ := List.mem_filter.mp hq
    have : q = p := List.inj_on_of_nodup_map hnd hq1 hp e
    subst this
    simpa using hq2
  · intro h
    exact List.mem_map.mpr ⟨p, List.mem_filter.mpr ⟨hp, by simpa using h⟩, rfl⟩

theorem flip_mem {k : SVec} {q : Nat × ℚ} (h : q ∈ flip k) : ∃ p ∈ k, p.1 = q.1 ∧ ((p.2 < -eps ∧ q.2 = -p.2) ∨ (¬ p.2 < -eps ∧ q.2 = p.2)) := by
  unfold flip at h
  obtain ⟨p, hp, rfl⟩ := List.mem_map.mp h
  refine ⟨p, hp, ?_⟩
  split
  · rename_i hc; exact ⟨rfl, Or.inl ⟨hc, rfl⟩⟩
  · rename_i hc; exact ⟨rfl, Or.inr ⟨hc, rfl⟩⟩

theorem flipSum_grid {δ : ℚ} : ∀ (k : SVec), (∀ p ∈ k, Grid δ p.2) → Grid δ (flipSum k)
  | [], _ => by simpa [flipSum] using Grid.zero δ
  | p :: t, h => by
    have ih := flipSum_grid t fun q hq => h q (List.mem_cons_of_mem _ hq)
    unfold flipSum at ih ⊢
    simp only [List.filter_cons]
    split
    · simp only [List.map_cons, List.sum_cons]
      exact (h p List.mem_cons_self).neg.add ih
    · exact ih

/-- `deriveAKnapsack`: no column cut is made, and the canonical row is implied by the given one. -/
theorem derive_spec {δ : ℚ} {P : Prob} (g : GridData δ P) (hinf : 1 < P.inf) {xs : Nat → ℚ} (lp : LPPoint P xs) {isL : Bool}
    {row : SVec} {rhs : ℚ} (ro : RowOk δ P row rhs) (hold : ∀ x, Relaxed P x → Holds isL row rhs x) :
    (derive P xs isL row rhs).1 = [] ∧ ∀ k, (derive P xs isL row rhs).2 = some k →
      KOk δ k ∧ ∀ c, KValid k c → c.Valid P := by
  unfold derive
  split
  · exact ⟨rfl, by intro k h; cases h⟩
  · simp only
    set le : SVec := if isL = true then row else row.map fun p => (p.1, -p.2) with hle
    set b0 : ℚ := if isL = true then rhs else -rhs with hb0
    have hdot : ∀ x, le.dot x - b0 = if isL = true then row.dot x - rhs else rhs - row.dot x := by
      intro x
      rw [hle, hb0]
      split
      · rfl
      · rw [SVec.dot_neg]; ring
    have hle0 : ∀ x, Relaxed P x → le.dot x - b0 ≤ 0 := by
      intro x hx
      have := hold x hx
      rw [hdot]
      unfold Holds at this
      split
      · rename_i h; rw [if_pos h] at this; linarith
      · rename_i h; rw [if_neg h] at this; linarith
    have hlem : ∀ p ∈ le, ∃ q ∈ row, q.1 = p.1 ∧ (p.2 = q.2 ∨ p.2 = -q.2) := by
      intro p hp
      rw [hle] at hp
      split at hp
      · exact ⟨p, hp, rfl, Or.inl rfl⟩
      · obtain ⟨q, hq, rfl⟩ := List.mem_map.mp hp
        exact ⟨q, hq, rfl, Or.inr rfl⟩
    have hcl : ∀ p ∈ le, p.1 < P.nCols := by
      intro p hp; obtain ⟨q, hq, e, _⟩ := hlem p hp; rw [← e]; exact ro.cols q hq
    have hnz : ∀ p ∈ le, p.2 ≠ 0 := by
      intro p hp; obtain ⟨q, hq, _, e | e⟩ := hlem p hp
      · rw [e]; exact ro.nz q hq
      · rw [e]; exact neg_ne_zero.mpr (ro.nz q hq)
    have hgr : ∀ p ∈ le, Grid δ p.2 := by
      intro p hp; obtain ⟨q, hq, _, e | e⟩ := hlem p hp
      · rw [e]; exact ro.grid q hq
      · rw [e]; exact (ro.grid q hq).neg
    have hnd : (le.map Prod.fst).Nodup := by
      rw [hle]
      split
      · exact ro.nodup
      · rw [List.map_map]; exact ro.nodup
    have hbg : Grid δ b0 := by
      rw [hb0]; split
      · exact ro.rgrid
      · exact ro.rgrid.neg
    cases hno : netOut P le b0 with
    | none => exact ⟨rfl, by intro k h; cases h⟩
    | some q =>
      obtain ⟨k0, b1⟩ := q
      obtain ⟨n1, n2, n3, n4⟩ := netOut_spec g le b0 k0 b1 hcl hnz hgr hbg hno
      simp only
      split
      · exact ⟨rfl, by intro k h; cases h⟩
      · have hmem : ∀ p ∈ k0, p ∈ le := fun p hp => n1.subset hp
        have hnd0 : (k0.map Prod.fst).Nodup := hnd.sublist (n1.map _)
        have hfm := flipped_mem hnd0
        have hkey : ∀ x, Relaxed P x → (flip k0).dot (fun j => if j ∈ flipped k0 then 1 - x j else x j) ≤ b1 + flipSum k0 := by
          intro x hx
          rw [flip_dot k0 (flipped k0) x _ hfm (fun j => rfl)]
          have h1 := n4 x hx
          have h2 := hle0 x hx
          linarith
        have hpos : ∀ q ∈ flip k0, 0 < q.2 := by
          intro q hq
          obtain ⟨p, hp, _, h | h⟩ := flip_mem hq
          · have := eps_pos; rw [h.2]; linarith [h.1]
          · rw [h.2]
            have := grid_big g.coarse (hgr p (hmem p hp)) (hnz p (hmem p hp))
            have e0 := eps_pos
            rcases lt_abs.mp this with h' | h'
            · linarith
            · exact absurd (by linarith) h.1
        have h01 : ∀ x, Relaxed P x → ∀ q ∈ flip k0, 0 ≤ (if q.1 ∈ flipped k0 then 1 - x q.1 else x q.1) ∧
            (if q.1 ∈ flipped k0 then 1 - x q.1 else x q.1) ≤ 1 := by
          intro x hx q hq
          obtain ⟨p, hp, e, _⟩ := flip_mem hq
          rw [← e]
          obtain ⟨a1, a2⟩ := free01 hinf hx (hcl p (hmem p hp)) (n2 p hp)
          split <;> constructor <;> linarith
        have hb0 : 0 ≤ b1 + flipSum k0 :=
          le_trans (dot_nonneg _ _ (fun p hp => (hpos p hp).le) (fun p hp => (h01 xs lp.relaxed p hp).1)) (hkey xs lp.relaxed)
        rw [if_neg (not_lt.mpr hb0)]
        split
        · exact ⟨rfl, by intro k h; cases h⟩
        · refine ⟨rfl, ?_⟩
          intro k hk
          simp only [Option.some.injEq] at hk
          subst hk
          refine ⟨⟨g.coarse, hpos, ?_, n3.add (flipSum_grid k0 fun p hp => hgr p (hmem p hp)), ?_, ?_, ?_, hkey xs lp.relaxed⟩, ?_⟩
          · intro q hq
            obtain ⟨p, hp, _, h | h⟩ := flip_mem hq
            · rw [h.2]; exact (hgr p (hmem p hp)).neg
            · rw [h.2]; exact hgr p (hmem p hp)
          · intro q hq; exact (h01 xs lp.relaxed q hq).1
          · intro q hq; exact (h01 xs lp.relaxed q hq).2
          · intro q hq hgt
            obtain ⟨p, hp, e, _⟩ := flip_mem hq
            have hpc := hcl p (hmem p hp)
            have hpf := n2 p hp
            rw [e] at hpc hpf
            simp only at hgt ⊢
            split at hgt
            · rename_i hm
              rw [if_pos hm]
              have := lp.clean0 q.1 hpc hpf (by unfold onetol at hgt; linarith)
              rw [this]; ring
            · rename_i hm
              rw [if_neg hm]
              exact lp.clean1 q.1 hpc hpf hgt
          · intro c hc x hx
            have hxr := hx.relaxed
            obtain ⟨c1, c2⟩ := hc x _ (fun j => rfl) (by
              intro q hq
              obtain ⟨p, hp, e, _⟩ := flip_mem hq
              have hpc := hcl p (hmem p hp)
              have hpf := n2 p hp
              obtain ⟨a1, a2⟩ := free01 hinf hxr hpc hpf
              obtain ⟨z, hz⟩ := hx.int p.1 hpc (freeBinary_iff.mp hpf).1
              have hx01 : x q.1 = 0 ∨ x q.1 = 1 := by
                rw [hz] at a1 a2
                rw [← e, hz]
                have z0 : 0 ≤ z := by exact_mod_cast a1
                have z1 : z ≤ 1 := by exact_mod_cast a2
                have : z = 0 ∨ z = 1 := by omega
                rcases this with rfl | rfl
                · left; simp
                · right; simp
              rcases hx01 with h | h
              · simp only [h]; split <;> simp
              · simp only [h]; split <;> simp) (hkey x hxr)
            refine ⟨?_, fun _ => c2⟩
            intro hlt
            rw [c1] at hlt
            exact absurd hlt (lt_irrefl _)

end Cgl.Knapsack
