import Verif.Knapsack.Total

/-!
# The derived knapsack row, and the generator as a whole
-/

namespace Cgl.Knapsack

/-- The point is within the (finite) column bounds. -/
def InBox (P : Prob) (x : Nat → ℚ) : Prop :=
  ∀ j < P.nCols, lbOk P.inf (P.colLower j) (x j) ∧ ubOk P.inf (P.colUpper j) (x j)

theorem netOut_le {P : Prob} {x : Nat → ℚ} (hx : InBox P x) : ∀ (le : SVec) (b : ℚ) (k : SVec) (b1 : ℚ), (∀ p ∈ le, p.1 < P.nCols) →
    (∀ p ∈ le, eps < |p.2|) → netOut P le b = some (k, b1) →
    k.Sublist le ∧ (∀ p ∈ k, freeBinary P p.1 = true) ∧ k.dot x - b1 ≤ le.dot x - b := by
  intro le
  induction le with
  | nil =>
    intro b k b1 _ _ h
    simp only [netOut, Option.some.injEq, Prod.mk.injEq] at h
    obtain ⟨rfl, rfl⟩ := h
    exact ⟨List.Sublist.refl _, by simp, le_refl _⟩
  | cons q t ih =>
    obtain ⟨j, a⟩ := q
    intro b k b1 hc hn h
    have hc' : ∀ p ∈ t, p.1 < P.nCols := fun p hp => hc p (List.mem_cons_of_mem _ hp)
    have hn' : ∀ p ∈ t, eps < |p.2| := fun p hp => hn p (List.mem_cons_of_mem _ hp)
    have hj : j < P.nCols := hc (j, a) List.mem_cons_self
    have ha0 : eps < |a| := hn (j, a) List.mem_cons_self
    have e0 := eps_pos
    unfold netOut at h
    split at h
    · rename_i hf
      split at h
      · cases h
      · rename_i k' b' hk
        simp only [Option.some.injEq, Prod.mk.injEq] at h
        obtain ⟨rfl, rfl⟩ := h
        obtain ⟨h1, h2, h4⟩ := ih b k' b' hc' hn' hk
        refine ⟨h1.cons_cons _, ?_, ?_⟩
        · intro p hp
          rcases List.mem_cons.mp hp with rfl | hp
          · exact hf
          · exact h2 p hp
        · simp only [SVec.dot_cons]
          linarith
    · split at h
      · rename_i hneg
        split at h
        · rename_i hu
          obtain ⟨h1, h2, h4⟩ := ih (b - a * P.colUpper j) k b1 hc' hn' h
          refine ⟨h1.cons _, h2, ?_⟩
          have h6 := (hx j hj).2 hu
          have : a * P.colUpper j ≤ a * x j := mul_le_mul_of_nonpos_left h6 (by linarith)
          simp only [SVec.dot_cons]
          linarith
        · cases h
      · split at h
        · rename_i hpos
          split at h
          · rename_i hl
            obtain ⟨h1, h2, h4⟩ := ih (b - a * P.colLower j) k b1 hc' hn' h
            refine ⟨h1.cons _, h2, ?_⟩
            have h6 := (hx j hj).1 hl
            have : a * P.colLower j ≤ a * x j := mul_le_mul_of_nonneg_left h6 (by linarith)
            simp only [SVec.dot_cons]
            linarith
          · cases h
        · rename_i h1 h2
          exfalso
          rcases lt_abs.mp ha0 with h | h
          · exact h2 h
          · exact h1 (by linarith)

/-- **C21.** Take any row without tiny coefficients and any point within the column bounds that satisfies the row.  If
`deriveAKnapsack` returns a knapsack, its coefficients are positive and at most the right-hand side, it involves free
binaries only, and the complemented point satisfies it.  And it does not report infeasibility. -/
theorem derive_implied_partial {P : Prob} (hinf : 1 < P.inf) (xs : Nat → ℚ) {isL : Bool} {row : SVec} {rhs : ℚ}
    (cols : ∀ p ∈ row, p.1 < P.nCols) (nodup : (row.map Prod.fst).Nodup) (big : ∀ p ∈ row, eps < |p.2|) {x : Nat → ℚ} (hx : InBox P x)
    (hold : if isL then row.dot x ≤ rhs else rhs ≤ row.dot x) :
    (derive P xs isL row rhs).1 = [] ∧ ∀ k, (derive P xs isL row rhs).2 = some k →
      (∀ p ∈ k.krow, 0 < p.2 ∧ p.2 ≤ k.b ∧ freeBinary P p.1 = true) ∧
      k.krow.dot (fun j => if j ∈ k.comp then 1 - x j else x j) ≤ k.b := by
  unfold derive
  split
  · exact ⟨rfl, by intro k h; cases h⟩
  · simp only
    set le : SVec := if isL = true then row else row.map fun p => (p.1, -p.2) with hle
    set b0 : ℚ := if isL = true then rhs else -rhs with hb0
    have hle0 : le.dot x - b0 ≤ 0 := by
      rw [hle, hb0]
      split
      · rename_i h; rw [if_pos h] at hold; linarith
      · rename_i h; rw [if_neg h] at hold; rw [SVec.dot_neg]; linarith
    have hlem : ∀ p ∈ le, ∃ q ∈ row, q.1 = p.1 ∧ (p.2 = q.2 ∨ p.2 = -q.2) := by
      intro p hp
      rw [hle] at hp
      split at hp
      · exact ⟨p, hp, rfl, Or.inl rfl⟩
      · obtain ⟨q, hq, rfl⟩ := List.mem_map.mp hp
        exact ⟨q, hq, rfl, Or.inr rfl⟩
    have hcl : ∀ p ∈ le, p.1 < P.nCols := by
      intro p hp; obtain ⟨q, hq, e, _⟩ := hlem p hp; rw [← e]; exact cols q hq
    have hnz : ∀ p ∈ le, eps < |p.2| := by
      intro p hp; obtain ⟨q, hq, _, e | e⟩ := hlem p hp
      · rw [e]; exact big q hq
      · rw [e, abs_neg]; exact big q hq
    have hnd : (le.map Prod.fst).Nodup := by
      rw [hle]
      split
      · exact nodup
      · rw [List.map_map]; exact nodup
    cases hno : netOut P le b0 with
    | none => exact ⟨rfl, by intro k h; cases h⟩
    | some q =>
      obtain ⟨k0, b1⟩ := q
      obtain ⟨n1, n2, n4⟩ := netOut_le hx le b0 k0 b1 hcl hnz hno
      simp only
      split
      · exact ⟨rfl, by intro k h; cases h⟩
      · have hmem : ∀ p ∈ k0, p ∈ le := fun p hp => n1.subset hp
        have hfm := flipped_mem (hnd.sublist (n1.map _))
        have hkey : (flip k0).dot (fun j => if j ∈ flipped k0 then 1 - x j else x j) ≤ b1 + flipSum k0 := by
          rw [flip_dot k0 (flipped k0) x _ hfm (fun j => rfl)]
          linarith
        have hpos : ∀ q ∈ flip k0, 0 < q.2 := by
          intro q hq
          have e0 := eps_pos
          obtain ⟨p, hp, _, h | h⟩ := flip_mem hq
          · rw [h.2]; linarith [h.1]
          · rw [h.2]
            rcases lt_abs.mp (hnz p (hmem p hp)) with h' | h'
            · linarith
            · exact absurd (by linarith) h.1
        have h01 : ∀ q ∈ flip k0, freeBinary P q.1 = true ∧ 0 ≤ (if q.1 ∈ flipped k0 then 1 - x q.1 else x q.1) := by
          intro q hq
          obtain ⟨p, hp, e, _⟩ := flip_mem hq
          rw [← e]
          obtain ⟨_, u1, l0⟩ := freeBinary_iff.mp (n2 p hp)
          obtain ⟨a, b⟩ := hx p.1 (hcl p (hmem p hp))
          unfold lbOk at a
          unfold ubOk at b
          rw [l0] at a
          rw [u1] at b
          have a1 := a (by linarith)
          have b1 := b hinf
          refine ⟨n2 p hp, ?_⟩
          split <;> linarith
        have hb : 0 ≤ b1 + flipSum k0 := le_trans (dot_nonneg _ _ (fun p hp => (hpos p hp).le) (fun p hp => (h01 p hp).2)) hkey
        rw [if_neg (not_lt.mpr hb)]
        split
        · exact ⟨rfl, by intro k h; cases h⟩
        · rename_i hany
          refine ⟨rfl, ?_⟩
          intro k hk
          simp only [Option.some.injEq] at hk
          subst hk
          refine ⟨?_, hkey⟩
          intro p hp
          refine ⟨hpos p hp, ?_, (h01 p hp).1⟩
          simp only [List.any_eq_true, decide_eq_true_eq, not_exists, not_and] at hany
          exact not_lt.mp (hany p hp)

theorem derive_three {P : Prob} {xs : Nat → ℚ} {isL : Bool} {row : SVec} {rhs : ℚ} {k : Knap} (h : (derive P xs isL row rhs).2 = some k) :
    k.krow ≠ [] := by
  unfold derive at h
  split at h
  · cases h
  · simp only at h
    split at h
    · cases h
    · split at h
      · cases h
      · rename_i hc
        push Not at hc
        split at h
        · cases h
        · simp only [Option.some.injEq] at h
          rw [← h]
          intro he
          have := congrArg List.length he
          simp [flip] at this
          rw [this] at hc
          simp at hc

theorem foldOpt_total {α β : Type} {f : β → α → Option β} : ∀ (l : List α) (b : β), (∀ b a, a ∈ l → ∃ b', f b a = some b') →
    ∃ b', foldOpt f b l = some b'
  | [], b, _ => ⟨b, rfl⟩
  | a :: t, b, h => by
    obtain ⟨b', hb⟩ := h b a List.mem_cons_self
    unfold foldOpt
    rw [hb, Option.bind_some]
    exact foldOpt_total t b' fun b a ha => h b a (List.mem_cons_of_mem _ ha)

/-- **C40.** Under the assumptions of `generateCuts_valid_partial`, `generateCuts` terminates without reading outside its
arrays, for every choice of parameters, rows to test and sorting order. -/
theorem generateCuts_total_partial {δ : ℚ} {P : Prob} (wf : P.WF) (g : GridData δ P) {xs : Nat → ℚ} (lp : LPPoint P xs) (S : Sorter)
    (pm : Params) (inTree : Bool) (pass : ℤ) (cs : Cuts) : ∃ cs', generateCuts S pm P inTree pass xs cs = some cs' := by
  have lp' := lp.clip wf
  have htol : tightTol inTree pass ≤ 10000 := by
    unfold tightTol eps2
    split
    · norm_num
    · split <;> norm_num
  have inv := vbTable_inv g wf lp' pm htol
  unfold generateCuts
  simp only
  refine foldOpt_total _ _ ?_
  intro b i _
  unfold doRow
  split
  · exact ⟨_, rfl⟩
  · split
    · exact ⟨_, rfl⟩
    · rename_i r hr
      split
      · exact ⟨_, rfl⟩
      · refine foldOpt_total _ _ ?_
        intro b itry hi
        have h4 : itry < 4 := by
          have := List.mem_range.mp hi
          split at this <;> omega
        unfold tryOne
        split
        · exact ⟨_, rfl⟩
        · rename_i row bb ht
          obtain ⟨ok, hold⟩ := tryRow_spec g wf inv hr h4 ht
          have hrm : r ∈ P.rows := List.mem_of_getElem? hr
          have hinf : 1 < P.inf := by
            have := lp.act r hrm
            have := abs_nonneg (r.coefs.dot xs)
            linarith
          have hbox : InBox P (clip P xs) := fun j hj => ⟨lp'.relaxed.lower j hj, lp'.relaxed.upper j hj⟩
          obtain ⟨_, d2⟩ := derive_implied_partial hinf (clip P xs) ok.cols ok.nodup
            (fun p hp => grid_big g.coarse (ok.grid p hp) (ok.nz p hp)) hbox (hold _ lp'.relaxed)
          obtain ⟨_, d3⟩ := derive_spec g hinf lp' ok hold
          have d4 := fun k => derive_three (P := P) (xs := clip P xs) (isL := decide (itry % 2 = 1)) (row := row) (rhs := bb) (k := k)
          generalize derive P (clip P xs) (decide (itry % 2 = 1)) row bb = res at d2 d3 d4
          obtain ⟨cc, o⟩ := res
          cases o with
          | none => exact ⟨_, rfl⟩
          | some k =>
            simp only
            obtain ⟨q1, _⟩ := d2 k rfl
            have kok := (d3 k rfl).1
            refine coverRow_total S ⟨fun p hp => (q1 p hp).1, fun p hp => (q1 p hp).2.1, ?_⟩ _ _ _
            cases hk : k.krow with
            | nil => exact absurd hk (d4 k rfl)
            | cons p t =>
              have hp : p ∈ k.krow := by rw [hk]; simp
              obtain ⟨z, hz⟩ := kok.grid p hp
              have h1 := kok.pos p hp
              have h2 := (q1 p hp).2.1
              have h3 := kok.dge
              have hz1 : 1 ≤ z := by
                by_contra hc
                have : (z : ℚ) ≤ 0 := by exact_mod_cast (by omega : z ≤ 0)
                rw [hz] at h1
                have : (z : ℚ) * δ ≤ 0 := mul_nonpos_of_nonpos_of_nonneg this (by linarith)
                linarith
              have hzq : (1 : ℚ) ≤ z := by exact_mod_cast hz1
              have : 1 * δ ≤ z * δ := mul_le_mul_of_nonneg_right hzq (by linarith)
              have h5 : eps2 < 1 / 10000 := by norm_num [eps2]
              linarith

end Cgl.Knapsack
