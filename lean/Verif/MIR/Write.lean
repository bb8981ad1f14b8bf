import Verif.MIR.Cmir

/-!
# From the c-MIR inequality to the cut
-/

namespace Cgl.MIR

/-- The inequality under construction: distinct columns of the problem. -/
structure VecOk (P : Prob) (v : SVec) : Prop where
  nodup : (keys v).Nodup
  cols : ∀ j ∈ keys v, j < P.nCols

theorem writeOne_spec {P : Prob} {pre : Pre} {rows : List Row} {crit : Nat} {xlp x : Nat → ℚ} {row : SVec} {used : List Nat}
    {sCoef : ℚ} {c c' : SVec × ℚ} {p : Nat × ℚ} (hwf : P.WF) (hok : PreOk P pre x) (hsub : SubOf rows P)
    (hu : ∀ i ∈ used, ∃ r t s b, rows[i]? = some r ∧ pre.rows[i]? = some (t, s, b) ∧ RowImp s b (r.coefs.dot x))
    (hc : VecOk P c.1) (h : writeOne P pre rows crit xlp row used sCoef c p = some c') :
    VecOk P c'.1 ∧ SVec.dot c'.1 x - c'.2 =
      SVec.dot c.1 x - c.2 - sCoef * sVal P pre crit xlp row x (ext pre rows used x) p := by
  unfold writeOne at h
  simp only at h
  unfold sVal
  split at h
  · rename_i hj
    have hjP : p.1 < P.nCols := hok.nCols ▸ hj
    rw [if_pos hj]
    split at h
    · rename_i hl
      rw [if_pos hl]
      cases hv : pre.vlb p.1 with
      | some yv =>
        rw [hv] at h
        obtain ⟨v, h1, rfl⟩ := Option.map_eq_some_iff.1 h
        obtain ⟨n1, n2, n3⟩ := insertNew_spec h1 (nodup_addCoef hc.nodup _ _)
        have hy := hok.vlb _ _ _ hv
        refine ⟨⟨n1, ?_⟩, ?_⟩
        · intro i hi
          rcases (n3 i).1 hi with hi | rfl
          · rcases mem_keys_addCoef.1 hi with hi | rfl
            · exact hc.cols i hi
            · exact hy.1
          · exact hjP
        · simp only [n2, dot_addCoef hc.nodup, lbAt, hv]; ring
      | none =>
        rw [hv] at h
        obtain ⟨v, h1, rfl⟩ := Option.map_eq_some_iff.1 h
        obtain ⟨n1, n2, n3⟩ := insertNew_spec h1 hc.nodup
        refine ⟨⟨n1, ?_⟩, ?_⟩
        · intro i hi
          rcases (n3 i).1 hi with hi | rfl
          · exact hc.cols i hi
          · exact hjP
        · simp only [n2, lbAt, hv]; ring
    · rename_i hl
      rw [if_neg hl]
      cases hv : pre.vub p.1 with
      | some yv =>
        rw [hv] at h
        obtain ⟨v, h1, rfl⟩ := Option.map_eq_some_iff.1 h
        obtain ⟨n1, n2, n3⟩ := insertNew_spec h1 (nodup_addCoef hc.nodup _ _)
        have hy := hok.vub _ _ _ hv
        refine ⟨⟨n1, ?_⟩, ?_⟩
        · intro i hi
          rcases (n3 i).1 hi with hi | rfl
          · rcases mem_keys_addCoef.1 hi with hi | rfl
            · exact hc.cols i hi
            · exact hy.1
          · exact hjP
        · simp only [n2, dot_addCoef hc.nodup, ubAt, hv]; ring
      | none =>
        rw [hv] at h
        obtain ⟨v, h1, rfl⟩ := Option.map_eq_some_iff.1 h
        obtain ⟨n1, n2, n3⟩ := insertNew_spec h1 hc.nodup
        refine ⟨⟨n1, ?_⟩, ?_⟩
        · intro i hi
          rcases (n3 i).1 hi with hi | rfl
          · exact hc.cols i hi
          · exact hjP
        · simp only [n2, ubAt, hv]; ring
  · rename_i hj
    rw [if_neg hj]
    cases hui : used[p.1 - pre.nCols]? with
    | none => rw [hui] at h; cases h
    | some i =>
      rw [hui] at h
      obtain ⟨r, t, s, b, h1, h2, h3⟩ := hu i (List.mem_of_getElem? hui)
      simp only [h1, h2, Option.some.injEq] at h
      subst h
      obtain ⟨n1, n2, n3⟩ := addScaled_spec (if s = .L then -(sCoef * p.2) else sCoef * p.2) x r.coefs c.1 hc.nodup
      have hr := hsub i r h1
      refine ⟨⟨n1, ?_⟩, ?_⟩
      · intro k hk
        rcases (n3 k).1 hk with hk | hk
        · exact hc.cols k hk
        · obtain ⟨q, hq, rfl⟩ := List.mem_map.1 hk
          exact hwf.cols r (List.mem_of_getElem? hr) q hq
      · have hy : ext pre rows used x p.1 = slackVal pre rows used x (p.1 - pre.nCols) := by
          unfold ext; rw [if_neg hj]
        simp only [n2, hy, slackVal, hui, h1, h2]
        cases s <;> simp only [RowImp] at h3 <;> simp <;> first | ring1 | (rw [h3]; ring1)

theorem writeAll_spec {P : Prob} {pre : Pre} {rows : List Row} {crit : Nat} {xlp x : Nat → ℚ} {row : SVec} {used : List Nat}
    {sCoef : ℚ} (hwf : P.WF) (hok : PreOk P pre x) (hsub : SubOf rows P)
    (hu : ∀ i ∈ used, ∃ r t s b, rows[i]? = some r ∧ pre.rows[i]? = some (t, s, b) ∧ RowImp s b (r.coefs.dot x)) :
    ∀ (ps : SVec) (c c' : SVec × ℚ), VecOk P c.1 → writeAll P pre rows crit xlp row used sCoef ps c = some c' →
    VecOk P c'.1 ∧ SVec.dot c'.1 x - c'.2 =
      SVec.dot c.1 x - c.2 - sCoef * (ps.map (sVal P pre crit xlp row x (ext pre rows used x))).sum
  | [], c, c', hc, h => by
    simp only [writeAll, Option.some.injEq] at h
    subst h; exact ⟨hc, by simp⟩
  | p :: ps, c, c', hc, h => by
    unfold writeAll at h
    split at h
    · cases h
    · rename_i c1 h1
      obtain ⟨a1, a2⟩ := writeOne_spec hwf hok hsub hu hc h1
      obtain ⟨b1, b2⟩ := writeAll_spec hwf hok hsub hu ps c1 c' a1 h
      refine ⟨b1, ?_⟩
      rw [b2, a2, List.map_cons, List.sum_cons]; ring

theorem sOrder_perm (v2 : Bool) (n : Nat) (l : SVec) : (sOrder v2 n l).Perm l := by
  unfold sOrder
  split
  · exact List.filter_append_perm _ _
  · exact List.Perm.refl _

theorem weaken_le {v2 : Bool} {P : Prob} {x : Nat → ℚ} (hf : P.Feasible x) (hr : Representable P x) {p : Nat × ℚ}
    (hj : p.1 < P.nCols) : weaken v2 P p ≤ p.2 * x p.1 := by
  have h1 := lower_le hf hr hj
  have h2 := le_upper hf hr hj
  unfold weaken
  split
  · rename_i hp
    split
    · rename_i hl; exact mul_nonneg hp.le (by linarith [hl.2])
    · exact mul_le_mul_of_nonneg_left h1 hp.le
  · split
    · rename_i hp
      split
      · rename_i hl; exact mul_nonneg_of_nonpos_of_nonpos hp.le (by linarith [hl.2])
      · exact mul_le_mul_of_nonpos_left h2 hp.le
    · rename_i h3 h4
      have : p.2 = 0 := le_antisymm (not_lt.mp h3) (not_lt.mp h4)
      rw [this]; simp

theorem sum_weaken_le {v2 : Bool} {P : Prob} {x : Nat → ℚ} (hf : P.Feasible x) (hr : Representable P x) :
    ∀ (v : SVec), (∀ j ∈ keys v, j < P.nCols) → (v.map (weaken v2 P)).sum ≤ SVec.dot v x
  | [], _ => by simp
  | p :: v, h => by
    rw [List.map_cons, List.sum_cons, SVec.dot_cons]
    have h1 := weaken_le (v2 := v2) hf hr (h p.1 (by simp [keys]))
    have h2 := sum_weaken_le (v2 := v2) hf hr v fun j hj => h j (by simp only [keys, List.map_cons, List.mem_cons]; exact Or.inr hj)
    linarith

theorem finish_ok {v2 : Bool} {sq : ℚ → ℚ} {P : Prob} {xlp x : Nat → ℚ} {c : SVec × ℚ} {cut : RowCut} (hf : P.Feasible x)
    (hr : Representable P x) (hc : VecOk P c.1) (hle : SVec.dot c.1 x ≤ c.2) (h : finish v2 sq P xlp c = some cut) :
    cut.SatIn P.inf x := by
  unfold finish at h
  simp only at h
  split at h
  · obtain rfl := Option.some.inj h
    refine ⟨fun h => absurd h (lt_irrefl _), fun _ => ?_⟩
    simp only
    generalize cleanTol v2 c.1 = t
    have hsplit : SVec.dot c.1 x = SVec.dot (c.1.filter fun p => decide (t < |p.2|)) x +
        SVec.dot (c.1.filter fun p => !decide (t < |p.2|)) x := by
      rw [← SVec.dot_append]
      exact (SVec.dot_perm (List.filter_append_perm _ _) x).symm
    have hd := sum_weaken_le (v2 := v2) hf hr (c.1.filter fun p => !decide (t < |p.2|)) fun j hj => hc.cols j (by
      obtain ⟨q, hq, rfl⟩ := List.mem_map.1 hj
      exact List.mem_map.2 ⟨q, List.mem_of_mem_filter hq, rfl⟩)
    have hrow : SVec.dot (if v2 = true then (c.1.filter fun p => decide (t < |p.2|)).insertionSort (fun p q => p.1 ≤ q.1)
        else c.1.filter fun p => decide (t < |p.2|)) x = SVec.dot (c.1.filter fun p => decide (t < |p.2|)) x := by
      split
      · exact SVec.dot_perm (List.perm_insertionSort _ _) x
      · rfl
    rw [hrow]
    linarith
  · cases h

/-- `cMirSeparation` on a valid mixed knapsack gives a valid cut. -/
theorem cMirSeparation_ok {v2 : Bool} {par : Par} {P : Prob} {pre : Pre} {rows : List Row} {xlp x : Nat → ℚ} {row : SVec}
    {used : List Nat} {m : Mk} {cut : RowCut} (hs : SorterOk par) (hwf : P.WF) (hf : P.Feasible x) (hr : Representable P x)
    (hui : UpperIntegral P) (hok : PreOk P pre x) (hsub : SubOf rows P)
    (hu : ∀ i ∈ used, ∃ r t s b, rows[i]? = some r ∧ pre.rows[i]? = some (t, s, b) ∧ RowImp s b (r.coefs.dot x))
    (hk : KnapOk P m.knap m.rhs x (m.contS.map (sVal P pre par.criterion xlp row x (ext pre rows used x))).sum)
    (h : cMirSeparation v2 par P pre rows xlp row used m = some (some cut)) : cut.SatIn P.inf x := by
  unfold cMirSeparation at h
  split at h
  · simp at h
  · rename_i b hb
    split at h
    · cases h
    · rename_i c hc
      obtain ⟨k1, k2⟩ := bestCmir_ok hs hf hr hui hk hb
      have hv : VecOk P b.cut := ⟨k1 ▸ hk.nodup, fun j hj => (hk.ints j (k1 ▸ hj)).1⟩
      obtain ⟨w1, w2⟩ := writeAll_spec hwf hok hsub hu _ (b.cut, b.rhs) c hv hc
      have hsum := ((sOrder_perm v2 pre.nCols m.contS).map
        (sVal P pre par.criterion xlp row x (ext pre rows used x))).sum_eq
      rw [hsum] at w2
      simp only at w2
      exact finish_ok hf hr w1 (by linarith) (Option.some.inj h)

end Cgl.MIR
