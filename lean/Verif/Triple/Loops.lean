import Verif.Triple.Run

/-! # What the loops do to the problem -/

namespace Cgl.Triple

/-- From one state to another. -/
structure Step (root : ℚ → ℚ) (C : Prob) (cut : Nat → Bool) (s s' : St) : Prop where
  inv : Inv C cut s'.P
  keeps : ∀ x, Within C x → s.P.Feasible x → s'.P.Feasible x ∧ s'.feasible = s.feasible
  less : s'.feasible = true → s.feasible = true
  scale : Ok root C → (∀ k, s.scale k ∈ scales root C) → ∀ k, s'.scale k ∈ scales root C
  back : Ok root C → (∀ k, s.scale k ∈ scales root C) → ∀ x, Within C x → s'.P.Feasible x → s.P.Feasible x

theorem Step.refl {root : ℚ → ℚ} {C : Prob} {cut : Nat → Bool} {s : St} (h : Inv C cut s.P) : Step root C cut s s :=
  ⟨h, fun _ _ hf => ⟨hf, rfl⟩, id, fun _ hs => hs, fun _ _ _ _ hf => hf⟩

theorem Step.trans {root : ℚ → ℚ} {C : Prob} {cut : Nat → Bool} {a b c : St} (h : Step root C cut a b) (k : Step root C cut b c) : Step root C cut a c :=
  ⟨k.inv, fun x hx hf => ⟨(k.keeps x hx (h.keeps x hx hf).1).1, (k.keeps x hx (h.keeps x hx hf).1).2.trans (h.keeps x hx hf).2⟩,
    fun hc => h.less (k.less hc), fun hO hs => k.scale hO (h.scale hO hs),
    fun hO hs x hx hf => h.back hO hs x hx (k.back hO (h.scale hO hs) x hx hf)⟩

/-- Comparing the rows: no array is overrun. -/
theorem compare_spec {root : ℚ → ℚ} {C : Prob} {cut : Nat → Bool} {i j1 j2 nBits : Nat} {ls : List Line} {s : St} (hS : Sized C)
    (h : Ready C s.P cut i j1 j2 nBits ls) (hl : ls.length ≤ 4) :
    ∃ s', compare root nBits ls s = .ok s' ∧ Step root C cut s s' ∧ s'.P.colLower = s.P.colLower ∧ s'.P.colUpper = s.P.colUpper := by
  unfold compare
  have := twins_length ls
  rw [if_neg (by omega)]
  refine ⟨_, rfl, ⟨dropRow_inv h.inv _ (dropped_row h), ?_, id, ?_, ?_⟩, ?_, ?_⟩
  · intro x _ hf
    exact ⟨dropRow_keeps (h.inv.sized hS) _ hf, rfl⟩
  · intro hO hs k
    exact (scaled_ok hS hO.rootPos h.inv h.lines h.bits hs k).1
  · intro hO hs x hx hf
    refine dropRow_back hO h (fun k => scaled_ok hS hO.rootPos h.inv h.lines h.bits hs k) ?_ hf
    intro j hj; exact hx j (h.inv.nCols ▸ hj)
  · dsimp only; unfold dropRow; split <;> rfl
  · dsimp only; unfold dropRow; split <;> rfl

theorem within_of {C Q : Prob} {cut : Nat → Bool} (h : Inv C cut Q) {x : Nat → ℚ} (hx : Within C x) : Within Q x :=
  fun j hj => hx j (h.nCols ▸ hj)

theorem treat_spec {root : ℚ → ℚ} {C : Prob} {cut : Nat → Bool} {i j1 j2 nBits : Nat} {A B : Line} {r1 r2 : Row} {s : St}
    (hS : Sized C) (hI : Inv C cut s.P) (hA : LineOk s.P (usable C cut) i j1 j2 nBits A r1)
    (hB : LineOk s.P (usable C cut) i j1 j2 nBits B r2) (hn : nBits = 2 ∨ nBits = 3) (hnd : (colsOf nBits i j1 j2).Nodup)
    (hi : i < s.P.nCols) (hii : s.P.isInt i = true) (h0 : s.P.colLower i = 0) (h1 : s.P.colUpper i = 1) {o : Option Nat}
    (ho : nBits = 3 → o = some j2) (hmem : i ∈ r1.coefs.map Prod.fst) :
    ∃ s' stop, treat root (usable C cut) i nBits j1 o A B s = .ok (s', stop) ∧ Step root C cut s s' ∧
      (stop = false → s'.P.colLower i = 0 ∧ s'.P.colUpper i = 1) := by
  unfold treat
  rw [if_neg (by rintro (h | h); exacts [h h0, h h1])]
  have hsP := hI.sized hS
  rcases hn with rfl | rfl
  · rw [if_pos rfl]
    have hij : i ≠ j1 := by
      unfold colsOf at hnd
      rw [if_pos rfl] at hnd
      simpa using hnd
    obtain ⟨c1, c2, c3⟩ := hA.col hI hS hA.have1
    obtain ⟨ht, hstop⟩ := twoColumns_tight (A := A) (B := B) hij h0 c2 hI.ints
    have hkeep := fun x (hx : Within C x) (hf : s.P.Feasible x) =>
      twoColumns_keeps hsP hA hB hij hi c1 hii c2 h0 h1 (within_of hI hx) hf
    generalize twoColumns s.P i j1 A B = t at ht hstop hkeep ⊢
    obtain ⟨Q, stop, bad⟩ := t
    dsimp only at ht hstop hkeep ⊢
    have hQ : Inv C cut Q := by
      refine ⟨ht.nCols.trans hI.nCols, ht.inf.trans hI.inf, ht.isInt.trans hI.isInt, by rw [ht.rows]; exact hI.len,
        fun k r hr => hI.rows k r (ht.rows ▸ hr), fun j => le_trans (hI.lower j) (ht.lower j),
        fun j => le_trans (ht.upper j) (hI.upper j), ht.ints hI.ints⟩
    have hready : Ready C (⟨Q, s.feasible && !bad, s.scale⟩ : St).P cut i j1 j2 2 [A, B] := by
      refine ⟨hQ, ?_, Or.inl rfl, hnd, ht.nCols ▸ hi, ht.isInt ▸ hii, ?_, ht.upperI.trans h1, fun h => absurd rfl h⟩
      · intro l hl
        simp only [List.mem_cons, List.not_mem_nil, or_false] at hl
        rcases hl with rfl | rfl
        · exact ⟨r1, hA.move ht.rows⟩
        · exact ⟨r2, hB.move ht.rows⟩
      · have := ht.lower i
        rw [h0] at this
        exact this
    obtain ⟨s', e, st, el, eu⟩ := compare_spec (root := root) hS hready (by simp)
    rw [e]
    refine ⟨s', stop, rfl, ?_, ?_⟩
    · have first : Step root C cut s ⟨Q, s.feasible && !bad, s.scale⟩ := by
        refine ⟨hQ, ?_, ?_, fun _ hs => hs, fun _ _ x _ hf => ht.back hf⟩
        · intro x hx hf
          obtain ⟨a, b⟩ := hkeep x hx hf
          exact ⟨a, by rw [b]; simp⟩
        · intro h
          exact (Bool.and_eq_true_iff.mp h).1
      exact first.trans st
    · intro hs
      rw [el, eu]
      exact ⟨hstop hs, ht.upperI.trans h1⟩
  · rw [if_neg (by decide), if_neg (by decide), ho rfl]
    dsimp only
    have hnd' : [i, j1, j2].Nodup := hnd
    obtain ⟨d1, d2⟩ := doubletons_spec hsP (use := usable C cut) hnd'
    have hready : Ready C s.P cut i j1 j2 3 (A :: B :: doubletons s.P (usable C cut) j1 j2) := by
      refine ⟨hI, ?_, Or.inr rfl, hnd, hi, hii, le_of_eq h0.symm, h1, fun _ => ?_⟩
      rotate_left
      · have hm := List.mem_of_getElem? hA.row
        obtain ⟨r0, m0, hc, -⟩ := hI.coefs hm
        refine ⟨r0, List.mem_filter.mpr ⟨m0, by unfold short; rw [decide_eq_true_iff, ← hc]; exact hA.len⟩, ?_⟩
        rw [← hc]
        exact ⟨coefOf_ne hsP hm hmem, coefOf_ne hsP hm hA.have1, coefOf_ne hsP hm (hA.have2 (by decide))⟩
      intro l hl
      rcases List.mem_cons.mp hl with rfl | hl
      · exact ⟨r1, hA⟩
      · rcases List.mem_cons.mp hl with rfl | hl
        · exact ⟨r2, hB⟩
        · exact d2 l hl
    obtain ⟨s', e, st, el, eu⟩ := compare_spec (root := root) hS hready (by
      rw [List.length_cons, List.length_cons]; omega)
    rw [e]
    exact ⟨s', false, rfl, st, fun _ => by rw [el, eu]; exact ⟨h0, h1⟩⟩

/-- What is known about the masks, in terms of the cleaned problem. -/
structure MaskOk (C : Prob) (use : Nat → Bool) (which : List Nat) (i : Nat) (p : Nat × Nat) : Prop where
  good : GoodMask C use which p
  mem : ∀ r, C.rows[p.1]? = some r → i ∈ r.coefs.map Prod.fst

theorem row_of {C Q : Prob} {cut : Nat → Bool} (hI : Inv C cut Q) {k : Nat} {r0 : Row} (h : C.rows[k]? = some r0) :
    ∃ r, Q.rows[k]? = some r ∧ r.coefs = r0.coefs := by
  have hl : k < Q.rows.length := by
    rw [hI.len]
    by_contra hc
    rw [List.getElem?_eq_none (by omega)] at h
    cases h
  obtain ⟨r, hr⟩ : ∃ r, Q.rows[k]? = some r := ⟨_, List.getElem?_eq_getElem hl⟩
  obtain ⟨r1, h1, h2⟩ := hI.rows k r hr
  rw [h] at h1
  rw [← Option.some.inj h1] at h2
  refine ⟨r, hr, ?_⟩
  rcases h2 with rfl | ⟨rfl, -⟩ <;> rfl

theorem look_spec {root : ℚ → ℚ} {C : Prob} {cut : Nat → Bool} {i : Nat} {which : List Nat} (hS : Sized C) (hw : which.Nodup)
    (hi : i < C.nCols) (hii : C.isInt i = true) : ∀ (l : List (Nat × Nat)) (done : List Nat) (s : St),
    (∀ p ∈ l, MaskOk C (usable C cut) which i p) → Inv C cut s.P → s.P.colLower i = 0 → s.P.colUpper i = 1 →
    ∃ s', look root (usable C cut) i which.length l done s = .ok s' ∧ Step root C cut s s' := by
  intro l
  induction l with
  | nil => intro done s _ hI _ _; exact ⟨s, rfl, Step.refl hI⟩
  | cons p l ih =>
    intro done s hp hI h0 h1
    obtain ⟨i1, m⟩ := p
    have hl : ∀ p ∈ l, MaskOk C (usable C cut) which i p := fun p h => hp p (List.mem_cons_of_mem _ h)
    unfold look
    by_cases hm : m = 0 ∨ m = full ∨ m ∈ done
    · rw [if_pos hm]; exact ih done s hl hI h0 h1
    · rw [if_neg hm]
      cases hfind : l.find? (fun p => p.2 == m) with
      | none => exact ih done s hl hI h0 h1
      | some p2 =>
        obtain ⟨i2, m2⟩ := p2
        have e2 : m2 = m := by simpa using List.find?_some hfind
        have hmem2 := List.mem_of_find?_eq_some hfind
        subst e2
        dsimp only
        have M1 := hp (i1, m2) (by simp)
        have M2 := hl _ hmem2
        obtain ⟨a, a1, a2⟩ := M1.good
        obtain ⟨b, b1, b2⟩ := M2.good
        dsimp only at a1 a2 b1 b2
        have a3 : usable C cut i1 = true ∧ a.coefs.length ≤ 3 ∧ Bits which (a.coefs.map Prod.fst) m2 := by
          rcases a2 with h | h | h
          · exact absurd (Or.inl h) hm
          · exact absurd (Or.inr (Or.inl h)) hm
          · exact h
        have b3 : usable C cut i2 = true ∧ b.coefs.length ≤ 3 ∧ Bits which (b.coefs.map Prod.fst) m2 := by
          rcases b2 with h | h | h
          · exact absurd (Or.inl h) hm
          · exact absurd (Or.inr (Or.inl h)) hm
          · exact h
        have na := hS.wf.nodup a (List.mem_of_getElem? a1)
        have nb := hS.wf.nodup b (List.mem_of_getElem? b1)
        have ca := countBits_eq hw na a3.2.2
        have cb := countBits_eq hw nb b3.2.2
        rw [List.length_map] at ca cb
        obtain ⟨r1, q1, q2⟩ := row_of hI a1
        obtain ⟨r2, q3, q4⟩ := row_of hI b1
        rw [q1, q3]
        dsimp only
        have hpair : Pair s.P (usable C cut) i (countBits which.length m2) i1 i2 r1 r2 := by
          refine ⟨q1, q3, a3.1, b3.1, by rw [q2]; exact ca.symm, by rw [q4]; exact cb.symm, by rw [ca]; exact a3.2.1, ?_, ?_⟩
          · intro k; rw [q2, q4]; exact a3.2.2.same b3.2.2 k
          · rw [q2]; exact M1.mem a a1
        rcases matched_cases (root := root) (s := s) (hI.sized hS) hpair with e | ⟨j1, j2, A, B, hA, hB, hnd, hn, o, ho, e⟩
        · rw [e]; exact ih done s hl hI h0 h1
        · obtain ⟨s', stop, e', st, hst⟩ := treat_spec (root := root) hS hI hA hB hn hnd (hI.nCols ▸ hi) (hI.isInt ▸ hii) h0 h1 ho (by rw [q2]; exact M1.mem a a1)
          rw [e, e']
          dsimp only
          cases stop with
          | true => exact ⟨s', rfl, st⟩
          | false =>
            obtain ⟨k0, k1⟩ := hst rfl
            obtain ⟨s'', e'', st'⟩ := ih (m2 :: done) s' hl st.inv k0 k1
            exact ⟨s'', e'', st.trans st'⟩

theorem column_spec {root : ℚ → ℚ} {C : Prob} {cut : Nat → Bool} {i : Nat} (hS : Sized C) (hi : i < C.nCols) {s : St}
    (hI : Inv C cut s.P) : ∃ s', column root (usable C cut) s i = .ok s' ∧ Step root C cut s s' := by
  unfold column
  by_cases hc : s.P.isInt i = true ∧ (colRows s.P i).length ≤ 20 ∧ 1 < (colRows s.P i).length ∧ s.P.colLower i = 0 ∧
      s.P.colUpper i = 1
  · rw [if_pos hc]
    obtain ⟨hm, hg⟩ := markRows_spec (P := s.P) (use := usable C cut) (colRows s.P i) [i]
      ⟨List.nodup_singleton _, by simp, List.prefix_refl _⟩
    refine look_spec hS hm.nodup hi (hI.isInt ▸ hc.1) _ [] s ?_ hI hc.2.2.2.1 hc.2.2.2.2
    intro p hp
    obtain ⟨h1, r, h2, h3⟩ := hg p hp
    obtain ⟨r0, h4, h5⟩ := hI.rows _ _ h2
    have hco : r.coefs = r0.coefs := by rcases h5 with rfl | ⟨rfl, -⟩ <;> rfl
    refine ⟨⟨r0, h4, ?_⟩, ?_⟩
    · rw [← hco]; exact h3
    · intro r1 hr1
      rw [h4] at hr1
      rw [← Option.some.inj hr1, ← hco]
      unfold colRows at h1
      have := (List.mem_filter.mp h1).2
      rw [h2] at this
      dsimp only at this
      obtain ⟨q, hq, e⟩ := List.any_eq_true.mp this
      rw [← eq_of_beq e]
      exact List.mem_map_of_mem hq
  · rw [if_neg hc]; exact ⟨s, rfl, Step.refl hI⟩

theorem columns_spec {root : ℚ → ℚ} {C : Prob} {cut : Nat → Bool} (hS : Sized C) : ∀ (l : List Nat) (s : St), (∀ i ∈ l, i < C.nCols) →
    Inv C cut s.P → ∃ s', columns root (usable C cut) l s = .ok s' ∧ Step root C cut s s' := by
  intro l
  induction l with
  | nil => intro s _ hI; exact ⟨s, rfl, Step.refl hI⟩
  | cons i l ih =>
    intro s hl hI
    unfold columns
    by_cases hf : s.feasible = true
    · rw [if_pos hf]
      obtain ⟨s1, e1, st1⟩ := column_spec (root := root) (cut := cut) hS (hl i (by simp)) hI
      rw [e1]
      obtain ⟨s2, e2, st2⟩ := ih s1 (fun k hk => hl k (List.mem_cons_of_mem _ hk)) st1.inv
      exact ⟨s2, e2, st1.trans st2⟩
    · rw [if_neg hf]; exact ⟨s, rfl, Step.refl hI⟩

end Cgl.Triple
