import Verif.MIR.Valid

/-!
# No exception and no read outside an array
-/

namespace Cgl.MIR

/-! ### The variable bound tables name integer columns -/

/-- The integer column of every recorded variable bound exists and is integer. -/
def VBCols (P : Prob) (vub vlb : Nat → Option (Nat × ℚ)) : Prop :=
  (∀ j y v, vub j = some (y, v) → y < P.nCols ∧ P.isInt y = true) ∧
  (∀ j y v, vlb j = some (y, v) → y < P.nCols ∧ P.isInt y = true)

theorem scanVB_int (P : Prob) : ∀ (v : SVec) (s : (Nat × ℚ) × (Nat × ℚ)),
    ((scanVB P v s).1 ∈ v ∧ P.isInt (scanVB P v s).1.1 = true) ∨
    ((scanVB P v s).1 = s.1 ∧ (v.countP fun p => decide (eps < |p.2|) && P.isInt p.1) = 0)
  | [], s => Or.inr ⟨rfl, rfl⟩
  | p :: v, s => by
    unfold scanVB
    split
    · rename_i he
      split
      · rename_i hi
        rcases scanVB_int P v (p, s.2) with h | h
        · exact Or.inl ⟨List.mem_cons_of_mem _ h.1, h.2⟩
        · left; rw [h.1]; exact ⟨List.mem_cons_self, hi⟩
      · rename_i hi
        rcases scanVB_int P v (s.1, p) with h | h
        · exact Or.inl ⟨List.mem_cons_of_mem _ h.1, h.2⟩
        · right; refine ⟨h.1, ?_⟩; rw [List.countP_cons, h.2]; simp [hi]
    · rename_i he
      rcases scanVB_int P v s with h | h
      · exact Or.inl ⟨List.mem_cons_of_mem _ h.1, h.2⟩
      · right; refine ⟨h.1, ?_⟩; rw [List.countP_cons, h.2]; simp [he]

theorem rowType_int {v2 : Bool} {P : Prob} {coefs : SVec} {s : Sense} {b : ℚ}
    (ht : determineRowType v2 P coefs s b = .varub ∨ determineRowType v2 P coefs s b = .varlb ∨
      determineRowType v2 P coefs s b = .vareq) :
    (coefs.countP fun p => decide (eps < |p.2|) && P.isInt p.1) ≠ 0 := by
  have c1 := count_split (fun j => P.isInt j) coefs
  unfold determineRowType at ht
  simp only [c1] at ht
  split at ht
  · simp at ht
  split at ht
  · simp at ht
  split at ht
  · simp at ht
  split at ht
  · rename_i h; omega
  · split at ht
    · simp at ht
    · split at ht <;> simp at ht

theorem recordVB_cols {v2 : Bool} {P : Prob} {r : Row} {s : Sense} {b : ℚ} {vub vlb : Nat → Option (Nat × ℚ)}
    (hcol : ∀ p ∈ r.coefs, p.1 < P.nCols) (hinv : VBCols P vub vlb) :
    VBCols P (recordVB P (determineRowType v2 P r.coefs s b) r.coefs vub vlb).1
      (recordVB P (determineRowType v2 P r.coefs s b) r.coefs vub vlb).2 := by
  have hupd : ∀ (f : Nat → Option (Nat × ℚ)) (j0 y0 : Nat) (v0 : ℚ),
      (∀ j y v, f j = some (y, v) → y < P.nCols ∧ P.isInt y = true) → y0 < P.nCols ∧ P.isInt y0 = true →
      ∀ j y v, upd f j0 (some (y0, v0)) j = some (y, v) → y < P.nCols ∧ P.isInt y = true := by
    intro f j0 y0 v0 hf h0 j y v h
    unfold upd at h
    split at h
    · simp only [Option.some.injEq, Prod.mk.injEq] at h
      exact h.1 ▸ h0
    · exact hf j y v h
  by_cases ht : determineRowType v2 P r.coefs s b = .varub ∨ determineRowType v2 P r.coefs s b = .varlb ∨
      determineRowType v2 P r.coefs s b = .vareq
  · have hy : (scanVB P r.coefs ((0, 0), (0, 0))).1.1 < P.nCols ∧ P.isInt (scanVB P r.coefs ((0, 0), (0, 0))).1.1 = true := by
      rcases scanVB_int P r.coefs ((0, 0), (0, 0)) with h | h
      · exact ⟨hcol _ h.1, h.2⟩
      · exact absurd h.2 (rowType_int ht)
    unfold recordVB
    rcases ht with ht | ht | ht <;> rw [ht]
    · exact ⟨hupd _ _ _ _ hinv.1 hy, hinv.2⟩
    · exact ⟨hinv.1, hupd _ _ _ _ hinv.2 hy⟩
    · exact ⟨hupd _ _ _ _ hinv.1 hy, hupd _ _ _ _ hinv.2 hy⟩
  · unfold recordVB
    push Not at ht
    obtain ⟨t1, t2, t3⟩ := ht
    cases hd : determineRowType v2 P r.coefs s b <;> simp_all

theorem recordAll_cols {v2 : Bool} {P : Prob} {act : Nat → ℚ} : ∀ (rows : List Row) (i : Nat)
    (vub vlb : Nat → Option (Nat × ℚ)), (∀ r ∈ rows, ∀ p ∈ r.coefs, p.1 < P.nCols) → VBCols P vub vlb →
    VBCols P (recordAll P ((preRows v2 P act i rows).map Prod.fst) rows vub vlb).1
      (recordAll P ((preRows v2 P act i rows).map Prod.fst) rows vub vlb).2
  | [], _, _, _, _, h => by simpa [recordAll, preRows] using h
  | r :: rs, i, vub, vlb, hcol, h => by
    simp only [preRows, List.map_cons, recordAll]
    exact recordAll_cols rs (i + 1) _ _ (fun q hq => hcol q (List.mem_cons_of_mem _ hq))
      (recordVB_cols (hcol r List.mem_cons_self) h)

theorem preprocess_cols {v2 : Bool} {P : Prob} {act : Nat → ℚ} (hwf : P.WF) :
    VBCols P (preprocess v2 P act).vub (preprocess v2 P act).vlb :=
  recordAll_cols P.rows 0 _ _ hwf.cols ⟨by simp, by simp⟩

/-! ### The order of the entries of an aggregated row -/

theorem keys_addScaled (k : ℚ) : ∀ (w v : SVec), (keys w).Nodup →
    keys (addScaled v k w) = keys v ++ (keys w).filter (fun j => decide (j ∉ keys v))
  | [], v, _ => by simp [addScaled]
  | p :: w, v, h => by
    have hw : (keys w).Nodup := (List.nodup_cons.1 h).2
    have hp : p.1 ∉ keys w := (List.nodup_cons.1 h).1
    have e : addScaled v k (p :: w) = addScaled (addCoef v p.1 (k * p.2)) k w := rfl
    rw [e, keys_addScaled k w _ hw, keys_addCoef]
    have e2 : keys (p :: w) = p.1 :: keys w := rfl
    rw [e2]
    by_cases hm : p.1 ∈ keys v
    · rw [if_pos hm, List.filter_cons_of_neg (by simpa using hm)]
    · rw [if_neg hm, List.filter_cons_of_pos (by simpa using hm), List.append_assoc, List.singleton_append]
      congr 2
      apply List.filter_congr
      intro j hj
      have : j ≠ p.1 := by rintro rfl; exact hp hj
      simp [this]

/-- Columns of the `k`-th row of `used`. -/
def rowCols (rows : List Row) (used : List Nat) (k : Nat) : List Nat := match used[k]? with
  | none => []
  | some i => match rows[i]? with
    | none => []
    | some r => keys r.coefs

/-- The order needed to write the slacks: no column of the row of a slack comes after the slack. -/
def Rel (n : Nat) (rows : List Row) (used : List Nat) (k j : Nat) : Prop :=
  n ≤ k → j < n → j ∉ rowCols rows used (k - n)

/-- Shape of an aggregated row. -/
structure AggShape (pre : Pre) (rows : List Row) (g : Agg) : Prop where
  nodup : (keys g.row).Nodup
  bound : ∀ j ∈ keys g.row, j < pre.nCols + g.used.length
  cover : ∀ k, ∀ j ∈ rowCols rows g.used k, j ∈ keys g.row
  order : (keys g.row).Pairwise (Rel pre.nCols rows g.used)
  used : ∀ i ∈ g.used, ∃ r e, rows[i]? = some r ∧ pre.rows[i]? = some e

theorem keys_copyRow {n k : Nat} {coefs : SVec} {s : Sense} {b l : ℚ} :
    keys (copyRow n k coefs s b l).1 = keys coefs ∨ keys (copyRow n k coefs s b l).1 = keys coefs ++ [n + k] := by
  unfold copyRow
  cases s <;> simp [keys]

theorem rowCols_append {rows : List Row} {used : List Nat} {i k : Nat} {r : Row} (hi : rows[i]? = some r) :
    rowCols rows (used ++ [i]) k =
      if k < used.length then rowCols rows used k else if k = used.length then keys r.coefs else [] := by
  unfold rowCols
  by_cases h : k < used.length
  · rw [if_pos h, List.getElem?_append_left h]
  · rw [if_neg h, List.getElem?_append_right (by omega)]
    by_cases h2 : k = used.length
    · subst h2; simp [hi]
    · rw [if_neg h2, List.getElem?_eq_none (by simp; omega)]

theorem shape_extend {pre : Pre} {rows : List Row} {K N : List Nat} {used : List Nat} {i : Nat} {r : Row}
    (hi : rows[i]? = some r) (hcov : ∀ k, ∀ j ∈ rowCols rows used k, j ∈ K)
    (hb : ∀ j ∈ K, j < pre.nCols + used.length) (ho : K.Pairwise (Rel pre.nCols rows used))
    (hN : ∃ N', (∀ j ∈ N', j < pre.nCols) ∧ (N = N' ∨ N = N' ++ [pre.nCols + used.length]))
    (hdis : ∀ j ∈ N, j ∉ K) : (K ++ N).Pairwise (Rel pre.nCols rows (used ++ [i])) := by
  rw [List.pairwise_append]
  refine ⟨?_, ?_, ?_⟩
  · refine ho.imp_of_mem ?_
    intro a b ha _ h h1 h2
    rw [rowCols_append hi, if_pos (by have := hb a ha; omega)]
    exact h h1 h2
  · obtain ⟨N', h1, h2⟩ := hN
    have h3 : N'.Pairwise (Rel pre.nCols rows (used ++ [i])) := by
      refine List.pairwise_of_forall_mem_list ?_
      intro a ha b _ hna
      have := h1 a ha; omega
    rcases h2 with rfl | rfl
    · exact h3
    · rw [List.pairwise_append]
      refine ⟨h3, by simp, ?_⟩
      intro a ha b _ hna
      have := h1 a ha; omega
  · intro a ha b hb' h1 h2
    rw [rowCols_append hi, if_pos (by have := hb a ha; omega)]
    intro hm
    exact hdis b hb' (hcov _ b hm)

theorem startAgg_shape {P : Prob} {pre : Pre} {rows : List Row} {act : Nat → ℚ} {i : Nat} {g : Agg} (hwf : P.WF)
    (hn : pre.nCols = P.nCols) (hsub : SubOf rows P) (h : startAgg pre rows act i = some g) : AggShape pre rows g := by
  unfold startAgg at h
  split at h
  · rename_i r t s b h1 h2
    obtain rfl := Option.some.inj h
    have hr := List.mem_of_getElem? (hsub i r h1)
    have hcol : ∀ j ∈ keys r.coefs, j < pre.nCols := by
      intro j hj
      obtain ⟨q, hq, rfl⟩ := List.mem_map.1 hj
      rw [hn]; exact hwf.cols r hr q hq
    have hnd : (keys r.coefs).Nodup := hwf.nodup r hr
    have hk := keys_copyRow (n := pre.nCols) (k := 0) (coefs := r.coefs) (s := s) (b := b) (l := act i)
    have hrc : ∀ k, rowCols rows [i] k = if k = 0 then keys r.coefs else [] := by
      intro k
      have := rowCols_append (used := []) (k := k) h1
      simpa using this
    refine ⟨?_, ?_, ?_, ?_, ?_⟩
    · rcases hk with hk | hk
      · simp only [hk]; exact hnd
      · simp only [hk]
        rw [List.nodup_append]
        refine ⟨hnd, by simp, ?_⟩
        intro a ha c hc
        have := hcol a ha
        simp at hc; omega
    · intro j hj
      rcases hk with hk | hk
      · simp only [hk] at hj; have := hcol j hj; omega
      · simp only [hk] at hj
        rcases List.mem_append.1 hj with hj | hj
        · have := hcol j hj; omega
        · simp at hj; subst hj; simp
    · intro k j hj
      simp only [hrc] at hj
      split at hj
      · rcases hk with hk | hk
        · simp only [hk]; exact hj
        · simp only [hk]; exact List.mem_append_left _ hj
      · simp at hj
    · have := shape_extend (pre := pre) (K := []) (N := keys (copyRow pre.nCols 0 r.coefs s b (act i)).1) (used := []) h1
        (by intro k j hj; simp [rowCols] at hj) (by simp) (by simp) ⟨keys r.coefs, hcol, by simpa using hk⟩ (by simp)
      simpa using this
    · intro k hk'
      simp at hk'
      subst hk'
      exact ⟨r, _, h1, h2⟩
  · cases h

theorem stepAgg_shape {P : Prob} {pre : Pre} {rows : List Row} {act : Nat → ℚ} {i c : Nat} {g g' : Agg} (hwf : P.WF)
    (hn : pre.nCols = P.nCols) (hsub : SubOf rows P) (hg : AggShape pre rows g) (h : stepAgg pre rows act g i c = some g') :
    AggShape pre rows g' := by
  unfold stepAgg at h
  split at h
  · rename_i r t s b h1 h2
    obtain rfl := Option.some.inj h
    have hr := List.mem_of_getElem? (hsub i r h1)
    have hcol : ∀ j ∈ keys r.coefs, j < pre.nCols := by
      intro j hj
      obtain ⟨q, hq, rfl⟩ := List.mem_map.1 hj
      rw [hn]; exact hwf.cols r hr q hq
    have hnd : (keys r.coefs).Nodup := hwf.nodup r hr
    have hk := keys_copyRow (n := pre.nCols) (k := g.used.length) (coefs := r.coefs) (s := s) (b := b) (l := act i)
    have hcnd : (keys (copyRow pre.nCols g.used.length r.coefs s b (act i)).1).Nodup := by
      rcases hk with hk | hk <;> rw [hk]
      · exact hnd
      · rw [List.nodup_append]
        refine ⟨hnd, by simp, ?_⟩
        intro a ha c hc
        have := hcol a ha
        simp at hc; omega
    have hcb : ∀ j ∈ keys (copyRow pre.nCols g.used.length r.coefs s b (act i)).1, j < pre.nCols + (g.used.length + 1) := by
      intro j hj
      rcases hk with hk | hk <;> rw [hk] at hj
      · have := hcol j hj; omega
      · rcases List.mem_append.1 hj with hj | hj
        · have := hcol j hj; omega
        · simp at hj; omega
    have hcc : ∀ j ∈ keys r.coefs, j ∈ keys (copyRow pre.nCols g.used.length r.coefs s b (act i)).1 := by
      intro j hj
      rcases hk with hk | hk <;> rw [hk]
      · exact hj
      · exact List.mem_append_left _ hj
    have hkeys := keys_addScaled
      (-(at' g.row c / at' (copyRow pre.nCols g.used.length r.coefs s b (act i)).1 c)) _ g.row hcnd
    refine ⟨?_, ?_, ?_, ?_, ?_⟩
    · exact (addScaled_spec _ (fun _ => 0) _ _ hg.nodup).1
    · intro j hj
      simp only [hkeys] at hj
      rcases List.mem_append.1 hj with hj | hj
      · have := hg.bound j hj; simp; omega
      · have := hcb j (List.mem_of_mem_filter hj); simp; omega
    · intro k j hj
      simp only [hkeys]
      rw [rowCols_append h1] at hj
      split at hj
      · exact List.mem_append_left _ (hg.cover k j hj)
      · split at hj
        · by_cases hm : j ∈ keys g.row
          · exact List.mem_append_left _ hm
          · exact List.mem_append_right _ (List.mem_filter.2 ⟨hcc j hj, by simpa using hm⟩)
        · simp at hj
    · simp only [hkeys]
      apply shape_extend h1 hg.cover hg.bound hg.order
      · refine ⟨(keys r.coefs).filter fun j => decide (j ∉ keys g.row), ?_, ?_⟩
        · intro j hj; exact hcol j (List.mem_of_mem_filter hj)
        · rcases hk with hk | hk <;> rw [hk]
          · exact Or.inl rfl
          · right
            rw [List.filter_append]
            congr 1
            rw [List.filter_cons_of_pos]
            · simp
            · have : pre.nCols + g.used.length ∉ keys g.row := by
                intro hm; have := hg.bound _ hm; omega
              simpa using this
      · intro j hj; simpa using (List.mem_filter.1 hj).2
    · intro k hk'
      rcases List.mem_append.1 hk' with hk' | hk'
      · exact hg.used k hk'
      · simp at hk'; subst hk'; exact ⟨r, _, h1, h2⟩
  · cases h

theorem chain_shape {v2 : Bool} {P : Prob} {pre : Pre} {rows : List Row} {act xlp : Nat → ℚ} (hwf : P.WF)
    (hn : pre.nCols = P.nCols) (hsub : SubOf rows P) : ∀ (n : Nat) (types : Nat → RowType) (g : Agg), AggShape pre rows g →
    ∀ g' ∈ chain v2 P pre rows act xlp n types g, AggShape pre rows g'
  | 0, types, g, hg, g', h => by simp only [chain, List.mem_singleton] at h; subst h; exact hg
  | n + 1, types, g, hg, g', h => by
    unfold chain at h
    split at h
    · simp only [List.mem_singleton] at h; subst h; exact hg
    · split at h
      · simp only [List.mem_singleton] at h; subst h; exact hg
      · rename_i g1 h1
        rcases List.mem_cons.1 h with rfl | h
        · exact hg
        · exact chain_shape hwf hn hsub n _ g1 (stepAgg_shape hwf hn hsub hg h1) g' h

theorem aggsFrom_shape {v2 : Bool} {par : Par} {P : Prob} {pre : Pre} {rows : List Row} {act xlp : Nat → ℚ} {i : Nat}
    (hwf : P.WF) (hn : pre.nCols = P.nCols) (hsub : SubOf rows P) :
    ∀ g ∈ aggsFrom v2 par P pre rows act xlp i, AggShape pre rows g := by
  intro g hg
  unfold aggsFrom at hg
  split at hg
  · cases hg
  · rename_i g0 h0
    exact chain_shape hwf hn hsub _ _ g0 (startAgg_shape hwf hn hsub h0) g hg

/-! ### Bound substitution -/

/-- No slack of the aggregated row has a coefficient below 1e-6. -/
def SlackClean (n : Nat) (row : SVec) : Prop := ∀ p ∈ row, n ≤ p.1 → 1 / 10 ^ 6 ≤ |p.2|

instance (n : Nat) (row : SVec) : Decidable (SlackClean n row) := by unfold SlackClean; infer_instance

theorem substOne_contS {v2 : Bool} {P : Prob} {pre : Pre} {crit : Nat} {xlp : Nat → ℚ} {extra : List ℚ} {m : Mk}
    {p : Nat × ℚ} (hs : v2 = true → pre.nCols ≤ p.1 → 1 / 10 ^ 6 ≤ |p.2|) :
    substOne v2 P pre crit xlp extra m p = .stop ∨
    ∃ m', substOne v2 P pre crit xlp extra m p = .go m' ∧
      (m'.contS = m.contS ∨ ∃ a, m'.contS = m.contS ++ [(p.1, a)] ∧ (p.1 < pre.nCols → P.isInt p.1 = false)) := by
  have hvb : ∀ (vb : Option (Nat × ℚ)) (a b : ℚ), (substVB m vb a b).contS = m.contS := by
    intro vb a b; cases vb <;> rfl
  unfold substOne
  simp only
  split
  · exact Or.inr ⟨_, rfl, Or.inl rfl⟩
  split
  · rename_i ht
    split
    · rename_i hv
      split
      · exact Or.inr ⟨_, rfl, Or.inl rfl⟩
      · rename_i hj
        have := hs hv (not_lt.mp hj)
        unfold eps at ht
        exact absurd ht (not_lt.mpr this)
    · exact Or.inr ⟨_, rfl, Or.inl rfl⟩
  split
  · exact Or.inr ⟨_, rfl, Or.inl rfl⟩
  rename_i hint
  split
  · rename_i hj
    have hni : P.isInt p.1 = false := by
      cases hp : P.isInt p.1
      · rfl
      · exact absurd ⟨hj, hp⟩ hint
    split
    · exact Or.inl rfl
    right
    split
    · split
      · exact ⟨_, rfl, Or.inr ⟨p.2, by simp [hvb], fun _ => hni⟩⟩
      · exact ⟨_, rfl, Or.inl (hvb _ _ _)⟩
    · split
      · exact ⟨_, rfl, Or.inr ⟨-p.2, by simp [hvb], fun _ => hni⟩⟩
      · exact ⟨_, rfl, Or.inl (hvb _ _ _)⟩
  · rename_i hj
    right
    split
    · exact ⟨_, rfl, Or.inr ⟨p.2, rfl, fun h => absurd h hj⟩⟩
    · exact ⟨_, rfl, Or.inl rfl⟩

theorem substLoop_contS {v2 : Bool} {P : Prob} {pre : Pre} {crit : Nat} {xlp : Nat → ℚ} {extra : List ℚ} :
    ∀ (ps : SVec) (m : Mk), (v2 = true → SlackClean pre.nCols ps) →
    substLoop v2 P pre crit xlp extra ps m = .stop ∨
    ∃ m', substLoop v2 P pre crit xlp extra ps m = .go m' ∧
      ∃ K, keys m'.contS = keys m.contS ++ K ∧ K.Sublist (keys ps) ∧ ∀ j ∈ K, j < pre.nCols → P.isInt j = false
  | [], m, _ => Or.inr ⟨m, rfl, [], by simp, by simp, by simp⟩
  | p :: ps, m, hs => by
    unfold substLoop
    rcases substOne_contS (P := P) (crit := crit) (xlp := xlp) (extra := extra) (m := m) (p := p) (v2 := v2) (pre := pre)
      (fun hv hj => hs hv p List.mem_cons_self hj) with h | ⟨m1, h, hc⟩
    · rw [h]; exact Or.inl rfl
    · rw [h]
      simp only
      rcases substLoop_contS (P := P) (crit := crit) (xlp := xlp) (extra := extra) ps m1
        (fun hv q hq => hs hv q (List.mem_cons_of_mem _ hq)) with h' | ⟨m', h', K, k1, k2, k3⟩
      · exact Or.inl h'
      · right
        refine ⟨m', h', ?_⟩
        rcases hc with hc | ⟨a, hc, hi⟩
        · refine ⟨K, by rw [k1, hc], ?_, k3⟩
          exact k2.trans (List.sublist_cons_self _ _)
        · refine ⟨p.1 :: K, ?_, ?_, ?_⟩
          · rw [k1, hc]; simp [keys]
          · simp only [keys, List.map_cons]; exact k2.cons_cons _
          · intro j hj
            rcases List.mem_cons.1 hj with rfl | hj
            · exact hi
            · exact k3 j hj

/-! ### Writing the slacks -/

/-- A list of entries to write that cannot make `insert` throw. -/
structure ToWrite (P : Prob) (pre : Pre) (rows : List Row) (used : List Nat) (ps : SVec) : Prop where
  nodup : (keys ps).Nodup
  order : (keys ps).Pairwise (Rel pre.nCols rows used)
  bound : ∀ j ∈ keys ps, j < pre.nCols + used.length
  cont : ∀ j ∈ keys ps, j < pre.nCols → P.isInt j = false

theorem writeAll_isSome {P : Prob} {pre : Pre} {rows : List Row} {crit : Nat} {xlp : Nat → ℚ} {row : SVec} {used : List Nat}
    {sCoef : ℚ} (hv : VBCols P pre.vub pre.vlb)
    (hu : ∀ i ∈ used, ∃ r e, rows[i]? = some r ∧ pre.rows[i]? = some e) :
    ∀ (ps : SVec) (c : SVec × ℚ), ToWrite P pre rows used ps → (keys c.1).Nodup →
    (∀ j ∈ keys ps, j < pre.nCols → j ∉ keys c.1) → (writeAll P pre rows crit xlp row used sCoef ps c).isSome
  | [], c, _, _, _ => rfl
  | p :: ps, c, hw, hnd, hdis => by
    obtain ⟨w1, w2, w3, w4⟩ := hw
    have hw' : ToWrite P pre rows used ps := ⟨(List.nodup_cons.1 w1).2, (List.pairwise_cons.1 w2).2,
      fun j hj => w3 j (List.mem_cons_of_mem _ hj), fun j hj => w4 j (List.mem_cons_of_mem _ hj)⟩
    have hp : p.1 ∈ keys (p :: ps) := List.mem_cons_self
    -- one step succeeds, adding to the columns only `p.1`, integer columns and the columns of the row of the slack
    have step : ∃ c', writeOne P pre rows crit xlp row used sCoef c p = some c' ∧ (keys c'.1).Nodup ∧
        ∀ j ∈ keys c'.1, j ∈ keys c.1 ∨ j = p.1 ∨ P.isInt j = true ∨
          (pre.nCols ≤ p.1 ∧ j ∈ rowCols rows used (p.1 - pre.nCols)) := by
      have col : ∀ (vb : Option (Nat × ℚ)) (a1 a2 a3 : ℚ) (q : ℚ), p.1 < pre.nCols →
          (∀ y v, vb = some (y, v) → P.isInt y = true) →
          ∃ c', (match vb with
            | some yv => (insertNew (addCoef c.1 yv.1 (a1 * yv.2)) p.1 a2).map fun v => (v, c.2)
            | none => (insertNew c.1 p.1 a3).map fun v => (v, q)) = some c' ∧ (keys c'.1).Nodup ∧
          ∀ j ∈ keys c'.1, j ∈ keys c.1 ∨ j = p.1 ∨ P.isInt j = true := by
        intro vb a1 a2 a3 q hj hvb
        have hpc := hdis p.1 hp hj
        cases vb with
        | none =>
          have h1 := insertNew_isSome (a := a3) hpc
          obtain ⟨n1, _, n3⟩ := insertNew_spec h1 hnd
          refine ⟨(c.1 ++ [(p.1, a3)], q), by simp [h1], n1, ?_⟩
          intro j hj'
          rcases (n3 j).1 hj' with hj' | rfl
          · exact Or.inl hj'
          · exact Or.inr (Or.inl rfl)
        | some yv =>
          have hint := hvb yv.1 yv.2 rfl
          have hpn : p.1 ∉ keys (addCoef c.1 yv.1 (a1 * yv.2)) := by
            intro hm
            rcases mem_keys_addCoef.1 hm with hm | hm
            · exact hpc hm
            · have := w4 p.1 hp hj; rw [hm, hint] at this; cases this
          have h1 := insertNew_isSome (a := a2) hpn
          obtain ⟨n1, _, n3⟩ := insertNew_spec h1 (nodup_addCoef hnd _ _)
          refine ⟨(addCoef c.1 yv.1 (a1 * yv.2) ++ [(p.1, a2)], c.2), by simp [h1], n1, ?_⟩
          intro j hj'
          rcases (n3 j).1 hj' with hj' | rfl
          · rcases mem_keys_addCoef.1 hj' with hj' | rfl
            · exact Or.inl hj'
            · exact Or.inr (Or.inr hint)
          · exact Or.inr (Or.inl rfl)
      unfold writeOne
      simp only
      split
      · rename_i hj
        split
        · obtain ⟨c', e1, e2, e3⟩ := col (pre.vlb p.1) (-(sCoef * p.2)) (sCoef * p.2) (sCoef * p.2)
            (c.2 + sCoef * p.2 * P.colLower p.1) hj (fun y v h => (hv.2 _ y v h).2)
          refine ⟨c', ?_, e2, fun j hj' => by have := e3 j hj'; tauto⟩
          rw [← e1]; cases pre.vlb p.1 <;> rfl
        · obtain ⟨c', e1, e2, e3⟩ := col (pre.vub p.1) (sCoef * p.2) (-(sCoef * p.2)) (-(sCoef * p.2))
            (c.2 - sCoef * p.2 * P.colUpper p.1) hj (fun y v h => (hv.1 _ y v h).2)
          refine ⟨c', ?_, e2, fun j hj' => by have := e3 j hj'; tauto⟩
          rw [← e1]; cases pre.vub p.1 <;> rfl
      · rename_i hj
        have hb := w3 p.1 hp
        have hlt : p.1 - pre.nCols < used.length := by omega
        have hui : used[p.1 - pre.nCols]? = some used[p.1 - pre.nCols] := List.getElem?_eq_getElem hlt
        obtain ⟨r, e, h1, h2⟩ := hu _ (List.mem_of_getElem? hui)
        obtain ⟨t, s, b⟩ := e
        rw [hui]
        simp only [h1, h2]
        obtain ⟨n1, _, n3⟩ := addScaled_spec (if s = .L then -(sCoef * p.2) else sCoef * p.2) (fun _ => 0) r.coefs c.1 hnd
        refine ⟨_, rfl, n1, ?_⟩
        intro j hj'
        rcases (n3 j).1 hj' with hj' | hj'
        · exact Or.inl hj'
        · refine Or.inr (Or.inr (Or.inr ⟨by omega, ?_⟩))
          unfold rowCols; rw [hui]; simp only [h1]; exact hj'
    obtain ⟨c', e1, e2, e3⟩ := step
    unfold writeAll
    rw [e1]
    simp only
    refine writeAll_isSome hv hu ps c' hw' e2 ?_
    intro j hj hjn hm
    have hjm : j ∈ keys (p :: ps) := List.mem_cons_of_mem _ hj
    rcases e3 j hm with h | rfl | h | ⟨h1, h2⟩
    · exact hdis j hjm hjn h
    · exact (List.nodup_cons.1 w1).1 hj
    · rw [w4 j hjm hjn] at h; cases h
    · exact (List.pairwise_cons.1 w2).1 j hj h1 hjn h2

theorem sOrder_order (v2 : Bool) {n : Nat} {rows : List Row} {used : List Nat} {l : SVec}
    (h : (keys l).Pairwise (Rel n rows used)) : (keys (sOrder v2 n l)).Pairwise (Rel n rows used) := by
  unfold sOrder
  split
  · simp only [keys, List.map_append]
    have sub : ∀ q : Nat × ℚ → Bool, ((l.filter q).map Prod.fst).Sublist (l.map Prod.fst) := fun q =>
      List.Sublist.map _ (List.filter_sublist (p := q))
    rw [List.pairwise_append]
    refine ⟨h.sublist (sub _), h.sublist (sub _), ?_⟩
    intro a ha b _ h1
    obtain ⟨p, hp, rfl⟩ := List.mem_map.1 ha
    have := (List.mem_filter.1 hp).2
    simp at this; omega
  · exact h

section
variable {v2 : Bool} {P : Prob} {pre : Pre} {crit : Nat} {xlp : Nat → ℚ} {extra : List ℚ} {rows : List Row} {used : List Nat}

theorem cmirCut_keys {sq : ℚ → ℚ} {knap : SVec} {inC : List Bool} {sStar delta nb : ℚ} (h : inC.length = knap.length) :
    keys (cMirInequality sq P knap xlp sStar delta nb inC).cut = keys knap := keys_cmir _ _ _ _ h

theorem deltaLoop_keys {sq : ℚ → ℚ} {knap : SVec} {inC : List Bool} {sStar nb : ℚ} (hl : inC.length = knap.length) :
    ∀ (ps : SVec) (b : Best), (b.c.viol = 0 ∨ keys b.c.cut = keys knap) →
    ((deltaLoop sq P knap xlp sStar nb inC ps b).c.viol = 0 ∨
      keys (deltaLoop sq P knap xlp sStar nb inC ps b).c.cut = keys knap)
  | [], b, hb => hb
  | p :: ps, b, hb => by
    unfold deltaLoop
    split
    · exact deltaLoop_keys hl ps b hb
    split
    · exact deltaLoop_keys hl ps b hb
    · refine deltaLoop_keys hl ps _ ?_
      unfold better
      split
      · exact Or.inr (cmirCut_keys hl)
      · exact hb

theorem complLoop_keys {sq : ℚ → ℚ} {knap : SVec} {sStar : ℚ} : ∀ (ts : List (Nat × ℚ)) (nb : ℚ) (inC : List Bool) (b : Best),
    inC.length = knap.length → keys b.c.cut = keys knap →
    keys (complLoop sq P knap xlp sStar ts nb inC b).c.cut = keys knap
  | [], _, _, _, _, hb => by simpa [complLoop] using hb
  | t :: ts, nb, inC, b, hl, hb => by
    unfold complLoop
    split
    · exact complLoop_keys ts _ _ _ hl hb
    · split
      · exact complLoop_keys ts _ _ _ hl hb
      · simp only
        have hl' : (inC.set t.1 true).length = knap.length := by simpa using hl
        split
        · exact complLoop_keys ts _ _ _ hl' (cmirCut_keys hl')
        · exact complLoop_keys ts _ _ _ hl hb

theorem bestCmir_keys {par : Par} {m : Mk} {c : Cmir} (h : bestCmir par P xlp m = some c) : keys c.cut = keys m.knap := by
  unfold bestCmir at h
  simp only at h
  split at h
  · cases h
  · rename_i hv
    have hl : (m.knap.map (initC P xlp)).length = m.knap.length := by simp
    have hb := (deltaLoop_keys (P := P) (xlp := xlp) (sq := par.sq) (sStar := m.sStar)
      (nb := m.rhs - (m.knap.map fun p => if initC P xlp p then p.2 * P.colUpper p.1 else 0).sum) hl m.knap
      ⟨⟨[], 0, 0, 0⟩, 0⟩ (Or.inl rfl)).resolve_left hv
    have better_keys : ∀ (b : Best) (c : Cmir) (d : ℚ), keys b.c.cut = keys m.knap → keys c.cut = keys m.knap →
        keys (better b c d).c.cut = keys m.knap := by
      intro b c d h1 h2; unfold better; split
      · exact h2
      · exact h1
    rw [← Option.some.inj h]
    apply complLoop_keys _ _ _ _ hl
    unfold divideLoop
    simp only [List.foldl_cons, List.foldl_nil]
    exact better_keys _ _ _ (better_keys _ _ _ (better_keys _ _ _ hb (cmirCut_keys hl)) (cmirCut_keys hl)) (cmirCut_keys hl)

theorem substOne_nodup {m m' : Mk} {p : Nat × ℚ} (hm : (keys m.knap).Nodup)
    (h : substOne v2 P pre crit xlp extra m p = .go m') : (keys m'.knap).Nodup := by
  have hvb : ∀ (vb : Option (Nat × ℚ)) (a b : ℚ), (keys (substVB m vb a b).knap).Nodup := by
    intro vb a b; cases vb
    · exact hm
    · exact nodup_addCoef hm _ _
  unfold substOne at h
  simp only at h
  split at h
  · cases h; exact hm
  split at h
  · split at h
    · split at h
      · cases h; exact hm
      · cases h
    · cases h; exact hm
  split at h
  · cases h; exact nodup_addCoef hm _ _
  split at h
  · split at h
    · cases h
    split at h
    · split at h <;> cases h <;> exact hvb _ _ _
    · split at h <;> cases h <;> exact hvb _ _ _
  · split at h <;> cases h <;> exact hm

theorem substLoop_nodup : ∀ (ps : SVec) (m m' : Mk), (keys m.knap).Nodup →
    substLoop v2 P pre crit xlp extra ps m = .go m' → (keys m'.knap).Nodup
  | [], m, m', hm, h => by simp only [substLoop, Step.go.injEq] at h; exact h ▸ hm
  | p :: ps, m, m', hm, h => by
    unfold substLoop at h
    split at h
    · rename_i m1 h1; exact substLoop_nodup ps m1 m' (substOne_nodup hm h1) h
    · cases h
    · cases h

end

theorem trySign_isSome {v2 deep : Bool} {par : Par} {P : Prob} {pre : Pre} {rows : List Row} {xlp : Nat → ℚ} {g : Agg} {s : ℚ}
    {cs : List RowCut} (hn : pre.nCols = P.nCols) (hv : VBCols P pre.vub pre.vlb) (hg : AggShape pre rows g)
    (hsl : v2 = true → SlackClean pre.nCols g.row) (hs : s = 1 ∨ s = -1) :
    (trySign v2 deep par P pre rows xlp g s cs).isSome := by
  unfold trySign
  simp only
  have hsl' : v2 = true → SlackClean pre.nCols (g.row.map fun p => (p.1, s * p.2)) := by
    intro h p hp hj
    obtain ⟨q, hq, rfl⟩ := List.mem_map.1 hp
    have := hsl h q hq hj
    rcases hs with rfl | rfl <;> simpa using this
  rcases substLoop_contS (v2 := v2) (P := P) (pre := pre) (crit := par.criterion) (xlp := xlp) (extra := g.extra)
    (g.row.map fun p => (p.1, s * p.2)) ⟨[], s * g.rhs, 0, []⟩ hsl' with h | ⟨m, h, K, k1, k2, k3⟩
  · have : boundSubst v2 P pre par.criterion xlp g.extra (g.row.map fun p => (p.1, s * p.2)) (s * g.rhs) = some none := by
      unfold boundSubst; rw [h]
    rw [this]; rfl
  · have hor : boundSubst v2 P pre par.criterion xlp g.extra (g.row.map fun p => (p.1, s * p.2)) (s * g.rhs) = some none ∨
        boundSubst v2 P pre par.criterion xlp g.extra (g.row.map fun p => (p.1, s * p.2)) (s * g.rhs) = some (some m) := by
      unfold boundSubst; rw [h]
      simp only
      split
      · exact Or.inl rfl
      split
      · exact Or.inl rfl
      split
      · exact Or.inl rfl
      split
      · exact Or.inl rfl
      · exact Or.inr rfl
    rcases hor with hor | hor
    · rw [hor]; rfl
    · rw [hor]
      simp only
      have hsep : (cMirSeparation v2 par P pre rows xlp (g.row.map fun p => (p.1, s * p.2)) g.used m).isSome := by
        unfold cMirSeparation
        split
        · rfl
        · rename_i b hb
          have hkb := bestCmir_keys hb
          have hknd := substLoop_nodup _ _ m (by simp) h
          have hint := substLoop_keys (fun j y v h => by
            rcases h with h | h
            · rw [hn]; exact hv.1 j y v h
            · rw [hn]; exact hv.2 j y v h) _ _ m (by simp) h
          rw [keys_scale] at k2
          have k1' : keys m.contS = K := by simpa using k1
          have hperm := (sOrder_perm v2 pre.nCols m.contS).map Prod.fst
          have hmem : ∀ j, j ∈ keys (sOrder v2 pre.nCols m.contS) → j ∈ K := fun j hj => k1' ▸ hperm.mem_iff.1 hj
          have hw : ToWrite P pre rows g.used (sOrder v2 pre.nCols m.contS) := by
            refine ⟨hperm.nodup_iff.2 ?_, sOrder_order v2 ?_, ?_, ?_⟩
            · have : m.contS.map Prod.fst = K := k1'
              rw [this]; exact hg.nodup.sublist k2
            · rw [k1']; exact hg.order.sublist k2
            · intro j hj; exact hg.bound j (k2.subset (hmem j hj))
            · intro j hj; exact k3 j (hmem j hj)
          have := writeAll_isSome (crit := par.criterion) (xlp := xlp) (row := g.row.map fun p => (p.1, s * p.2))
            (sCoef := b.sCoef) hv hg.used _ (b.cut, b.rhs) hw (by simp only [hkb]; exact hknd) (by
              intro j hj hjn hm
              simp only [hkb] at hm
              have h1 := (hint j hm).2
              rw [k3 j (hmem j hj) hjn] at h1; cases h1)
          obtain ⟨c, hc⟩ := Option.isSome_iff_exists.1 this
          rw [hc]; rfl
      obtain ⟨o, ho⟩ := Option.isSome_iff_exists.1 hsep
      rw [ho]
      cases o with
      | none => rfl
      | some c => simp only; split <;> rfl

theorem foldOpt_isSome {α β : Type} {f : β → α → Option β} : ∀ (l : List α) (b : β),
    (∀ a ∈ l, ∀ b, (f b a).isSome) → (foldOpt f l b).isSome
  | [], _, _ => rfl
  | a :: l, b, h => by
    unfold foldOpt
    obtain ⟨b', hb⟩ := Option.isSome_iff_exists.1 (h a List.mem_cons_self b)
    rw [hb]
    exact foldOpt_isSome l b' fun a' ha => h a' (List.mem_cons_of_mem _ ha)

/-- `generateMirCuts` runs to its end: no exception, no access outside an array. -/
theorem generateMirCuts_isSome {v2 deep : Bool} {par : Par} {P : Prob} {pre : Pre} {act xlp : Nat → ℚ} {cs : List RowCut}
    (hwf : P.WF) (hn : pre.nCols = P.nCols) (hv : VBCols P pre.vub pre.vlb) (hlen : pre.rows.length ≤ P.rows.length)
    (hsl : v2 = true → ∀ i ∈ startRows pre (P.rows.take pre.rows.length),
      ∀ g ∈ aggsFrom v2 par P pre (P.rows.take pre.rows.length) act xlp i, SlackClean pre.nCols g.row)
    (hsv : v2 = true → pre.saved = true) : (generateMirCuts v2 deep par P pre act xlp cs).isSome := by
  have hrows : subRows P pre = some (P.rows.take pre.rows.length) := by unfold subRows; rw [if_pos hlen]
  have hsub := subRows_sub hrows
  unfold generateMirCuts
  rw [hrows]
  apply foldOpt_isSome
  intro i hi l
  unfold fromRow
  simp only
  rw [if_neg]
  · apply foldOpt_isSome
    intro g hg k
    apply foldOpt_isSome
    intro s hs q
    exact trySign_isSome hn hv (aggsFrom_shape hwf hn hsub g hg) (fun h => hsl h i hi g hg) (signs_mem hs)
  · rintro ⟨h1, h2, _⟩
    rw [hsv h1] at h2; cases h2

end Cgl.MIR
