import Verif.MIR.NoThrow

/-!
# C23, C42-C44: the mixed integer rounding generators
-/

namespace Cgl.MIR

/-- `P` is `P0` with other column bounds and possibly more rows behind the old ones, as in cut rounds and in a search
tree. -/
structure Later (P0 P : Prob) : Prop where
  nCols : P.nCols = P0.nCols
  inf : P.inf = P0.inf
  isInt : ∀ j < P0.nCols, P.isInt j = P0.isInt j
  rows : P0.rows <+: P.rows

theorem Later.refl (P : Prob) : Later P P := ⟨rfl, rfl, fun _ _ => rfl, List.prefix_rfl⟩

theorem Later.row {P0 P : Prob} (h : Later P0 P) {i : Nat} (hi : i < P0.rows.length) : P.rows[i]? = P0.rows[i]? := by
  obtain ⟨t, ht⟩ := h.rows
  rw [← ht, List.getElem?_append_left hi]

theorem PreOk.later {P0 P : Prob} {pre : Pre} {x : Nat → ℚ} (hl : Later P0 P) (hlen : pre.rows.length ≤ P0.rows.length)
    (h : PreOk P0 pre x) : PreOk P pre x := by
  refine ⟨h.nCols.trans hl.nCols.symm, ?_, ?_, ?_⟩
  · intro i t s b r h1 h2 h3
    have hi : i < P0.rows.length := lt_of_lt_of_le (List.getElem?_eq_some_iff.1 h1).1 hlen
    rw [hl.row hi] at h2
    exact h.rows i t s b r h1 h2 h3
  · intro j y v hj
    obtain ⟨h1, h2, h3⟩ := h.vub j y v hj
    exact ⟨by rw [hl.nCols]; exact h1, by rw [hl.isInt y h1]; exact h2, h3⟩
  · intro j y v hj
    obtain ⟨h1, h2, h3⟩ := h.vlb j y v hj
    exact ⟨by rw [hl.nCols]; exact h1, by rw [hl.isInt y h1]; exact h2, h3⟩

/-- The preprocessed data of an object come from a problem of which `P` is a later version. -/
def From (v2 : Bool) (pre : Pre) (P : Prob) : Prop :=
  ∃ P0 act0, P0.WF ∧ RowsClean P0.rows ∧ Later P0 P ∧ pre = preprocess v2 P0 act0

/-- A call on `P` finds up-to-date data: it preprocesses itself, or the data come from an earlier version of `P`. -/
def Ready (v2 : Bool) (o : Obj) (P : Prob) : Prop := o.doPreproc = 1 ∨ o.done = false ∨ From v2 o.pre P

theorem prepared_from {v2 : Bool} {o : Obj} {P : Prob} {act : Nat → ℚ} (hwf : P.WF) (hcl : RowsClean P.rows)
    (h : Ready v2 o P) : From v2 (prepared v2 o P act).pre P := by
  unfold prepared
  split
  · exact ⟨P, act, hwf, hcl, Later.refl P, rfl⟩
  · rename_i hn
    push Not at hn
    rcases h with h | h | h
    · exact absurd h hn.1
    · exact absurd h hn.2
    · exact h

theorem preprocess_length (v2 : Bool) (P : Prob) (act : Nat → ℚ) : (preprocess v2 P act).rows.length = P.rows.length :=
  preRows_length P.rows 0

theorem From.ok {v2 : Bool} {pre : Pre} {P : Prob} (h : From v2 pre P) {x : Nat → ℚ} (hf : P.Feasible x) : PreOk P pre x := by
  obtain ⟨P0, act0, h1, h2, h3, rfl⟩ := h
  refine PreOk.later h3 (le_of_eq (preprocess_length _ _ _)) (preprocess_ok h1 h2 ?_)
  intro r hr
  rw [← h3.inf]
  exact hf.rows r (h3.rows.subset hr)

theorem From.cols {v2 : Bool} {pre : Pre} {P : Prob} (h : From v2 pre P) :
    pre.nCols = P.nCols ∧ VBCols P pre.vub pre.vlb ∧ pre.rows.length ≤ P.rows.length ∧ pre.saved = true := by
  obtain ⟨P0, act0, h1, h2, h3, rfl⟩ := h
  have hv := preprocess_cols (v2 := v2) (act := act0) h1
  refine ⟨h3.nCols.symm, ⟨?_, ?_⟩, ?_, rfl⟩
  · intro j y v hj
    have := hv.1 j y v hj
    exact ⟨by rw [h3.nCols]; exact this.1, by rw [h3.isInt y this.1]; exact this.2⟩
  · intro j y v hj
    have := hv.2 j y v hj
    exact ⟨by rw [h3.nCols]; exact this.1, by rw [h3.isInt y this.1]; exact this.2⟩
  · rw [preprocess_length]; exact h3.rows.length_le

/-! ### One call -/

/-- **C23, first generator, partial.** Every cut `CglMixedIntegerRounding::generateCuts` adds holds at every feasible point (with
coordinates within the solver's infinity). Missing from the full claim: rows with nonzero numbers of size at most 1e-6, integer columns
with fractional upper bound, and runs in which an aggregated row gets a nonzero coefficient of size at most 1e-6
(`CleanRun`); for these it is false, see `Witness`. -/
theorem generateCuts_valid_partial {o o' : Obj} {P : Prob} {act xlp : Nat → ℚ} {cs cs' : List RowCut}
    (hs : SorterOk o.par) (hwf : P.WF) (hcl : RowsClean P.rows) (hui : UpperIntegral P) (hrd : Ready false o P)
    (h : generateCuts o P act xlp cs = some (o', cs'))
    (hrun : CleanRun false o'.par P o'.pre (P.rows.take o'.pre.rows.length) act xlp) :
    ∀ c ∈ cs', c ∈ cs ∨ ∀ x, P.Feasible x → Representable P x → c.SatIn P.inf x := by
  unfold generateCuts at h
  simp only at h
  obtain ⟨l, h1, h2⟩ := Option.map_eq_some_iff.1 h
  simp only [Prod.mk.injEq] at h2
  obtain ⟨rfl, rfl⟩ := h2
  intro c hc
  by_cases hin : c ∈ cs
  · exact Or.inl hin
  right
  intro x hf hr
  have hfrom := prepared_from (act := act) hwf hcl hrd
  have hpar : (prepared false o P act).par = o.par := by unfold prepared; split <;> rfl
  rcases generateMirCuts_ok (hpar ▸ hs) hwf hf hr hui (hfrom.ok hf)
    (fun rows hrows => by
      have : rows = P.rows.take (prepared false o P act).pre.rows.length := by
        unfold subRows at hrows
        split at hrows
        · exact (Option.some.inj hrows).symm
        · cases hrows
      rw [this]; exact hrun) h1 c hc with h | h
  · exact absurd h hin
  · exact h

/-- **C23, first generator without aggregation (the default), partial.** Only the data are restricted. -/
theorem generateCuts_valid_default_partial {o o' : Obj} {P : Prob} {act xlp : Nat → ℚ} {cs cs' : List RowCut}
    (hs : SorterOk o.par) (hwf : P.WF) (hcl : RowsClean P.rows) (hui : UpperIntegral P) (hin : IntNonneg P)
    (h1 : o.par.maxAggr ≤ 1) (hrd : Ready false o P) (h : generateCuts o P act xlp cs = some (o', cs')) :
    ∀ c ∈ cs', c ∈ cs ∨ ∀ x, P.Feasible x → Representable P x → c.SatIn P.inf x := by
  by_cases hex : ∃ x, P.Feasible x
  · obtain ⟨x, hf⟩ := hex
    refine generateCuts_valid_partial hs hwf hcl hui hrd h ?_
    unfold generateCuts at h
    simp only at h
    obtain ⟨l, g1, g2⟩ := Option.map_eq_some_iff.1 h
    simp only [Prod.mk.injEq] at g2
    obtain ⟨rfl, rfl⟩ := g2
    have hfrom := prepared_from (act := act) hwf hcl hrd
    have hpar : (prepared false o P act).par = o.par := by unfold prepared; split <;> rfl
    refine cleanRun_one (hfrom.ok hf) hin ?_ hcl (by rw [hpar]; exact h1)
    have := subRows_sub (P := P) (pre := (prepared false o P act).pre)
      (rows := P.rows.take (prepared false o P act).pre.rows.length)
    exact this (by unfold subRows; rw [if_pos hfrom.cols.2.2.1])
  · intro c _
    right
    intro x hf
    exact absurd ⟨x, hf⟩ hex

/-- **C43, first generator.** A call always returns: no `CoinPackedVector::insert` throws, nothing is read outside an array. -/
theorem generateCuts_returns {o : Obj} {P : Prob} {act xlp : Nat → ℚ} {cs : List RowCut} (hwf : P.WF)
    (hcl : RowsClean P.rows) (hrd : Ready false o P) : (generateCuts o P act xlp cs).isSome := by
  have hfrom := prepared_from (act := act) hwf hcl hrd
  obtain ⟨h1, h2, h3, _⟩ := hfrom.cols
  have := generateMirCuts_isSome (v2 := false) (deep := false) (par := (prepared false o P act).par) (act := act) (xlp := xlp)
    (cs := cs) hwf h1 h2 h3 (by simp) (by simp)
  unfold generateCuts
  simp only [Option.isSome_map]
  exact this

/-- What `generateCuts2` does when not compiled with `CBC_HAS_CLP`. -/
theorem generateCuts2_cases {o o' : Obj2} {P : Prob} {info : Info} {act xlp : Nat → ℚ} {cs cs' : List RowCut}
    (h : generateCuts2 false o P info act xlp cs = some (o', cs')) :
    (o' = o ∧ cs' = cs) ∨ ∃ k, effAggr o.maxAggr info = some k ∧ o'.base = prepared true o.base P act ∧
      o'.maxAggr = o.maxAggr ∧ mainPart2 o'.base k P info act xlp cs = some cs' := by
  unfold generateCuts2 at h
  split at h
  · simp only [Option.some.injEq, Prod.mk.injEq] at h
    exact Or.inl ⟨h.1.symm, h.2.symm⟩
  · rename_i k hk
    simp only [Bool.false_eq_true, false_and, if_false] at h
    obtain ⟨l, h1, h2⟩ := Option.map_eq_some_iff.1 h
    simp only [Prod.mk.injEq] at h2
    obtain ⟨rfl, rfl⟩ := h2
    exact Or.inr ⟨k, hk, rfl, rfl, h1⟩

/-- **C23, second generator, partial.** Without `CBC_HAS_CLP`. Aggregated rows may have small coefficients: they only must not be
exactly of size 1e-6. -/
theorem generateCuts2_valid_partial {o o' : Obj2} {P : Prob} {info : Info} {act xlp : Nat → ℚ} {cs cs' : List RowCut}
    (hs : SorterOk o.base.par) (hwf : P.WF) (hcl : RowsClean P.rows) (hui : UpperIntegral P) (hrd : Ready true o.base P)
    (h : generateCuts2 false o P info act xlp cs = some (o', cs'))
    (hrun : ∀ k, effAggr o.maxAggr info = some k → CleanRun true { o'.base.par with maxAggr := k.toNat } P o'.base.pre
      (P.rows.take o'.base.pre.rows.length) act xlp) :
    ∀ c ∈ cs', c ∈ cs ∨ ∀ x, P.Feasible x → Representable P x → c.SatIn P.inf x := by
  rcases generateCuts2_cases h with ⟨rfl, rfl⟩ | ⟨k, hk, hb, _, hm⟩
  · exact fun c hc => Or.inl hc
  intro c hc
  by_cases hin : c ∈ cs
  · exact Or.inl hin
  right
  intro x hf hr
  have hfrom : From true o'.base.pre P := by rw [hb]; exact prepared_from hwf hcl hrd
  have hpar : o'.base.par = o.base.par := by rw [hb]; unfold prepared; split <;> rfl
  have hs' : SorterOk { o'.base.par with maxAggr := k.toNat } := by rw [hpar]; exact hs
  unfold mainPart2 at hm
  rcases generateMirCuts_ok hs' hwf hf hr hui (hfrom.ok hf)
    (fun rows hrows => by
      have : rows = P.rows.take o'.base.pre.rows.length := by
        unfold subRows at hrows
        split at hrows
        · exact (Option.some.inj hrows).symm
        · cases hrows
      rw [this]; exact hrun k hk) hm c hc with h | h
  · exact absurd h hin
  · exact h

/-- **C23, second generator without aggregation, partial.** A limit of -1 means one row in the tree and after pass 1000. -/
theorem generateCuts2_valid_default_partial {o o' : Obj2} {P : Prob} {info : Info} {act xlp : Nat → ℚ} {cs cs' : List RowCut}
    (hs : SorterOk o.base.par) (hwf : P.WF) (hcl : RowsClean P.rows) (hui : UpperIntegral P) (hin : IntNonneg P)
    (h1 : o.maxAggr = 0 ∨ o.maxAggr = 1 ∨ (o.maxAggr = -1 ∧ (info.inTree = true ∨ 1000 ≤ info.pass)))
    (hrd : Ready true o.base P) (h : generateCuts2 false o P info act xlp cs = some (o', cs')) :
    ∀ c ∈ cs', c ∈ cs ∨ ∀ x, P.Feasible x → Representable P x → c.SatIn P.inf x := by
  by_cases hex : ∃ x, P.Feasible x
  · obtain ⟨x, hf⟩ := hex
    rcases generateCuts2_cases h with ⟨rfl, rfl⟩ | ⟨k, hk, hb, _, hm⟩
    · exact fun c hc => Or.inl hc
    refine generateCuts2_valid_partial hs hwf hcl hui hrd h ?_
    intro k' hk'
    have hfrom : From true o'.base.pre P := by rw [hb]; exact prepared_from hwf hcl hrd
    refine cleanRun_one (hfrom.ok hf) hin ?_ hcl ?_
    · have := subRows_sub (P := P) (pre := o'.base.pre) (rows := P.rows.take o'.base.pre.rows.length)
      exact this (by unfold subRows; rw [if_pos hfrom.cols.2.2.1])
    · unfold effAggr at hk'
      rcases h1 with h1 | h1 | ⟨h1, h2⟩ <;> rw [h1] at hk'
      · simp at hk'; subst hk'; simp
      · simp at hk'; subst hk'; simp
      · have hn : ¬ (info.inTree = false ∧ info.pass < 1000) := by
          rintro ⟨h3, h4⟩
          rcases h2 with h2 | h2
          · rw [h3] at h2; cases h2
          · omega
        rw [if_pos (by norm_num), if_neg hn, if_pos rfl] at hk'
        simp at hk'; subst hk'; simp
  · intro c _
    right
    intro x hf
    exact absurd ⟨x, hf⟩ hex

/-- **C43, second generator, partial.** A call returns if no slack gets a coefficient below 1e-6 in an aggregated row and the row
types have been saved by the preprocessing of this very object. Without these provisos it is false, see `Witness`. -/
theorem generateCuts2_returns_partial {o : Obj2} {P : Prob} {info : Info} {act xlp : Nat → ℚ} {cs : List RowCut} (hwf : P.WF)
    (hcl : RowsClean P.rows) (hrd : Ready true o.base P)
    (hsl : ∀ k, effAggr o.maxAggr info = some k →
      ∀ i ∈ startRows (prepared true o.base P act).pre (P.rows.take (prepared true o.base P act).pre.rows.length),
      ∀ g ∈ aggsFrom true { o.base.par with maxAggr := k.toNat } P (prepared true o.base P act).pre
        (P.rows.take (prepared true o.base P act).pre.rows.length) act xlp i, SlackClean P.nCols g.row) :
    (generateCuts2 false o P info act xlp cs).isSome := by
  have hfrom := prepared_from (act := act) hwf hcl hrd
  have hpar : (prepared true o.base P act).par = o.base.par := by unfold prepared; split <;> rfl
  obtain ⟨h1, h2, h3, h4⟩ := hfrom.cols
  unfold generateCuts2
  split
  · rfl
  · rename_i k hk
    simp only [Bool.false_eq_true, false_and, if_false, Option.isSome_map]
    unfold mainPart2
    refine generateMirCuts_isSome hwf h1 h2 h3 ?_ (fun _ => h4)
    intro _ i hi g hg
    rw [h1]
    rw [hpar] at hg
    exact hsl k hk i hi g hg

theorem slackClean_copyRow {n k : Nat} {coefs : SVec} {s : Sense} {b l : ℚ} (h : ∀ p ∈ coefs, p.1 < n) :
    SlackClean n (copyRow n k coefs s b l).1 := by
  intro p hp hj
  unfold copyRow at hp
  split at hp
  · rcases List.mem_append.1 hp with hp | hp
    · have := h p hp; omega
    · simp at hp; subst hp; norm_num
  · rcases List.mem_append.1 hp with hp | hp
    · have := h p hp; omega
    · simp at hp; subst hp; norm_num
  · have := h p hp; omega

/-- **C43, second generator without aggregation**: a call always returns. -/
theorem generateCuts2_returns_default {o : Obj2} {P : Prob} {info : Info} {act xlp : Nat → ℚ} {cs : List RowCut} (hwf : P.WF)
    (hcl : RowsClean P.rows) (h1 : o.maxAggr = 0 ∨ o.maxAggr = 1) (hrd : Ready true o.base P) :
    (generateCuts2 false o P info act xlp cs).isSome := by
  refine generateCuts2_returns_partial hwf hcl hrd ?_
  intro k hk i _ g hg
  have hfrom := prepared_from (act := act) hwf hcl hrd
  have hk1 : k.toNat - 1 = 0 := by
    unfold effAggr at hk
    rcases h1 with h1 | h1 <;> rw [h1] at hk <;> simp at hk <;> subst hk <;> simp
  unfold aggsFrom at hg
  split at hg
  · cases hg
  · rename_i g0 h0
    simp only [hk1, chain, List.mem_singleton] at hg
    subst hg
    unfold startAgg at h0
    split at h0
    · rename_i r t s b h2 h3
      obtain rfl := Option.some.inj h0
      have e := hfrom.cols.1
      rw [← e]
      apply slackClean_copyRow
      intro p hp
      rw [e]
      have hr : r ∈ P.rows := List.mem_of_mem_take (List.mem_of_getElem? h2)
      exact hwf.cols r hr p hp
    · cases h0

/-! ### Cuts cut off the current point -/

/-- `c` is violated by `xlp`: its only finite side fails there. -/
def CutsOff (inf : ℚ) (xlp : Nat → ℚ) (c : RowCut) : Prop := c.lb = -inf ∧ c.ub < c.row.dot xlp

theorem finish_cutsOff {v2 : Bool} {sq : ℚ → ℚ} {P : Prob} {xlp : Nat → ℚ} {c : SVec × ℚ} {cut : RowCut}
    (hsq : ∀ q, 0 ≤ sq q) (h : finish v2 sq P xlp c = some cut) : CutsOff P.inf xlp cut := by
  unfold finish at h
  simp only at h
  split at h
  · rename_i hv
    obtain rfl := Option.some.inj h
    refine ⟨rfl, ?_⟩
    simp only
    generalize cleanTol v2 c.1 = t at *
    have hrow : SVec.dot (if v2 = true then (c.1.filter fun p => decide (t < |p.2|)).insertionSort (fun p q => p.1 ≤ q.1)
        else c.1.filter fun p => decide (t < |p.2|)) xlp = SVec.dot (c.1.filter fun p => decide (t < |p.2|)) xlp := by
      split
      · exact SVec.dot_perm (List.perm_insertionSort _ _) xlp
      · rfl
    rw [hrow]
    have : 0 ≤ tol * sq ((c.1.filter fun p => decide (t < |p.2|)).map fun p => p.2 * p.2).sum :=
      mul_nonneg (by unfold tol; norm_num) (hsq _)
    linarith
  · cases h

theorem generateMirCuts_cutsOff {v2 deep : Bool} {par : Par} {P : Prob} {pre : Pre} {act xlp : Nat → ℚ}
    {cs cs' : List RowCut} (hsq : ∀ q, 0 ≤ par.sq q) (h : generateMirCuts v2 deep par P pre act xlp cs = some cs') :
    ∀ c ∈ cs', c ∈ cs ∨ CutsOff P.inf xlp c := by
  unfold generateMirCuts at h
  split at h
  · cases h
  · rename_i rows hrows
    refine foldOpt_inv (I := fun l => ∀ c ∈ l, c ∈ cs ∨ CutsOff P.inf xlp c) _ cs cs' ?_ (fun c hc => Or.inl hc) h
    intro i _ l l' hl hl'
    unfold fromRow at hl'
    simp only at hl'
    split at hl'
    · cases hl'
    · refine foldOpt_inv (I := fun l => ∀ c ∈ l, c ∈ cs ∨ CutsOff P.inf xlp c) _ l l' ?_ hl hl'
      intro g _ k k' hk hk'
      refine foldOpt_inv (I := fun l => ∀ c ∈ l, c ∈ cs ∨ CutsOff P.inf xlp c) _ k k' ?_ hk hk'
      intro s _ q q' hq hq' c hc
      unfold trySign at hq'
      simp only at hq'
      split at hq'
      · cases hq'
      · simp only [Option.some.injEq] at hq'; exact hq c (hq' ▸ hc)
      · split at hq'
        · cases hq'
        · simp only [Option.some.injEq] at hq'; exact hq c (hq' ▸ hc)
        · rename_i cut hcut
          split at hq'
          · simp only [Option.some.injEq] at hq'; exact hq c (hq' ▸ hc)
          · simp only [Option.some.injEq] at hq'
            subst hq'
            rcases mem_insertIfNotDuplicate.1 hc with hc | ⟨rfl, _⟩
            · exact hq c hc
            · right
              unfold cMirSeparation at hcut
              split at hcut
              · simp at hcut
              · split at hcut
                · cases hcut
                · exact finish_cutsOff hsq (Option.some.inj hcut)

/-- **C44.** Every cut added by the first generator is violated by the solution it was given. -/
theorem generateCuts_cutsOff {o o' : Obj} {P : Prob} {act xlp : Nat → ℚ} {cs cs' : List RowCut}
    (hsq : ∀ q, 0 ≤ o.par.sq q) (h : generateCuts o P act xlp cs = some (o', cs')) :
    ∀ c ∈ cs', c ∈ cs ∨ CutsOff P.inf xlp c := by
  unfold generateCuts at h
  simp only at h
  obtain ⟨l, h1, h2⟩ := Option.map_eq_some_iff.1 h
  simp only [Prod.mk.injEq] at h2
  obtain ⟨rfl, rfl⟩ := h2
  have hpar : (prepared false o P act).par = o.par := by unfold prepared; split <;> rfl
  exact generateMirCuts_cutsOff (by rw [hpar]; exact hsq) h1

/-- **C44.** Every cut added by the second generator is violated by the solution it was given (whatever the
compilation flags). -/
theorem generateCuts2_cutsOff {clp : Bool} {o o' : Obj2} {P : Prob} {info : Info} {act xlp : Nat → ℚ} {cs cs' : List RowCut}
    (hsq : ∀ q, 0 ≤ o.base.par.sq q) (h : generateCuts2 clp o P info act xlp cs = some (o', cs')) :
    ∀ c ∈ cs', c ∈ cs ∨ CutsOff P.inf xlp c := by
  have hpar : ∀ (b : Obj) Q a, (prepared true b Q a).par = b.par := by intro b Q a; unfold prepared; split <;> rfl
  unfold generateCuts2 at h
  split at h
  · simp only [Option.some.injEq, Prod.mk.injEq] at h
    obtain ⟨_, rfl⟩ := h
    exact fun c hc => Or.inl hc
  · simp only at h
    split at h
    · obtain ⟨l, h1, h2⟩ := Option.map_eq_some_iff.1 h
      simp only [Prod.mk.injEq] at h2
      obtain ⟨_, rfl⟩ := h2
      unfold mainPart2 at h1
      exact generateMirCuts_cutsOff (P := flipProb P) (by simp only [hpar]; exact hsq) h1
    · obtain ⟨l, h1, h2⟩ := Option.map_eq_some_iff.1 h
      simp only [Prod.mk.injEq] at h2
      obtain ⟨_, rfl⟩ := h2
      unfold mainPart2 at h1
      exact generateMirCuts_cutsOff (by simp only [hpar]; exact hsq) h1

/-! ### Histories -/

/-- A call: the problem and the LP solution the solver then holds, and the cuts already collected. -/
structure Call where
  P : Prob
  act : Nat → ℚ
  xlp : Nat → ℚ
  cs : List RowCut

/-- The cuts returned by a sequence of calls on one object of the first kind. -/
def history : Obj → List Call → Option (List (List RowCut))
  | _, [] => some []
  | o, c :: rest => match generateCuts o c.P c.act c.xlp c.cs with
    | none => none
    | some (o', r) => (history o' rest).map fun l => r :: l

/-- Data on which the tolerances do no harm. -/
structure CleanData (P : Prob) : Prop where
  wf : P.WF
  rows : RowsClean P.rows
  upper : UpperIntegral P
  nonneg : IntNonneg P

theorem generateCuts_obj {o o' : Obj} {P : Prob} {act xlp : Nat → ℚ} {cs cs' : List RowCut}
    (h : generateCuts o P act xlp cs = some (o', cs')) : o' = prepared false o P act := by
  unfold generateCuts at h
  simp only at h
  obtain ⟨l, h1, h2⟩ := Option.map_eq_some_iff.1 h
  simp only [Prod.mk.injEq] at h2
  exact h2.1.symm

theorem history_ok (P0 : Prob) (hP0 : CleanData P0) : ∀ (calls : List Call) (o : Obj), SorterOk o.par → o.par.maxAggr ≤ 1 →
    (o.done = false ∧ (∀ c ∈ calls.head?, c.P = P0) ∨ (o.done = true ∧ ∀ c ∈ calls, Ready false o c.P)) →
    (∀ c ∈ calls, CleanData c.P ∧ Later P0 c.P) →
    ∃ rs, history o calls = some rs ∧ rs.length = calls.length ∧
    ∀ (k : Nat) (c : Call) (r : List RowCut), calls[k]? = some c → rs[k]? = some r →
      ∀ cut ∈ r, cut ∈ c.cs ∨ ∀ x, c.P.Feasible x → Representable c.P x → cut.SatIn c.P.inf x
  | [], o, _, _, _, _ => ⟨[], rfl, rfl, by simp⟩
  | c :: rest, o, hs, h1, hst, hall => by
    obtain ⟨hc, hl⟩ := hall c List.mem_cons_self
    have hrd : Ready false o c.P := by
      rcases hst with hst | hst
      · exact Or.inr (Or.inl hst.1)
      · exact hst.2 c List.mem_cons_self
    obtain ⟨⟨o', r⟩, hg⟩ := Option.isSome_iff_exists.1
      (generateCuts_returns (act := c.act) (xlp := c.xlp) (cs := c.cs) hc.wf hc.rows hrd)
    have ho' := generateCuts_obj hg
    have hpar : o'.par = o.par := by rw [ho']; unfold prepared; split <;> rfl
    have hdp : o'.doPreproc = o.doPreproc := by rw [ho']; unfold prepared; split <;> rfl
    have hdone : o'.done = true := by
      rw [ho']; unfold prepared; split
      · rfl
      · rename_i hn; push Not at hn; simpa using hn.2
    have hnext : o'.done = true ∧ ∀ d ∈ rest, Ready false o' d.P := by
      refine ⟨hdone, ?_⟩
      intro d hd
      by_cases hp1 : o.doPreproc = 1
      · exact Or.inl (hdp.trans hp1)
      · right; right
        rcases hst with hst | hst
        · have hcP : c.P = P0 := hst.2 c (by simp)
          refine ⟨P0, c.act, hP0.wf, hP0.rows, (hall d (List.mem_cons_of_mem _ hd)).2, ?_⟩
          rw [ho']; unfold prepared; rw [if_pos (Or.inr hst.1), hcP]
        · have := hst.2 d (List.mem_cons_of_mem _ hd)
          rcases this with h | h | h
          · exact absurd h hp1
          · rw [hst.1] at h; cases h
          · rw [ho']; unfold prepared; rw [if_neg (by push Not; exact ⟨hp1, by simp [hst.1]⟩)]; exact h
    obtain ⟨rs, hrs, hlen, hok⟩ := history_ok P0 hP0 rest o' (hpar ▸ hs) (hpar ▸ h1) (Or.inr hnext)
      fun d hd => hall d (List.mem_cons_of_mem _ hd)
    refine ⟨r :: rs, ?_, by simp [hlen], ?_⟩
    · unfold history; rw [hg]; simp [hrs]
    · intro k d r' hk hr'
      cases k with
      | zero =>
        simp only [List.getElem?_cons_zero, Option.some.injEq] at hk hr'
        subst hk; subst hr'
        exact generateCuts_valid_default_partial hs hc.wf hc.rows hc.upper hc.nonneg h1 hrd hg
      | succ k =>
        simp only [List.getElem?_cons_succ] at hk hr'
        exact hok k d r' hk hr'

/-- **C42, partial.** A new object of the first kind (no aggregation), called any number of times on the problem it was first called on with changing
column bounds, LP solutions and further rows behind the old ones: every call returns and every cut it adds is valid for the problem of
that call, although the rows are looked at in the first call only. Missing: as for C23, and problems whose first rows have
changed, for which it is false (`Witness`). -/
theorem history_valid_partial {par : Par} {dp : Int} {calls : List Call} {c0 : Call} (hs : SorterOk par)
    (h1 : par.maxAggr ≤ 1) (h0 : calls.head? = some c0) (hall : ∀ c ∈ calls, CleanData c.P ∧ Later c0.P c.P) :
    ∃ rs, history (Obj.init par dp) calls = some rs ∧ rs.length = calls.length ∧
    ∀ (k : Nat) (c : Call) (r : List RowCut), calls[k]? = some c → rs[k]? = some r →
      ∀ cut ∈ r, cut ∈ c.cs ∨ ∀ x, c.P.Feasible x → Representable c.P x → cut.SatIn c.P.inf x := by
  refine history_ok c0.P (hall c0 (List.mem_of_mem_head? h0)).1 calls (Obj.init par dp) hs h1 (Or.inl ⟨rfl, ?_⟩) hall
  intro c hc
  rw [h0] at hc
  simp only [Option.mem_def, Option.some.injEq] at hc
  rw [hc]

/-- Constructor arguments outside the documented ranges are refused, others are kept. -/
theorem construct_iff {a c p : Int} {r : Int × Int × Int} :
    construct a c p = some r ↔ (0 < a ∧ (c = 1 ∨ c = 2 ∨ c = 3) ∧ (p = -1 ∨ p = 0 ∨ p = 1 ∨ p = 2)) ∧ r = (a, c, p) := by
  unfold construct
  split
  · rename_i h
    simp only [Option.some.injEq]
    exact ⟨fun e => ⟨⟨by omega, by omega, by omega⟩, e.symm⟩, fun e => e.2.symm⟩
  · rename_i h
    refine ⟨fun e => (by cases e), fun e => absurd ?_ h⟩
    omega

end Cgl.MIR
