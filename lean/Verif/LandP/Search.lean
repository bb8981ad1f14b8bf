import Verif.LandP.Clean

/-!
# The search keeps a consistent state
-/

namespace Cgl.LandP

/-- What is assumed about the problem that is pivoted in. -/
structure DataOK (T : Prob) : Prop where
  wf : T.WF
  exact : ExactData T
  noRanges : NoRanges T

/-- Cuts are not strengthened. -/
def Plain (p : Params) : Prop := p.strengthen = false ∧ p.modularize = false

/-- The simplex state is good, also for plain cuts. -/
structure StateOK (p : Params) (T : Prob) (s : Sim) : Prop where
  sim : SimOK T s
  tiny : Plain p → NoTinyEntry T s.view

/-- The row is good, also for plain cuts. -/
structure SrcOK (p : Params) (T : Prob) (s : Sim) (r : TabRow) : Prop where
  row : RowOK T s r
  tiny : Plain p → ∀ v ∈ s.nonBasics, |r.coef v| ≤ 1/10^10 → r.coef v = 0

/-- Row `num` belongs to an integer column. -/
structure NumOK (T : Prob) (s : Sim) (num : Nat) : Prop where
  lt : num < T.rows.length
  col : s.view.basics.getD num 0 < T.nCols
  int : T.isInt (s.view.basics.getD num 0) = true

theorem pull_coef {P : Prob} {s : Sim} {num : Nat} {r : TabRow} (h : pull P s num = .ok r) (v : Nat) :
    r.coef v = 0 ∨ r.coef v = raw P (s.view.binv num) v ∨ r.coef v = - raw P (s.view.binv num) v := by
  unfold pull at h
  by_cases hst : statusOk P s = true
  · rw [if_pos hst] at h
    simp only [Except.ok.injEq] at h
    subst h
    dsimp only
    split
    · exact Or.inl rfl
    · split
      · exact Or.inr (Or.inr rfl)
      · exact Or.inr (Or.inl rfl)
  · rw [if_neg hst] at h; exact absurd h (by simp)

theorem pull_src {p : Params} {T : Prob} (hT : DataOK T) {s : Sim} (hs : StateOK p T s) {num : Nat}
    (hn : NumOK T s num) {r : TabRow} (h : pull T s num = .ok r) : SrcOK p T s r.frac where
  row := frac_ok hT.wf hs.sim hn.lt hn.col hn.int h
  tiny := by
    intro hp v hv ht
    have h1 := (hs.sim.mem v).1 hv
    have h2 := hs.tiny hp num hn.lt v h1.1
    change |r.coef v| ≤ _ at ht
    change r.coef v = 0
    rcases pull_coef h v with h | h | h
    · exact h
    · rw [h] at ht ⊢; exact h2 ht
    · rw [h, abs_neg] at ht; rw [h, h2 ht, neg_zero]

theorem modIf_src {c : Ctx} (hT : DataOK c.T) {s : Sim} (hs : SimOK c.T s) (hst : statusOk c.T s = true) {r : TabRow}
    (hr : SrcOK c.prm c.T s r) : SrcOK c.prm c.T s (modIf c r) := by
  unfold modIf
  split
  · rename_i hm
    exact ⟨modularize_ok hT.wf hT.exact hs hst hr.row, fun hp => absurd hm (by rw [hp.2]; simp)⟩
  · exact hr

/-- The columns of the cut are columns of the problem, each at most once. -/
def Known (T : Prob) (c : RowCut) : Prop := (c.row.map Prod.fst).Sublist (List.range T.nCols)

/-- The point is not so large that a coefficient of `1e-20` matters. -/
def Fits (T : Prob) (x : Nat → ℚ) : Prop := ((List.range T.nCols).map fun j => |x j|).sum ≤ 10^12

/-- The cut holds up to `1e-8`. -/
structure NearOK (T : Prob) (c : RowCut) : Prop where
  ub : c.ub = dblMax
  known : Known T c
  near : ∀ x, T.Feasible x → Fits T x → c.lb - 1/10^8 ≤ SVec.dot c.row x

/-- The cut holds. -/
structure CutOK (T : Prob) (c : RowCut) : Prop where
  ub : c.ub = dblMax
  known : Known T c
  holds : ∀ x, T.Feasible x → Fits T x → c.lb ≤ SVec.dot c.row x

theorem CutOK.nearOK {T : Prob} {c : RowCut} (h : CutOK T c) : NearOK T c :=
  ⟨h.ub, h.known, fun x hx hf => by have := h.holds x hx hf; linarith [show (0:ℚ) ≤ 1/10^8 by norm_num]⟩

theorem pack_known (T : Prob) (a : Acc) : Known T (pack T a) := by
  unfold Known pack
  dsimp only
  rw [List.map_map]
  have : (Prod.fst ∘ fun j => (j, eliminate T a.vec j)) = id := rfl
  rw [this, List.map_id]
  exact List.filter_sublist

theorem createMIG_pack {P : Prob} {s : Sim} {r r' : TabRow} {c : RowCut} (h : createMIG P s r = .ok (c, r')) :
    ∃ a, c = pack P a := by
  unfold createMIG at h
  by_cases hst : statusOk P s = true
  · rw [if_pos hst] at h
    dsimp only at h
    split at h
    · rename_i hb
      rcases ha : s.nonBasics.foldlM (migStep P s { r.unflip P s with rhs := r.rhs - ⌊r.rhs⌋ } (r.rhs - ⌊r.rhs⌋))
          ⟨fun _ => 0, (r.rhs - ⌊r.rhs⌋) * (1 - (r.rhs - ⌊r.rhs⌋))⟩ with f | a
      · simp only [ha, bind, Except.bind] at h; exact absurd h (by simp)
      · simp only [ha, bind, Except.bind, Except.ok.injEq, Prod.mk.injEq] at h
        exact ⟨a, h.1.symm⟩
    · exact absurd h (by simp)
  · rw [if_neg hst] at h; exact absurd h (by simp)

theorem createInter_pack {P : Prob} {s : Sim} {r r' : TabRow} {c : RowCut} (h : createInter P s r = .ok (c, r')) :
    ∃ a, c = pack P a := by
  unfold createInter at h
  by_cases hst : statusOk P s = true
  · rw [if_pos hst] at h
    rcases ha : s.nonBasics.foldlM (interStep P s (r.unflip P s) r.rhs) ⟨fun _ => 0, r.rhs * (1 - r.rhs)⟩ with f | a
    · simp only [ha, bind, Except.bind] at h; exact absurd h (by simp)
    · simp only [ha, bind, Except.bind, Except.ok.injEq, Prod.mk.injEq] at h
      exact ⟨a, h.1.symm⟩
  · rw [if_neg hst] at h; exact absurd h (by simp)

theorem near_of {T : Prob} {c : RowCut} (hk : Known T c) (hub : c.ub = dblMax)
    (h : ∀ x, T.Feasible x → NearSat T c x) : NearOK T c where
  ub := hub
  known := hk
  near := by
    intro x hx hf
    have := (h x hx).2
    unfold Fits at hf
    have : 1/10^50 * ((List.range T.nCols).map fun j => |x j|).sum ≤ 1/10^50 * 10^12 :=
      mul_le_mul_of_nonneg_left hf (by norm_num)
    have : (1:ℚ)/10^50 * 10^12 ≤ 1/10^8 := by norm_num
    linarith

theorem create_near {p : Params} {T : Prob} (hT : DataOK T) {s : Sim} (hs : StateOK p T s) {r r' : TabRow}
    (hr : SrcOK p T s r) {c : RowCut} (h : create p T s r = .ok (c, r')) : NearOK T c := by
  unfold create at h
  split at h
  · obtain ⟨a, ha⟩ := createMIG_pack h
    exact near_of (ha ▸ pack_known T a) (by rw [ha]; rfl)
      fun x hx => mig_near hT.wf hT.exact hT.noRanges hs.sim hr.row h hx
  · rename_i hp
    have hp : Plain p := by
      unfold Plain
      simpa [Bool.or_eq_true, not_or] using hp
    obtain ⟨a, ha⟩ := createInter_pack h
    exact near_of (ha ▸ pack_known T a) (by rw [ha]; rfl)
      fun x hx => inter_near hT.wf hT.exact hT.noRanges hs.sim hr.row (hr.tiny hp) h hx

theorem generateMig_near {p : Params} {T : Prob} (hT : DataOK T) {s : Sim} (hs : StateOK p T s) {num : Nat}
    (hn : NumOK T s num) {c : RowCut} {r : TabRow} (h : generateMig p T s num = .ok (c, r)) : NearOK T c := by
  unfold generateMig at h
  rcases hp : pull T s num with f | r0
  · simp only [hp, bind, Except.bind] at h; exact absurd h (by simp)
  · simp only [hp, bind, Except.bind] at h
    exact create_near hT hs (pull_src hT hs hn hp) h

theorem known_sum {T : Prob} {c : RowCut} (h : Known T c) {x : Nat → ℚ} (hf : Fits T x) :
    (c.row.map fun p => |x p.1|).sum ≤ 10^12 := by
  unfold Known at h
  unfold Fits at hf
  refine le_trans ?_ hf
  have : (c.row.map fun p => |x p.1|) = (c.row.map Prod.fst).map fun j => |x j| := by
    rw [List.map_map]; rfl
  rw [this]
  exact List.Sublist.sum_le_sum (h.map _) (by
    intro a ha
    obtain ⟨j, _, rfl⟩ := List.mem_map.1 ha
    exact abs_nonneg _)

/-- A validated cut holds. -/
theorem validate_ok {T : Prob} {V : Validator} {eps : ℚ} {numcols nB : Nat} {lo up xlp : Nat → ℚ}
    (hb : ∀ x, T.Feasible x → BoundsOK nB lo up x) {c c' : RowCut} (hc : NearOK T c)
    (h : validate V eps numcols nB lo up xlp c = .ok (.inl c')) : CutOK T c' := by
  have ha := validate_accepted h
  refine ⟨ha.ub.trans hc.ub, (ha.sub.map _).trans hc.known, fun x hx hf => ?_⟩
  have h1 := validate_weaker h (hb x hx)
  have h2 := hc.near x hx hf
  have h3 := mul_le_mul_of_nonneg_left (known_sum hc.known hf) (show (0:ℚ) ≤ 1/10^20 by norm_num)
  have h4 : (1:ℚ)/10^20 * 10^12 + 1/10^8 ≤ 1/10^7 := by norm_num
  linarith

/-! ### Extra cuts -/

/-- All extra cuts hold. -/
def ExtraOK (T : Prob) (e : Extra) : Prop := ∀ j c, e.cut j = some c → CutOK T c

theorem own_bounds {T : Prob} (hd : ExactData T) {x : Nat → ℚ} (hx : T.Feasible x) :
    BoundsOK T.nCols T.colLower T.colUpper x := by
  intro j hj
  have := hd.inf
  have h1 : (10000:ℚ) ≤ 10^50 := by norm_num
  refine ⟨fun h => hx.upper j hj (by linarith), fun h => hx.lower j hj (by linarith)⟩

theorem generateExtraCut_ok {c : Ctx} (hT : DataOK c.T) {s : Sim} (hs : StateOK c.prm c.T s) {want : Bool}
    {e e' : Extra} {i : Nat} {r : Option TabRow} (hi : i < c.T.rows.length) (hcol : s.view.basics.getD i 0 < c.T.nCols)
    (he : ExtraOK c.T e) (h : generateExtraCut c s want e i = .ok (e', r)) : ExtraOK c.T e' := by
  unfold generateExtraCut at h
  split at h
  · rename_i hw
    have hint : c.T.isInt (s.view.basics.getD i 0) = true := by
      unfold extraWanted at hw
      simp only [Bool.and_eq_true] at hw
      have := hw.1.1.1.1.1
      unfold intVar at this
      rwa [if_pos hcol] at this
    rcases hg : generateMig c.prm c.T s i with f | ⟨cut, r1⟩
    · rw [hg] at h; exact absurd h (by simp)
    · rw [hg] at h
      dsimp only at h
      have hn := generateMig_near hT hs ⟨hi, hcol, hint⟩ hg
      split at h
      · rcases hv : validate c.V c.prm.eps c.T.nCols c.T.nCols c.T.colLower c.T.colUpper c.sol cut with f | (cut' | k)
        · rw [hv] at h; exact absurd h (by simp)
        · rw [hv] at h
          simp only [Except.ok.injEq, Prod.mk.injEq] at h
          rw [← h.1]
          intro j d hd
          dsimp only at hd
          by_cases hj : j = s.view.basics.getD i 0
          · rw [hj, Function.update_self] at hd
            rw [Option.some.injEq] at hd
            subst hd
            exact validate_ok (fun x hx => own_bounds hT.exact hx) hn hv
          · rw [Function.update_of_ne hj] at hd
            exact he j d hd
        · rw [hv] at h
          simp only [Except.ok.injEq, Prod.mk.injEq] at h
          rw [← h.1]; exact he
      · exact absurd h (by simp)
  · simp only [Except.ok.injEq, Prod.mk.injEq] at h
    rw [← h.1]; exact he

theorem generateExtraCuts_ok {c : Ctx} (hT : DataOK c.T) {s : Sim} (hs : StateOK c.prm c.T s) {want : Nat → Bool}
    {e e' : Extra} (he : ExtraOK c.T e) (h : generateExtraCuts c s want e = .ok e') : ExtraOK c.T e' := by
  unfold generateExtraCuts at h
  have : ∀ (l : List Nat) (e e' : Extra), (∀ i ∈ l, i < c.T.rows.length) → ExtraOK c.T e →
      l.foldlM (extraStep c s want) e = .ok e' → ExtraOK c.T e' := by
    intro l
    induction l with
    | nil =>
      intro e e' _ he h
      simp only [List.foldlM_nil, pure, Except.pure, Except.ok.injEq] at h
      subst h; exact he
    | cons i l ih =>
      intro e e' hl he h
      rcases h1 : extraStep c s want e i with f | e1
      · simp only [List.foldlM_cons, h1, bind, Except.bind] at h; exact absurd h (by simp)
      · simp only [List.foldlM_cons, h1, bind, Except.bind] at h
        refine ih e1 e' (fun k hk => hl k (List.mem_cons_of_mem _ hk)) ?_ h
        unfold extraStep at h1
        split at h1
        · rename_i hcol
          rcases h2 : generateExtraCut c s (want i) e i with f | ⟨e2, r⟩
          · rw [h2] at h1; exact absurd h1 (by simp)
          · rw [h2] at h1
            simp only [Except.ok.injEq] at h1
            subst h1
            exact generateExtraCut_ok hT hs (hl i List.mem_cons_self) hcol.2 he h2
        · simp only [Except.ok.injEq] at h1
          subst h1; exact he
  exact this _ _ _ (fun i hi => List.mem_range.1 hi) he h

/-! ### Pivots -/

theorem mem_set_nodup {l : List Nat} (hn : l.Nodup) {k : Nat} (hk : k < l.length) (b v : Nat) :
    v ∈ l.set k b ↔ v = b ∨ (v ∈ l ∧ v ≠ l.getD k 0) := by
  have hget : l.getD k 0 = l[k] := by
    rw [List.getD_eq_getElem?_getD, List.getElem?_eq_getElem hk]; rfl
  rw [hget]
  constructor
  · intro h
    rw [List.mem_iff_getElem] at h
    obtain ⟨i, hi, rfl⟩ := h
    rw [List.length_set] at hi
    rw [List.getElem_set]
    split
    · exact Or.inl rfl
    · rename_i hne
      exact Or.inr ⟨List.getElem_mem _, fun e => hne ((hn.getElem_inj_iff.1 e).symm)⟩
  · rintro (rfl | ⟨h1, h2⟩)
    · exact List.mem_set hk v
    · obtain ⟨i, hi, rfl⟩ := List.mem_iff_getElem.1 h1
      have hne : k ≠ i := by rintro rfl; exact h2 rfl
      rw [List.mem_iff_getElem]
      exact ⟨i, by simpa using hi, by rw [List.getElem_set, if_neg hne]⟩

theorem nodup_set {l : List Nat} (hn : l.Nodup) (k : Nat) {b : Nat} (hb : b ∉ l) : (l.set k b).Nodup :=
  List.Nodup.set hn hb

theorem pivot_ok {P : Prob} {s : Sim} (hs : SimOK P s) {st : Step} (hl : st.leaving < P.rows.length)
    (hi : st.incoming < s.nonBasics.length) (hg : GoodBasis P (pivotSim s st).stat st.view) : SimOK P (pivotSim s st) := by
  have hbm := basics_getD hs.good hl
  have hb1 : s.stat (s.view.basics.getD st.leaving 0) = 1 := (hs.good.basic _ (hs.good.range _ hbm)).2 hbm
  have hb : s.view.basics.getD st.leaving 0 ∉ s.nonBasics := fun h => ((hs.mem _).1 h).2 hb1
  have hin : s.nonBasics.getD st.incoming 0 ∈ s.nonBasics := by
    rw [List.getD_eq_getElem?_getD, List.getElem?_eq_getElem hi]; exact List.getElem_mem _
  refine ⟨nodup_set hs.nodup _ hb, fun v => ?_, hg⟩
  change v ∈ s.nonBasics.set st.incoming (s.view.basics.getD st.leaving 0) ↔ _
  rw [mem_set_nodup hs.nodup hi]
  change _ ↔ _ ∧ pivotStat s st v ≠ 1
  unfold pivotStat
  by_cases h1 : v = s.nonBasics.getD st.incoming 0
  · rw [h1, Function.update_self]
    constructor
    · rintro (h | h)
      · exact absurd (h ▸ hin) hb
      · exact absurd rfl h.2
    · intro h; exact absurd rfl h.2
  · rw [Function.update_of_ne h1]
    by_cases h2 : v = s.view.basics.getD st.leaving 0
    · rw [h2, Function.update_self]
      refine ⟨fun _ => ⟨hs.good.range _ hbm, by split <;> decide⟩, fun _ => Or.inl rfl⟩
    · rw [Function.update_of_ne h2, hs.mem v]
      constructor
      · rintro (h | h)
        · exact absurd h h2
        · exact h.1
      · intro h; exact Or.inr ⟨h, h1⟩

theorem newNum_ok {P : Prob} {s : Sim} (hs : SimOK P s) {num : Nat} (hn : NumOK P s num) {st : Step}
    (hl : st.leaving < P.rows.length) (hi : st.incoming < s.nonBasics.length) (hne : st.leaving ≠ num)
    (hg : GoodBasis P (pivotSim s st).stat st.view) : NumOK P (pivotSim s st) (newNum s st num) := by
  have hlen := hs.good.size
  have hk : (s.view.basics.set st.leaving (s.nonBasics.getD st.incoming 0)).getD num 0 = s.view.basics.getD num 0 := by
    rw [List.getD_eq_getElem?_getD, List.getElem?_set_ne hne, ← List.getD_eq_getElem?_getD]
  have hkm := basics_getD hs.good hn.lt
  have hbm := basics_getD hs.good hl
  have hin : s.nonBasics.getD st.incoming 0 ∈ s.nonBasics := by
    rw [List.getD_eq_getElem?_getD, List.getElem?_eq_getElem hi]; exact List.getElem_mem _
  have hk1 : s.stat (s.view.basics.getD num 0) = 1 := (hs.good.basic _ (hs.good.range _ hkm)).2 hkm
  have hlt := hn.lt
  have hkb : s.view.basics.getD num 0 ≠ s.view.basics.getD st.leaving 0 := by
    intro h
    rw [List.getD_eq_getElem?_getD, List.getD_eq_getElem?_getD, List.getElem?_eq_getElem (by omega),
      List.getElem?_eq_getElem (by omega)] at h
    exact hne (hs.good.nodup.getElem_inj_iff.1 h).symm
  have hki : s.view.basics.getD num 0 ≠ s.nonBasics.getD st.incoming 0 := by
    intro h
    exact ((hs.mem _).1 (h ▸ hin)).2 hk1
  have hnew : s.view.basics.getD num 0 ∈ st.view.basics := by
    refine (hg.basic _ (hs.good.range _ hkm)).1 ?_
    change pivotStat s st _ = 1
    unfold pivotStat
    rw [Function.update_of_ne hki, Function.update_of_ne hkb, hk1]
  have key : newNum s st num < P.rows.length ∧ st.view.basics.getD (newNum s st num) 0 = s.view.basics.getD num 0 := by
    unfold newNum
    dsimp only
    rw [hk]
    by_cases h1 : st.view.basics.getD num 0 = s.view.basics.getD num 0
    · rw [if_pos h1]; exact ⟨hn.lt, h1⟩
    · rw [if_neg h1, if_pos hnew]
      have hlt := List.idxOf_lt_length_of_mem hnew
      refine ⟨by rw [← hg.size]; exact hlt, ?_⟩
      rw [List.getD_eq_getElem?_getD, List.getElem?_eq_getElem hlt]
      simp
  refine ⟨key.1, ?_, ?_⟩
  · change st.view.basics.getD _ 0 < _
    rw [key.2]; exact hn.col
  · change P.isInt (st.view.basics.getD _ 0) = true
    rw [key.2]; exact hn.int

theorem enterCut_off {c : Ctx} (hx : c.prm.generateExtraCuts ≠ .whenEnteringBasis) (s : Sim) (st : Step) (e : Extra)
    (r : TabRow) : enterCut c s st e r = .ok (e, r) := by
  unfold enterCut
  rw [if_neg (fun h => hx h.1)]

theorem search_ok {c : Ctx} (hT : DataOK c.T) (hx : c.prm.generateExtraCuts ≠ .whenEnteringBasis) (exh : Bool) :
    ∀ (l : List Step) (k : Nat) (s : Sim) (r : TabRow) (e : Extra) (f : Found), StateOK c.prm c.T s →
      NumOK c.T s r.num → SrcOK c.prm c.T s r → GoodSteps c.T s r.num l →
      (Plain c.prm → ∀ st ∈ l, NoTinyEntry c.T st.view) →
      search c exh k s r e l = .ok f →
      f.extra = e ∧ ∀ s' r', f.at? = some (s', r') → StateOK c.prm c.T s' ∧ SrcOK c.prm c.T s' r' := by
  intro l
  induction l with
  | nil =>
    intro k s r e f hs hn hr hg ht h
    unfold search at h
    split at h
    · exact absurd h (by simp)
    · simp only [Except.ok.injEq] at h
      subst h
      refine ⟨rfl, fun s' r' h => ?_⟩
      simp only [Option.some.injEq, Prod.mk.injEq] at h
      obtain ⟨rfl, rfl⟩ := h
      exact ⟨hs, hr⟩
  | cons st l ih =>
    intro k s r e f hs hn hr hg ht h
    unfold search at h
    split at h
    · rcases hc : changeBasis c.T s r st with fl | ⟨s', r', ok⟩
      · rw [hc] at h; exact absurd h (by simp)
      · rw [hc] at h
        dsimp only at h
        rw [enterCut_off hx] at h
        dsimp only at h
        unfold changeBasis at hc
        by_cases hok : st.ok = true
        · rw [if_pos hok] at hc
          rcases hp : pull c.T (pivotSim s st) (newNum s st r.num) with fl | r1
          · rw [hp] at hc; exact absurd hc (by simp)
          · rw [hp] at hc
            simp only [Except.ok.injEq, Prod.mk.injEq] at hc
            obtain ⟨rfl, rfl, rfl⟩ := hc
            rw [if_pos rfl] at h
            obtain ⟨hl, hi, hne, hrest⟩ := hg
            obtain ⟨hgb, hgs⟩ := hrest hok
            have hs1 := pivot_ok hs.sim hl hi hgb
            have hs' : StateOK c.prm c.T (pivotSim s st) := ⟨hs1, fun hp => ht hp st List.mem_cons_self⟩
            have hn' := newNum_ok hs.sim hn hl hi hne hgb
            have hnum : r1.num = newNum s st r.num := pull_num hp
            split at h
            · simp only [Except.ok.injEq] at h
              subst h
              exact ⟨rfl, fun s' r' h => absurd h (by simp)⟩
            · have hmn : (modIf c r1.frac).num = newNum s st r.num := by
                rw [← hnum]; unfold modIf; split <;> rfl
              refine ih (k+1) (pivotSim s st) (modIf c r1.frac) e f hs' (by rw [hmn]; exact hn')
                (modIf_src hT hs1 (pull_status hp) (pull_src hT hs' hn' hp)) (by rw [hmn]; exact hgs)
                (fun hp st' hst' => ht hp st' (List.mem_cons_of_mem _ hst')) h
        · rw [if_neg hok] at hc
          rcases hp : pull c.T { s with view := st.view } r.num with fl | r1
          · rw [hp] at hc; exact absurd hc (by simp)
          · rw [hp] at hc
            simp only [Except.ok.injEq, Prod.mk.injEq] at hc
            obtain ⟨rfl, rfl, rfl⟩ := hc
            rw [if_neg (by simp)] at h
            simp only [Except.ok.injEq] at h
            subst h
            exact ⟨rfl, fun s' r' h => absurd h (by simp)⟩
    · simp only [Except.ok.injEq] at h
      subst h
      refine ⟨rfl, fun s' r' h => ?_⟩
      simp only [Option.some.injEq, Prod.mk.injEq] at h
      obtain ⟨rfl, rfl⟩ := h
      exact ⟨hs, hr⟩

theorem finish_ok {c : Ctx} (hT : DataOK c.T) {want : Nat → Bool} {s : Sim} {r : TabRow} {e e' : Extra}
    {cut : Option RowCut} (hs : StateOK c.prm c.T s) (hr : SrcOK c.prm c.T s r) (he : ExtraOK c.T e)
    (h : finish c want s r e = .ok (cut, e')) : ExtraOK c.T e' ∧ ∀ d, cut = some d → NearOK c.T d := by
  unfold finish at h
  split at h
  · simp only [Except.ok.injEq, Prod.mk.injEq] at h
    obtain ⟨rfl, rfl⟩ := h
    exact ⟨he, by simp⟩
  · rcases hc : create c.prm c.T s r with f | ⟨d, r1⟩
    · rw [hc] at h; exact absurd h (by simp)
    · rw [hc] at h
      dsimp only at h
      have hd := create_near hT hs hr hc
      split at h
      · rcases hg : generateExtraCuts c s want e with f | e1
        · rw [hg] at h; exact absurd h (by simp)
        · rw [hg] at h
          simp only [Except.ok.injEq, Prod.mk.injEq] at h
          obtain ⟨rfl, rfl⟩ := h
          refine ⟨generateExtraCuts_ok hT hs he hg, fun d' h => ?_⟩
          simp only [Option.some.injEq] at h; subst h; exact hd
      · simp only [Except.ok.injEq, Prod.mk.injEq] at h
        obtain ⟨rfl, rfl⟩ := h
        refine ⟨he, fun d' h => ?_⟩
        simp only [Option.some.injEq] at h; subst h; exact hd

theorem search_limit {c : Ctx} {exh : Bool} {s : Sim} {r : TabRow} {e : Extra} {l : List Step} {f : Found}
    (hl : c.prm.pivotLimit = 0) (h : search c exh 0 s r e l = .ok f) : f = ⟨some (s, r), e⟩ := by
  cases l with
  | nil =>
    unfold search at h
    rw [if_neg (by omega)] at h
    simp only [Except.ok.injEq] at h
    exact h.symm
  | cons st l =>
    unfold search at h
    rw [if_neg (by rw [hl]; simp)] at h
    simp only [Except.ok.injEq] at h
    exact h.symm

theorem optimize_ok {c : Ctx} (hT : DataOK c.T) (hx : c.prm.generateExtraCuts ≠ .whenEnteringBasis) {s0 : Sim} {row : Nat}
    {run : Run} {e e' : Extra} {cut : Option RowCut} (hs : StateOK c.prm c.T s0) (hn : NumOK c.T s0 row)
    (hg : c.prm.pivotLimit = 0 ∨ GoodSteps c.T s0 row run.steps ∧ (Plain c.prm → ∀ st ∈ run.steps, NoTinyEntry c.T st.view))
    (he : ExtraOK c.T e) (h : optimize c s0 row run e = .ok (cut, e')) :
    ExtraOK c.T e' ∧ ∀ d, cut = some d → NearOK c.T d := by
  unfold optimize at h
  rcases hp : pull c.T s0 row with f | r
  · rw [hp] at h; exact absurd h (by simp)
  · rw [hp] at h
    dsimp only at h
    split at h
    · simp only [Except.ok.injEq, Prod.mk.injEq] at h
      obtain ⟨rfl, rfl⟩ := h
      exact ⟨he, by simp⟩
    · have hsrc := modIf_src hT hs.sim (pull_status hp) (pull_src hT hs hn hp)
      have hnum : (modIf c r.frac).num = row := by
        rw [← pull_num hp]; unfold modIf; split <;> rfl
      rcases hq : search c run.exhausted 0 s0 (modIf c r.frac) e run.steps with f | ⟨at?, e1⟩
      · rw [hq] at h; exact absurd h (by simp)
      · rw [hq] at h
        have key : e1 = e ∧ ∀ s' r', at? = some (s', r') → StateOK c.prm c.T s' ∧ SrcOK c.prm c.T s' r' := by
          rcases hg with hl | hg
          · have := search_limit hl hq
            simp only [Found.mk.injEq] at this
            refine ⟨this.2, fun s' r' h => ?_⟩
            rw [this.1] at h
            simp only [Option.some.injEq, Prod.mk.injEq] at h
            obtain ⟨rfl, rfl⟩ := h
            exact ⟨hs, hsrc⟩
          · exact search_ok hT hx _ _ _ _ _ _ _ hs (by rw [hnum]; exact hn) hsrc (by rw [hnum]; exact hg.1) hg.2 hq
        obtain ⟨rfl, key⟩ := key
        rcases at? with _ | ⟨s', r'⟩
        · simp only [Except.ok.injEq, Prod.mk.injEq] at h
          obtain ⟨rfl, rfl⟩ := h
          exact ⟨he, by simp⟩
        · obtain ⟨h1, h2⟩ := key s' r' rfl
          exact finish_ok hT h1 h2 he h

end Cgl.LandP
