import Verif.LandP.Valid

/-!
# C33, C73, C74 (CglLandP): validity, what the validator lets through, limits
-/

namespace Cgl.LandP

/-! ### C33 -/

theorem emptyCut_sat (x : Nat → ℚ) : emptyCut.Sat x := by
  unfold RowCut.Sat emptyCut lbOk ubOk
  exact ⟨fun h => absurd h (lt_irrefl _), fun h => absurd h (lt_irrefl _)⟩

theorem cutOK_sat {st : State} {P : Prob} {env : Env} (hwf : P.WF) (hd : ExactData P) {c : RowCut}
    (hc : CutOK (work st P env) c) (hcols : ∀ p ∈ c.row, p.1 < P.nCols) {x : Nat → ℚ} (hx : P.Feasible x)
    (hm : Modest P x) : c.Sat x := by
  obtain ⟨y, hy, hf, hxy⟩ := work_point (st := st) (env := env) hwf hd hx hm
  have h := hc.holds y hy hf
  have e : SVec.dot c.row y = SVec.dot c.row x := by
    unfold SVec.dot
    congr 1
    exact List.map_congr_left fun p hp => by rw [hxy p.1 (hcols p hp)]
  rw [e] at h
  refine ⟨fun _ => h, fun hu => ?_⟩
  rw [hc.ub] at hu
  exact absurd hu (lt_irrefl _)

theorem work_cols {st : State} {P : Prob} {env : Env} {c : RowCut} (h : converts st P = false)
    (hk : Known (work st P env) c) : ∀ p ∈ c.row, p.1 < P.nCols := by
  intro p hp
  unfold work at hk
  rw [h] at hk
  have := hk.subset (List.mem_map_of_mem hp)
  exact List.mem_range.1 this

/-- C33: a new cut that only mentions columns of the problem is satisfied by every integer point of the problem (of
moderate size), provided the solver keeps its contract, the problem has no ranged rows unless this is the object's
first call, the data are not within a tolerance of something else, and extra cuts are not made when a variable enters
the basis. -/
theorem landp_valid {st st' : State} {P : Prob} {env : Env} {cs cs' : List RowCut} (hwf : P.WF) (hd : ExactData P)
    (hr : st.numrows = none ∨ NoRanges P) (hc : Contract st P env)
    (hx : st.prm.generateExtraCuts ≠ .whenEnteringBasis) (h : generateCuts st P env cs = .ok (cs', st'))
    {c : RowCut} (hnew : c ∈ cs' ∧ c ∉ cs) (hcols : ∀ p ∈ c.row, p.1 < P.nCols) {x : Nat → ℚ} (hf : P.Feasible x)
    (hm : Modest P x) : c.Sat x := by
  unfold generateCuts at h
  split at h
  · simp only [Except.ok.injEq, Prod.mk.injEq] at h
    rw [← h.1] at hnew
    exact absurd hnew.1 hnew.2
  · split at h
    · exact absurd h (by simp)
    · rcases hb : body st P env cs with f | cs1
      · rw [hb] at h; exact absurd h (by simp)
      · rw [hb] at h
        simp only [Except.ok.injEq, Prod.mk.injEq] at h
        obtain ⟨rfl, _⟩ := h
        rcases body_ok hwf hd hr hc hx hb c hnew.1 with h | (h | ⟨h, _⟩) | h
        · exact absurd h hnew.2
        · rw [h]; exact emptyCut_sat x
        · exact cutOK_sat hwf hd h hcols hf hm
        · exact cutOK_sat hwf hd h hcols hf hm

theorem addExtra_none {c : Ctx} {P : Prob} {env : Env} {e : Extra} (he : ∀ j, e.cut j = none) (l : List Nat)
    (cs : List RowCut) : l.foldlM (addExtra c P env e) cs = .ok cs := by
  induction l with
  | nil => rfl
  | cons j l ih =>
    rw [List.foldlM_cons]
    have : addExtra c P env e cs j = .ok cs := by unfold addExtra; rw [he j]
    rw [this]
    exact ih

/-! ### Extra cuts are counted -/

/-- Number of columns below `n` with an extra cut. -/
def extras (n : Nat) (e : Extra) : Nat := ((List.range n).filter fun j => (e.cut j).isSome).length

theorem extras_update {n : Nat} {e : Extra} {k : Nat} (c : RowCut) (cnt : ℤ) :
    extras n ⟨Function.update e.cut k (some c), cnt⟩ ≤ extras n e + 1 := by
  unfold extras
  dsimp only
  have : ∀ l : List Nat, l.Nodup → (l.filter fun j => (Function.update e.cut k (some c) j).isSome).length ≤
      (l.filter fun j => (e.cut j).isSome).length + (if k ∈ l then 1 else 0) := by
    intro l
    induction l with
    | nil => intro _; simp
    | cons j l ih =>
      intro hn
      have hj : j ∉ l := (List.nodup_cons.1 hn).1
      have := ih (List.nodup_cons.1 hn).2
      rw [List.filter_cons, List.filter_cons]
      by_cases hjk : j = k
      · subst hjk
        rw [if_neg hj] at this
        rw [Function.update_self]
        simp only [Option.isSome_some, if_true, List.length_cons, List.mem_cons, true_or]
        split
        · simp only [List.length_cons]; omega
        · omega
      · rw [Function.update_of_ne hjk]
        have hm : (k ∈ j :: l) ↔ k ∈ l := by
          rw [List.mem_cons]
          exact ⟨fun h => h.resolve_left (fun e => hjk e.symm), Or.inr⟩
        simp only [hm]
        split
        · simp only [List.length_cons]; omega
        · omega
  have := this (List.range n) List.nodup_range
  split at this <;> omega

/-- The number of extra cuts is within the limit, and none without being asked for. -/
structure Counted (p : Params) (n : Nat) (e : Extra) : Prop where
  count : (extras n e : ℤ) ≤ e.count
  limit : e.count ≤ max 0 p.extraCutsLimit
  off : p.generateExtraCuts = .none → ∀ j, e.cut j = none

theorem generateExtraCut_count {c : Ctx} {s : Sim} {want : Bool} {e e' : Extra} {i n : Nat} {r : Option TabRow}
    (hl : e.count < c.prm.extraCutsLimit) (hm : c.prm.generateExtraCuts ≠ .none)
    (he : Counted c.prm n e) (h : generateExtraCut c s want e i = .ok (e', r)) : Counted c.prm n e' := by
  unfold generateExtraCut at h
  split at h
  · rcases hg : generateMig c.prm c.T s i with f | ⟨cut, r1⟩
    · rw [hg] at h; exact absurd h (by simp)
    · rw [hg] at h
      dsimp only at h
      split at h
      · rcases hv : validate c.V c.prm.eps c.T.nCols c.T.nCols c.T.colLower c.T.colUpper c.sol cut with f | (cut' | k)
        · rw [hv] at h; exact absurd h (by simp)
        · rw [hv] at h
          simp only [Except.ok.injEq, Prod.mk.injEq] at h
          rw [← h.1]
          have h1 := extras_update (n := n) (e := e) (k := s.view.basics.getD i 0) cut' (e.count + 1)
          have h2 := he.count
          refine ⟨?_, ?_, fun hoff => absurd hoff hm⟩
          · dsimp only; omega
          · dsimp only; omega
        · rw [hv] at h
          simp only [Except.ok.injEq, Prod.mk.injEq] at h
          rw [← h.1]; exact he
      · exact absurd h (by simp)
  · simp only [Except.ok.injEq, Prod.mk.injEq] at h
    rw [← h.1]; exact he

theorem generateExtraCuts_count {c : Ctx} {s : Sim} {want : Nat → Bool} {e e' : Extra} {n : Nat}
    (hm : c.prm.generateExtraCuts ≠ .none) (he : Counted c.prm n e)
    (h : generateExtraCuts c s want e = .ok e') : Counted c.prm n e' := by
  refine fold_inv (Counted c.prm n) ?_ _ _ _ he h
  intro a i a' ha hs
  unfold extraStep at hs
  split at hs
  · rename_i hcol
    rcases h2 : generateExtraCut c s (want i) a i with f | ⟨e2, r⟩
    · rw [h2] at hs; exact absurd hs (by simp)
    · rw [h2] at hs
      simp only [Except.ok.injEq] at hs
      subst hs
      exact generateExtraCut_count hcol.1 hm ha h2
  · simp only [Except.ok.injEq] at hs
    subst hs; exact ha

theorem enterCut_count {c : Ctx} {s : Sim} {st : Step} {e e' : Extra} {r r' : TabRow} {n : Nat} (he : Counted c.prm n e)
    (h : enterCut c s st e r = .ok (e', r')) : Counted c.prm n e' := by
  unfold enterCut at h
  split at h
  · rename_i hc
    rcases h2 : generateExtraCut c s st.want e st.leaving with f | ⟨e2, _ | r2⟩
    · rw [h2] at h; exact absurd h (by simp)
    · rw [h2] at h
      simp only [Except.ok.injEq, Prod.mk.injEq] at h
      rw [← h.1]
      exact generateExtraCut_count hc.2.2 (by rw [hc.1]; simp) he h2
    · rw [h2] at h
      simp only [Except.ok.injEq, Prod.mk.injEq] at h
      rw [← h.1]
      exact generateExtraCut_count hc.2.2 (by rw [hc.1]; simp) he h2
  · simp only [Except.ok.injEq, Prod.mk.injEq] at h
    rw [← h.1]; exact he

theorem search_count {c : Ctx} {n : Nat} (exh : Bool) :
    ∀ (l : List Step) (k : Nat) (s : Sim) (r : TabRow) (e : Extra) (f : Found), Counted c.prm n e →
      search c exh k s r e l = .ok f → Counted c.prm n f.extra := by
  intro l
  induction l with
  | nil =>
    intro k s r e f he h
    unfold search at h
    split at h
    · exact absurd h (by simp)
    · simp only [Except.ok.injEq] at h
      subst h; exact he
  | cons st l ih =>
    intro k s r e f he h
    unfold search at h
    split at h
    · rcases hc : changeBasis c.T s r st with fl | ⟨s', r', ok⟩
      · rw [hc] at h; exact absurd h (by simp)
      · rw [hc] at h
        dsimp only at h
        rcases hen : enterCut c s' st e r' with fl | ⟨e', r''⟩
        · rw [hen] at h; exact absurd h (by simp)
        · rw [hen] at h
          dsimp only at h
          have he' := enterCut_count he hen
          split at h
          · split at h
            · simp only [Except.ok.injEq] at h
              subst h; exact he'
            · exact ih _ _ _ _ _ he' h
          · simp only [Except.ok.injEq] at h
            subst h; exact he'
    · simp only [Except.ok.injEq] at h
      subst h; exact he

theorem optimize_count {c : Ctx} {s0 : Sim} {row : Nat} {run : Run} {e e' : Extra} {cut : Option RowCut} {n : Nat}
    (he : Counted c.prm n e) (h : optimize c s0 row run e = .ok (cut, e')) : Counted c.prm n e' := by
  unfold optimize at h
  rcases hp : pull c.T s0 row with f | r
  · rw [hp] at h; exact absurd h (by simp)
  · rw [hp] at h
    dsimp only at h
    split at h
    · simp only [Except.ok.injEq, Prod.mk.injEq] at h
      rw [← h.2]; exact he
    · rcases hq : search c run.exhausted 0 s0 (modIf c r.frac) e run.steps with f | ⟨_ | ⟨s, r'⟩, e1⟩
      · rw [hq] at h; exact absurd h (by simp)
      · rw [hq] at h
        simp only [Except.ok.injEq, Prod.mk.injEq] at h
        rw [← h.2]; exact search_count _ _ _ _ _ _ _ he hq
      · rw [hq] at h
        dsimp only at h
        have h1 : Counted c.prm n e1 := search_count _ _ _ _ _ _ _ he hq
        unfold finish at h
        split at h
        · simp only [Except.ok.injEq, Prod.mk.injEq] at h
          rw [← h.2]; exact h1
        · rcases hcr : create c.prm c.T s r' with f | ⟨d, r1⟩
          · rw [hcr] at h; exact absurd h (by simp)
          · rw [hcr] at h
            dsimp only at h
            split at h
            · rename_i hm
              rcases hg : generateExtraCuts c s run.want e1 with f | e2
              · rw [hg] at h; exact absurd h (by simp)
              · rw [hg] at h
                simp only [Except.ok.injEq, Prod.mk.injEq] at h
                rw [← h.2]
                exact generateExtraCuts_count (by rw [hm]; simp) h1 hg
            · simp only [Except.ok.injEq, Prod.mk.injEq] at h
              rw [← h.2]; exact h1

/-- What the validator of the call accepts. -/
def Passed (st : State) (P : Prob) (env : Env) (d : RowCut) : Prop :=
  ∃ d0, validate st.V st.prm.eps P.nCols P.nCols P.colLower P.colUpper env.view.xlp d0 = .ok (.inl d)

theorem oneRow_count {c : Ctx} {P : Prob} {s0 : Sim} {row : Nat} {run again : Run} {limit0 : ℤ} {n : Nat} {e e' : Extra}
    (he : Counted c.prm n e) {cut : Option RowCut} {l : ℤ} (h : oneRow c P s0 row run again limit0 e = .ok (cut, e', l)) :
    Counted c.prm n e' ∧ ∀ d, cut = some d → d = emptyCut ∨ ∃ d0, check c P d0 = .ok (.inl d) := by
  unfold oneRow at h
  rcases ha : attempt c s0 row run e with f | ⟨first, e1⟩
  · rw [ha] at h; exact absurd h (by simp)
  · rw [ha] at h
    dsimp only at h
    have hfirst : Counted c.prm n e1 := by
      unfold attempt at ha
      split at ha
      · rcases hm : generateMig c.prm c.T s0 row with f | ⟨d, r⟩
        · rw [hm] at ha; exact absurd ha (by simp)
        · rw [hm] at ha
          simp only [Except.ok.injEq, Prod.mk.injEq] at ha
          rw [← ha.2]; exact he
      · exact optimize_count he ha
    obtain ⟨res0, hres0⟩ : ∃ q, q = checkFirst c P first := ⟨_, rfl⟩
    rw [← hres0] at h
    rcases res0 with f | res
    · exact absurd h (by simp)
    · dsimp only at h
      have hleft : ∀ d, res.getLeft? = some d → d = emptyCut ∨ ∃ d0, check c P d0 = .ok (.inl d) := by
        intro d hd
        have hres : res = .inl d := Sum.getLeft?_eq_some_iff.1 hd
        rcases first with _ | d0
        · unfold checkFirst at hres0
          simp only [Except.ok.injEq] at hres0
          rw [hres] at hres0
          exact Or.inl (Sum.inl.inj hres0)
        · unfold checkFirst at hres0
          rw [hres] at hres0
          exact Or.inr ⟨d0, hres0.symm⟩
      split at h
      · rcases ho : optimize (c.withLimit 0) s0 row again e1 with f | ⟨_ | d2, e2⟩
        · rw [ho] at h; exact absurd h (by simp)
        · rw [ho] at h
          simp only [Except.ok.injEq, Prod.mk.injEq] at h
          obtain ⟨rfl, rfl, rfl⟩ := h
          have := optimize_count (c := c.withLimit 0) (n := n) ⟨hfirst.count, hfirst.limit, hfirst.off⟩ ho
          exact ⟨⟨this.count, this.limit, this.off⟩, hleft⟩
        · rw [ho] at h
          have h2 := optimize_count (c := c.withLimit 0) (n := n) ⟨hfirst.count, hfirst.limit, hfirst.off⟩ ho
          dsimp only at h
          rcases hc : check c P d2 with f | res2
          · rw [hc] at h; exact absurd h (by simp)
          · rw [hc] at h
            simp only [Except.ok.injEq, Prod.mk.injEq] at h
            obtain ⟨rfl, rfl, rfl⟩ := h
            refine ⟨⟨h2.count, h2.limit, h2.off⟩, fun d hd => ?_⟩
            have hres : res2 = .inl d := Sum.getLeft?_eq_some_iff.1 hd
            rw [hres] at hc
            exact Or.inr ⟨d2, hc⟩
      · simp only [Except.ok.injEq, Prod.mk.injEq] at h
        obtain ⟨rfl, rfl, rfl⟩ := h
        exact ⟨hfirst, hleft⟩

/-- The state of the loop over the rows. -/
structure LoopOK (c : Ctx) (P : Prob) (conv : Bool) (n : Nat) (cs : List RowCut) (lp : Loop) : Prop where
  extra : Counted c.prm n lp.extra
  keep : cs <+: lp.cs
  number : lp.cs.length ≤ cs.length + lp.nCut
  round : (lp.nCut : ℤ) ≤ max 0 c.prm.maxCutPerRound
  basics : lp.nCut ≤ c.T.rows.length
  from' : ∀ d ∈ lp.cs, d ∈ cs ∨ d = emptyCut ∨
    (∃ d0, check c P d0 = .ok (.inl d)) ∧ (conv = true → ∀ p ∈ d.row, p.1 < P.nCols)

theorem insert_length (same : RowCut → RowCut → Bool) (cs : List RowCut) (c : RowCut) :
    (insert same cs c).length ≤ cs.length + 1 := by
  unfold insert
  split <;> simp

theorem rowStep_loop {c : Ctx} {P : Prob} {conv : Bool} {env : Env} {s0 : Sim} {limit0 : ℤ} {n : Nat} {cs : List RowCut}
    {lp lp' : Loop} {row : Nat} (hl : LoopOK c P conv n cs lp) (h : rowStep c P conv env s0 limit0 lp row = .ok lp') :
    LoopOK c P conv n cs lp' := by
  unfold rowStep at h
  split at h
  · rename_i hlim
    have he := hl.extra
    rcases ho : oneRow (c.withLimit lp.limit) P s0 row (env.run row) (env.again row) limit0 lp.extra with f | ⟨_ | d, e, l⟩
    · rw [ho] at h; exact absurd h (by simp)
    · rw [ho] at h
      simp only [Except.ok.injEq] at h
      subst h
      have := (oneRow_count (c := c.withLimit lp.limit) (n := n) ⟨he.count, he.limit, he.off⟩ ho).1
      exact ⟨⟨this.count, this.limit, this.off⟩, hl.keep, hl.number, hl.round, hl.basics, hl.from'⟩
    · rw [ho] at h
      simp only [Except.ok.injEq] at h
      subst h
      have h1 := oneRow_count (c := c.withLimit lp.limit) (n := n) ⟨he.count, he.limit, he.off⟩ ho
      have := h1.1
      refine ⟨⟨this.count, this.limit, this.off⟩, hl.keep.trans (insert_prefix _ _ _), ?_, ?_, ?_, ?_⟩
      · have h2 := insert_length env.same lp.cs (if conv && oddSlack P d then emptyCut else d)
        have h3 := hl.number
        dsimp only
        omega
      · dsimp only; push_cast; omega
      · dsimp only; omega
      · intro q hq
        rcases insert_mem hq with hq | hq
        · exact hl.from' q hq
        · rw [hq]
          by_cases ho : (conv && oddSlack P d) = true
          · rw [if_pos ho]; exact Or.inr (Or.inl rfl)
          · rw [if_neg ho]
            rcases h1.2 d rfl with h | h
            · exact Or.inr (Or.inl h)
            · refine Or.inr (Or.inr ⟨h, fun hc p hp => ?_⟩)
              rw [hc, Bool.true_and] at ho
              unfold oddSlack at ho
              by_contra hlt
              exact ho (List.any_eq_true.2 ⟨p, hp, by simpa using hlt⟩)
  · simp only [Except.ok.injEq] at h
    subst h
    exact hl

theorem rowLoop_loop {c : Ctx} {P : Prob} {conv : Bool} {env : Env} {s0 : Sim} {limit0 : ℤ} {n : Nat} {cs : List RowCut} :
    ∀ (l : List Nat) (lp lp' : Loop), LoopOK c P conv n cs lp → rowLoop c P conv env s0 limit0 lp l = .ok lp' →
      LoopOK c P conv n cs lp' := by
  intro l
  induction l with
  | nil =>
    intro lp lp' hl h
    simp only [rowLoop, Except.ok.injEq] at h
    subst h; exact hl
  | cons row l ih =>
    intro lp lp' hl h
    rcases h1 : rowStep c P conv env s0 limit0 lp row with f | lp1
    · simp only [rowLoop, h1] at h; exact absurd h (by simp)
    · simp only [rowLoop, h1] at h
      exact ih lp1 lp' (rowStep_loop hl h1) h

theorem extras_fold {c : Ctx} {P : Prob} {env : Env} {e : Extra} : ∀ (l : List Nat) (cs cs' : List RowCut),
    l.foldlM (addExtra c P env e) cs = .ok cs' → cs <+: cs' ∧
      cs'.length ≤ cs.length + (l.filter fun j => (e.cut j).isSome).length ∧
      ∀ d ∈ cs', d ∈ cs ∨ ∃ d0, check c P d0 = .ok (.inl d) := by
  intro l
  induction l with
  | nil =>
    intro cs cs' h
    simp only [List.foldlM_nil, pure, Except.pure, Except.ok.injEq] at h
    subst h
    exact ⟨List.prefix_refl _, by simp, fun d hd => Or.inl hd⟩
  | cons j l ih =>
    intro cs cs' h
    rcases h1 : addExtra c P env e cs j with f | cs1
    · simp only [List.foldlM_cons, h1, bind, Except.bind] at h; exact absurd h (by simp)
    · simp only [List.foldlM_cons, h1, bind, Except.bind] at h
      obtain ⟨i1, i2, i3⟩ := ih cs1 cs' h
      rw [List.filter_cons]
      unfold addExtra at h1
      rcases hj : e.cut j with _ | d
      · rw [hj] at h1
        simp only [Except.ok.injEq] at h1
        subst h1
        simp only [Option.isSome_none, Bool.false_eq_true, if_false]
        exact ⟨i1, i2, i3⟩
      · rw [hj] at h1
        dsimp only at h1
        simp only [Option.isSome_some, if_true, List.length_cons]
        rcases hc : check c P d with f | (d' | k)
        · rw [hc] at h1; exact absurd h1 (by simp)
        · rw [hc] at h1
          simp only [Except.ok.injEq] at h1
          subst h1
          refine ⟨(insert_prefix _ _ _).trans i1, ?_, fun q hq => ?_⟩
          · have := insert_length env.same cs d'
            omega
          · rcases i3 q hq with h | h
            · rcases insert_mem h with h | h
              · exact Or.inl h
              · rw [h]; exact Or.inr ⟨d, hc⟩
            · exact Or.inr h
        · rw [hc] at h1
          simp only [Except.ok.injEq] at h1
          subst h1
          exact ⟨i1, by omega, i3⟩

/-- What every call does to the list of cuts. -/
structure CallOK (st : State) (P : Prob) (env : Env) (cs cs' : List RowCut) : Prop where
  keep : cs <+: cs'
  number : ∃ main extra : Nat, cs'.length ≤ cs.length + main + extra ∧
    (main : ℤ) ≤ max 0 st.prm.maxCutPerRound ∧ main ≤ P.rows.length ∧ (extra : ℤ) ≤ max 0 st.prm.extraCutsLimit ∧
    (st.prm.generateExtraCuts = .none → extra = 0)
  from' : ∀ d ∈ cs', d ∈ cs ∨ d = emptyCut ∨ Passed st P env d
  cols : st.prm.generateExtraCuts = .none → converts st P = true → ∀ d ∈ cs', d ∉ cs → ∀ p ∈ d.row, p.1 < P.nCols

theorem call_ok {st st' : State} {P : Prob} {env : Env} {cs cs' : List RowCut}
    (h : generateCuts st P env cs = .ok (cs', st')) : CallOK st P env cs cs' := by
  unfold generateCuts at h
  split at h
  · simp only [Except.ok.injEq, Prod.mk.injEq] at h
    obtain ⟨rfl, _⟩ := h
    exact ⟨List.prefix_refl _, ⟨0, 0, by simp, by simp, by simp, by simp, fun _ => rfl⟩, fun d hd => Or.inl hd,
      fun _ _ d hd hn => absurd hd hn⟩
  · split at h
    · exact absurd h (by simp)
    · rcases hb : body st P env cs with f | cs1
      · rw [hb] at h; exact absurd h (by simp)
      · rw [hb] at h
        simp only [Except.ok.injEq, Prod.mk.injEq] at h
        obtain ⟨rfl, _⟩ := h
        unfold body at hb
        dsimp only at hb
        split at hb
        · exact absurd hb (by simp)
        · split at hb
          · exact absurd hb (by simp)
          · obtain ⟨c, hcdef⟩ : ∃ c : Ctx, c = ⟨callPrm st P env, st.V, work st P env, env.view.xlp⟩ := ⟨_, rfl⟩
            rw [← hcdef] at hb
            rcases hl : rowLoop c P (converts st P) env
                ⟨startNonBasics (work st P env) env.stat, env.stat, env.view⟩ st.prm.pivotLimit
                ⟨(callPrm st P env).pivotLimit, ⟨fun _ => none, 0⟩, cs, 0⟩
                (candidates (callPrm st P env) (work st P env) env.view) with f | lp
            · rw [hl] at hb; exact absurd hb (by simp)
            · rw [hl] at hb
              dsimp only at hb
              have hinit : LoopOK c P (converts st P) (work st P env).nCols cs
                  ⟨(callPrm st P env).pivotLimit, ⟨fun _ => none, 0⟩, cs, 0⟩ :=
                ⟨⟨by simp [extras], by simp, fun _ _ => rfl⟩, List.prefix_refl _, by simp, by simp, by simp,
                  fun d hd => Or.inl hd⟩
              have h1 := rowLoop_loop _ _ _ hinit hl
              obtain ⟨e1, e2, e3⟩ := extras_fold _ _ _ hb
              have hpass : ∀ d, (∃ d0, check c P d0 = .ok (.inl d)) → Passed st P env d := by
                rintro d ⟨d0, hd0⟩
                refine ⟨d0, ?_⟩
                rw [hcdef] at hd0
                exact hd0
              have hprm : c.prm = callPrm st P env := by rw [hcdef]
              have hlen : c.T.rows.length = P.rows.length := by rw [hcdef]; exact work_length st P env
              refine ⟨h1.keep.trans e1, ⟨lp.nCut, extras (work st P env).nCols lp.extra, ?_, ?_, ?_, ?_, ?_⟩, ?_, ?_⟩
              · have := h1.number
                unfold extras
                omega
              · have := h1.round
                rw [hprm] at this
                exact this
              · have := h1.basics
                omega
              · have h2 := h1.extra.count
                have h3 := h1.extra.limit
                rw [hprm] at h3
                exact h2.trans h3
              · intro hoff
                have := h1.extra.off (by rw [hprm]; exact hoff)
                unfold extras
                simp [this]
              · intro d hd
                rcases e3 d hd with h | h
                · rcases h1.from' d h with h | h | h
                  · exact Or.inl h
                  · exact Or.inr (Or.inl h)
                  · exact Or.inr (Or.inr (hpass d h.1))
                · exact Or.inr (Or.inr (hpass d h))
              · intro hoff hconv d hd hn
                rw [addExtra_none (h1.extra.off (by rw [hprm]; exact hoff))] at hb
                simp only [Except.ok.injEq] at hb
                rw [← hb] at hd
                rcases h1.from' d hd with h | h | h
                · exact absurd h hn
                · rw [h]; intro p hp; exact absurd hp (by simp [emptyCut])
                · exact h.2 hconv

/-- C33, without extra cuts: every new cut only mentions columns of the problem and is valid. -/
theorem landp_valid_plain {st st' : State} {P : Prob} {env : Env} {cs cs' : List RowCut} (hwf : P.WF) (hd : ExactData P)
    (hr : st.numrows = none ∨ NoRanges P) (hc : Contract st P env)
    (hx : st.prm.generateExtraCuts = .none) (h : generateCuts st P env cs = .ok (cs', st'))
    {c : RowCut} (hnew : c ∈ cs' ∧ c ∉ cs) :
    (∀ p ∈ c.row, p.1 < P.nCols) ∧ ∀ x, P.Feasible x → Modest P x → c.Sat x := by
  have hcols : ∀ p ∈ c.row, p.1 < P.nCols := by
    by_cases hconv : converts st P = true
    · exact (call_ok h).cols hx hconv c hnew.1 hnew.2
    · have hconv : converts st P = false := by simpa using hconv
      have h' := h
      unfold generateCuts at h
      split at h
      · simp only [Except.ok.injEq, Prod.mk.injEq] at h
        rw [← h.1] at hnew
        exact absurd hnew.1 hnew.2
      · split at h
        · exact absurd h (by simp)
        · rcases hb : body st P env cs with f | cs1
          · rw [hb] at h; exact absurd h (by simp)
          · rw [hb] at h
            simp only [Except.ok.injEq, Prod.mk.injEq] at h
            obtain ⟨rfl, _⟩ := h
            rcases body_ok hwf hd hr hc (by rw [hx]; simp) hb c hnew.1 with h | (h | ⟨h, _⟩) | h
            · exact absurd h hnew.2
            · rw [h]; intro p hp; exact absurd hp (by simp [emptyCut])
            · exact work_cols hconv h.known
            · exact work_cols hconv h.known
  exact ⟨hcols, fun x hf hm => landp_valid hwf hd hr hc (by rw [hx]; simp) h hnew hcols hf hm⟩

/-! ### C73 -/

/-- What the validator is meant to guarantee about a cut: it has entries, not too many, none tiny, their ratio is
limited, and the cut is violated by enough at the current point. -/
structure WellBehaved (V : Validator) (eps : ℚ) (nCols : Nat) (x : Nat → ℚ) (c : RowCut) : Prop where
  nonempty : c.row ≠ []
  dense : (c.row.length : ℚ) ≤ V.maxFillIn * nCols
  size : ∀ p ∈ c.row, eps < |p.2|
  ratio : 0 ≤ V.maxRatio → ∀ p ∈ c.row, ∀ q ∈ c.row, |p.2| ≤ V.maxRatio * |q.2|
  violated : 0 < V.minViolation →
    V.minViolation ≤ SVec.dot c.row x - c.ub ∨ V.minViolation ≤ c.lb - SVec.dot c.row x

/-- C73: every new cut is the empty cut or passes all tests of the validator.  (That the empty cut can be added is a
defect, see `empty_cut`.) -/
theorem landp_tests {st st' : State} {P : Prob} {env : Env} {cs cs' : List RowCut}
    (h : generateCuts st P env cs = .ok (cs', st')) {c : RowCut} (hnew : c ∈ cs' ∧ c ∉ cs) :
    c = ⟨-dblMax, dblMax, []⟩ ∨ WellBehaved st.V st.prm.eps P.nCols env.view.xlp c := by
  rcases (call_ok h).from' c hnew.1 with h | h | ⟨d0, h⟩
  · exact absurd h hnew.2
  · exact Or.inl h
  · have ha := validate_accepted h
    refine Or.inr ⟨ha.nonempty, ha.dense, ha.small, fun h0 p hp q hq => ha.ratio p hp q hq h0, fun hpos => ?_⟩
    have hv := ha.violation
    unfold violated at hv
    split at hv
    · exact Or.inl hv
    · split at hv
      · exact Or.inr hv
      · exact absurd hv (not_le.2 hpos)

/-! ### C74 -/

/-- C74: the cuts already there stay, in place, and the number of new ones is within the limits of the parameters. -/
theorem landp_limits {st st' : State} {P : Prob} {env : Env} {cs cs' : List RowCut}
    (h : generateCuts st P env cs = .ok (cs', st')) :
    cs <+: cs' ∧
    (cs'.length : ℤ) - cs.length ≤ min (max 0 st.prm.maxCutPerRound) P.rows.length +
      (if st.prm.generateExtraCuts = .none then 0 else max 0 st.prm.extraCutsLimit) := by
  have hc := call_ok h
  refine ⟨hc.keep, ?_⟩
  obtain ⟨m, e, h1, h2, h3, h4, h5⟩ := hc.number
  split
  · rename_i hoff
    have := h5 hoff
    omega
  · omega

/-- C74: a call only changes the bookkeeping of the generator: the number of rows of the first call, the time left
and, if ranged rows were converted, the sign of the limit on the length. -/
theorem landp_state {st st' : State} {P : Prob} {env : Env} {cs cs' : List RowCut}
    (h : generateCuts st P env cs = .ok (cs', st')) :
    st'.V = st.V ∧ st'.numrows.isSome = true ∧ (∀ n, st.numrows = some n → st'.numrows = some n) ∧
    { st'.prm with
      timeLimit := st.prm.timeLimit
      maximumCutLength := st.prm.maximumCutLength } = st.prm := by
  unfold generateCuts at h
  split at h
  · rename_i hs
    simp only [Except.ok.injEq, Prod.mk.injEq] at h
    rw [← h.2]
    exact ⟨rfl, hs.1, fun n hn => hn, rfl⟩
  · split at h
    · exact absurd h (by simp)
    · rcases hb : body st P env cs with f | cs1
      · rw [hb] at h; exact absurd h (by simp)
      · rw [hb] at h
        simp only [Except.ok.injEq, Prod.mk.injEq] at h
        rw [← h.2]
        unfold after
        refine ⟨rfl, rfl, fun n hn => ?_, rfl⟩
        rw [hn]; rfl

/-- C74: after a first call that converted ranged rows, the object never generates anything again: any further calls,
on any problems, return the list they are given. -/
theorem landp_switched_off {st st' : State} {P : Prob} {env : Env} {cs cs' : List RowCut}
    (h : generateCuts st P env cs = .ok (cs', st')) (hn : st.numrows = none)
    (hr : ∃ r ∈ P.rows, r.lb < r.ub ∧ -10^50 < r.lb ∧ r.ub < 10^50) (hlen : 0 < st.prm.maximumCutLength) :
    ∀ (P' : Prob) (env' : Env) (ds : List RowCut), generateCuts st' P' env' ds = .ok (ds, st') := by
  have hconv : converts st P = true := by
    obtain ⟨r, hrm, hr⟩ := hr
    obtain ⟨i, hi, rfl⟩ := List.mem_iff_getElem.1 hrm
    have hm : i ∈ rangedRows P := ranged_mem.2 ⟨hi, by
      unfold Prob.row
      rw [List.getD_eq_getElem?_getD, List.getElem?_eq_getElem hi]
      exact ranged_spec.2 hr⟩
    unfold converts
    rw [hn]
    cases hq : rangedRows P with
    | nil => rw [hq] at hm; exact absurd hm (by simp)
    | cons a l => rfl
  have hst : st' = after st P env := by
    unfold generateCuts at h
    rw [if_neg (by rw [hn]; simp)] at h
    split at h
    · exact absurd h (by simp)
    · rcases hb : body st P env cs with f | cs1
      · rw [hb] at h; exact absurd h (by simp)
      · rw [hb] at h
        simp only [Except.ok.injEq, Prod.mk.injEq] at h
        exact h.2.symm
  intro P' env' ds
  unfold generateCuts
  rw [if_pos]
  rw [hst]
  refine ⟨rfl, ?_⟩
  change (if converts st P then - st.prm.maximumCutLength else st.prm.maximumCutLength) < 0
  rw [if_pos hconv]
  omega

/-! ### C53 -/

/-- C53: copying the parameters gives equal parameters. -/
theorem params_copy (p : Params) : p.copy = p := rfl

/-- C53: assignment gives equal parameters except for the limit on degenerate pivots. -/
theorem params_assign_partial (p q : Params) :
    { p.assign q with degeneratePivotLimit := q.degeneratePivotLimit } = q := rfl

/-- ... which becomes the limit on failed pivots. -/
theorem params_assign_bug (p q : Params) : (p.assign q).degeneratePivotLimit = q.failedPivotLimit := rfl

end Cgl.LandP
