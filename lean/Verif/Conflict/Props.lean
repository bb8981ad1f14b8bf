import Verif.Conflict.OW
import Verif.Conflict.Str

/-!
# The properties: clique cuts, odd-wheel cuts, strengthened models
-/

namespace Cgl.Conflict

/-! ### `CglBKClique` (C34, C59, C60) -/

/-- **C34** Every cut `CglBKClique` adds holds at every feasible point of the problem whose conflict graph it was given:
for every problem, LP point, generator state and behaviour of the external search, extender and cut pool. -/
theorem bk_valid {env : BKEnv} {P : Prob} {G : Graph} {x : Nat → ℚ} {o o' : BKObj} {cs cs' : List RowCut}
    (hE : env.OK G) (hG : G.SoundFor P) (h : bkGenerate env P G x o cs = .ok (o', cs')) :
    ∀ c ∈ cs', c ∈ cs ∨ c.Valid P := by
  intro c hc
  rcases bk_cut hE h c hc with h1 | ⟨_, hlb, C, hC, hd⟩
  · exact Or.inl h1
  · right
    intro y hy
    have hr := hG y hy
    have hs := clique_sum_le_one hr hC.clique (fun u hu => (hC.tied u hu).zeroOne hr)
    refine ⟨fun hl => ?_, fun _ => ?_⟩
    · rw [hlb] at hl; exact absurd hl (lt_irrefl _)
    · have := hd y; linarith

/-- The minimum weight always belongs to the minimum violation. -/
theorem reached_weight {o : BKObj} (h : o.Reached) : o.minWeight = 1000 + o.minViol * 1000 := by
  induction h with
  | init =>
    have : ⌊(1000 + 2 / 100 * 1000 : ℚ)⌋ = 1020 := by
      rw [Int.floor_eq_iff]; norm_num
    simp only [BKObj.init, this]; norm_num
  | copy _ ih => exact ih
  | minViol v _ _ => rfl
  | minFrac v _ ih => exact ih
  | maxCalls v _ ih => exact ih
  | maxSeconds v _ ih => exact ih
  | maxInduced v _ ih => exact ih
  | extMethod v _ e ih =>
    unfold BKObj.setExtMethod at e
    split at e
    · cases e
    · cases e; exact ih
  | @generate o o' env P G x cs cs' _ e ih =>
    have hs : (o.checkMemory P.nCols).shortTime.minWeight = 1000 + (o.checkMemory P.nCols).shortTime.minViol * 1000 := by
      rw [(shortTime_same _).2.2.1, (shortTime_same _).2.2.2, (checkMemory_same o _).2.1, (checkMemory_same o _).2.2]
      exact ih
    unfold bkGenerate at e
    split at e
    · cases e; exact ih
    · split at e
      · cases e
      · rcases h1 : separateCliques env G x (o.checkMemory P.nCols).shortTime with f | ⟨o1, r⟩
        · rw [h1] at e; cases e
        · rw [h1] at e
          have ho1 : o1.minWeight = 1000 + o1.minViol * 1000 := by
            unfold separateCliques at h1
            split at h1
            · cases h1; exact hs
            · unfold searchCliques at h1
              split at h1
              · generalize mapCliques _ _ _ = m at h1
                rcases m with f | m
                · cases h1
                · cases h1; exact hs
              · cases h1; exact hs
          simp only at e
          split at e
          · cases e; exact ho1
          · generalize insertCuts _ _ _ _ _ = m at e
            rcases m with f | m
            · cases e
            · cases e; exact ho1

/-- **C59** Every cut `CglBKClique` adds is violated at the LP point by at least the minimum violation the generator is
set to, whatever the history of the generator, if the LP point lies within the bounds of the conflicting columns. -/
theorem bk_cutsOff {env : BKEnv} {P : Prob} {G : Graph} {x : Nat → ℚ} {o o' : BKObj} {cs cs' : List RowCut}
    (ho : o.Reached) (hE : env.OK G)
    (hx : ∀ u < 2 * G.nCols, ∀ v < 2 * G.nCols, G.adj u v = true → 0 ≤ lit G.nCols x u)
    (h : bkGenerate env P G x o cs = .ok (o', cs')) :
    ∀ c ∈ cs', c ∈ cs ∨ c.ub + o.minViol ≤ SVec.dot c.row x := by
  intro c hc
  rcases bk_cut hE h c hc with h1 | ⟨_, _, C, hC, hd⟩
  · exact Or.inl h1
  · right
    have hw := hC.weight (by
      rintro u ⟨hu, v, hv, ha⟩
      exact hx u hu v hv ha)
    rw [reached_weight ho] at hw
    have := hd x
    linarith

/-- **C60** `CglBKClique::generateCuts` ends without failed assertion, `abort` or access outside its arrays, for
generators of any history, whenever the graph has the size of the problem and some point respects it. -/
theorem bk_returns {env : BKEnv} {P : Prob} {G : Graph} (x : Nat → ℚ) (o : BKObj) (cs : List RowCut) (hE : env.OK G)
    (hn : P.nCols = G.nCols) (hz : ∃ z, Respects G z) : ∃ r, bkGenerate env P G x o cs = .ok r := by
  unfold bkGenerate
  split
  · exact ⟨_, rfl⟩
  · rw [if_neg (by rw [not_not]; exact hn), hn]
    have hcap : G.nCols ≤ (o.checkMemory G.nCols).shortTime.cap := by
      rw [(shortTime_same _).1]; exact checkMemory_cap o _
    obtain ⟨o1, r, e, hr, hc1, _⟩ := separateCliques_ok hE x hcap
    rw [e]
    dsimp only
    split
    · exact ⟨_, rfl⟩
    · unfold insertCuts
      obtain ⟨cuts, ec⟩ := cliqueCuts_ok (chosen_good hE o1.extMethod hr) (cap := o1.cap) (by rw [hc1]; exact hcap) hz
      rw [ec]
      exact ⟨_, rfl⟩

/-! ### `CglOddWheel` (C34, C60, C61) -/

/-- **C34** Every cut `CglOddWheel` adds holds at every feasible point of the problem whose conflict graph it was
given. -/
theorem ow_valid {env : OWEnv} {P : Prob} {G : Graph} {o o' : OWObj} {cs cs' : List RowCut}
    (hE : env.OK G) (hG : G.SoundFor P) (h : owGenerate env P G o cs = .ok (o', cs')) :
    ∀ c ∈ cs', c ∈ cs ∨ c.Valid P := by
  intro c hc
  rcases ow_cut hE h c hc with h1 | ⟨_, hlb, cap, w, hw, d, ed, hp, hq⟩
  · exact Or.inl h1
  · right
    intro y hy
    have hW := hE.wheels _ _ w hw
    have h0 : 0 ≤ w.rhs := by rw [hW.rhs]; exact Nat.cast_nonneg _
    obtain ⟨k, hk, hd⟩ := wheelCut_dot h0 ed
    have hi := wheel_ineq (hG y hy) hW hk
    refine ⟨fun hl => ?_, fun _ => ?_⟩
    · rw [hlb] at hl; exact absurd hl (lt_irrefl _)
    · rw [SVec.dot_perm hp, hq]
      have := hd y; linarith

/-- **C60** `CglOddWheel::generateCuts` ends without `exit` or access outside its arrays, whatever the capacity left
over from earlier calls. -/
theorem ow_returns {env : OWEnv} {P : Prob} {G : Graph} (o : OWObj) (cs : List RowCut) (hE : env.OK G)
    (hn : P.nCols = G.nCols) : ∃ r, owGenerate env P G o cs = .ok r := by
  unfold owGenerate
  split
  · exact ⟨_, rfl⟩
  · rw [if_neg (by rw [not_not]; exact hn), hn]
    have hcap : G.nCols ≤ (o.checkMemory G.nCols).cap := by
      unfold OWObj.checkMemory
      split
      · exact le_refl _
      · omega
    obtain ⟨r, e⟩ := wheelCuts_ok (hE.wheels o.extMethod o.maxSeconds) hcap
    rw [e]
    exact ⟨_, rfl⟩

/-- **C61 (partial)** When no column of the odd cycle is complemented, the cut is the full wheel inequality: cycle plus
right-hand side times centre, at most the right-hand side.  Missing: cycles with complemented columns, for which the
code takes a smaller, possibly negative, coefficient for the centre (see `negative_center`). -/
theorem ow_full_partial {env : OWEnv} {P : Prob} {G : Graph} {o o' : OWObj} {cs cs' : List RowCut}
    (hE : env.OK G) (hpos : ∀ w ∈ env.wheels o.extMethod o.maxSeconds, ∀ u ∈ w.hole, u < G.nCols)
    (h : owGenerate env P G o cs = .ok (o', cs')) :
    ∀ c ∈ cs', c ∈ cs ∨ ∃ w ∈ env.wheels o.extMethod o.maxSeconds, ∀ x, SVec.dot c.row x - c.ub =
      (w.hole.map (lit G.nCols x)).sum + w.rhs * (w.center.map (lit G.nCols x)).sum - w.rhs := by
  intro c hc
  rcases ow_cut hE h c hc with h1 | ⟨_, hlb, cap, w, hw, d, ed, hp, hq⟩
  · exact Or.inl h1
  · right
    have hW := hE.wheels _ _ w hw
    have h1 : 1 ≤ w.rhs := by
      rw [hW.rhs]
      have := hW.size
      exact_mod_cast (by omega : 1 ≤ w.hole.length / 2)
    refine ⟨w, hw, fun x => ?_⟩
    rw [SVec.dot_perm hp, hq]
    exact wheelCut_full h1 (hpos w hw) ed x

/-! ### `CglCliqueStrengthening` (C34, C58, C60) -/

/-- What a call on a new object does to the model. -/
theorem strengthenAt_model {env : StrEnv} {P : Prob} {G : Graph} {which : List CliqueRow → Except Fault (List Nat)}
    {o : StrObj} (hE : env.OK G) (h : strengthenAt env (StrObj.init P) which = .ok o) :
    o.model = P ∨ ∃ st rs ns, ExtInv G env (detect P 0 P.rows) [] st ∧ strongRows P.nCols 0 st.names st.new = .ok (rs, ns) ∧
      o.model = { P with rows := deleteRows P.rows (toRemove st.cl) ++ rowsToAdd rs } := by
  unfold strengthenAt at h
  split at h
  · cases h; exact Or.inl rfl
  · rcases hc : (StrObj.init P).cliques with _ | (_ | ⟨c, cs⟩)
    · rw [hc] at h; cases h
    · rw [hc] at h; cases h; exact Or.inl rfl
    · rw [hc] at h
      simp only at h
      rcases hw : which (c :: cs) with f | is
      · rw [hw] at h; cases h
      · rw [hw] at h
        simp only at h
        rcases hl : extLoop env 0 { cl := c :: cs, new := [], names := (StrObj.init P).names, nExt := 0 } is with f | st
        · rw [hl] at h; cases h
        · rw [hl] at h
          have hcl : c :: cs = detect P 0 P.rows := by
            unfold StrObj.init at hc
            simp only at hc
            split at hc
            · exact (Option.some.inj hc).symm
            · cases hc
          have hinv : ExtInv G env (detect P 0 P.rows) [] st := by
            refine extLoop_inv hE ?_ hl
            rw [hcl]
            refine ⟨rfl, ?_, by simp, [], rfl, rfl, by simp⟩
            intro c hc hd
            rw [(detect_mem hc).1] at hd; cases hd
          simp only [rebuild] at h
          split at h
          · cases h; exact Or.inl rfl
          · rcases hr : strongRows P.nCols 0 st.names st.new with f | ⟨rs, ns⟩
            · rw [show (StrObj.init P).model.nCols = P.nCols from rfl, hr] at h; cases h
            · rw [show (StrObj.init P).model.nCols = P.nCols from rfl, hr] at h
              cases h
              exact Or.inr ⟨st, rs, ns, hinv, hr, rfl⟩

theorem Feasible.cols {P : Prob} {x : Nat → ℚ} (h : P.Feasible x) : ColsOK P x := ⟨h.lower, h.upper, h.int⟩

/-- The literals of an extended clique are 0 or 1. -/
theorem extended_zeroOne {P : Prob} {G : Graph} (hn : P.nCols = G.nCols) (hinf : 1 < P.inf) (hB : G.Binary P)
    (hWF : P.WF) {r : Row} (hr : r ∈ P.rows) {els S : List Nat} (hd : Detected P r els) (he : Extends G els S)
    {x : Nat → ℚ} (hx : ColsOK P x) : ∀ u ∈ S, ZeroOne P.nCols x u := by
  obtain ⟨_, _, h3⟩ := els_facts hd (hWF.cols r hr) (hWF.nodup r hr)
  intro u hu
  by_cases hc : u ∈ els
  · exact hx.zeroOne hinf (h3 u hc).1 (h3 u hc).2
  · have hne : els ≠ [] := by
      intro e; have := hd.two; rw [e] at this; simp at this
    obtain ⟨v, hv⟩ := List.exists_mem_of_ne_nil _ hne
    have huv : u ≠ v := fun e => hc (e ▸ hv)
    have hu2 := he.nodes u hu
    have := hB u hu2 v (he.nodes v (he.sub v hv)) (he.adj u hu v (he.sub v hv) huv (Or.inl hc))
    rw [← hn] at this hu2
    refine hx.zeroOne hinf this ?_
    split <;> omega

/-- **C34 (partial)** Strengthening keeps every feasible point: the rows it adds hold at every feasible point of the
model it was given.  Missing: rows with coefficients closer than 1e-6 to each other or to zero (see `near_tie_cut_off`). -/
theorem strengthen_keeps_partial {env : StrEnv} {P : Prob} {G : Graph}
    {which : List CliqueRow → Except Fault (List Nat)} {o : StrObj} (hE : env.OK G) (hn : P.nCols = G.nCols)
    (hWF : P.WF) (hinf : 1 < P.inf) (hinf' : P.inf ≤ dblMax) (hG : G.SoundFor P) (hB : G.Binary P)
    (hsp : ∀ r ∈ P.rows, cliqueOf P r ≠ none → Spread P r)
    (h : strengthenAt env (StrObj.init P) which = .ok o) {x : Nat → ℚ} (hx : P.Feasible x) : o.model.Feasible x := by
  rcases strengthenAt_model hE h with e | ⟨st, rs, ns, hinv, hr, e⟩
  · rw [e]; exact hx
  · have hsum : ∀ S ∈ st.new, (∀ u ∈ S, ZeroOne P.nCols x u) ∧ (S.map (lit P.nCols x)).sum ≤ 1 ∧ S.Nodup ∧
        ∀ u ∈ S, u < 2 * P.nCols := by
      intro S hS
      obtain ⟨c, hc, hext⟩ := hinv.from_rows S hS
      obtain ⟨_, k, r, hk, _, hcl⟩ := detect_mem hc
      have hrm : r ∈ P.rows := List.mem_of_getElem? hk
      have hd := cliqueOf_detected hcl
      have h01 := extended_zeroOne hn hinf hB hWF hrm hd hext (Feasible.cols hx)
      have hs := detected_sum hinf hd (hWF.cols r hrm) (hWF.nodup r hrm) (hsp r hrm (by rw [hcl]; simp)) (Feasible.cols hx)
        (hx.rows r hrm)
      refine ⟨h01, ?_, hext.nodup, by rw [hn]; exact hext.nodes⟩
      refine sum_le_one hext.nodup h01 ?_
      intro u hu v hv hne hboth
      by_cases hin : u ∉ c.els ∨ v ∉ c.els
      · have ha := hext.adj u hu v hv hne hin
        have := (hG x hx u (hext.nodes u hu) v (hext.nodes v hv) ha).2.2
        rw [← hn] at this
        exact this hboth
      · rw [not_or, not_not, not_not] at hin
        have h2 := sum_sub_le (n := P.nCols) (x := x) (C := [u, v]) (S := c.els) (by simp [hne])
          (by intro w hw; simp at hw; rcases hw with rfl | rfl; exacts [hin.1, hin.2]) (by
            intro w hw
            rcases h01 w (hext.sub w hw) with e' | e'
            · rw [e']
            · rw [e']; norm_num)
        simp only [List.map_cons, List.map_nil, List.sum_cons, List.sum_nil, hboth.1, hboth.2] at h2
        linarith
    rw [e]
    refine ⟨?_, hx.lower, hx.upper, hx.int⟩
    intro r hrm
    rcases List.mem_append.mp hrm with hrm | hrm
    · exact hx.rows r (mem_deleteRows hrm)
    · rcases strongRows_spec (fun S hS => ⟨(hsum S hS).2.2.1, (hsum S hS).2.2.2⟩) hr with
        ⟨rfl, S, hS, b, hb, h2⟩ | ⟨l, rfl, h1, _⟩
      · exfalso
        have hd := dup_le_sum (x := x) hb (by
          intro u hu
          rcases (hsum S hS).1 u hu with e' | e'
          · rw [e']
          · rw [e']; norm_num)
        have : (2 : ℚ) ≤ (b.dup : ℚ) := by exact_mod_cast h2
        have := (hsum S hS).2.1
        linarith
      · obtain ⟨hlb, S, hS, hd⟩ := h1 r hrm
        have := (hsum S hS).2.1
        have := hd x
        refine ⟨fun hl => ?_, fun _ => by linarith⟩
        rw [hlb] at hl
        have hl' : -P.inf < -dblMax := hl
        linarith

theorem dot_zero (v : SVec) : SVec.dot v (fun _ => 0) = 0 := by
  induction v with
  | nil => rfl
  | cons p v ih => rw [SVec.dot_cons, ih]; simp

/-- **C58 (partial)** Strengthening admits no new point: every feasible point of the strengthened model is feasible for
the model it was given, if each row taken for a clique row says no more than "at most one of its literals".  Missing:
rows that also exclude single literals, which the code drops all the same (see `row_lost`). -/
theorem strengthen_adds_nothing_partial {env : StrEnv} {P : Prob} {G : Graph}
    {which : List CliqueRow → Except Fault (List Nat)} {o : StrObj} (hE : env.OK G) (hn : P.nCols = G.nCols)
    (hWF : P.WF) (hinf : 1 < P.inf) (hB : G.Binary P)
    (hpk : ∀ r ∈ P.rows, cliqueOf P r ≠ none → Packing P r)
    (h : strengthenAt env (StrObj.init P) which = .ok o) {x : Nat → ℚ} (hx : o.model.Feasible x) : P.Feasible x := by
  rcases strengthenAt_model hE h with e | ⟨st, rs, ns, hinv, hr, e⟩
  · rw [e] at hx; exact hx
  · rw [e] at hx
    have hcols : ColsOK P x := ⟨hx.lower, hx.upper, hx.int⟩
    refine ⟨?_, hx.lower, hx.upper, hx.int⟩
    intro r hrm
    rcases deleteRows_or (idx := toRemove st.cl) hrm with h1 | ⟨i, hi, hri⟩
    · exact hx.rows r (List.mem_append_left _ h1)
    · unfold toRemove at hi
      obtain ⟨c, hc, rfl⟩ := List.mem_map.mp hi
      obtain ⟨hc, hdom⟩ := List.mem_filter.mp hc
      obtain ⟨S, hS, hsub⟩ := hinv.covered c hc hdom
      have hc0 : (c.els, c.orig) ∈ st.cl.map fun c => (c.els, c.orig) :=
        List.mem_map_of_mem (f := fun c : CliqueRow => (c.els, c.orig)) hc
      rw [← hinv.same] at hc0
      obtain ⟨c0, h0, e0⟩ := List.mem_map.mp hc0
      obtain ⟨e1, e2⟩ := Prod.mk.inj e0
      obtain ⟨_, k, r', hk, ho, hcl⟩ := detect_mem h0
      have hrr : r' = r := by
        rw [← e2, ho, Nat.zero_add, hk] at hri
        exact Option.some.inj hri
      subst hrr
      rw [e1] at hcl
      have hd := cliqueOf_detected hcl
      obtain ⟨hnd, _, _⟩ := els_facts hd (hWF.cols _ hrm) (hWF.nodup _ hrm)
      -- the clique that covers the row
      obtain ⟨cS, hcS, hext⟩ := hinv.from_rows S hS
      obtain ⟨_, kS, rS, hkS, _, hclS⟩ := detect_mem hcS
      have h01 := extended_zeroOne hn hinf hB hWF (List.mem_of_getElem? hkS) (cliqueOf_detected hclS) hext hcols
      have hpos : ∀ u ∈ S, 0 ≤ lit P.nCols x u := by
        intro u hu
        rcases h01 u hu with e' | e'
        · rw [e']
        · rw [e']; norm_num
      have hsumS : (S.map (lit P.nCols x)).sum ≤ 1 := by
        have hspec := strongRows_spec (n := P.nCols) (new := st.new) (by
          intro T hT
          obtain ⟨cT, _, hT'⟩ := hinv.from_rows T hT
          exact ⟨hT'.nodup, by rw [hn]; exact hT'.nodes⟩) hr
        rcases hspec with ⟨rfl, _⟩ | ⟨l, rfl, l1, l2⟩
        · exfalso
          have := hx.rows { lb := 1, ub := 0, coefs := [] } (List.mem_append_right _ (by simp [rowsToAdd]))
          have := this.1 (by show -P.inf < 1; linarith)
          norm_num at this
        · obtain ⟨q, hq, hqd⟩ := l2 S hS
          have := (hx.rows q (List.mem_append_right _ hq)).2
          have hub : q.ub ≤ 1 := by
            have h0 := hqd fun _ => 0
            rw [dot_zero] at h0
            have : 0 ≤ (S.map (lit P.nCols fun _ => 0)).sum := by
              refine List.sum_nonneg ?_
              intro z hz
              obtain ⟨u, _, rfl⟩ := List.mem_map.mp hz
              unfold lit
              split <;> norm_num
            linarith
          have := this (by show q.ub < P.inf; linarith)
          have := hqd x
          linarith
      refine detected_sat hinf hd (hWF.cols _ hrm) (hWF.nodup _ hrm) (hpk _ hrm (by rw [hcl]; simp)) hcols ?_
      have := sum_sub_le (n := P.nCols) (x := x) hnd hsub hpos
      linarith

/-- **C58 (partial)** Both methods: the strengthened model has exactly the feasible points of the model it was given,
if the coefficients of the clique rows are spread and the clique rows say no more than "at most one". -/
theorem strengthen_same_partial {env : StrEnv} {P : Prob} {G : Graph} {o : StrObj} (hE : env.OK G)
    (hn : P.nCols = G.nCols) (hWF : P.WF) (hinf : 1 < P.inf) (hinf' : P.inf ≤ dblMax) (hG : G.SoundFor P)
    (hB : G.Binary P) (hsp : ∀ r ∈ P.rows, cliqueOf P r ≠ none → Spread P r ∧ Packing P r)
    (h : strengthen env (StrObj.init P) = .ok o ∨ ∃ rows, strengthenRows env (StrObj.init P) rows = .ok o)
    (x : Nat → ℚ) : o.model.Feasible x ↔ P.Feasible x := by
  rcases h with h | ⟨rows, h⟩
  · exact ⟨strengthen_adds_nothing_partial hE hn hWF hinf hB (fun r hr hc => (hsp r hr hc).2) h,
      strengthen_keeps_partial hE hn hWF hinf hinf' hG hB (fun r hr hc => (hsp r hr hc).1) h⟩
  · exact ⟨strengthen_adds_nothing_partial hE hn hWF hinf hB (fun r hr hc => (hsp r hr hc).2) h,
      strengthen_keeps_partial hE hn hWF hinf hinf' hG hB (fun r hr hc => (hsp r hr hc).1) h⟩

/-! ### The calls return (C60) -/

theorem SameRows.length {a b : List CliqueRow} (h : SameRows a b) : a.length = b.length := by
  have := congrArg List.length h
  simpa using this

theorem extLoop_ok {G : Graph} {env : StrEnv} {cl0 : List CliqueRow} {names0 : List Nat} (hE : env.OK G)
    (hN : env.ShortNames) {is : List Nat} (his : ∀ i ∈ is, i < cl0.length) :
    ∀ {k : Nat} {st : ExtState}, ExtInv G env cl0 names0 st → ∃ st', extLoop env k st is = .ok st' := by
  induction is with
  | nil => intro k st _; exact ⟨st, rfl⟩
  | cons i is ih =>
    intro k st h
    unfold extLoop
    split
    · exact ⟨st, rfl⟩
    · have hi : i < st.cl.length := by rw [← h.same.length]; exact his i (by simp)
      have hc : st.cl[i]? = some st.cl[i] := List.getElem?_eq_getElem hi
      have hstep : ∃ st1, extStep env k st i = .ok st1 ∧ ExtInv G env cl0 names0 st1 := by
        unfold extStep
        rw [hc]
        dsimp only
        split
        · exact ⟨st, rfl, h⟩
        · rcases hx : env.ext k st.cl[i].els with _ | S
          · exact ⟨st, rfl, h⟩
          · dsimp only
            have hr : ∃ st1, recordExt env st i st.cl[i].orig S = .ok st1 := by
              unfold recordExt
              split
              · exact ⟨_, rfl⟩
              · rw [if_neg (by have := hN st.cl[i].orig; omega)]
                exact ⟨_, rfl⟩
            obtain ⟨st1, e⟩ := hr
            exact ⟨st1, e, recordExt_inv h hE hc hx e⟩
      obtain ⟨st1, e1, h1⟩ := hstep
      rw [e1]
      exact ih (fun j hj => his j (by simp [hj])) h1

theorem strongRows_ok {n : Nat} {new : List (List Nat)} (hn : ∀ S ∈ new, S.Nodup ∧ ∀ u ∈ S, u < 2 * n) :
    ∀ {ic : Nat} {names : List Nat}, (∀ j < new.length, ∃ l, names[ic + j]? = some l ∧ l + 5 ≤ 256) →
      ∃ r, strongRows n ic names new = .ok r := by
  induction new with
  | nil => intro ic names _; exact ⟨_, rfl⟩
  | cons S rest ih =>
    intro ic names hN
    have hS := hn S (by simp)
    unfold strongRows
    rcases strongRow_some hS.1 hS.2 with ⟨b, hb, h2, e⟩ | ⟨r, d, e, hlb, hd⟩
    · rw [e]; exact ⟨_, rfl⟩
    · rw [e]
      dsimp only
      have hnames : ∃ names', (if d then dupName names ic else Except.ok names) = .ok names' ∧
          ∀ j < rest.length, ∃ l, names'[ic + 1 + j]? = some l ∧ l + 5 ≤ 256 := by
        have hrest : ∀ j < rest.length, ∃ l, names[ic + 1 + j]? = some l ∧ l + 5 ≤ 256 := by
          intro j hj
          obtain ⟨l, hl, h5⟩ := hN (j + 1) (by simpa using hj)
          exact ⟨l, by rw [← hl]; congr 1; omega, h5⟩
        cases d
        · exact ⟨names, rfl, hrest⟩
        · obtain ⟨l, hl, h5⟩ := hN 0 (by simp)
          refine ⟨names.set ic (l + 4), ?_, ?_⟩
          · rw [Nat.add_zero] at hl
            simp only [if_true, dupName, hl]
            rw [if_neg (by omega)]
          · intro j hj
            obtain ⟨l', hl', h5'⟩ := hrest j hj
            exact ⟨l', by rw [List.getElem?_set_ne (by omega)]; exact hl', h5'⟩
      obtain ⟨names', e', hN'⟩ := hnames
      rw [e']
      dsimp only
      obtain ⟨⟨rs, ns⟩, er⟩ := ih (fun T hT => hn T (by simp [hT])) hN'
      rw [er]
      rcases rs with _ | rs
      · exact ⟨_, rfl⟩
      · exact ⟨_, rfl⟩

/-- A call on a new object returns if the positions are positions of clique rows. -/
theorem strengthenAt_returns {env : StrEnv} {P : Prob} {G : Graph}
    {which : List CliqueRow → Except Fault (List Nat)} (hE : env.OK G) (hN : env.ShortNames) (hn : P.nCols = G.nCols)
    (hel : ∃ r ∈ P.rows, r.coefs ≠ [])
    (hw : ∃ is, which (detect P 0 P.rows) = .ok is ∧ ∀ i ∈ is, i < (detect P 0 P.rows).length) :
    ∃ o, strengthenAt env (StrObj.init P) which = .ok o := by
  unfold strengthenAt
  split
  · exact ⟨_, rfl⟩
  · have hpos : 0 < (P.rows.map fun r => r.coefs.length).sum := by
      obtain ⟨r, hr, hne⟩ := hel
      have h1 : r.coefs.length ≤ (P.rows.map fun r => r.coefs.length).sum :=
        List.single_le_sum (by simp) _ (List.mem_map_of_mem (f := fun r : Row => r.coefs.length) hr)
      have := List.length_pos_iff.mpr hne
      omega
    have hc : (StrObj.init P).cliques = some (detect P 0 P.rows) := by
      unfold StrObj.init; simp only [if_pos hpos]
    obtain ⟨is, hwi, his⟩ := hw
    rw [hc]
    rcases hd : detect P 0 P.rows with _ | ⟨c, cs⟩
    · exact ⟨_, rfl⟩
    · dsimp only
      rw [hd] at hwi his
      rw [hwi]
      dsimp only
      have hinv : ExtInv G env (c :: cs) [] { cl := c :: cs, new := [], names := (StrObj.init P).names, nExt := 0 } := by
        refine ⟨rfl, ?_, by simp, [], rfl, rfl, by simp⟩
        intro c' hc' hdm
        rw [← hd] at hc'
        rw [(detect_mem hc').1] at hdm; cases hdm
      obtain ⟨st, es⟩ := extLoop_ok (k := 0) hE hN his hinv
      have hst := extLoop_inv hE hinv es
      rw [es]
      dsimp only [rebuild]
      split
      · exact ⟨_, rfl⟩
      · obtain ⟨ns, e1, e2, e3⟩ := hst.names
        obtain ⟨⟨rs, ns'⟩, er⟩ := strongRows_ok (n := P.nCols) (new := st.new) (ic := 0) (names := st.names) (by
            intro T hT
            obtain ⟨cT, _, hT'⟩ := hst.from_rows T hT
            exact ⟨hT'.nodup, by rw [hn]; exact hT'.nodes⟩) (by
            intro j hj
            rw [e1, List.nil_append, Nat.zero_add]
            rw [← e2] at hj
            refine ⟨ns[j], List.getElem?_eq_getElem hj, ?_⟩
            obtain ⟨i, hi⟩ := e3 ns[j] (List.getElem_mem hj)
            have := hN i
            omega)
        rw [show (StrObj.init P).model.nCols = P.nCols from rfl, er]
        exact ⟨_, rfl⟩

/-- **C60 (partial)** `strengthenCliques(extMethod)` on a new object returns, for every problem with at least one
element whose row names leave room for the suffixes.  Missing: problems without elements (`no_elements`), long names
(`long_name`), and objects used before (`second_call`). -/
theorem strengthen_returns_partial {env : StrEnv} {P : Prob} {G : Graph} (hE : env.OK G) (hN : env.ShortNames)
    (hn : P.nCols = G.nCols) (hel : ∃ r ∈ P.rows, r.coefs ≠ []) : ∃ o, strengthen env (StrObj.init P) = .ok o :=
  strengthenAt_returns hE hN hn hel ⟨_, rfl, by simp⟩

theorem mem_detect {P : Prob} {rows : List Row} : ∀ {i0 k : Nat} {r : Row}, rows[k]? = some r → cliqueOf P r ≠ none →
    ∃ c ∈ detect P i0 rows, c.orig = i0 + k := by
  induction rows with
  | nil => intro i0 k r h; simp at h
  | cons q rows ih =>
    intro i0 k r h hc
    unfold detect
    cases k with
    | zero =>
      simp only [List.getElem?_cons_zero, Option.some.injEq] at h
      subst h
      rcases hq : cliqueOf P q with _ | els
      · exact absurd hq hc
      · exact ⟨_, List.mem_cons_self, rfl⟩
    | succ k =>
      simp only [List.getElem?_cons_succ] at h
      obtain ⟨c, hcm, ho⟩ := ih (i0 := i0 + 1) h hc
      rcases hq : cliqueOf P q with _ | els
      · exact ⟨c, hcm, by omega⟩
      · exact ⟨c, List.mem_cons_of_mem _ hcm, by omega⟩

theorem lookup_ok {pos : List Nat} {m : Nat} {rows : List Nat} (h : ∀ i ∈ rows, ∃ k, pos[i]? = some k ∧ k < m) :
    ∃ is, lookup pos rows = .ok is ∧ ∀ i ∈ is, i < m := by
  induction rows with
  | nil => exact ⟨[], rfl, by simp⟩
  | cons i rows ih =>
    obtain ⟨k, hk, hm⟩ := h i (by simp)
    obtain ⟨is, e, his⟩ := ih fun j hj => h j (by simp [hj])
    unfold lookup
    rw [hk]
    dsimp only
    rw [e]
    refine ⟨k :: is, rfl, ?_⟩
    intro j hj
    rcases List.mem_cons.mp hj with rfl | hj
    · exact hm
    · exact his j hj

/-- **C60 (partial)** `strengthenCliques(n, rows, extMethod)` on a new object returns when the listed rows are rows the
constructor took for clique rows.  Missing: any other row, for which the code reads past its arrays (`other_row`). -/
theorem strengthenRows_returns_partial {env : StrEnv} {P : Prob} {G : Graph} {rows : List Nat} (hE : env.OK G)
    (hN : env.ShortNames) (hn : P.nCols = G.nCols)
    (hel : ∃ r ∈ P.rows, r.coefs ≠ []) (hr : ∀ i ∈ rows, ∃ r, P.rows[i]? = some r ∧ cliqueOf P r ≠ none) :
    ∃ o, strengthenRows env (StrObj.init P) rows = .ok o := by
  refine strengthenAt_returns hE hN hn hel (lookup_ok ?_)
  intro i hi
  obtain ⟨r, hri, hc⟩ := hr i hi
  have hlt : i < P.rows.length := (List.getElem?_eq_some_iff.mp hri).1
  have hpos : 0 < (P.rows.map fun r => r.coefs.length).sum := by
    obtain ⟨r, hr, hne⟩ := hel
    have h1 : r.coefs.length ≤ (P.rows.map fun r => r.coefs.length).sum :=
      List.single_le_sum (by simp) _ (List.mem_map_of_mem (f := fun r : Row => r.coefs.length) hr)
    have := List.length_pos_iff.mpr hne
    omega
  have hp : (StrObj.init P).pos = positions P (detect P 0 P.rows) := by
    unfold StrObj.init; simp only [if_pos hpos]
  obtain ⟨c, hcm, ho⟩ := mem_detect (i0 := 0) hri hc
  rw [hp]
  unfold positions
  rcases hf : (detect P 0 P.rows).findIdx? (fun c => c.orig == i) with _ | k
  · rw [List.findIdx?_eq_none_iff] at hf
    have := hf c hcm
    rw [ho, Nat.zero_add] at this
    simp at this
  · refine ⟨k, ?_, ?_⟩
    · rw [List.getElem?_map, List.getElem?_range hlt]
      simp only [Option.map_some, hf]
    · exact (List.findIdx?_eq_some_iff_getElem.mp hf).1

/-! ### Copies and histories (C61) -/

/-- **C61** A copy of a `CglBKClique` answers every call as the original does. -/
theorem bk_copy (o : BKObj) (env : BKEnv) (P : Prob) (G : Graph) (x : Nat → ℚ) (cs : List RowCut) :
    bkGenerate env P G x o.copy cs = bkGenerate env P G x o cs := rfl

theorem addDistinct_mono {cap cap' n : Nat} (hc : cap ≤ cap') {k : ℚ} {s : SVec × ℚ} {u : Nat}
    {r : Option (SVec × ℚ)} (h : addDistinct cap n k s u = .ok r) : addDistinct cap' n k s u = .ok r := by
  unfold addDistinct at h ⊢
  split at h
  · rename_i h1
    rw [if_pos h1]
    split at h
    · rename_i h2
      rw [if_pos h2]
      split at h
      · rename_i h3
        rw [if_pos (by omega)]; exact h
      · cases h
    · rename_i h2
      rw [if_neg h2]; exact h
  · rename_i h1
    rw [if_neg h1]
    split at h
    · rename_i h1'
      rw [if_pos h1']
      split at h
      · rename_i h2
        rw [if_pos h2]
        split at h
        · rename_i h3
          rw [if_pos (by omega)]; exact h
        · cases h
      · rename_i h2
        rw [if_neg h2]; exact h
    · cases h

theorem addAllDistinct_mono {cap cap' n : Nat} (hc : cap ≤ cap') {k : ℚ} {us : List Nat} :
    ∀ {s : SVec × ℚ} {r : Option (SVec × ℚ)}, addAllDistinct cap n k s us = .ok r → addAllDistinct cap' n k s us = .ok r := by
  induction us with
  | nil => intro s r h; exact h
  | cons u us ih =>
    intro s r h
    unfold addAllDistinct at h ⊢
    rcases h1 : addDistinct cap n k s u with f | (_ | s')
    · rw [h1] at h; cases h
    · rw [h1] at h
      rw [addDistinct_mono hc h1]; exact h
    · rw [h1] at h
      rw [addDistinct_mono hc h1]; exact ih h

theorem wheelCut_mono {cap cap' n : Nat} (hc : cap ≤ cap') {w : Wheel} {r : Option (SVec × ℚ)}
    (h : wheelCut cap n w = .ok r) : wheelCut cap' n w = .ok r := by
  unfold wheelCut at h ⊢
  split at h
  · cases h
  · rename_i h5
    rw [if_neg h5]
    rcases h1 : addAllDistinct cap n 1 ([], w.rhs) w.hole with f | (_ | s)
    · rw [h1] at h; cases h
    · rw [h1] at h
      rw [addAllDistinct_mono hc h1]; exact h
    · rw [h1] at h
      rw [addAllDistinct_mono hc h1]
      simp only [addCenter] at h ⊢
      split at h
      · rename_i h2
        rw [if_pos h2]; exact addAllDistinct_mono hc h
      · rename_i h2
        rw [if_neg h2]; exact h

theorem wheelCuts_mono {cap cap' n : Nat} (hc : cap ≤ cap') {ws : List Wheel} :
    ∀ {r : List (SVec × ℚ)}, wheelCuts cap n ws = .ok r → wheelCuts cap' n ws = .ok r := by
  induction ws with
  | nil => intro r h; exact h
  | cons w ws ih =>
    intro r h
    unfold wheelCuts at h ⊢
    rcases h1 : wheelCut cap n w with f | c
    · rw [h1] at h; cases h
    · rw [h1] at h
      rw [wheelCut_mono hc h1]
      rcases h2 : wheelCuts cap n ws with f | cs
      · rw [h2] at h; cases h
      · rw [h2] at h
        rw [ih h2]; exact h

/-- **C61** What a `CglOddWheel` answers depends only on its extension method and time limit, not on the calls made
before (which may have enlarged its arrays). -/
theorem ow_history {env : OWEnv} {P : Prob} {G : Graph} {o p o' p' : OWObj} {cs cs1 cs2 : List RowCut}
    (he : o.extMethod = p.extMethod) (ht : o.maxSeconds = p.maxSeconds)
    (h1 : owGenerate env P G o cs = .ok (o', cs1)) (h2 : owGenerate env P G p cs = .ok (p', cs2)) : cs1 = cs2 := by
  unfold owGenerate at h1 h2
  split at h1
  · rename_i h0
    rw [if_pos h0] at h2
    cases h1; cases h2; rfl
  · rename_i h0
    rw [if_neg h0] at h2
    split at h1
    · cases h1
    · rename_i hg
      rw [if_neg hg] at h2
      rw [← he, ← ht] at h2
      rcases e1 : wheelCuts (o.checkMemory P.nCols).cap P.nCols (env.wheels o.extMethod o.maxSeconds) with f | a
      · rw [e1] at h1; cases h1
      · rw [e1] at h1
        rcases e2 : wheelCuts (p.checkMemory P.nCols).cap P.nCols (env.wheels o.extMethod o.maxSeconds) with f | b
        · rw [e2] at h2; cases h2
        · rw [e2] at h2
          have hab : a = b := by
            rcases Nat.le_total (o.checkMemory P.nCols).cap (p.checkMemory P.nCols).cap with hc | hc
            · have := wheelCuts_mono hc e1
              rw [e2] at this; cases this; rfl
            · have := wheelCuts_mono hc e2
              rw [e1] at this; cases this; rfl
          subst hab
          cases h1; cases h2; rfl

end Cgl.Conflict
