import Verif.LandP.Search

/-!
# The problem with slack columns, and the whole call
-/

namespace Cgl.LandP

/-! ### Slack columns for ranged rows -/

theorem withSlacks_length (P : Prob) (act : Nat → ℚ) : (withSlacks P act).rows.length = P.rows.length := by
  simp [withSlacks]

theorem work_length (st : State) (P : Prob) (env : Env) : (work st P env).rows.length = P.rows.length := by
  unfold work
  split
  · exact withSlacks_length P env.act
  · rfl

theorem ranged_mem {P : Prob} {i : Nat} : i ∈ rangedRows P ↔ i < P.rows.length ∧ ranged (P.row i) = true := by
  unfold rangedRows
  rw [List.mem_filter, List.mem_range]

theorem ranged_spec {r : Row} : ranged r = true ↔ r.lb < r.ub ∧ -10^50 < r.lb ∧ r.ub < 10^50 := by
  unfold ranged
  simp only [Bool.and_eq_true, decide_eq_true_eq, and_assoc]

theorem withSlacks_row {P : Prob} {act : Nat → ℚ} {r : Row} (h : r ∈ (withSlacks P act).rows) :
    ∃ i < P.rows.length, (ranged (P.row i) = false ∧ r = P.row i) ∨
      (ranged (P.row i) = true ∧ r = slackRow (P.row i) (act i) (P.nCols + (rangedRows P).idxOf i)) := by
  obtain ⟨i, hi, rfl⟩ := List.mem_map.1 h
  rw [List.mem_range] at hi
  refine ⟨i, hi, ?_⟩
  by_cases hr : ranged (P.row i) = true
  · rw [if_pos hr]; exact Or.inr ⟨hr, rfl⟩
  · rw [if_neg hr]; exact Or.inl ⟨by simpa using hr, rfl⟩

theorem idx_lt {P : Prob} {i : Nat} (hi : i < P.rows.length) (hr : ranged (P.row i) = true) :
    (rangedRows P).idxOf i < (rangedRows P).length :=
  List.idxOf_lt_length_of_mem (ranged_mem.2 ⟨hi, hr⟩)

theorem getD_idx {P : Prob} {i : Nat} (hi : i < P.rows.length) (hr : ranged (P.row i) = true) :
    (rangedRows P).getD ((rangedRows P).idxOf i) 0 = i := by
  rw [List.getD_eq_getElem?_getD, List.getElem?_eq_getElem (idx_lt hi hr)]
  simp

theorem slackRow_coefs (r : Row) (act : ℚ) (c : Nat) :
    ∃ q : ℚ, (q = 1 ∨ q = -1) ∧ (slackRow r act c).coefs = r.coefs ++ [(c, q)] := by
  unfold slackRow
  split
  · exact ⟨-1, Or.inr rfl, rfl⟩
  · exact ⟨1, Or.inl rfl, rfl⟩

theorem slackRow_bounds (r : Row) (act : ℚ) (c : Nat) :
    (slackRow r act c).lb = (slackRow r act c).ub ∧
      ((slackRow r act c).lb = r.lb ∨ (slackRow r act c).lb = r.ub) := by
  unfold slackRow
  split
  · exact ⟨rfl, Or.inl rfl⟩
  · exact ⟨rfl, Or.inr rfl⟩

theorem withSlacks_wf {P : Prob} (h : P.WF) (act : Nat → ℚ) : (withSlacks P act).WF where
  cols := by
    intro r hr p hp
    change p.1 < P.nCols + (rangedRows P).length
    obtain ⟨i, hi, ⟨_, rfl⟩ | ⟨hg, rfl⟩⟩ := withSlacks_row hr
    · have := h.cols _ (Prob.row_mem hi) p hp
      omega
    · obtain ⟨q, _, hq⟩ := slackRow_coefs (P.row i) (act i) (P.nCols + (rangedRows P).idxOf i)
      rw [hq] at hp
      rcases List.mem_append.1 hp with hp | hp
      · have := h.cols _ (Prob.row_mem hi) p hp
        omega
      · rw [List.mem_singleton] at hp
        subst hp
        have := idx_lt hi hg
        dsimp only
        omega
  nodup := by
    intro r hr
    obtain ⟨i, hi, ⟨_, rfl⟩ | ⟨hg, rfl⟩⟩ := withSlacks_row hr
    · exact h.nodup _ (Prob.row_mem hi)
    · obtain ⟨q, _, hq⟩ := slackRow_coefs (P.row i) (act i) (P.nCols + (rangedRows P).idxOf i)
      rw [hq, List.map_append, List.nodup_append]
      refine ⟨h.nodup _ (Prob.row_mem hi), by simp, ?_⟩
      intro a ha b hb
      obtain ⟨p, hp, rfl⟩ := List.mem_map.1 ha
      have := h.cols _ (Prob.row_mem hi) p hp
      simp only [List.map_cons, List.map_nil, List.mem_singleton] at hb
      omega

theorem isInteger_one (q : ℚ) (h : q = 1 ∨ q = -1) : IsInteger q := by
  rcases h with rfl | rfl
  · exact ⟨1, by simp⟩
  · exact ⟨-1, by simp⟩

theorem withSlacks_exact {P : Prob} (h : ExactData P) (act : Nat → ℚ) : ExactData (withSlacks P act) where
  inf := h.inf
  intUpper := by
    intro j _ hi
    have hi' : (decide (j < P.nCols) && P.isInt j) = true := hi
    simp only [Bool.and_eq_true, decide_eq_true_eq] at hi'
    change (if j < P.nCols then P.colUpper j else _) < P.inf → IsInteger (if j < P.nCols then P.colUpper j else _)
    rw [if_pos hi'.1]
    exact h.intUpper j hi'.1 hi'.2
  intLower := by
    intro j _ hi
    have hi' : (decide (j < P.nCols) && P.isInt j) = true := hi
    simp only [Bool.and_eq_true, decide_eq_true_eq] at hi'
    change -P.inf < (if j < P.nCols then P.colLower j else _) → IsInteger (if j < P.nCols then P.colLower j else _)
    rw [if_pos hi'.1]
    exact h.intLower j hi'.1 hi'.2
  coef := by
    intro r hr p hp
    obtain ⟨i, hi, ⟨_, rfl⟩ | ⟨hg, rfl⟩⟩ := withSlacks_row hr
    · exact h.coef _ (Prob.row_mem hi) p hp
    · obtain ⟨q, hq1, hq⟩ := slackRow_coefs (P.row i) (act i) (P.nCols + (rangedRows P).idxOf i)
      rw [hq] at hp
      rcases List.mem_append.1 hp with hp | hp
      · exact h.coef _ (Prob.row_mem hi) p hp
      · rw [List.mem_singleton] at hp
        subst hp
        exact fun _ => isInteger_one q hq1
  lb := by
    intro r hr
    obtain ⟨i, hi, ⟨_, rfl⟩ | ⟨hg, rfl⟩⟩ := withSlacks_row hr
    · exact h.lb _ (Prob.row_mem hi)
    · rcases (slackRow_bounds (P.row i) (act i) (P.nCols + (rangedRows P).idxOf i)).2 with e | e
      · rw [e]; exact h.lb _ (Prob.row_mem hi)
      · rw [e]; exact h.ub _ (Prob.row_mem hi)
  ub := by
    intro r hr
    obtain ⟨i, hi, ⟨_, rfl⟩ | ⟨hg, rfl⟩⟩ := withSlacks_row hr
    · exact h.ub _ (Prob.row_mem hi)
    · rw [← (slackRow_bounds (P.row i) (act i) (P.nCols + (rangedRows P).idxOf i)).1]
      rcases (slackRow_bounds (P.row i) (act i) (P.nCols + (rangedRows P).idxOf i)).2 with e | e
      · rw [e]; exact h.lb _ (Prob.row_mem hi)
      · rw [e]; exact h.ub _ (Prob.row_mem hi)
  lbSize := by
    intro r hr
    obtain ⟨i, hi, ⟨_, rfl⟩ | ⟨hg, rfl⟩⟩ := withSlacks_row hr
    · exact h.lbSize _ (Prob.row_mem hi)
    · intro _
      have := ranged_spec.1 hg
      rcases (slackRow_bounds (P.row i) (act i) (P.nCols + (rangedRows P).idxOf i)).2 with e | e <;> rw [e] <;> linarith
  ubSize := by
    intro r hr
    obtain ⟨i, hi, ⟨_, rfl⟩ | ⟨hg, rfl⟩⟩ := withSlacks_row hr
    · exact h.ubSize _ (Prob.row_mem hi)
    · intro _
      have := ranged_spec.1 hg
      rw [← (slackRow_bounds (P.row i) (act i) (P.nCols + (rangedRows P).idxOf i)).1]
      rcases (slackRow_bounds (P.row i) (act i) (P.nCols + (rangedRows P).idxOf i)).2 with e | e <;> rw [e] <;> linarith

theorem noRanges_of {P : Prob} (h : ExactData P) {r : Row} (hr : r ∈ P.rows) (hg : ranged r = false)
    (hl : -P.inf < r.lb) (hu : r.ub < P.inf) : r.ub ≤ r.lb := by
  by_contra hc
  push Not at hc
  have : ranged r = true := ranged_spec.2 ⟨hc, h.lbSize r hr hl, h.ubSize r hr hu⟩
  rw [hg] at this; exact absurd this (by simp)

theorem withSlacks_noRanges {P : Prob} (h : ExactData P) (act : Nat → ℚ) : NoRanges (withSlacks P act) := by
  intro r hr hl hu
  obtain ⟨i, hi, ⟨hg, rfl⟩ | ⟨hg, rfl⟩⟩ := withSlacks_row hr
  · exact noRanges_of h (Prob.row_mem hi) hg hl hu
  · exact (slackRow_bounds (P.row i) (act i) (P.nCols + (rangedRows P).idxOf i)).1.ge

theorem work_data {st : State} {P : Prob} {env : Env} (hwf : P.WF) (hd : ExactData P)
    (hr : st.numrows = none ∨ NoRanges P) : DataOK (work st P env) := by
  unfold work
  by_cases hc : converts st P = true
  · rw [if_pos hc]
    exact ⟨withSlacks_wf hwf _, withSlacks_exact hd _, withSlacks_noRanges hd _⟩
  · rw [if_neg hc]
    refine ⟨hwf, hd, ?_⟩
    rcases hr with hr | hr
    · have he : rangedRows P = [] := by
        unfold converts at hc
        rw [hr] at hc
        simpa using hc
      intro r hrm hl hu
      refine noRanges_of hd hrm ?_ hl hu
      by_contra hg
      have hg : ranged r = true := by simpa using hg
      obtain ⟨i, hi, rfl⟩ := List.mem_iff_getElem.1 hrm
      have : i ∈ rangedRows P := ranged_mem.2 ⟨hi, by
        unfold Prob.row
        rw [List.getD_eq_getElem?_getD, List.getElem?_eq_getElem hi]
        exact hg⟩
      rw [he] at this; exact absurd this (by simp)
    · exact hr

/-- A point of the problem with the slack columns filled in. -/
def extend (P : Prob) (act : Nat → ℚ) (x : Nat → ℚ) (j : Nat) : ℚ :=
  if j < P.nCols then x j
  else if keepLower (P.row ((rangedRows P).getD (j - P.nCols) 0)) (act ((rangedRows P).getD (j - P.nCols) 0))
    then P.activity x ((rangedRows P).getD (j - P.nCols) 0) - (P.row ((rangedRows P).getD (j - P.nCols) 0)).lb
    else (P.row ((rangedRows P).getD (j - P.nCols) 0)).ub - P.activity x ((rangedRows P).getD (j - P.nCols) 0)

theorem extend_low {P : Prob} {act x : Nat → ℚ} {j : Nat} (h : j < P.nCols) : extend P act x j = x j := by
  unfold extend; rw [if_pos h]

theorem dot_extend {P : Prob} {act x : Nat → ℚ} {v : SVec} (h : ∀ p ∈ v, p.1 < P.nCols) :
    SVec.dot v (extend P act x) = SVec.dot v x := by
  unfold SVec.dot
  congr 1
  refine List.map_congr_left fun p hp => ?_
  rw [extend_low (h p hp)]

theorem ranged_activity {P : Prob} (hd : ExactData P) {x : Nat → ℚ} (hx : P.Feasible x) {i : Nat} (hi : i < P.rows.length)
    (hg : ranged (P.row i) = true) : (P.row i).lb ≤ P.activity x i ∧ P.activity x i ≤ (P.row i).ub := by
  have hs := ranged_spec.1 hg
  have hr := hx.rows _ (Prob.row_mem hi)
  have := hd.inf
  exact ⟨hr.1 (by linarith), hr.2 (by linarith)⟩

theorem getD_ranged {P : Prob} {k : Nat} (h : k < (rangedRows P).length) :
    (rangedRows P).getD k 0 < P.rows.length ∧ ranged (P.row ((rangedRows P).getD k 0)) = true := by
  rw [← ranged_mem, List.getD_eq_getElem?_getD, List.getElem?_eq_getElem h]
  exact List.getElem_mem _

theorem extend_range {P : Prob} (hd : ExactData P) (act : Nat → ℚ) {x : Nat → ℚ} (hx : P.Feasible x) {k : Nat}
    (hk : k < (rangedRows P).length) :
    0 ≤ extend P act x (P.nCols + k) ∧ extend P act x (P.nCols + k) ≤
      (P.row ((rangedRows P).getD k 0)).ub - (P.row ((rangedRows P).getD k 0)).lb := by
  obtain ⟨h1, h2⟩ := getD_ranged hk
  have ha := ranged_activity hd hx h1 h2
  unfold extend
  rw [if_neg (by omega), show P.nCols + k - P.nCols = k by omega]
  split <;> constructor <;> linarith [ha.1, ha.2]

theorem extend_feasible {P : Prob} (hwf : P.WF) (hd : ExactData P) (act : Nat → ℚ) {x : Nat → ℚ} (hx : P.Feasible x) :
    (withSlacks P act).Feasible (extend P act x) where
  rows := by
    intro r hr
    obtain ⟨i, hi, ⟨hg, rfl⟩ | ⟨hg, rfl⟩⟩ := withSlacks_row hr
    · unfold Row.Sat
      rw [dot_extend (hwf.cols _ (Prob.row_mem hi))]
      exact hx.rows _ (Prob.row_mem hi)
    · have hval : extend P act x (P.nCols + (rangedRows P).idxOf i) =
          if keepLower (P.row i) (act i) then P.activity x i - (P.row i).lb else (P.row i).ub - P.activity x i := by
        unfold extend
        rw [if_neg (by omega), show P.nCols + (rangedRows P).idxOf i - P.nCols = (rangedRows P).idxOf i by omega,
          getD_idx hi hg]
      have hdot : SVec.dot (P.row i).coefs (extend P act x) = P.activity x i :=
        dot_extend (hwf.cols _ (Prob.row_mem hi))
      have hdone : SVec.dot (slackRow (P.row i) (act i) (P.nCols + (rangedRows P).idxOf i)).coefs (extend P act x) =
          (slackRow (P.row i) (act i) (P.nCols + (rangedRows P).idxOf i)).lb := by
        unfold slackRow
        by_cases hk : keepLower (P.row i) (act i) = true
        · rw [if_pos hk] at hval ⊢
          dsimp only
          rw [SVec.dot_append, SVec.dot_cons, SVec.dot_nil, hdot, hval]
          ring
        · rw [if_neg hk] at hval ⊢
          dsimp only
          rw [SVec.dot_append, SVec.dot_cons, SVec.dot_nil, hdot, hval]
          ring
      unfold Row.Sat
      rw [hdone]
      refine ⟨fun _ => le_refl _, fun _ => ?_⟩
      exact (slackRow_bounds (P.row i) (act i) (P.nCols + (rangedRows P).idxOf i)).1.le
  lower := by
    intro j hj
    have hj : j < P.nCols + (rangedRows P).length := hj
    change lbOk P.inf (if j < P.nCols then P.colLower j else 0) _
    by_cases h : j < P.nCols
    · rw [if_pos h, extend_low h]; exact hx.lower j h
    · rw [if_neg h]
      have := (extend_range hd act hx (k := j - P.nCols) (by omega)).1
      rw [show P.nCols + (j - P.nCols) = j by omega] at this
      exact fun _ => this
  upper := by
    intro j hj
    have hj : j < P.nCols + (rangedRows P).length := hj
    change ubOk P.inf (if j < P.nCols then P.colUpper j else _) _
    by_cases h : j < P.nCols
    · rw [if_pos h, extend_low h]; exact hx.upper j h
    · rw [if_neg h]
      have := (extend_range hd act hx (k := j - P.nCols) (by omega)).2
      rw [show P.nCols + (j - P.nCols) = j by omega] at this
      exact fun _ => this
  int := by
    intro j _ hi
    have hi' : (decide (j < P.nCols) && P.isInt j) = true := hi
    simp only [Bool.and_eq_true, decide_eq_true_eq] at hi'
    rw [extend_low hi'.1]
    exact hx.int j hi'.1 hi'.2

theorem extend_fits {P : Prob} (hd : ExactData P) (act : Nat → ℚ) {x : Nat → ℚ} (hx : P.Feasible x) (hm : Modest P x) :
    Fits (withSlacks P act) (extend P act x) := by
  unfold Fits Modest at *
  change ((List.range (P.nCols + (rangedRows P).length)).map _).sum ≤ _
  refine le_trans ?_ hm
  rw [List.range_add, List.map_append, List.sum_append]
  refine add_le_add (le_of_eq ?_) ?_
  · congr 1
    refine List.map_congr_left fun j hj => ?_
    rw [extend_low (List.mem_range.1 hj)]
  · rw [List.map_map]
    have e : (rangedRows P).map (fun i => (P.row i).ub - (P.row i).lb) =
        (List.range (rangedRows P).length).map fun k =>
          (P.row ((rangedRows P).getD k 0)).ub - (P.row ((rangedRows P).getD k 0)).lb := by
      refine List.ext_getElem (by simp) fun k h1 h2 => ?_
      simp only [List.getElem_map, List.getElem_range]
      rw [List.getD_eq_getElem?_getD, List.getElem?_eq_getElem (by simpa using h1)]
      rfl
    rw [e]
    refine List.sum_le_sum fun k hk => ?_
    have := extend_range hd act hx (List.mem_range.1 hk)
    simp only [Function.comp]
    rw [abs_of_nonneg this.1]
    exact this.2

/-- Every modest feasible point has a counterpart in the problem that is pivoted in. -/
theorem work_point {st : State} {P : Prob} {env : Env} (hwf : P.WF) (hd : ExactData P) {x : Nat → ℚ} (hx : P.Feasible x)
    (hm : Modest P x) : ∃ y, (work st P env).Feasible y ∧ Fits (work st P env) y ∧ ∀ j < P.nCols, y j = x j := by
  unfold work
  by_cases hc : converts st P = true
  · rw [if_pos hc]
    exact ⟨_, extend_feasible hwf hd env.act hx, extend_fits hd env.act hx hm, fun j hj => extend_low hj⟩
  · rw [if_neg hc]
    refine ⟨x, hx, ?_, fun _ _ => rfl⟩
    unfold Fits Modest at *
    have : 0 ≤ ((rangedRows P).map fun i => (P.row i).ub - (P.row i).lb).sum := by
      refine List.sum_nonneg fun a ha => ?_
      obtain ⟨i, hi, rfl⟩ := List.mem_map.1 ha
      have := ranged_spec.1 (ranged_mem.1 hi).2
      linarith
    linarith

theorem work_bounds {st : State} {P : Prob} {env : Env} (hd : ExactData P) {y : Nat → ℚ} (hy : (work st P env).Feasible y) :
    BoundsOK P.nCols P.colLower P.colUpper y := by
  have hinf := hd.inf
  have h1 : (10000:ℚ) ≤ 10^50 := by norm_num
  intro j hj
  unfold work at hy
  by_cases hc : converts st P = true
  · rw [if_pos hc] at hy
    have hl := hy.lower j (show j < P.nCols + _ by omega)
    have hu := hy.upper j (show j < P.nCols + _ by omega)
    change lbOk P.inf (if j < P.nCols then P.colLower j else _) _ at hl
    change ubOk P.inf (if j < P.nCols then P.colUpper j else _) _ at hu
    rw [if_pos hj] at hl hu
    exact ⟨fun h => hu (by linarith), fun h => hl (by linarith)⟩
  · rw [if_neg hc] at hy
    exact own_bounds hd hy j hj

/-! ### The loop over the rows -/

/-- A cut of the list is old, empty, or holds. -/
def FromRow (P T : Prob) (conv : Bool) (c : RowCut) : Prop :=
  c = emptyCut ∨ CutOK T c ∧ (conv = true → ∀ p ∈ c.row, p.1 < P.nCols)

/-- What is known about the state of the solver and the runs for the rows. -/
structure RunsOK (c : Ctx) (env : Env) (s0 : Sim) : Prop where
  state : StateOK c.prm c.T s0
  steps : ∀ row < c.T.rows.length, GoodSteps c.T s0 row (env.run row).steps
  tiny : Plain c.prm → ∀ row < c.T.rows.length, ∀ s ∈ (env.run row).steps, NoTinyEntry c.T s.view

theorem oneRow_ok {c : Ctx} (hT : DataOK c.T) {P : Prob} {lo : ∀ y, c.T.Feasible y → BoundsOK P.nCols P.colLower P.colUpper y}
    (hx : c.prm.generateExtraCuts ≠ .whenEnteringBasis) {s0 : Sim} {row : Nat} {run again : Run} {limit0 : ℤ}
    (hs : StateOK c.prm c.T s0) (hn : NumOK c.T s0 row) (hg : GoodSteps c.T s0 row run.steps)
    (ht : Plain c.prm → ∀ st ∈ run.steps, NoTinyEntry c.T st.view) {e e' : Extra} (he : ExtraOK c.T e)
    {cut : Option RowCut} {l : ℤ} (h : oneRow c P s0 row run again limit0 e = .ok (cut, e', l)) :
    ExtraOK c.T e' ∧ ∀ d, cut = some d → d = emptyCut ∨ CutOK c.T d := by
  unfold oneRow at h
  rcases ha : attempt c s0 row run e with f | ⟨first, e1⟩
  · rw [ha] at h; exact absurd h (by simp)
  · rw [ha] at h
    dsimp only at h
    have hfirst : ExtraOK c.T e1 ∧ ∀ d, first = some d → NearOK c.T d := by
      unfold attempt at ha
      split at ha
      · rcases hm : generateMig c.prm c.T s0 row with f | ⟨d, r⟩
        · rw [hm] at ha; exact absurd ha (by simp)
        · rw [hm] at ha
          simp only [Except.ok.injEq, Prod.mk.injEq] at ha
          obtain ⟨rfl, rfl⟩ := ha
          refine ⟨he, fun d' h => ?_⟩
          simp only [Option.some.injEq] at h; subst h
          exact generateMig_near hT hs hn hm
      · exact optimize_ok hT hx hs hn (Or.inr ⟨hg, ht⟩) he ha
    obtain ⟨res0, hres0⟩ : ∃ q, q = checkFirst c P first := ⟨_, rfl⟩
    rw [← hres0] at h
    have hcheck : ∀ d d', NearOK c.T d → check c P d = .ok (.inl d') → CutOK c.T d' := by
      intro d d' hd h
      unfold check at h
      exact validate_ok lo hd h
    rcases res0 with f | res
    · exact absurd h (by simp)
    · dsimp only at h
      have hleft : ∀ d, res.getLeft? = some d → d = emptyCut ∨ CutOK c.T d := by
        intro d hd
        have hres : res = .inl d := Sum.getLeft?_eq_some_iff.1 hd
        rcases first with _ | d0
        · unfold checkFirst at hres0
          simp only [Except.ok.injEq] at hres0
          rw [hres] at hres0
          exact Or.inl (Sum.inl.inj hres0)
        · unfold checkFirst at hres0
          rw [hres] at hres0
          exact Or.inr (hcheck d0 d (hfirst.2 d0 rfl) hres0.symm)
      split at h
      · rcases ho : optimize (c.withLimit 0) s0 row again e1 with f | ⟨_ | d2, e2⟩
        · rw [ho] at h; exact absurd h (by simp)
        · rw [ho] at h
          simp only [Except.ok.injEq, Prod.mk.injEq] at h
          obtain ⟨rfl, rfl, rfl⟩ := h
          have := optimize_ok (c := c.withLimit 0) hT hx ⟨hs.sim, hs.tiny⟩ hn (Or.inl rfl) hfirst.1 ho
          exact ⟨this.1, hleft⟩
        · rw [ho] at h
          have h2 := optimize_ok (c := c.withLimit 0) hT hx ⟨hs.sim, hs.tiny⟩ hn (Or.inl rfl) hfirst.1 ho
          dsimp only at h
          rcases hc : check c P d2 with f | res2
          · rw [hc] at h; exact absurd h (by simp)
          · rw [hc] at h
            simp only [Except.ok.injEq, Prod.mk.injEq] at h
            obtain ⟨rfl, rfl, rfl⟩ := h
            refine ⟨h2.1, fun d hd => ?_⟩
            have hres : res2 = .inl d := Sum.getLeft?_eq_some_iff.1 hd
            rw [hres] at hc
            exact Or.inr (hcheck d2 d (h2.2 d2 rfl) hc)
      · simp only [Except.ok.injEq, Prod.mk.injEq] at h
        obtain ⟨rfl, rfl, rfl⟩ := h
        exact ⟨hfirst.1, hleft⟩

theorem insert_mem {same : RowCut → RowCut → Bool} {cs : List RowCut} {c d : RowCut} (h : d ∈ insert same cs c) :
    d ∈ cs ∨ d = c := by
  unfold insert at h
  split at h
  · exact Or.inl h
  · simpa using h

theorem insert_prefix (same : RowCut → RowCut → Bool) (cs : List RowCut) (c : RowCut) : cs <+: insert same cs c := by
  unfold insert
  split
  · exact List.prefix_refl _
  · exact List.prefix_append _ _

theorem rowStep_ok {c : Ctx} (hT : DataOK c.T) {P : Prob}
    (lo : ∀ y, c.T.Feasible y → BoundsOK P.nCols P.colLower P.colUpper y)
    (hx : c.prm.generateExtraCuts ≠ .whenEnteringBasis) {env : Env} {s0 : Sim} (hr : RunsOK c env s0) {conv : Bool}
    {limit0 : ℤ} {lp lp' : Loop} {row : Nat} (hn : NumOK c.T s0 row) {cs : List RowCut}
    (he : ExtraOK c.T lp.extra) (hcs : ∀ d ∈ lp.cs, d ∈ cs ∨ FromRow P c.T conv d)
    (h : rowStep c P conv env s0 limit0 lp row = .ok lp') :
    ExtraOK c.T lp'.extra ∧ ∀ d ∈ lp'.cs, d ∈ cs ∨ FromRow P c.T conv d := by
  unfold rowStep at h
  split at h
  · rcases ho : oneRow (c.withLimit lp.limit) P s0 row (env.run row) (env.again row) limit0 lp.extra with f | ⟨_ | d, e, l⟩
    · rw [ho] at h; exact absurd h (by simp)
    · rw [ho] at h
      simp only [Except.ok.injEq] at h
      subst h
      have := oneRow_ok (c := c.withLimit lp.limit) hT (lo := lo) hx ⟨hr.state.sim, hr.state.tiny⟩ hn (hr.steps row hn.lt)
        (fun hp => hr.tiny hp row hn.lt) he ho
      exact ⟨this.1, hcs⟩
    · rw [ho] at h
      simp only [Except.ok.injEq] at h
      subst h
      have := oneRow_ok (c := c.withLimit lp.limit) hT (lo := lo) hx ⟨hr.state.sim, hr.state.tiny⟩ hn (hr.steps row hn.lt)
        (fun hp => hr.tiny hp row hn.lt) he ho
      refine ⟨this.1, fun q hq => ?_⟩
      rcases insert_mem hq with hq | hq
      · exact hcs q hq
      · refine Or.inr ?_
        rw [hq]
        by_cases ho : (conv && oddSlack P d) = true
        · rw [if_pos ho]; exact Or.inl rfl
        · rw [if_neg ho]
          rcases this.2 d rfl with h | h
          · exact Or.inl h
          · refine Or.inr ⟨h, fun hc p hp => ?_⟩
            rw [hc, Bool.true_and] at ho
            unfold oddSlack at ho
            by_contra hlt
            exact ho (List.any_eq_true.2 ⟨p, hp, by simpa using hlt⟩)
  · simp only [Except.ok.injEq] at h
    subst h
    exact ⟨he, hcs⟩

theorem rowLoop_ok {c : Ctx} (hT : DataOK c.T) {P : Prob}
    (lo : ∀ y, c.T.Feasible y → BoundsOK P.nCols P.colLower P.colUpper y)
    (hx : c.prm.generateExtraCuts ≠ .whenEnteringBasis) {env : Env} {s0 : Sim} (hr : RunsOK c env s0) {conv : Bool}
    {limit0 : ℤ} {cs : List RowCut} : ∀ (l : List Nat) (lp lp' : Loop), (∀ row ∈ l, NumOK c.T s0 row) →
      ExtraOK c.T lp.extra → (∀ d ∈ lp.cs, d ∈ cs ∨ FromRow P c.T conv d) →
      rowLoop c P conv env s0 limit0 lp l = .ok lp' →
      ExtraOK c.T lp'.extra ∧ ∀ d ∈ lp'.cs, d ∈ cs ∨ FromRow P c.T conv d := by
  intro l
  induction l with
  | nil =>
    intro lp lp' _ he hcs h
    simp only [rowLoop, Except.ok.injEq] at h
    subst h; exact ⟨he, hcs⟩
  | cons row l ih =>
    intro lp lp' hl he hcs h
    rcases h1 : rowStep c P conv env s0 limit0 lp row with f | lp1
    · simp only [rowLoop, h1] at h; exact absurd h (by simp)
    · simp only [rowLoop, h1] at h
      have := rowStep_ok hT lo hx hr (hl row List.mem_cons_self) he hcs h1
      exact ih lp1 lp' (fun r hr => hl r (List.mem_cons_of_mem _ hr)) this.1 this.2 h

theorem candidates_ok {prm : Params} {T : Prob} {view : View} {stat : Nat → Nat} {row : Nat}
    (h : row ∈ candidates prm T view) : NumOK T ⟨startNonBasics T stat, stat, view⟩ row := by
  have h1 : row ∈ (List.range T.rows.length).filter (candidate T view prm.away) := by
    unfold candidates at h
    dsimp only at h
    split at h
    · exact (List.mergeSort_perm _ _).mem_iff.1 (List.mem_of_mem_take h)
    · exact (List.mergeSort_perm _ _).mem_iff.1 h
  rw [List.mem_filter, List.mem_range] at h1
  obtain ⟨h1, h2⟩ := h1
  unfold candidate at h2
  simp only [Bool.and_eq_true, decide_eq_true_eq] at h2
  refine ⟨h1, h2.1.1, ?_⟩
  have := h2.1.2
  unfold intVar at this
  rwa [if_pos h2.1.1] at this

theorem addExtra_ok {c : Ctx} {P : Prob} (lo : ∀ y, c.T.Feasible y → BoundsOK P.nCols P.colLower P.colUpper y)
    {env : Env} {e : Extra} (he : ExtraOK c.T e) {cs cs' old : List RowCut} {j : Nat} {conv : Bool}
    (hcs : ∀ d ∈ cs, d ∈ old ∨ FromRow P c.T conv d ∨ CutOK c.T d) (h : addExtra c P env e cs j = .ok cs') :
    ∀ d ∈ cs', d ∈ old ∨ FromRow P c.T conv d ∨ CutOK c.T d := by
  unfold addExtra at h
  rcases hj : e.cut j with _ | d
  · rw [hj] at h
    simp only [Except.ok.injEq] at h
    subst h; exact hcs
  · rw [hj] at h
    dsimp only at h
    rcases hc : check c P d with f | (d' | k)
    · rw [hc] at h; exact absurd h (by simp)
    · rw [hc] at h
      simp only [Except.ok.injEq] at h
      subst h
      intro q hq
      rcases insert_mem hq with hq | hq
      · exact hcs q hq
      · rw [hq]
        unfold check at hc
        exact Or.inr (Or.inr (validate_ok lo (he j d hj).nearOK hc))
    · rw [hc] at h
      simp only [Except.ok.injEq] at h
      subst h; exact hcs

theorem fold_inv {α β : Type} {f : α → β → Except Fault α} (I : α → Prop)
    (hstep : ∀ a b a', I a → f a b = .ok a' → I a') :
    ∀ (l : List β) (a a' : α), I a → l.foldlM f a = .ok a' → I a' := by
  intro l
  induction l with
  | nil =>
    intro a a' ha h
    simp only [List.foldlM_nil, pure, Except.pure, Except.ok.injEq] at h
    subst h; exact ha
  | cons b l ih =>
    intro a a' ha h
    rcases h1 : f a b with e | a1
    · simp only [List.foldlM_cons, h1, bind, Except.bind] at h; exact absurd h (by simp)
    · simp only [List.foldlM_cons, h1, bind, Except.bind] at h
      exact ih a1 a' (hstep a b a1 ha h1) h

/-- Everything in the result is old, from a row, or an extra cut that holds. -/
theorem body_ok {st : State} {P : Prob} {env : Env} (hwf : P.WF) (hd : ExactData P)
    (hr : st.numrows = none ∨ NoRanges P) (hc : Contract st P env)
    (hx : st.prm.generateExtraCuts ≠ .whenEnteringBasis) {cs cs' : List RowCut} (h : body st P env cs = .ok cs') :
    ∀ d ∈ cs', d ∈ cs ∨ FromRow P (work st P env) (converts st P) d ∨ CutOK (work st P env) d := by
  have hT := work_data (env := env) hwf hd hr
  have lo : ∀ y, (work st P env).Feasible y → BoundsOK P.nCols P.colLower P.colUpper y := fun y hy => work_bounds hd hy
  unfold body at h
  dsimp only at h
  split at h
  · exact absurd h (by simp)
  · split at h
    · exact absurd h (by simp)
    · obtain ⟨c, hcdef⟩ : ∃ c : Ctx, c = ⟨callPrm st P env, st.V, work st P env, env.view.xlp⟩ := ⟨_, rfl⟩
      rw [← hcdef] at h
      have hTc : c.T = work st P env := by rw [hcdef]
      have hpc : c.prm = callPrm st P env := by rw [hcdef]
      have hplain : Plain c.prm → st.prm.strengthen = false ∧ st.prm.modularize = false := by
        rw [hpc]; exact id
      have hxc : c.prm.generateExtraCuts ≠ .whenEnteringBasis := by rw [hpc]; exact hx
      rw [← hTc] at h lo hT ⊢
      have hlen : c.T.rows.length = P.rows.length := by rw [hTc, work_length]
      have hruns : RunsOK c env ⟨startNonBasics c.T env.stat, env.stat, env.view⟩ := by
        refine ⟨⟨start_ok (by rw [hTc]; exact hc.start), fun hp => ?_⟩, fun row hrow => ?_, fun hp row hrow => ?_⟩
        · rw [hTc]; exact (hc.tiny (hplain hp).1 (hplain hp).2).1
        · rw [hTc]; exact hc.steps row (by omega)
        · rw [hTc]; exact (hc.tiny (hplain hp).1 (hplain hp).2).2 row (by omega)
      rcases hl : rowLoop c P (converts st P) env ⟨startNonBasics c.T env.stat, env.stat, env.view⟩ st.prm.pivotLimit
          ⟨(callPrm st P env).pivotLimit, ⟨fun _ => none, 0⟩, cs, 0⟩ (candidates (callPrm st P env) c.T env.view) with f | lp
      · rw [hl] at h
        exact absurd h (by simp)
      · rw [hl] at h
        dsimp only at h
        have h1 := rowLoop_ok hT lo hxc hruns (cs := cs) _ _ _ (fun row hrow => candidates_ok hrow)
          (fun j d hd => absurd hd (by simp)) (fun d hd => Or.inl hd) hl
        refine fold_inv (fun q => ∀ d ∈ q, d ∈ cs ∨ FromRow P c.T (converts st P) d ∨ CutOK c.T d) ?_ _ _ _ ?_ h
        · intro a b a' ha hab
          exact addExtra_ok lo h1.1 ha hab
        · intro d hd
          rcases h1.2 d hd with h | h
          · exact Or.inl h
          · exact Or.inr (Or.inl h)

end Cgl.LandP
