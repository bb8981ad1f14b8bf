import Verif.LandP.Props

/-!
# C75 (CglLandP): calls return
-/

namespace Cgl.LandP

/-- The state is good and calm. -/
structure QuietOK (P : Prob) (B : ℚ) (s : Sim) : Prop where
  sim : SimOK P s
  calm : Calm P B s.stat s.view

theorem quiet_status {P : Prob} {B : ℚ} {s : Sim} (h : QuietOK P B s) : statusOk P s = true := by
  unfold statusOk
  rw [List.all_eq_true]
  intro v hv
  obtain ⟨h1, h2⟩ := (h.sim.mem v).1 hv
  by_cases hn : v < P.nCols
  · rcases h.calm.colBound v hn with h | h | h
    · exact absurd h h2
    · simp [h]
    · simp [h]
  · simp [hn]

/-- The entries of the row are at most one more than those of the tableau. -/
def CoefOK (P : Prob) (s : Sim) (r : TabRow) : Prop :=
  r.num < P.rows.length ∧ ∀ v ∈ s.nonBasics, |r.coef v| ≤ 1 + |raw P (s.view.binv r.num) v|

theorem pull_total {P : Prob} {s : Sim} (h : statusOk P s = true) {num : Nat} (hn : num < P.rows.length) :
    ∃ r, pull P s num = .ok r ∧ CoefOK P s r.frac := by
  have : ∃ r, pull P s num = .ok r := by
    unfold pull
    rw [if_pos h]
    exact ⟨_, rfl⟩
  obtain ⟨r, hr⟩ := this
  have hnum := pull_num hr
  refine ⟨r, hr, ?_, fun v _ => ?_⟩
  · change r.num < _; omega
  · change |r.coef v| ≤ 1 + |raw P (s.view.binv r.num) v|
    rw [hnum]
    have := abs_nonneg (raw P (s.view.binv num) v)
    rcases pull_coef hr v with h | h | h
    · rw [h, abs_zero]; linarith
    · rw [h]; linarith
    · rw [h, abs_neg]; linarith

theorem modularized_abs (a b : ℚ) : |modularizedCoef a b| ≤ 1 := by
  have h1 := frac_nonneg a
  have h2 := frac_lt_one a
  unfold modularizedCoef
  split
  · rw [abs_of_nonneg h1]; exact h2.le
  · rw [abs_of_neg (by linarith)]; linarith

theorem modIf_coef {c : Ctx} {s : Sim} {r : TabRow} (h : CoefOK c.T s r) : CoefOK c.T s (modIf c r) := by
  unfold modIf
  split
  · refine ⟨h.1, fun v hv => ?_⟩
    change |if r.listed v && intVar c.T v then modularizedCoef (r.coef v) r.rhs else r.coef v| ≤
      1 + |raw c.T (s.view.binv r.num) v|
    split
    · have := modularized_abs (r.coef v) r.rhs
      have := abs_nonneg (raw c.T (s.view.binv r.num) v)
      linarith
    · exact h.2 v hv
  · exact h

theorem strong_abs (int : Bool) (a : ℚ) {b : ℚ} (h0 : 0 ≤ b) (h1 : b ≤ 1) {m : ℚ} (hm : 1 ≤ m) (ha : |a| ≤ m) :
    |strongCoef int a b| ≤ m := by
  have hf0 := frac_nonneg a
  have hf1 := frac_lt_one a
  have key : ∀ y z : ℚ, |y| ≤ m → 0 ≤ z → z ≤ 1 → |y * z| ≤ m := by
    intro y z hy hz0 hz1
    rw [abs_mul, abs_of_nonneg hz0]
    calc |y| * z ≤ |y| * 1 := mul_le_mul_of_nonneg_left hz1 (abs_nonneg _)
      _ = |y| := mul_one _
      _ ≤ m := hy
  unfold strongCoef interCoef
  split
  · split
    · exact key _ _ (by rw [abs_of_nonneg hf0]; linarith) (by linarith) (by linarith)
    · exact key _ _ (by rw [abs_of_nonneg (by linarith)]; linarith) h0 h1
  · split
    · exact key _ _ ha (by linarith) (by linarith)
    · exact key _ _ (by rw [abs_neg]; exact ha) h0 h1

theorem migTerm_abs {P : Prob} {B : ℚ} (hB : Bounded P B) {s : Sim} (hs : QuietOK P B s) {r : TabRow} (hr : CoefOK P s r)
    {b : ℚ} (h0 : 0 ≤ b) (h1 : b ≤ 1) {v : Nat} (hv : v ∈ s.nonBasics) :
    |(migTerm P s { r.unflip P s with rhs := b } b v).2| ≤ (1 + |raw P (s.view.binv r.num) v|) * B := by
  have hst := any_status hs.sim (quiet_status hs) hv
  obtain ⟨hlt, _⟩ := (hs.sim.mem v).1 hv
  have hm : (1:ℚ) ≤ 1 + |raw P (s.view.binv r.num) v| := by linarith [abs_nonneg (raw P (s.view.binv r.num) v)]
  have hun : |(r.unflip P s).coef v| ≤ 1 + |raw P (s.view.binv r.num) v| := by
    have := hr.2 v hv
    unfold TabRow.unflip
    dsimp only
    split
    · rw [abs_neg]; exact this
    · exact this
  have hmul : ∀ y z : ℚ, |y| ≤ 1 + |raw P (s.view.binv r.num) v| → |z| ≤ B →
      |y * z| ≤ (1 + |raw P (s.view.binv r.num) v|) * B := by
    intro y z hy hz
    rw [abs_mul]
    exact mul_le_mul hy hz (abs_nonneg _) (by linarith)
  unfold migTerm
  dsimp only
  by_cases hn : v < P.nCols
  · rw [if_pos hn]
    by_cases h2 : s.stat v = 2
    · rw [if_pos h2]
      dsimp only
      refine hmul _ _ ?_ (hB.upper v hn (hs.sim.good.upper v hn h2).2)
      rw [abs_neg]
      exact strong_abs _ _ h0 h1 hm (by rw [abs_neg]; exact hun)
    · rw [if_neg h2]
      dsimp only
      refine hmul _ _ (strong_abs _ _ h0 h1 hm hun) (hB.lower v hn (hs.sim.good.lower v hn (hst.resolve_left h2)).2)
  · rw [if_neg hn]
    have hi : v - P.nCols < P.rows.length := by omega
    have hv' : P.nCols + (v - P.nCols) = v := by omega
    have hrm := Prob.row_mem hi
    by_cases hu : (P.row (v - P.nCols)).ub < P.inf
    · rw [if_pos hu]
      dsimp only
      rw [abs_neg]
      refine hmul _ _ (strong_abs _ _ h0 h1 hm hun) ?_
      split
      · rename_i h2
        exact hB.rowLower _ hrm (hs.sim.good.rowLower _ hi (by rw [hv']; exact h2)).2
      · exact hB.rowUpper _ hrm hu
    · rw [if_neg hu]
      dsimp only
      refine hmul _ _ (strong_abs _ _ h0 h1 hm hun) ?_
      have h2 : s.stat v = 2 := by
        rcases hst with h | h
        · exact h
        · exact absurd (hs.sim.good.rowUpper _ hi (by rw [hv']; exact h)).2 hu
      exact hB.rowLower _ hrm (hs.sim.good.rowLower _ hi (by rw [hv']; exact h2)).2

theorem fold_total {P : Prob} {s : Sim} {r : TabRow} {b : ℚ} (g : Nat → ℚ) (hg : ∀ v, 0 ≤ g v) :
    ∀ (l : List Nat) (a : Acc), (∀ v ∈ l, |(migTerm P s r b v).2| ≤ g v) → |a.rhs| + (l.map g).sum < 10^100 →
      ∃ a', l.foldlM (migStep P s r b) a = .ok a' := by
  intro l
  induction l with
  | nil => intro a _ _; exact ⟨a, rfl⟩
  | cons v l ih =>
    intro a hl ha
    rw [List.map_cons, List.sum_cons] at ha
    have hsum : 0 ≤ (l.map g).sum := List.sum_nonneg (by
      intro q hq; obtain ⟨w, _, rfl⟩ := List.mem_map.1 hq; exact hg w)
    have hv := hl v List.mem_cons_self
    have hab := abs_add_le a.rhs (migTerm P s r b v).2
    rw [List.foldlM_cons]
    unfold migStep
    by_cases h0 : r.coef v = 0
    · rw [if_pos h0]
      simp only [bind, Except.bind]
      exact ih a (fun w hw => hl w (List.mem_cons_of_mem _ hw)) (by linarith [hg v])
    · rw [if_neg h0, if_pos (by linarith)]
      simp only [bind, Except.bind]
      refine ih _ (fun w hw => hl w (List.mem_cons_of_mem _ hw)) ?_
      dsimp only
      linarith

theorem createMIG_total {P : Prob} {B : ℚ} (hB0 : 0 ≤ B) (hB : Bounded P B) {s : Sim} (hs : QuietOK P B s) {r : TabRow}
    (hr : CoefOK P s r) : ∃ c r', createMIG P s r = .ok (c, r') := by
  have hf0 := frac_nonneg r.rhs
  have hf1 := frac_lt_one r.rhs
  have hprod : |(r.rhs - ⌊r.rhs⌋) * (1 - (r.rhs - ⌊r.rhs⌋))| ≤ 1 := by
    rw [abs_of_nonneg (mul_nonneg hf0 (by linarith))]
    calc (r.rhs - ⌊r.rhs⌋) * (1 - (r.rhs - ⌊r.rhs⌋)) ≤ 1 * 1 :=
          mul_le_mul hf1.le (by linarith) (by linarith) (by norm_num)
      _ = 1 := by norm_num
  have hg : ∀ v, 0 ≤ (1 + |raw P (s.view.binv r.num) v|) * B := fun v =>
    mul_nonneg (by linarith [abs_nonneg (raw P (s.view.binv r.num) v)]) hB0
  have hle : (s.nonBasics.map fun v => (1 + |raw P (s.view.binv r.num) v|) * B).sum ≤ 10^99 := by
    refine le_trans ?_ (hs.calm.entries r.num hr.1)
    rw [sum_nonBasics hs.sim, list_range_sum]
    refine Finset.sum_le_sum fun v _ => ?_
    split
    · exact le_refl _
    · exact hg v
  obtain ⟨a, ha⟩ := fold_total (P := P) (s := s) (r := { r.unflip P s with rhs := r.rhs - ⌊r.rhs⌋ }) (b := r.rhs - ⌊r.rhs⌋)
    (fun v => (1 + |raw P (s.view.binv r.num) v|) * B) hg s.nonBasics
    ⟨fun _ => 0, (r.rhs - ⌊r.rhs⌋) * (1 - (r.rhs - ⌊r.rhs⌋))⟩
    (fun v hv => migTerm_abs hB hs hr hf0 hf1.le hv) (by
      dsimp only
      have : (1:ℚ) + 10^99 < 10^100 := by norm_num
      linarith)
  unfold createMIG
  rw [if_pos (quiet_status hs)]
  dsimp only
  rw [if_pos (lt_of_le_of_lt hprod (by norm_num)), ha]
  exact ⟨_, _, rfl⟩

theorem create_total {p : Params} (hp : p.strengthen = true) {P : Prob} {B : ℚ} (hB0 : 0 ≤ B) (hB : Bounded P B) {s : Sim}
    (hs : QuietOK P B s) {r : TabRow} (hr : CoefOK P s r) : ∃ c r', create p P s r = .ok (c, r') ∧ Known P c ∧ c.ub = dblMax := by
  obtain ⟨c, r', h⟩ := createMIG_total hB0 hB hs hr
  obtain ⟨a, ha⟩ := createMIG_pack h
  refine ⟨c, r', ?_, ha ▸ pack_known P a, by rw [ha]; rfl⟩
  unfold create
  rw [hp]
  simpa using h

/-! ### Validator -/

theorem cleanLoop_total (V : Validator) (eps : ℚ) (nB : Nat) (lo up : Nat → ℚ) : ∀ (l : SVec) (c : Clean),
    (∀ p ∈ l, p.1 < nB) → ∃ q, cleanLoop V eps nB lo up c l = .ok q := by
  intro l
  induction l with
  | nil => intro c _; exact ⟨_, rfl⟩
  | cons p l ih =>
    intro c hl
    have hp := hl p List.mem_cons_self
    have : ∃ q, cleanStep V eps nB lo up c p = .ok q := by
      unfold cleanStep
      split
      · split
        · exact ⟨_, rfl⟩
        · rw [if_neg (by omega)]
          split
          · exact ⟨_, rfl⟩
          · split <;> exact ⟨_, rfl⟩
      · split <;> exact ⟨_, rfl⟩
    obtain ⟨q, hq⟩ := this
    rcases q with c' | k
    · simp only [cleanLoop, hq]
      exact ih c' (fun w hw => hl w (List.mem_cons_of_mem _ hw))
    · simp only [cleanLoop, hq]
      exact ⟨_, rfl⟩

set_option exponentiation.threshold 2000 in
theorem dblMax_big : (10:ℚ)^50 < dblMax := by
  unfold dblMax; norm_num

theorem validate_total {V : Validator} {eps : ℚ} {n nB : Nat} {lo up xlp : Nat → ℚ} {c : RowCut}
    (hc : (castInt (V.maxFillIn * n)).isSome = true) (hu : c.ub = dblMax) (hl : ∀ p ∈ c.row, p.1 < nB) :
    ∃ q, validate V eps n nB lo up xlp c = .ok q := by
  obtain ⟨z, hz⟩ := Option.isSome_iff_exists.1 hc
  obtain ⟨q, hq⟩ := cleanLoop_total V eps nB lo up c.row ⟨[], c.lb - 1/10^7, 10^100, 0⟩ hl
  unfold validate
  rw [hz]
  dsimp only
  rw [if_neg (by rw [hu]; exact not_le.2 dblMax_big), hq]
  split
  · exact ⟨_, rfl⟩
  · rcases q with d | k
    · dsimp only
      split
      · exact ⟨_, rfl⟩
      · split
        · exact ⟨_, rfl⟩
        · split <;> exact ⟨_, rfl⟩
    · exact ⟨_, rfl⟩

/-! ### The search -/

theorem search_total {c : Ctx} {B : ℚ} (hx : c.prm.generateExtraCuts ≠ .whenEnteringBasis)
    (hsel : c.prm.pivotSelection ≠ .initialReducedCosts) (exh : Bool) :
    ∀ (l : List Step) (k : Nat) (s : Sim) (r : TabRow) (e : Extra), QuietOK c.T B s →
      NumOK c.T s r.num → CoefOK c.T s r → GoodSteps c.T s r.num l → CalmSteps c.T B s l →
      ∃ f, search c exh k s r e l = .ok f ∧ ∀ s' r', f.at? = some (s', r') → QuietOK c.T B s' ∧ CoefOK c.T s' r' := by
  intro l
  induction l with
  | nil =>
    intro k s r e hs hn hr hg hc
    unfold search
    rw [if_neg (fun h => hsel h.1)]
    refine ⟨_, rfl, fun s' r' h => ?_⟩
    simp only [Option.some.injEq, Prod.mk.injEq] at h
    obtain ⟨rfl, rfl⟩ := h
    exact ⟨hs, hr⟩
  | cons st l ih =>
    intro k s r e hs hn hr hg hc
    unfold search
    split
    · by_cases hok : st.ok = true
      · obtain ⟨hl, hi, hne, hrest⟩ := hg
        obtain ⟨hgb, hgs⟩ := hrest hok
        obtain ⟨hc1, hc2⟩ := hc hok
        have hs' : QuietOK c.T B (pivotSim s st) := ⟨pivot_ok hs.sim hl hi hgb, hc1⟩
        have hn' := newNum_ok hs.sim hn hl hi hne hgb
        obtain ⟨r1, hp, hco⟩ := pull_total (quiet_status hs') hn'.lt
        have hcb : changeBasis c.T s r st = .ok (pivotSim s st, r1.frac, true) := by
          unfold changeBasis
          rw [if_pos hok, hp]
        rw [hcb]
        dsimp only
        rw [enterCut_off hx]
        dsimp only
        rw [if_pos rfl]
        split
        · exact ⟨_, rfl, fun s' r' h => absurd h (by simp)⟩
        · have hmn : (modIf c r1.frac).num = newNum s st r.num := by
            rw [← pull_num hp]; unfold modIf; split <;> rfl
          exact ih (k+1) (pivotSim s st) (modIf c r1.frac) e hs' (by rw [hmn]; exact hn') (modIf_coef hco)
            (by rw [hmn]; exact hgs) hc2
      · have hst : statusOk c.T { s with view := st.view } = true := by
          have := quiet_status hs
          unfold statusOk at this ⊢
          exact this
        obtain ⟨r1, hp, _⟩ := pull_total hst hn.lt
        have hcb : changeBasis c.T s r st = .ok ({ s with view := st.view }, r1.frac, false) := by
          unfold changeBasis
          rw [if_neg hok, hp]
        rw [hcb]
        dsimp only
        rw [enterCut_off hx]
        exact ⟨_, rfl, fun s' r' h => absurd h (by simp)⟩
    · refine ⟨_, rfl, fun s' r' h => ?_⟩
      simp only [Option.some.injEq, Prod.mk.injEq] at h
      obtain ⟨rfl, rfl⟩ := h
      exact ⟨hs, hr⟩

/-- Settings for which no fault can occur. -/
structure SafePrm (p : Params) : Prop where
  strengthen : p.strengthen = true
  extra : p.generateExtraCuts = .none
  select : p.pivotSelection ≠ .initialReducedCosts

theorem optimize_total {c : Ctx} {B : ℚ} (hp : SafePrm c.prm) (hB0 : 0 ≤ B) (hB : Bounded c.T B) {s0 : Sim} {row : Nat} {run : Run}
    (e : Extra) (hs : QuietOK c.T B s0) (hn : NumOK c.T s0 row)
    (hg : c.prm.pivotLimit = 0 ∨ GoodSteps c.T s0 row run.steps ∧ CalmSteps c.T B s0 run.steps) :
    ∃ cut e', optimize c s0 row run e = .ok (cut, e') ∧ ∀ d, cut = some d → Known c.T d ∧ d.ub = dblMax := by
  obtain ⟨r, hpull, hco⟩ := pull_total (quiet_status hs) hn.lt
  have hnum : (modIf c r.frac).num = row := by
    rw [← pull_num hpull]; unfold modIf; split <;> rfl
  unfold optimize
  rw [hpull]
  dsimp only
  split
  · exact ⟨_, _, rfl, by simp⟩
  · have : ∃ f, search c run.exhausted 0 s0 (modIf c r.frac) e run.steps = .ok f ∧
        ∀ s' r', f.at? = some (s', r') → QuietOK c.T B s' ∧ CoefOK c.T s' r' := by
      rcases hg with hl | hg
      · have : search c run.exhausted 0 s0 (modIf c r.frac) e run.steps = .ok ⟨some (s0, modIf c r.frac), e⟩ := by
          rcases run.steps with _ | ⟨st, l⟩
          · unfold search
            rw [if_neg (fun h => hp.select h.1)]
          · unfold search
            rw [if_neg (by rw [hl]; simp)]
        refine ⟨_, this, fun s' r' h => ?_⟩
        simp only [Option.some.injEq, Prod.mk.injEq] at h
        obtain ⟨rfl, rfl⟩ := h
        exact ⟨hs, modIf_coef hco⟩
      · exact search_total (by rw [hp.extra]; simp) hp.select _ _ _ _ _ _ hs (by rw [hnum]; exact hn) (modIf_coef hco)
          (by rw [hnum]; exact hg.1) hg.2
    obtain ⟨⟨at?, e1⟩, hq, hf⟩ := this
    rw [hq]
    rcases at? with _ | ⟨s', r'⟩
    · exact ⟨_, _, rfl, by simp⟩
    · obtain ⟨h1, h2⟩ := hf s' r' rfl
      dsimp only
      unfold finish
      split
      · exact ⟨_, _, rfl, by simp⟩
      · obtain ⟨d, r2, hd, hk, hu⟩ := create_total hp.strengthen hB0 hB h1 h2
        rw [hd]
        dsimp only
        rw [if_neg (by rw [hp.extra]; simp)]
        refine ⟨_, _, rfl, fun d' h => ?_⟩
        simp only [Option.some.injEq] at h; subst h; exact ⟨hk, hu⟩

theorem oneRow_total {c : Ctx} {B : ℚ} (hp : SafePrm c.prm) (hB0 : 0 ≤ B) (hB : Bounded c.T B) {s0 : Sim} {row : Nat}
    {run again : Run} (limit0 : ℤ) (e : Extra) (hs : QuietOK c.T B s0) (hn : NumOK c.T s0 row)
    (hg : GoodSteps c.T s0 row run.steps) (hcs : CalmSteps c.T B s0 run.steps)
    (hc : (castInt (c.V.maxFillIn * c.T.nCols)).isSome = true) :
    ∃ q, oneRow c c.T s0 row run again limit0 e = .ok q := by
  have hcheck : ∀ d, Known c.T d ∧ d.ub = dblMax → ∃ q, check c c.T d = .ok q := by
    intro d hd
    unfold check
    exact validate_total hc hd.2 fun p hp => List.mem_range.1 (hd.1.subset (List.mem_map_of_mem hp))
  have ha : ∃ cut e', attempt c s0 row run e = .ok (cut, e') ∧ ∀ d, cut = some d → Known c.T d ∧ d.ub = dblMax := by
    unfold attempt
    split
    · obtain ⟨r, hpull, hco⟩ := pull_total (quiet_status hs) hn.lt
      obtain ⟨d, r2, hd, hk, hu⟩ := create_total hp.strengthen hB0 hB hs hco
      have : generateMig c.prm c.T s0 row = .ok (d, r2) := by
        unfold generateMig
        rw [hpull]
        exact hd
      rw [this]
      refine ⟨_, _, rfl, fun d' h => ?_⟩
      simp only [Option.some.injEq] at h; subst h; exact ⟨hk, hu⟩
    · exact optimize_total hp hB0 hB e hs hn (Or.inr ⟨hg, hcs⟩)
  obtain ⟨first, e1, ha, hfirst⟩ := ha
  have hres : ∃ res, checkFirst c c.T first = .ok res := by
    unfold checkFirst
    rcases first with _ | d
    · exact ⟨_, rfl⟩
    · exact hcheck d (hfirst d rfl)
  obtain ⟨res, hres⟩ := hres
  unfold oneRow
  rw [ha]
  dsimp only
  rw [hres]
  dsimp only
  split
  · obtain ⟨cut2, e2, ho, h2⟩ := optimize_total (c := c.withLimit 0) (run := again) ⟨hp.strengthen, hp.extra, hp.select⟩ hB0 hB e1 hs hn (Or.inl rfl)
    rw [ho]
    rcases cut2 with _ | d2
    · exact ⟨_, rfl⟩
    · dsimp only
      obtain ⟨q, hq⟩ := hcheck d2 (h2 d2 rfl)
      rw [hq]
      exact ⟨_, rfl⟩
  · exact ⟨_, rfl⟩

theorem rowLoop_total {c : Ctx} {B : ℚ} (hp : SafePrm c.prm) (hB0 : 0 ≤ B) (hB : Bounded c.T B) {s0 : Sim} {env : Env}
    (limit0 : ℤ) (hs : QuietOK c.T B s0) (hg : ∀ row < c.T.rows.length, GoodSteps c.T s0 row (env.run row).steps)
    (hcs : ∀ row < c.T.rows.length, CalmSteps c.T B s0 (env.run row).steps)
    (hc : (castInt (c.V.maxFillIn * c.T.nCols)).isSome = true) (conv : Bool) :
    ∀ (l : List Nat) (lp : Loop), (∀ row ∈ l, NumOK c.T s0 row) → ∃ lp', rowLoop c c.T conv env s0 limit0 lp l = .ok lp' := by
  intro l
  induction l with
  | nil => intro lp _; exact ⟨lp, rfl⟩
  | cons row l ih =>
    intro lp hl
    have hn := hl row List.mem_cons_self
    have : ∃ lp1, rowStep c c.T conv env s0 limit0 lp row = .ok lp1 := by
      unfold rowStep
      split
      · obtain ⟨q, hq⟩ := oneRow_total (c := c.withLimit lp.limit) (run := env.run row) (again := env.again row)
          ⟨hp.strengthen, hp.extra, hp.select⟩ hB0 hB limit0 lp.extra hs hn (hg row hn.lt) (hcs row hn.lt) hc
        change oneRow (c.withLimit lp.limit) c.T s0 row (env.run row) (env.again row) limit0 lp.extra = _ at hq
        rw [hq]
        obtain ⟨_ | d, e, k⟩ := q <;> exact ⟨_, rfl⟩
      · exact ⟨_, rfl⟩
    obtain ⟨lp1, h1⟩ := this
    simp only [rowLoop, h1]
    exact ih lp1 (fun r hr => hl r (List.mem_cons_of_mem _ hr))

/-- C75: with the default settings for extra cuts, strengthening and selection, a call returns, provided a basis is
available, every column is basic or at a bound in every basis reported, the numbers are not astronomic, no ranged
rows are converted and the limit on the density fits an `int`. -/
theorem landp_returns_partial {st : State} {P : Prob} {env : Env} (cs : List RowCut) {B : ℚ} (hB0 : 0 ≤ B)
    (hB : Bounded P B) (hc : Contract st P env) (hconv : converts st P = false) (hb : env.basis = true)
    (h1 : st.prm.strengthen = true) (h2 : st.prm.generateExtraCuts = .none)
    (h3 : st.prm.pivotSelection ≠ .initialReducedCosts) (h4 : st.prm.normalization ≠ .weightRHS ∨ st.prm.rhsWeightType ≠ .dynamic)
    (h5 : 0 ≤ st.V.maxFillIn * P.nCols ∧ st.V.maxFillIn * P.nCols ≤ 2147483647)
    (hcalm : Calm P B env.stat env.view)
    (hcalms : ∀ row < P.rows.length, CalmSteps P B ⟨startNonBasics P env.stat, env.stat, env.view⟩ (env.run row).steps) :
    ∃ cs' st', generateCuts st P env cs = .ok (cs', st') := by
  have hT : work st P env = P := by unfold work; rw [hconv]; rfl
  have hcast : (castInt (st.V.maxFillIn * P.nCols)).isSome = true := by
    unfold castInt truncQ
    rw [if_pos h5.1]
    have a1 : 0 ≤ ⌊st.V.maxFillIn * (P.nCols : ℚ)⌋ := Int.floor_nonneg.2 h5.1
    have a2 : ⌊st.V.maxFillIn * (P.nCols : ℚ)⌋ ≤ 2147483647 := by
      have : (⌊st.V.maxFillIn * (P.nCols : ℚ)⌋ : ℚ) ≤ 2147483647 := le_trans (Int.floor_le _) h5.2
      exact_mod_cast this
    rw [if_pos ⟨by unfold intMin; omega, by unfold intMax; omega⟩]
    rfl
  unfold generateCuts
  split
  · exact ⟨_, _, rfl⟩
  · rw [hb]
    simp only [Bool.not_true, Bool.false_eq_true, if_false]
    have hstart := hc.start
    have hsteps := hc.steps
    rw [hT] at hstart hsteps
    have : ∃ cs', body st P env cs = .ok cs' := by
      unfold body
      dsimp only
      rw [hT]
      rw [if_neg (by tauto), if_neg (by rw [h2]; simp)]
      dsimp only
      have hp : SafePrm (callPrm st P env) := ⟨h1, h2, h3⟩
      obtain ⟨lp, hl⟩ := rowLoop_total (c := ⟨callPrm st P env, st.V, P, env.view.xlp⟩) (env := env) hp hB0 hB
        st.prm.pivotLimit ⟨start_ok hstart, hcalm⟩ hsteps hcalms hcast (converts st P)
        (candidates (callPrm st P env) P env.view)
        ⟨(callPrm st P env).pivotLimit, ⟨fun _ => none, 0⟩, cs, 0⟩ (fun row hrow => candidates_ok hrow)
      rw [hl]
      dsimp only
      have hoff : ∀ j, lp.extra.cut j = none :=
        (rowLoop_loop (n := 0) (cs := cs) _ _ _ ⟨⟨by simp [extras], by simp, fun _ _ => rfl⟩, List.prefix_refl _, by simp, by simp, by simp,
          fun d hd => Or.inl hd⟩ hl).extra.off h2
      rw [addExtra_none hoff]
      exact ⟨_, rfl⟩
    obtain ⟨cs', h⟩ := this
    rw [h]
    exact ⟨_, _, rfl⟩

end Cgl.LandP
