import Verif.ResCap.Lemmas

/-!
# Property theorems about `CglResidualCapacity` (C20 and the effect of its cached preprocessing, C37)
-/

namespace Cgl.ResCap

/-- No coefficient, lower bound or product of a coefficient and an upper bound lies inside the zero tolerance unless it
is zero, and two integer columns of a row have equal coefficients or coefficients further apart than the tolerance. -/
structure Clean (eps : ℚ) (P : Prob) : Prop where
  coef : ∀ r ∈ P.rows, ∀ p ∈ r.coefs, p.2 = 0 ∨ eps < |p.2|
  lower : ∀ j < P.nCols, 0 ≤ P.colLower j ∨ P.colLower j < -eps
  prod : ∀ r ∈ P.rows, ∀ p ∈ r.coefs, p.2 * P.colUpper p.1 = 0 ∨ eps < |p.2 * P.colUpper p.1|
  share : ∀ r ∈ P.rows, ∀ p ∈ r.coefs, ∀ q ∈ r.coefs, P.isInt p.1 = true → P.isInt q.1 = true → p.2 = q.2 ∨ eps < |p.2 - q.2|

instance (eps : ℚ) (P : Prob) : Decidable (Clean eps P) :=
  decidable_of_iff ((∀ r ∈ P.rows, ∀ p ∈ r.coefs, p.2 = 0 ∨ eps < |p.2|) ∧
      (∀ j < P.nCols, 0 ≤ P.colLower j ∨ P.colLower j < -eps) ∧
      (∀ r ∈ P.rows, ∀ p ∈ r.coefs, p.2 * P.colUpper p.1 = 0 ∨ eps < |p.2 * P.colUpper p.1|) ∧
      ∀ r ∈ P.rows, ∀ p ∈ r.coefs, ∀ q ∈ r.coefs, P.isInt p.1 = true → P.isInt q.1 = true → p.2 = q.2 ∨ eps < |p.2 - q.2|)
    ⟨fun h => ⟨h.1, h.2.1, h.2.2.1, h.2.2.2⟩, fun h => ⟨h.1, h.2, h.3, h.4⟩⟩

/-- `P` is `P0` with column bounds possibly tightened (a node below `P0` in a search tree). -/
structure Tightens (P0 P : Prob) : Prop where
  rows : P.rows = P0.rows
  nCols : P.nCols = P0.nCols
  inf : P.inf = P0.inf
  isInt : P.isInt = P0.isInt
  lower : ∀ j < P0.nCols, P0.colLower j ≤ P.colLower j
  upper : ∀ j < P0.nCols, P.colUpper j ≤ P0.colUpper j

theorem Tightens.refl (P : Prob) : Tightens P P := ⟨rfl, rfl, rfl, rfl, fun _ _ => le_refl _, fun _ _ => le_refl _⟩

theorem neg_dot (v : SVec) (x : Nat → ℚ) : (negCoefs v).dot x = -(v.dot x) := SVec.dot_neg v x

/-- The negated row of a clean problem behaves like a row. -/
theorem suit_of_treat {eps : ℚ} (heps : 0 ≤ eps) {P0 P : Prob} (ht : Tightens P0 P) (hc : Clean eps P) (hc0 : Clean eps P0)
    (hinf : 10 ^ 10 < P.inf) (hwf : P.WF) {r : Row} (hr : r ∈ P.rows) (sgn : Bool) {rhs : ℚ} {x : Nat → ℚ} (hx : P.Feasible x)
    (htr : treatAsLessThan eps P0 (if sgn then negCoefs r.coefs else r.coefs) = true)
    (hrow : (if sgn then negCoefs r.coefs else r.coefs).dot x ≤ rhs) :
    Suit eps P (if sgn then negCoefs r.coefs else r.coefs) rhs x := by
  obtain ⟨t1, t2⟩ := treat_spec heps htr
  have hmem : ∀ p ∈ (if sgn then negCoefs r.coefs else r.coefs), ∃ q ∈ r.coefs, q.1 = p.1 ∧ p.2 = if sgn then -q.2 else q.2 := by
    intro p hp
    cases sgn
    · exact ⟨p, by simpa using hp, rfl, rfl⟩
    · simp only [if_true, negCoefs, List.mem_map] at hp
      obtain ⟨q, hq, rfl⟩ := hp
      exact ⟨q, hq, rfl, by simp⟩
  refine ⟨heps, ?_, ?_, ?_, ?_, hrow⟩
  · intro p hp _
    obtain ⟨q, hq, _, e⟩ := hmem p hp
    have := hc.coef r hr q hq
    rw [lt_abs] at this
    cases sgn
    · simp only [Bool.false_eq_true, if_false] at e
      rw [e]
      rcases this with h | h | h
      · exact Or.inl h
      · exact Or.inr (Or.inl h)
      · exact Or.inr (Or.inr (by linarith))
    · simp only [if_true] at e
      rw [e]
      rcases this with h | h | h
      · exact Or.inl (by rw [h]; norm_num)
      · exact Or.inr (Or.inr (by linarith))
      · exact Or.inr (Or.inl (by linarith))
  · intro p hp
    unfold contEnts at hp
    simp only [List.mem_filter, decide_eq_true_eq] at hp
    obtain ⟨q, hq, e1, e⟩ := hmem p hp.1
    have hj : p.1 < P.nCols := by rw [← e1]; exact hwf.cols r hr q hq
    have hj0 : p.1 < P0.nCols := by rw [← ht.nCols]; exact hj
    obtain ⟨b1, b2⟩ := t1 p hp.1 (by rw [← ht.isInt]; exact hp.2)
    have l0 : 0 ≤ P.colLower p.1 := by
      have := ht.lower p.1 hj0
      rcases hc0.lower p.1 hj0 with h | h
      · linarith
      · linarith
    have u0 := ht.upper p.1 hj0
    have hl := hx.lower p.1 hj
    have hu := hx.upper p.1 hj
    unfold lbOk at hl
    unfold ubOk at hu
    refine ⟨le_trans l0 (hl (by linarith [pow_pos (by norm_num : (0:ℚ) < 10) 10])), hu (by linarith), ?_⟩
    have := hc.prod r hr q hq
    rw [lt_abs, e1] at this
    cases sgn
    · simp only [Bool.false_eq_true, if_false] at e
      rw [e]
      rcases this with h | h | h
      · left; rw [h]
      · left; linarith
      · right; linarith
    · simp only [if_true] at e
      rw [e]
      rcases this with h | h | h
      · left; linarith
      · right; linarith
      · left; linarith
  · obtain ⟨p0, hp0, hneg, hi0, hshare⟩ := t2
    rw [← ht.isInt] at hi0 hshare
    refine ⟨-p0.2, by linarith, ?_, ?_⟩
    · intro hemp
      have : p0 ∈ intEnts eps P (if sgn then negCoefs r.coefs else r.coefs) := by
        unfold intEnts
        simp only [List.mem_filter, decide_eq_true_eq]
        exact ⟨hp0, hneg, hi0⟩
      rw [hemp] at this
      cases this
    · intro p hp
      unfold intEnts at hp
      simp only [List.mem_filter, decide_eq_true_eq] at hp
      obtain ⟨q, hq, e1, e⟩ := hmem p hp.1
      obtain ⟨q0, hq0, e10, e0⟩ := hmem p0 hp0
      have hs := hc.share r hr q hq q0 hq0 (by rw [e1]; exact hp.2.2) (by rw [e10]; exact hi0)
      have hd := hshare p hp.1 hp.2.1 hp.2.2
      rw [neg_neg]
      cases sgn
      · simp only [Bool.false_eq_true, if_false] at e e0
        rw [e, e0] at hd ⊢
        exact hs.resolve_right (not_lt.mpr hd)
      · simp only [if_true] at e e0
        rw [e, e0] at hd ⊢
        have e3 : -q.2 - -q0.2 = -(q.2 - q0.2) := by ring
        rw [e3, abs_neg] at hd
        rw [hs.resolve_right (not_lt.mpr hd)]
  · intro p hp hi
    obtain ⟨q, hq, e1, _⟩ := hmem p hp
    exact hx.int p.1 (by rw [← e1]; exact hwf.cols r hr q hq) hi

/-- What a preprocessed entry says about its row. -/
def PreOk (eps : ℚ) (P0 : Prob) (t : RowType × ℚ) (r : Row) : Prop :=
  (t.1 = .L ∨ t.1 = .both → treatAsLessThan eps P0 r.coefs = true ∧ ∀ x, r.Sat P0.inf x → r.coefs.dot x ≤ t.2) ∧
  (t.1 = .G ∨ t.1 = .both → treatAsLessThan eps P0 (negCoefs r.coefs) = true ∧ ∀ x, r.Sat P0.inf x → t.2 ≤ r.coefs.dot x)

theorem resolve_spec (inf : ℚ) (r : Row) (a : ℚ) (x : Nat → ℚ) (hx : r.Sat inf x) :
    ((resolve inf r a).1 = .L ∨ (resolve inf r a).1 = .E → r.coefs.dot x ≤ (resolve inf r a).2) ∧
    ((resolve inf r a).1 = .G ∨ (resolve inf r a).1 = .E → (resolve inf r a).2 ≤ r.coefs.dot x) := by
  obtain ⟨hl, hu⟩ := hx
  unfold lbOk at hl
  unfold ubOk at hu
  unfold resolve Row.senseRhs
  dsimp only
  by_cases h1 : -inf < r.lb
  · by_cases h2 : r.ub < inf
    · by_cases h3 : r.ub = r.lb
      · have a1 := hl h1; have a2 := hu h2
        rw [h3] at h2 a2
        simp only [h1, h2, h3, if_true]
        exact ⟨fun _ => by simpa using a2, fun _ => by simpa using a1⟩
      · simp only [h1, h2, h3, if_true, if_false]
        have := hl h1; have := hu h2
        split
        · exact ⟨fun h => by simp at h, fun _ => by simpa⟩
        · exact ⟨fun h => by simpa, fun h => by simp at h⟩
    · simp only [h1, h2, if_true, if_false]
      exact ⟨fun h => by simp at h, fun _ => by simpa using hl h1⟩
  · by_cases h2 : r.ub < inf
    · simp only [h1, h2, if_true, if_false]
      exact ⟨fun _ => by simpa using hu h2, fun h => by simp at h⟩
    · simp only [h1, h2, if_false]
      exact ⟨fun h => by simp at h, fun h => by simp at h⟩

theorem preOk_one (eps : ℚ) (P0 : Prob) (r : Row) (a : ℚ) :
    PreOk eps P0 (determineRowType eps P0 r.coefs (resolve P0.inf r a).1, (resolve P0.inf r a).2) r := by
  have hs := fun x hx => resolve_spec P0.inf r a x hx
  generalize resolve P0.inf r a = sr at hs
  obtain ⟨s, v⟩ := sr
  unfold PreOk determineRowType
  by_cases hlen : r.coefs.length = 0
  · simp [hlen]
  · simp only [hlen, if_false]
    cases s
    · simp only
      split
      · rename_i h; exact ⟨fun _ => ⟨h, fun x hx => (hs x hx).1 (Or.inl rfl)⟩, by simp⟩
      · simp
    · simp only
      split
      · rename_i h; exact ⟨by simp, fun _ => ⟨h, fun x hx => (hs x hx).2 (Or.inl rfl)⟩⟩
      · simp
    · simp only
      split
      · rename_i h _; exact ⟨fun _ => ⟨h, fun x hx => (hs x hx).1 (Or.inr rfl)⟩, by simp⟩
      · rename_i h; exact ⟨by simp, fun _ => ⟨h, fun x hx => (hs x hx).2 (Or.inr rfl)⟩⟩
      · rename_i h1 h2
        exact ⟨fun _ => ⟨h1, fun x hx => (hs x hx).1 (Or.inr rfl)⟩, fun _ => ⟨h2, fun x hx => (hs x hx).2 (Or.inr rfl)⟩⟩
      · simp
    · simp
    · simp

theorem preprocess_ok (eps : ℚ) (P0 : Prob) (activity : Nat → ℚ) (rs : List Row) (i : Nat) :
    List.Forall₂ (PreOk eps P0) (preprocess eps P0 activity i rs) rs := by
  induction rs generalizing i with
  | nil => exact List.Forall₂.nil
  | cons r rs ih => exact List.Forall₂.cons (preOk_one eps P0 r _) (ih (i + 1))

theorem rowLoop_valid {eps tol : ℚ} (heps : 0 ≤ eps) {P0 P : Prob} (ht : Tightens P0 P) (hc : Clean eps P)
    (hc0 : Clean eps P0) (hinf : 10 ^ 10 < P.inf) (hwf : P.WF) (xlp : Nat → ℚ) (asG : Bool) (ts : List (RowType × ℚ))
    (rs : List Row) (hsub : ∀ r ∈ rs, r ∈ P.rows) (hpre : List.Forall₂ (PreOk eps P0) ts rs) (cs out : List RowCut)
    (h : rowLoop eps tol P xlp asG ts rs cs = some out) :
    ∀ c ∈ out, c ∈ cs ∨ (c.ValidIn P ∧ tol < c.row.dot xlp - c.ub) := by
  induction hpre generalizing cs with
  | nil => unfold rowLoop at h; simp only [Option.some.injEq] at h; subst h; exact fun c hc => Or.inl hc
  | @cons t r ts rs hpr _ ih =>
    have ih' := ih (fun q hq => hsub q (List.mem_cons_of_mem _ hq))
    have hr := hsub r (List.mem_cons_self ..)
    unfold rowLoop at h
    dsimp only at h
    by_cases hit : (if asG = true then t.1 = .G ∨ t.1 = .both else t.1 = .L ∨ t.1 = .both)
    · rw [if_pos hit] at h
      generalize hres : (if asG = true then resCapSeparation eps tol P (negCoefs r.coefs) (-t.2) xlp
        else resCapSeparation eps tol P r.coefs t.2 xlp) = res at h
      cases res with
      | none => exact ih' cs h
      | some c0 =>
        intro c hcm
        rcases ih' _ h c hcm with h1 | h1
        · rcases mem_insertIfNotDuplicate.mp h1 with h1 | rfl
          · exact Or.inl h1
          · right
            cases asG
            · simp only [Bool.false_eq_true, if_false] at hit hres
              obtain ⟨p1, p2⟩ := hpr.1 hit
              obtain ⟨e1, e2, e3⟩ := separation_valid hres
              refine ⟨fun x hx => ⟨fun hlt => ?_, fun _ => ?_⟩, e2⟩
              · rw [e1] at hlt; exact absurd hlt (lt_irrefl _)
              · apply e3
                have := hx.rows r hr
                rw [ht.inf] at this
                exact suit_of_treat heps ht hc hc0 hinf hwf hr false hx (by simpa using p1) (by simpa using p2 x this)
            · simp only [if_true] at hit hres
              obtain ⟨p1, p2⟩ := hpr.2 hit
              obtain ⟨e1, e2, e3⟩ := separation_valid hres
              refine ⟨fun x hx => ⟨fun hlt => ?_, fun _ => ?_⟩, e2⟩
              · rw [e1] at hlt; exact absurd hlt (lt_irrefl _)
              · apply e3
                have := hx.rows r hr
                rw [ht.inf] at this
                have := suit_of_treat heps ht hc hc0 hinf hwf hr true (rhs := -t.2) hx (by simpa using p1)
                  (by simp only [if_true]; rw [neg_dot]; linarith [p2 x this])
                simpa using this
        · exact Or.inr h1
    · rw [if_neg hit] at h
      exact ih' cs h

/-- The object holds preprocessing results computed, with its current tolerance, from `P0`. -/
def PreparedFrom (o : Obj) (P0 : Prob) : Prop := ∃ activity : Nat → ℚ, o.pre = preprocess o.eps P0 activity 0 P0.rows

theorem generateCuts_valid_core {o o' : Obj} (heps : 0 ≤ o.eps) {P0 P : Prob} (ht : Tightens P0 P) (hc : Clean o.eps P)
    (hc0 : Clean o.eps P0) (hinf : 10 ^ 10 < P.inf) (hwf : P.WF) {activity xlp : Nat → ℚ} {cs out : List RowCut}
    (hp : PreparedFrom (prepared o P activity) P0)
    (h : generateCuts o P activity xlp cs = some (o', out)) :
    ∀ c ∈ out, c ∈ cs ∨ (c.ValidIn P ∧ o.tol < c.row.dot xlp - c.ub) := by
  unfold generateCuts at h
  dsimp only at h
  have e1 : (prepared o P activity).eps = o.eps := by unfold prepared; split <;> rfl
  have e2 : (prepared o P activity).tol = o.tol := by unfold prepared; split <;> rfl
  obtain ⟨act, hpre⟩ := hp
  rw [hpre, e1, e2] at h
  have hf := preprocess_ok o.eps P0 act P0.rows 0
  rw [← ht.rows] at hf
  rw [← ht.rows] at h
  split at h
  · cases h
  · rename_i cs1 h1
    cases h2 : rowLoop o.eps o.tol P xlp true (preprocess o.eps P0 act 0 P.rows) P.rows cs1 with
    | none => rw [h2] at h; cases h
    | some cs2 =>
      rw [h2] at h
      simp only [Option.map_some, Option.some.injEq, Prod.mk.injEq] at h
      obtain ⟨_, rfl⟩ := h
      intro c hcm
      rcases rowLoop_valid heps ht hc hc0 hinf hwf xlp true _ _ (fun _ h => h) hf _ _ h2 c hcm with h3 | h3
      · exact rowLoop_valid heps ht hc hc0 hinf hwf xlp false _ _ (fun _ h => h) hf _ _ h1 c h3
      · exact Or.inr h3

/-- **C20.** The first call of `generateCuts` on an object (or any call after `refreshPrep()` or with
`setDoPreproc(1)`): every cut it adds is satisfied by every feasible point of the problem, and the LP solution violates
it by more than the tolerance. For every clean problem, LP solution, row activity and tolerances. -/
theorem generateCuts_valid (o o' : Obj) (heps : 0 ≤ o.eps) (P : Prob) (hwf : P.WF) (hinf : 10 ^ 10 < P.inf)
    (hc : Clean o.eps P) (activity xlp : Nat → ℚ) (cs out : List RowCut) (hnew : o.done = false ∨ o.doPreproc = 1)
    (h : generateCuts o P activity xlp cs = some (o', out)) :
    ∀ c ∈ out, c ∈ cs ∨ (c.ValidIn P ∧ o.tol < c.row.dot xlp - c.ub) := by
  refine generateCuts_valid_core heps (Tightens.refl P) hc hc hinf hwf ?_ h
  refine ⟨activity, ?_⟩
  unfold prepared
  rw [if_pos (by tauto)]

/-- One call in a history: the problem the solver holds, its row activities, its LP solution. -/
structure GCall where
  P : Prob
  activity : Nat → ℚ
  xlp : Nat → ℚ

/-- A sequence of `generateCuts` calls on one object, each with an empty cut collection: the cuts of each call. -/
def history : Obj → List GCall → Option (List (Prob × List RowCut))
  | _, [] => some []
  | o, c :: cs =>
    match generateCuts o c.P c.activity c.xlp [] with
    | none => none
    | some (o', out) => (history o' cs).map fun l => (c.P, out) :: l

theorem generateCuts_obj {o o' : Obj} {P : Prob} {activity xlp : Nat → ℚ} {cs out : List RowCut}
    (hg : generateCuts o P activity xlp cs = some (o', out)) : o' = prepared o P activity := by
  unfold generateCuts at hg
  dsimp only at hg
  split at hg
  · cases hg
  · rename_i cs1 _
    cases h2 : rowLoop (prepared o P activity).eps (prepared o P activity).tol P xlp true
        (prepared o P activity).pre P.rows cs1 with
    | none => rw [h2] at hg; cases hg
    | some _ =>
      rw [h2] at hg
      simp only [Option.map_some, Option.some.injEq, Prod.mk.injEq] at hg
      exact hg.1.symm

theorem history_valid_from {P0 : Prob} {eps : ℚ} (heps : 0 ≤ eps) (hc0 : Clean eps P0) (hinf : 10 ^ 10 < P0.inf) :
    ∀ (calls : List GCall) (o : Obj) (res : List (Prob × List RowCut)), o.eps = eps →
      (o.done = true → o.doPreproc ≠ 1 → PreparedFrom o P0) →
      (o.done = false → ∀ c ∈ calls.head?, c.P = P0) →
      (∀ c ∈ calls, Tightens P0 c.P ∧ Clean eps c.P ∧ c.P.WF) →
      history o calls = some res → ∀ r ∈ res, ∀ c ∈ r.2, c.ValidIn r.1
  | [], o, res, _, _, _, _, h => by
    unfold history at h; simp only [Option.some.injEq] at h; subst h; intro r hr; cases hr
  | g :: gs, o, res, he, hpre, hfirst, hall, h => by
    unfold history at h
    split at h
    · cases h
    · rename_i o' out hg
      obtain ⟨ht, hcl, hwf⟩ := hall g (List.mem_cons_self ..)
      cases hh : history o' gs with
      | none => rw [hh] at h; cases h
      | some l =>
        rw [hh] at h
        simp only [Option.map_some, Option.some.injEq] at h
        subst h
        have ho' := generateCuts_obj hg
        have hdone : o'.done = true := by
          rw [ho']; unfold prepared; split
          · rfl
          · rename_i hn; push Not at hn; simpa using hn.2
        have hP' : o'.doPreproc ≠ 1 → PreparedFrom o' P0 := by
          intro hn
          have hdp : o'.doPreproc = o.doPreproc := by rw [ho']; unfold prepared; split <;> rfl
          rw [hdp] at hn
          by_cases hd : o.done = true
          · have : o' = o := by
              rw [ho']; unfold prepared; rw [if_neg]; push Not; exact ⟨hn, by simp [hd]⟩
            rw [this]; exact hpre hd hn
          · have hd' : o.done = false := by simpa using hd
            have e := hfirst hd' g (by simp)
            rw [ho', ← e]
            refine ⟨g.activity, ?_⟩
            unfold prepared
            rw [if_pos (Or.inr hd')]
        intro r hr c hcm
        rcases List.mem_cons.mp hr with rfl | hr
        · have key : ∃ Q, Tightens Q g.P ∧ Clean o.eps Q ∧ PreparedFrom o' Q := by
            by_cases hdp : o.doPreproc = 1
            · refine ⟨g.P, Tightens.refl _, by rw [he]; exact hcl, g.activity, ?_⟩
              rw [ho']; unfold prepared; rw [if_pos (Or.inl hdp)]
            · refine ⟨P0, ht, by rw [he]; exact hc0, hP' ?_⟩
              rw [ho']; unfold prepared; split <;> exact hdp
          obtain ⟨Q, k1, k2, k3⟩ := key
          rw [ho'] at k3
          rcases generateCuts_valid_core (by rw [he]; exact heps) k1 (by rw [he]; exact hcl) k2 (by rw [ht.inf]; exact hinf) hwf k3 hg
            c hcm with h1 | h1
          · cases h1
          · exact h1.1
        · refine history_valid_from heps hc0 hinf gs o' l (by rw [ho', ← he]; unfold prepared; split <;> rfl)
            (fun _ => hP') (fun hf => by rw [hdone] at hf; cases hf) (fun c hc => hall c (List.mem_cons_of_mem _ hc)) hh r hr c hcm

/-- **C37.** Although a residual-capacity generator classifies the rows only once, in every sequence of `generateCuts`
calls on a fresh object whose problems differ from the first one by tightened column bounds only (as in a search tree),
every cut of every call is valid for the problem it was asked for. -/
theorem history_valid (o : Obj) (heps : 0 ≤ o.eps) (hnew : o.done = false) (g : GCall) (gs : List GCall)
    (hinf : 10 ^ 10 < g.P.inf) (hall : ∀ c ∈ g :: gs, Tightens g.P c.P ∧ Clean o.eps c.P ∧ c.P.WF)
    (res : List (Prob × List RowCut)) (h : history o (g :: gs) = some res) : ∀ r ∈ res, ∀ c ∈ r.2, c.ValidIn r.1 :=
  history_valid_from heps (hall g (List.mem_cons_self ..)).2.1 hinf (g :: gs) o res rfl
    (fun hd => by rw [hnew] at hd; cases hd) (fun _ c hc => by simp only [List.head?_cons, Option.mem_def, Option.some.injEq] at hc; rw [hc]) hall h

/-! ### Non-vacuity and limits -/

/-- Two continuous flows (at most 3 and 2) through two modules of capacity 2, one side an `<=` row and one a `>=` row. -/
def net (u : ℚ) : Prob := ⟨4, 10 ^ 20, fun _ => 0, fun j => if j = 0 then u else if j = 1 then 2 else 10,
  fun j => decide (2 ≤ j), [⟨-(10 ^ 20), 0, [(0, 1), (1, 1), (2, -2), (3, -2)]⟩, ⟨0, 10 ^ 20, [(0, -1), (2, 2), (3, 2)]⟩]⟩

/-- An LP solution with 3/2 modules and `x = (3, 2)`. -/
def netLp (j : Nat) : ℚ := if j = 0 then 3 else if j = 1 then 2 else if j = 2 then 3 / 2 else 0

/-- The cuts of one call as (right-hand side, row). -/
def cutsOf (r : Option (Obj × List RowCut)) : Option (List (ℚ × SVec)) := r.map fun q => q.2.map fun c => (c.ub, c.row)

example : cutsOf (generateCuts Obj.init (net 3) (fun _ => 0) netLp []) =
      some [(2, [(0, 1), (1, 1), (2, -1), (3, -1)]), (1, [(0, 1), (2, -1), (3, -1)])] ∧
    (net 3).WF ∧ Clean Obj.init.eps (net 3) ∧ (net 3).Feasible (fun j => if j = 0 then 3 else if j = 2 then 2 else 0) := by
  decide +kernel

/-- A history that meets the hypotheses of `history_valid`: the bound of the first flow drops from 3 to 2. -/
example : ((history Obj.init [⟨net 3, fun _ => 0, netLp⟩, ⟨net 1, fun _ => 0, netLp⟩]).map List.length = some 2) ∧
    Clean Obj.init.eps (net 1) ∧ (net 1).WF ∧ Tightens (net 3) (net 1) := by
  refine ⟨by decide +kernel, by decide +kernel, by decide +kernel, ⟨rfl, rfl, rfl, rfl, fun _ _ => le_refl _, ?_⟩⟩
  intro j _
  simp only [net]
  split
  · norm_num
  · exact le_refl _

/-- With `setDoPreproc(1)` no relation between the problems is needed. -/
theorem history_valid_always : ∀ (gs : List GCall) (o : Obj), 0 ≤ o.eps → o.doPreproc = 1 →
    (∀ c ∈ gs, 10 ^ 10 < c.P.inf ∧ Clean o.eps c.P ∧ c.P.WF) → ∀ res : List (Prob × List RowCut),
    history o gs = some res → ∀ r ∈ res, ∀ c ∈ r.2, c.ValidIn r.1
  | [], o, _, _, _, res, h => by
    unfold history at h; simp only [Option.some.injEq] at h; subst h; intro r hr; cases hr
  | g :: gs, o, heps, hp, hall, res, h => by
    unfold history at h
    split at h
    · cases h
    · rename_i o' out hg
      obtain ⟨hi, hcl, hwf⟩ := hall g (List.mem_cons_self ..)
      cases hh : history o' gs with
      | none => rw [hh] at h; cases h
      | some l =>
        rw [hh] at h
        simp only [Option.map_some, Option.some.injEq] at h
        subst h
        have ho' := generateCuts_obj hg
        have e1 : o'.eps = o.eps := by rw [ho']; unfold prepared; split <;> rfl
        have e2 : o'.doPreproc = o.doPreproc := by rw [ho']; unfold prepared; split <;> rfl
        intro r hr c hcm
        rcases List.mem_cons.mp hr with rfl | hr
        · rcases generateCuts_valid o o' heps g.P hwf hi hcl g.activity g.xlp [] out (Or.inr hp) hg c hcm with h1 | h1
          · cases h1
          · exact h1.1
        · exact history_valid_always gs o' (by rw [e1]; exact heps) (by rw [e2]; exact hp)
            (fun c hc => by rw [e1]; exact hall c (List.mem_cons_of_mem _ hc)) l hh r hr c hcm

/-- The same network after the right-hand side of the first row was raised from 0 to 10. -/
def net2 : Prob := { net 3 with rows := [⟨-(10 ^ 20), 10, [(0, 1), (1, 1), (2, -2), (3, -2)]⟩] }
/-- The network with its first row only. -/
def net1 : Prob := { net 3 with rows := [⟨-(10 ^ 20), 0, [(0, 1), (1, 1), (2, -2), (3, -2)]⟩] }

/-- Without the relation between the problems the claim of C37 is false of the code: the second call uses the right-hand
side remembered from the first one and cuts off a feasible point. -/
theorem stale_invalid : ∃ (P1 P2 : Prob) (xlp : Nat → ℚ) (x : Nat → ℚ) (c : RowCut), P1.WF ∧ P2.WF ∧ Clean Obj.init.eps P1 ∧
    Clean Obj.init.eps P2 ∧ ((history Obj.init [⟨P1, fun _ => 0, xlp⟩, ⟨P2, fun _ => 0, xlp⟩]).map fun l =>
      l.map Prod.snd) = some [[c], [c]] ∧ P2.Feasible x ∧ ¬ c.SatIn P2.inf x :=
  ⟨net1, net2, netLp, fun j => if j = 0 then 3 else if j = 1 then 2 else 0, ⟨-(10 ^ 20), 2, [(0, 1), (1, 1), (2, -1), (3, -1)]⟩,
    by decide +kernel, by decide +kernel, by decide +kernel, by decide +kernel, by decide +kernel, by decide +kernel,
    by decide +kernel⟩

/-- One flow with lower bound minus half the tolerance. -/
def netTiny : Prob := ⟨3, 10 ^ 20, fun j => if j = 1 then -(1 / (2 * 10 ^ 6)) else 0, fun j => if j = 2 then 10 else 3, fun j => decide (2 ≤ j),
  [⟨-(10 ^ 20), 0, [(0, 1), (1, 1), (2, -2)]⟩]⟩

/-- The cleanness hypothesis of C20 is needed: a lower bound inside the zero tolerance is taken for zero, and a feasible
point is cut off (by less than the tolerance). -/
theorem tolerance_invalid : ∃ (P : Prob) (xlp x : Nat → ℚ) (c : RowCut) (o' : Obj), P.WF ∧
    generateCuts Obj.init P (fun _ => 0) xlp [] = some (o', [c]) ∧ P.Feasible x ∧ ¬ c.SatIn P.inf x :=
  ⟨netTiny, fun j => if j = 0 then 3 else if j = 2 then 3 / 2 else 0,
    fun j => if j = 0 then 2 + 1 / (2 * 10 ^ 6) else if j = 1 then -(1 / (2 * 10 ^ 6)) else 1,
    ⟨-(10 ^ 20), 1, [(0, 1), (2, -1)]⟩, { Obj.init with done := true, pre := [(.L, 0)] },
    by decide +kernel, by decide +kernel, by decide +kernel, by decide +kernel⟩

/-! ### Setters -/

/-- `setDoPreproc` accepts -1, 0 and 1 only; a rejected call throws. -/
theorem setDoPreproc_spec (o : Obj) (v : Int) :
    (setDoPreproc o v = some { o with doPreproc := v } ↔ v = -1 ∨ v = 0 ∨ v = 1) ∧
    (setDoPreproc o v = none ↔ ¬ (v = -1 ∨ v = 0 ∨ v = 1)) := by
  unfold setDoPreproc
  split
  · rename_i h; simp; omega
  · rename_i h; simp; omega

end Cgl.ResCap
