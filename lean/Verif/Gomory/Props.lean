import Verif.Gomory.Clean

/-!
# C24 (CglGomory) and C48: the Gomory cut generator
-/

namespace Cgl.Gomory

/-- Settings that the setters of the generator accept. -/
structure GoodParams (prm : Prm) : Prop where
  away : 0 ≤ prm.away
  awayAtRoot : 0 ≤ prm.awayAtRoot

/-- The packed cut of the row of the basic column `b`, before cleaning. -/
def rawCut (P : Prob) (lp : Lp) (info : Info) (ρ : SVec) (b : Nat) : Packed :=
  packDown P lp.sol (fullRow P lp info ρ (aboveInteger (lp.sol b))).elems
    (- (fullRow P lp info ρ (aboveInteger (lp.sol b))).rhs) (aboveInteger (lp.sol b))

/-- The row of the inverse of the basis that belongs to `b` is right, and neither it nor its cut brings a tolerance
of the generator into play. -/
structure GoodRow (P : Prob) (lp : Lp) (info : Info) (ρ : SVec) (b : Nat) : Prop where
  tableau : TableauRow P lp b ρ
  tiny : NoTiny P lp info ρ (aboveInteger (lp.sol b))
  round : RoundOk P (rawCut P lp info ρ b).elems (rawCut P lp info ρ b).rhs

theorem away_nonneg {prm : Prm} (h : GoodParams prm) (info : Info) : 0 ≤ away prm info := by
  unfold away
  split
  · exact h.away
  · exact le_min h.away h.awayAtRoot

theorem candidates_spec {prm : Prm} {P : Prob} {lp : Lp} {info : Info} {b : Nat} (hp : GoodParams prm)
    (h : b ∈ candidates prm P lp info) :
    b < P.nCols ∧ lp.colBasic b = true ∧ P.isInt b = true ∧ aboveInteger (lp.sol b) ≠ 0 := by
  unfold candidates at h
  obtain ⟨h1, h2⟩ := List.mem_filter.1 h
  simp only [Bool.and_eq_true, decide_eq_true_eq] at h2
  have := away_nonneg hp info
  exact ⟨List.mem_range.1 h1, h2.1.1, h2.1.2, by linarith [h2.2.2] |> fun h : 0 < aboveInteger (lp.sol b) => h.ne'⟩

/-! ### Columns of the cut -/

theorem colStep_cols {P : Prob} {lp : Lp} {info : Info} {ρ : SVec} {f0 : ℚ} {a : Acc} {j : Nat} (hj : j < P.nCols)
    (h : Cols P a.elems) : Cols P (colStep P lp info ρ f0 a j).elems := by
  unfold colStep
  split
  · split
    · exact h
    · dsimp only
      split
      · intro p hp
        rcases List.mem_append.1 hp with h1 | h1
        · exact h p h1
        · rw [List.mem_singleton] at h1; rw [h1]; exact hj
      · exact h
  · exact h

theorem colFold_cols {P : Prob} {lp : Lp} {info : Info} {ρ : SVec} {f0 : ℚ} : ∀ (l : List Nat) (a : Acc),
    (∀ j ∈ l, j < P.nCols) → Cols P a.elems → Cols P (l.foldl (colStep P lp info ρ f0) a).elems := by
  intro l
  induction l with
  | nil => intro a _ h; exact h
  | cons j l ih =>
    intro a hl h
    rw [List.foldl_cons]
    exact ih _ (fun k hk => hl k (List.mem_cons_of_mem _ hk)) (colStep_cols (hl j List.mem_cons_self) h)

theorem quickAdd_cols {P : Prob} {j : Nat} (hj : j < P.nCols) (e : ℚ) : ∀ v : SVec, Cols P v → Cols P (quickAdd v j e) := by
  intro v
  induction v with
  | nil =>
    intro _
    unfold quickAdd
    split
    · intro p hp; cases hp
    · intro p hp; rw [List.mem_singleton] at hp; rw [hp]; exact hj
  | cons q v ih =>
    obtain ⟨k, w⟩ := q
    intro h
    have h1 : k < P.nCols := h (k, w) List.mem_cons_self
    unfold quickAdd
    split
    · intro p hp
      rcases List.mem_cons.1 hp with rfl | hp
      · exact h1
      · exact h p (List.mem_cons_of_mem _ hp)
    · intro p hp
      rcases List.mem_cons.1 hp with rfl | hp
      · exact h1
      · exact ih (fun q hq => h q (List.mem_cons_of_mem _ hq)) p hp

theorem quickFold_cols {P : Prob} (c : ℚ) : ∀ (r v : SVec), Cols P r → Cols P v →
    Cols P (r.foldl (fun v q => quickAdd v q.1 (- c * q.2)) v) := by
  intro r
  induction r with
  | nil => intro v _ h; exact h
  | cons q r ih =>
    intro v hr h
    rw [List.foldl_cons]
    exact ih _ (fun p hp => hr p (List.mem_cons_of_mem _ hp)) (quickAdd_cols (hr q List.mem_cons_self) _ v h)

theorem slackFold_cols {P : Prob} {lp : Lp} {f0 : ℚ} (hwf : P.WF) : ∀ (l : SVec) (a : Acc),
    (∀ p ∈ l, p.1 < P.rows.length) → Cols P a.elems → Cols P (l.foldl (slackStep P lp f0) a).elems := by
  intro l
  induction l with
  | nil => intro a _ h; exact h
  | cons p l ih =>
    intro a hl h
    rw [List.foldl_cons]
    refine ih _ (fun k hk => hl k (List.mem_cons_of_mem _ hk)) ?_
    unfold slackStep
    split
    · exact h
    · split
      · exact quickFold_cols _ _ _ (hwf.cols _ (Prob.row_mem (hl p List.mem_cons_self))) h
      · exact h

theorem rawCut_cols {P : Prob} {lp : Lp} {info : Info} {ρ : SVec} {b : Nat} (hwf : P.WF)
    (hρ : ∀ p ∈ ρ, p.1 < P.rows.length) : Cols P (rawCut P lp info ρ b).elems := by
  intro p hp
  have h1 := packDown_cols _ _ _ p hp
  have h2 : Cols P (fullRow P lp info ρ (aboveInteger (lp.sol b))).elems := by
    unfold fullRow
    refine slackFold_cols hwf ρ _ hρ ?_
    exact colFold_cols _ _ (fun j hj => List.mem_range.1 hj) (fun p hp => by cases hp)
  exact h2 (p.1, - p.2) h1

theorem fullRow_cols {P : Prob} {lp : Lp} {info : Info} {ρ : SVec} {f0 : ℚ} (hwf : P.WF)
    (hρ : ∀ p ∈ ρ, p.1 < P.rows.length) : Cols P (fullRow P lp info ρ f0).elems := by
  unfold fullRow
  refine slackFold_cols hwf ρ _ hρ ?_
  exact colFold_cols _ _ (fun j hj => List.mem_range.1 hj) (fun p hp => by cases hp)

/-- The packed cut of a tableau row holds at every feasible point. -/
theorem rawCut_le {P : Prob} {lp : Lp} {info : Info} {ρ : SVec} {b : Nat}
    (hwf : P.WF) (hx : ExactData P) (hb : BasicSolution P lp) (hbn : b < P.nCols) (hbb : lp.colBasic b = true)
    (hbi : P.isInt b = true) (hf0 : aboveInteger (lp.sol b) ≠ 0) (hg : GoodRow P lp info ρ b) {x : Nat → ℚ}
    (hf : P.Feasible x) : Le (rawCut P lp info ρ b).elems (rawCut P lp info ρ b).rhs x := by
  have h := fullRow_valid hwf hx hb hbn hbb hbi hg.tableau hf0 hg.tiny hf
  exact packDown_le hx.inf (fun j hj => ⟨hf.lower j hj, hf.upper j hj⟩) _ _ _ (fullRow_cols hwf hg.tableau.rows)
    hg.tiny.cut (by linarith)

theorem sublist_mem_fst {v w : SVec} (h : (v.map Prod.fst).Sublist (w.map Prod.fst)) {p : Nat × ℚ} (hp : p ∈ v) :
    ∃ q ∈ w, q.1 = p.1 := by
  have := h.subset (List.mem_map.2 ⟨p, hp, rfl⟩)
  obtain ⟨q, hq, e⟩ := List.mem_map.1 this
  exact ⟨q, hq, e⟩

theorem box_sublist {P : Prob} {v w : SVec} (h : (v.map Prod.fst).Sublist (w.map Prod.fst)) : box P v ≤ box P w := by
  have e : ∀ v : SVec, box P v = ((v.map Prod.fst).map fun j => max |P.colLower j| |P.colUpper j|).sum := by
    intro v; unfold box; rw [List.map_map]; rfl
  rw [e, e]
  refine (h.map _).sum_le_sum ?_
  intro q hq
  obtain ⟨j, _, rfl⟩ := List.mem_map.1 hq
  exact le_trans (abs_nonneg _) (le_max_left _ _)

theorem tols_nonneg (info : Info) : 0 ≤ (tols info).t6 ∧ 0 ≤ (tols info).t9 := by
  unfold tols; split <;> norm_num

/-- An outcome holds at `x`. -/
def Out.Holds (x : Nat → ℚ) : Out → Prop
  | .nothing => True
  | .undef => True
  | .row c => c.Sat x
  | .second c => c.Sat x
  | .col c => c.Sat x

theorem sat_of_le {x : Nat → ℚ} {v : SVec} {b : ℚ} (h : Le v b x) : RowCut.Sat ⟨- dblMax, b, v⟩ x :=
  ⟨fun hlt => absurd hlt (lt_irrefl _), fun _ => h⟩

/-- Whatever is made of a cut that holds at a feasible point holds there too. -/
theorem finish_holds {P : Prob} {lp : Lp} {info : Info} {sqrt : ℚ → ℚ} {lim : ℤ} {test s : ℚ} {n : Nat} {acc : Bool}
    {v : SVec} {rhs : ℚ} (hsq : ∀ q, 0 < q → 0 < sqrt q) (hx : ExactData P)
    (hfixed : info.global = true → ∀ j < P.nCols, P.colLower j ≠ P.colUpper j) (hs : 0 ≤ s)
    (hc : Cols P v) (hr : RoundOk P v rhs) {x : Nat → ℚ} (hf : P.Feasible x) (hrep : Representable P x)
    (hle : Le v rhs x) : (finish P lp info sqrt lim test s n acc v rhs).Holds x := by
  unfold finish
  split
  · exact trivial
  · rename_i w hw
    dsimp only
    have hw1 := rational_le hc hr hw hf hle
    obtain ⟨hw2, hw3⟩ := rational_cols hw
    have hw4 := relax_le (n := n) hs hw1
    obtain ⟨e1, e2⟩ := relax_elems s n w
    split
    · exact trivial
    · rename_i t ht
      have hcw : Cols P (relax s n w).elems := by
        intro p hp
        rw [e1] at hp
        obtain ⟨q, hq, he⟩ := sublist_mem_fst (w := v) (by rw [hw2]) hp
        rw [← he]; exact hc q hq
      have ht1 := takeTiny_le hx hf _ _ _ _ hcw ht
      obtain ⟨ht2, ht3⟩ := takeTiny_cols _ _ _ _ ht
      have hsub : (t.elems.map Prod.fst).Sublist (v.map Prod.fst) := by
        rw [← hw2, ← e1]; exact ht2.map _
      have ht4 : Le t.elems t.rhs x := by unfold Le at hw4 ⊢; linarith
      split
      · exact trivial
      · rename_i hbad
        have hbad : badRange t = false := by simpa using hbad
        split
        · exact trivial
        · have hsc := scale_le hsq ht hbad ht4
          have hsub2 : ((scale sqrt t).elems.map Prod.fst).Sublist (v.map Prod.fst) := by rw [scale_cols]; exact hsub
          split
          · have hup := upper_ge (test := test) (tols_nonneg info).1 (tols_nonneg info).2 (scale sqrt t)
            have hle2 : Le (scale sqrt t).elems (upper (tols info).t6 (tols info).t9 test (scale sqrt t)) x :=
              le_trans hsc hup
            generalize upper (tols info).t6 (tols info).t9 test (scale sqrt t) = b at hle2
            split
            · have hcs : Cols P (scale sqrt t).elems := by
                intro p hp
                obtain ⟨q, hq, he⟩ := sublist_mem_fst hsub2 hp
                rw [← he]; exact hc q hq
              have hfin : Le (if (relax s n w).cleaned then ((scale sqrt t).elems, b) else tidy P (scale sqrt t).elems b).1
                  (if (relax s n w).cleaned then ((scale sqrt t).elems, b) else tidy P (scale sqrt t).elems b).2 x ∧
                  Cols P (if (relax s n w).cleaned then ((scale sqrt t).elems, b) else tidy P (scale sqrt t).elems b).1 := by
                split
                · exact ⟨hle2, hcs⟩
                · rename_i hcl
                  rw [e2] at hcl
                  have h0 := hw3 (by simpa using hcl)
                  rcases hr with ⟨_, r2, r3⟩ | ⟨r1, _⟩
                  · refine ⟨tidy_le hx hf hcs ?_ (le_trans (box_sublist hsub2) r2) hle2, ?_⟩
                    · intro p hp
                      obtain ⟨q, hq, he⟩ := sublist_mem_fst hsub2 hp
                      obtain ⟨q', hq', he'⟩ := sublist_mem_fst (w := t.elems) (by rw [scale_cols]) hp
                      refine ⟨he ▸ nonInteger_zero h0 q hq, ?_, he ▸ r3 q hq⟩
                      rcases (ht3 q' hq').2 with h5 | h5
                      · rw [← he']; exact h5
                      · exact fun h => hfixed h5 p.1 (hcs p hp) h.symm
                    · unfold tidy
                      split
                      · intro p hp
                        obtain ⟨q, hq, rfl⟩ := List.mem_map.1 hp
                        exact hcs q hq
                      · exact hcs
                  · exact absurd h0 r1
              generalize (if (relax s n w).cleaned then ((scale sqrt t).elems, b) else tidy P (scale sqrt t).elems b) = c at hfin
              split
              · exact trivial
              · rename_i j e he
                obtain ⟨h1, h2⟩ := hfin
                unfold Le at h1
                rw [he] at h1 h2
                rw [SVec.dot_cons, SVec.dot_nil, add_zero] at h1
                obtain ⟨s1, s2, s3⟩ := singleton_spec (h2 (j, e) List.mem_cons_self) hf hrep h1
                cases hs' : singleton P j e c.2 with
                | nothing => exact trivial
                | undef => exact trivial
                | row r => exact absurd hs' (fun h => s1 r h)
                | second r => exact absurd hs' (s2 r)
                | col r => exact s3 r hs'
              · split
                · exact trivial
                · exact sat_of_le hfin.1
            · exact sat_of_le hle2
          · exact trivial

theorem oneRow_holds {prm : Prm} {P : Prob} {lp : Lp} {info : Info} {sqrt : ℚ → ℚ} {lim : ℤ} {relaxation : ℚ} {ρ : SVec}
    {b : Nat} (hsq : ∀ q, 0 < q → 0 < sqrt q) (hwf : P.WF) (hx : ExactData P) (hb : BasicSolution P lp)
    (hfixed : info.global = true → ∀ j < P.nCols, P.colLower j ≠ P.colUpper j)
    (hbn : b < P.nCols) (hbb : lp.colBasic b = true) (hbi : P.isInt b = true) (hf0 : aboveInteger (lp.sol b) ≠ 0)
    (hg : GoodRow P lp info ρ b) {x : Nat → ℚ} (hf : P.Feasible x) (hrep : Representable P x) :
    (oneRow prm P lp info sqrt lim relaxation ρ b).Holds x := by
  unfold oneRow
  dsimp only
  split
  · exact trivial
  · split
    · exact trivial
    · generalize (if 99 / 100 < (tols info).t1 then (1 : ℚ) / 10 ^ 7 else _) = useTol
      split
      · exact finish_holds hsq hx hfixed (sumCoefficients_nonneg _ _) (rawCut_cols hwf hg.tableau.rows) hg.round hf hrep
          (rawCut_le hwf hx hb hbn hbb hbi hf0 hg hf)
      · exact trivial

/-- The collections hold at `x`, except for what was there before. -/
structure Good (x : Nat → ℚ) (rows : List RowCut) (cols : List ColCut) (s : State) : Prop where
  rows : ∀ c ∈ s.rows, c ∈ rows ∨ c.Sat x
  cols : ∀ c ∈ s.cols, c ∈ cols ∨ c.Sat x
  second : ∀ c ∈ s.second, c.Sat x

theorem record_good {x : Nat → ℚ} {rows : List RowCut} {cols : List ColCut} {s s' : State} {o : Out}
    (hs : Good x rows cols s) (ho : o.Holds x) (h : record s o = some s') : Good x rows cols s' := by
  cases o with
  | nothing => cases h; exact hs
  | undef => cases h
  | row c =>
    cases h
    refine ⟨fun d hd => ?_, hs.cols, hs.second⟩
    rcases mem_insertIfNotDuplicate.1 hd with h1 | h1
    · exact hs.rows d h1
    · rw [h1]; exact Or.inr ho
  | second c =>
    cases h
    refine ⟨hs.rows, hs.cols, fun d hd => ?_⟩
    rcases mem_insertIfNotDuplicate.1 hd with h1 | h1
    · exact hs.second d h1
    · rw [h1]; exact ho
  | col c =>
    cases h
    refine ⟨hs.rows, fun d hd => ?_, hs.second⟩
    rcases List.mem_append.1 hd with h1 | h1
    · exact hs.cols d h1
    · rw [List.mem_singleton] at h1; rw [h1]; exact Or.inr ho

theorem rowLoop_good {prm : Prm} {P : Prob} {lp : Lp} {info : Info} {sqrt : ℚ → ℚ} {lim : ℤ} {relaxation : ℚ}
    {binv : Nat → SVec} {x : Nat → ℚ} {rows : List RowCut} {cols : List ColCut} : ∀ (l : List Nat) (s s' : State),
    (∀ b ∈ l, (oneRow prm P lp info sqrt lim relaxation (binv b) b).Holds x) → Good x rows cols s →
    rowLoop prm P lp info sqrt lim relaxation binv l s = some s' → Good x rows cols s' := by
  intro l
  induction l with
  | nil => intro s s' _ hs h; unfold rowLoop at h; cases h; exact hs
  | cons b l ih =>
    intro s s' hl hs h
    unfold rowLoop at h
    split at h
    · cases h; exact hs
    · split at h
      · cases h
      · rename_i s1 h1
        exact ih s1 s' (fun k hk => hl k (List.mem_cons_of_mem _ hk)) (record_good hs (hl b List.mem_cons_self) h1) h

theorem addSecond_mem {c : RowCut} : ∀ (l : List RowCut) (els : ℤ) (rows : List RowCut),
    c ∈ addSecond l els rows → c ∈ rows ∨ c ∈ l := by
  intro l
  induction l with
  | nil => intro els rows h; exact Or.inl h
  | cons d l ih =>
    intro els rows h
    unfold addSecond at h
    split at h
    · rcases mem_insertIfNotDuplicate.1 h with h1 | h1
      · exact Or.inl h1
      · rw [h1]; exact Or.inr List.mem_cons_self
    · rcases ih _ _ h with h1 | h1
      · rcases mem_insertIfNotDuplicate.1 h1 with h2 | h2
        · exact Or.inl h2
        · rw [h2]; exact Or.inr List.mem_cons_self
      · exact Or.inr (List.mem_cons_of_mem _ h1)

theorem mem_cands {prm : Prm} {P : Prob} {lp : Lp} {info : Info} {b : Nat}
    (h : b ∈ (if info.sorted then sortCandidates lp (candidates prm P lp info) else candidates prm P lp info)) :
    b ∈ candidates prm P lp info := by
  split at h
  · unfold sortCandidates at h
    exact (List.perm_insertionSort _ _).subset h
  · exact h

/-- **C24 for CglGomory.**  Every row cut and every column cut a call adds is satisfied by every feasible point whose
values the solver can represent, whatever the condition number is and provided `std::sqrt` is positive, if the solver
reports a basic solution and the right rows of the basis inverse, and no tolerance of the generator comes into play.

Partial because of these provisos; `Witness.lean` shows that the claim is false without them. -/
theorem generateCuts_valid_partial {prm : Prm} {P : Prob} {lp : Lp} {info : Info} (sqrt : ℚ → ℚ)
    (hsq : ∀ q, 0 < q → 0 < sqrt q) (rows rows' : List RowCut) (cols cols' : List ColCut)
    (hp : GoodParams prm) (hwf : P.WF) (hx : ExactData P) (hb : BasicSolution P lp)
    (hfixed : info.global = true → ∀ j < P.nCols, P.colLower j ≠ P.colUpper j)
    (hrow : ∀ cond binv, lp.fact = some (cond, binv) → ∀ b ∈ candidates prm P lp info, GoodRow P lp info (binv b) b)
    (h : generateCuts prm P lp info sqrt rows cols = some (rows', cols')) :
    ∀ x, P.Feasible x → Representable P x →
      (∀ c ∈ rows', c ∈ rows ∨ c.Sat x) ∧ ∀ c ∈ cols', c ∈ cols ∨ c.Sat x := by
  intro x hf hrep
  unfold generateCuts at h
  split at h
  · cases h; exact ⟨fun c hc => Or.inl hc, fun c hc => Or.inl hc⟩
  · rename_i cond binv hfact
    dsimp only at h
    split at h
    · cases h
    · rename_i s hs
      have hgood : Good x rows cols s := by
        refine rowLoop_good _ _ _ ?_ ?_ hs
        · intro b hbm
          have hbm := mem_cands hbm
          obtain ⟨h1, h2, h3, h4⟩ := candidates_spec hp hbm
          exact oneRow_holds hsq hwf hx hb hfixed h1 h2 h3 h4 (hrow cond binv hfact b hbm) hf hrep
        · exact ⟨fun c hc => Or.inl hc, fun c hc => Or.inl hc, fun c hc => by cases hc⟩
      have hadd : ∀ e, ∀ c ∈ addSecond s.second e s.rows, c ∈ rows ∨ c.Sat x := by
        intro e c hc
        rcases addSecond_mem _ _ _ hc with h1 | h1
        · exact hgood.rows c h1
        · exact Or.inr (hgood.second c h1)
      generalize (if info.sorted then _ else _ : ℤ) = e at h
      split at h
      · split at h
        · cases h; exact ⟨hadd _, hgood.cols⟩
        · cases h; exact ⟨hgood.rows, hgood.cols⟩
      · cases h; exact ⟨hgood.rows, hgood.cols⟩

/-! ### Lengths and violations -/

/-- What every row cut of a candidate looks like: the infeasible cut without entries, or an upper bound on at most
`lim` entries which, unless it is kept as less accurate, the LP solution exceeds by 1e-7. -/
def Shape (lp : Lp) (lim : ℤ) (exact : Bool) (c : RowCut) : Prop :=
  c = ⟨1, 0, []⟩ ∨ (c.lb = - dblMax ∧ (c.row.length : ℤ) ≤ lim ∧ (exact = true →
    2 ≤ c.row.length ∧ (c.ub + 1 / 10 ^ 7 ≤ SVec.dot c.row lp.sol ∨ SVec.dot c.row lp.sol ≤ - dblMax - 1 / 10 ^ 7)))

/-- The shape of the row cuts in an outcome. -/
def Out.Shaped (lp : Lp) (lim : ℤ) : Out → Prop
  | .row c => Shape lp lim true c
  | .second c => Shape lp lim false c
  | _ => True

theorem scale_length (sqrt : ℚ → ℚ) (t : Taken) : (scale sqrt t).elems.length = t.elems.length := by
  have := congrArg List.length (scale_cols sqrt t)
  simpa using this

theorem singleton_shaped {P : Prob} {lp : Lp} {lim : ℤ} (j : Nat) (v b : ℚ) : (singleton P j v b).Shaped lp lim := by
  unfold singleton
  split
  · exact trivial
  · dsimp only
    generalize (if v < 0 then _ else P.colLower j) = lb'
    generalize (if v < 0 then P.colUpper j else _) = ub'
    split
    · exact Or.inl rfl
    · split
      · split <;> exact trivial
      · exact trivial

theorem finish_shaped {P : Prob} {lp : Lp} {info : Info} {sqrt : ℚ → ℚ} {lim : ℤ} {test s : ℚ} {n : Nat} {acc : Bool}
    {v : SVec} {rhs : ℚ} : (finish P lp info sqrt lim test s n acc v rhs).Shaped lp lim ∧
      ∀ c, finish P lp info sqrt lim test s n acc v rhs = .second c → acc = false := by
  unfold finish
  split
  · exact ⟨trivial, fun c h => by cases h⟩
  · rename_i w hw
    dsimp only
    split
    · exact ⟨trivial, fun c h => by cases h⟩
    · rename_i t ht
      split
      · exact ⟨trivial, fun c h => by cases h⟩
      · split
        · exact ⟨trivial, fun c h => by cases h⟩
        · rename_i hlim
          split
          · split
            · rename_i hacc
              have hlen : ((if (relax s n w).cleaned then ((scale sqrt t).elems,
                  upper (tols info).t6 (tols info).t9 test (scale sqrt t)) else tidy P (scale sqrt t).elems
                  (upper (tols info).t6 (tols info).t9 test (scale sqrt t))).1.length : ℤ) ≤ lim := by
                have e : ((scale sqrt t).elems.length : ℤ) ≤ lim := by rw [scale_length]; omega
                split
                · exact e
                · unfold tidy
                  split
                  · simpa using e
                  · exact e
              generalize (if (relax s n w).cleaned then ((scale sqrt t).elems,
                  upper (tols info).t6 (tols info).t9 test (scale sqrt t)) else tidy P (scale sqrt t).elems
                  (upper (tols info).t6 (tols info).t9 test (scale sqrt t))) = c at hlen
              split
              · exact ⟨trivial, fun c h => by cases h⟩
              · rename_i j e he
                refine ⟨singleton_shaped j e c.2, fun d hd => ?_⟩
                unfold singleton at hd
                dsimp only at hd
                generalize (if e < 0 then _ else P.colLower j) = lb' at hd
                generalize (if e < 0 then P.colUpper j else _) = ub' at hd
                repeat' split at hd
                all_goals cases hd
              · rename_i h1 h2
                split
                · exact ⟨trivial, fun c h => by cases h⟩
                · rename_i hv
                  refine ⟨Or.inr ⟨rfl, hlen, fun _ => ⟨?_, ?_⟩⟩, fun c h => by cases h⟩
                  · match hc : c.1, h1, h2 with
                    | [], h1, _ => exact absurd rfl h1
                    | [(j, e)], _, h2 => exact absurd rfl (h2 j e)
                    | _ :: _ :: l, _, _ => simp
                  · by_contra hn
                    push Not at hn
                    exact hv ⟨hn.1, hn.2⟩
            · rename_i hacc
              refine ⟨Or.inr ⟨rfl, ?_, fun h => by cases h⟩, fun c _ => by simpa using hacc⟩
              dsimp only
              rw [scale_length]; omega
          · exact ⟨trivial, fun c h => by cases h⟩

theorem oneRow_shaped {prm : Prm} {P : Prob} {lp : Lp} {info : Info} {sqrt : ℚ → ℚ} {lim : ℤ} {relaxation : ℚ} {ρ : SVec}
    {b : Nat} : (oneRow prm P lp info sqrt lim relaxation ρ b).Shaped lp lim ∧
      ∀ c, oneRow prm P lp info sqrt lim relaxation ρ b = .second c → info.sorted = true := by
  unfold oneRow
  dsimp only
  split
  · exact ⟨trivial, fun c h => by cases h⟩
  · split
    · exact ⟨trivial, fun c h => by cases h⟩
    · generalize (if 99 / 100 < (tols info).t1 then (1 : ℚ) / 10 ^ 7 else _) = useTol
      split
      · rename_i h
        refine ⟨finish_shaped.1, fun c hc => ?_⟩
        have h1 := finish_shaped.2 c hc
        rcases h.2 with h2 | h2
        · rw [h1] at h2; cases h2
        · exact (Bool.and_eq_true _ _ ▸ h2).2
      · exact ⟨trivial, fun c h => by cases h⟩

/-- The shape of the collections. -/
structure GoodShape (lp : Lp) (info : Info) (lim : ℤ) (rows : List RowCut) (s : State) : Prop where
  rows : ∀ c ∈ s.rows, c ∈ rows ∨ Shape lp lim true c
  second : ∀ c ∈ s.second, info.sorted = true ∧ Shape lp lim false c

theorem rowLoop_shape {prm : Prm} {P : Prob} {lp : Lp} {info : Info} {sqrt : ℚ → ℚ} {lim : ℤ} {relaxation : ℚ}
    {binv : Nat → SVec} {rows : List RowCut} : ∀ (l : List Nat) (s s' : State), GoodShape lp info lim rows s →
    rowLoop prm P lp info sqrt lim relaxation binv l s = some s' → GoodShape lp info lim rows s' := by
  intro l
  induction l with
  | nil => intro s s' hs h; unfold rowLoop at h; cases h; exact hs
  | cons b l ih =>
    intro s s' hs h
    unfold rowLoop at h
    split at h
    · cases h; exact hs
    · split at h
      · cases h
      · rename_i s1 h1
        refine ih s1 s' ?_ h
        have ho := oneRow_shaped (prm := prm) (P := P) (lp := lp) (info := info) (sqrt := sqrt) (lim := lim)
          (relaxation := relaxation) (ρ := binv b) (b := b)
        generalize oneRow prm P lp info sqrt lim relaxation (binv b) b = o at h1 ho
        cases o with
        | nothing => cases h1; exact hs
        | undef => cases h1
        | row c =>
          cases h1
          refine ⟨fun d hd => ?_, hs.second⟩
          rcases mem_insertIfNotDuplicate.1 hd with h2 | h2
          · exact hs.rows d h2
          · rw [h2]; exact Or.inr ho.1
        | second c =>
          cases h1
          refine ⟨hs.rows, fun d hd => ?_⟩
          rcases mem_insertIfNotDuplicate.1 hd with h2 | h2
          · exact hs.second d h2
          · rw [h2]; exact ⟨ho.2 c rfl, ho.1⟩
        | col c => cases h1; exact ⟨hs.rows, hs.second⟩

theorem shape_weaken {lp : Lp} {lim : ℤ} {e : Bool} {c : RowCut} (h : Shape lp lim e c) : Shape lp lim false c := by
  rcases h with h | ⟨h1, h2, _⟩
  · exact Or.inl h
  · exact Or.inr ⟨h1, h2, fun h => by cases h⟩

/-- Every new row cut has the shape above; without the sorted candidates of `options & 256` it is an exact one. -/
theorem generateCuts_shape {prm : Prm} {P : Prob} {lp : Lp} {info : Info} (sqrt : ℚ → ℚ) (rows rows' : List RowCut)
    (cols cols' : List ColCut) (h : generateCuts prm P lp info sqrt rows cols = some (rows', cols')) :
    ∀ c ∈ rows', c ∈ rows ∨ Shape lp (limit prm info P.nCols P.rows.length (numEls P)) (! info.sorted) c := by
  unfold generateCuts at h
  split at h
  · cases h; exact fun c hc => Or.inl hc
  · dsimp only at h
    split at h
    · cases h
    · rename_i s hs
      have hg := rowLoop_shape (rows := rows) _ _ _ ⟨fun c hc => Or.inl hc, fun c hc => (by cases hc)⟩ hs
      have hrows : ∀ c ∈ s.rows,
          c ∈ rows ∨ Shape lp (limit prm info P.nCols P.rows.length (numEls P)) (! info.sorted) c := by
        intro c hc
        rcases hg.rows c hc with h1 | h1
        · exact Or.inl h1
        · right
          cases info.sorted
          · exact h1
          · exact shape_weaken h1
      generalize (if info.sorted then _ else _ : ℤ) = e at h
      split at h
      · split at h
        · cases h
          intro c hc
          rcases addSecond_mem _ _ _ hc with h1 | h1
          · exact hrows c h1
          · obtain ⟨h2, h3⟩ := hg.second c h1
            rw [h2]
            exact Or.inr h3
        · cases h; exact hrows
      · cases h; exact hrows

/-- **C48.**  In the tree (`info.inTree`), with a limit between 1 and the number of columns, no new row cut has more
entries than the limit.  At the root the same holds for the limit at the root. -/
theorem generateCuts_limit {prm : Prm} {P : Prob} {lp : Lp} {info : Info} (sqrt : ℚ → ℚ) (rows rows' : List RowCut)
    (cols cols' : List ColCut) (h : generateCuts prm P lp info sqrt rows cols = some (rows', cols')) (L : ℤ)
    (hL : 0 < L) (hn : L < P.nCols) (hset : if info.inTree then prm.limit = L else prm.limitAtRoot = L)
    (hsort : info.sorted = false) : ∀ c ∈ rows', c ∈ rows ∨ (c.row.length : ℤ) ≤ L := by
  intro c hc
  rcases generateCuts_shape sqrt rows rows' cols cols' h c hc with h1 | h1
  · exact Or.inl h1
  · right
    have e : limit prm info P.nCols P.rows.length (numEls P) = L := by
      unfold limit limit0
      rw [hsort]
      cases hi : info.inTree
      · rw [hi] at hset
        have hset : prm.limitAtRoot = L := hset
        simp only [hset, hL.ne', if_false, if_true, reduceCtorEq, false_and]
        rw [if_neg]
        · repeat' split
          all_goals rfl
        · repeat' split
          all_goals omega
      · rw [hi] at hset
        have hset : prm.limit = L := hset
        simp only [hset, hL.ne', if_false, reduceCtorEq, false_and]
        rw [if_neg (by omega)]
    rw [e] at h1
    rcases h1 with h1 | ⟨_, h1, _⟩
    · rw [h1]; simpa using hL.le
    · exact h1

/-- **C48.**  Without sorted candidates every new row cut is the infeasible cut 1 ≤ 0, or is violated by more than 0 at
the LP solution (unless the value there is not a `double`). -/
theorem generateCuts_violated {prm : Prm} {P : Prob} {lp : Lp} {info : Info} (sqrt : ℚ → ℚ) (rows rows' : List RowCut)
    (cols cols' : List ColCut) (h : generateCuts prm P lp info sqrt rows cols = some (rows', cols'))
    (hsort : info.sorted = false) : ∀ c ∈ rows', c ∈ rows ∨ c = ⟨1, 0, []⟩ ∨
      c.ub + 1 / 10 ^ 7 ≤ SVec.dot c.row lp.sol ∨ SVec.dot c.row lp.sol ≤ - dblMax - 1 / 10 ^ 7 := by
  intro c hc
  rcases generateCuts_shape sqrt rows rows' cols cols' h c hc with h1 | h1 | ⟨_, _, h1⟩
  · exact Or.inl h1
  · exact Or.inr (Or.inl h1)
  · rw [hsort] at h1; exact Or.inr (Or.inr (h1 rfl).2)

end Cgl.Gomory
