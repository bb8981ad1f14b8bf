import Verif.ProbCliques.First

/-! # The cliques found by `createCliques` -/

namespace Cgl.ProbCliques

variable {P Q R : Prob}

/-! ### Rows whose columns did not change -/

/-- The columns of the row have the same bounds. -/
def Same (P Q : Prob) (r : Row) : Prop :=
  ∀ p ∈ r.coefs, Q.colLower p.1 = P.colLower p.1 ∧ Q.colUpper p.1 = P.colUpper p.1

theorem Same.fixed {r : Row} (h : Same P Q r) : ∀ p ∈ r.coefs, fixedCol Q p.1 = fixedCol P p.1 := by
  intro p hp
  unfold fixedCol
  rw [(h p hp).1, (h p hp).2]

theorem Same.plus {r : Row} (h : Same P Q r) : plus Q r = plus P r := by
  unfold ProbCliques.plus
  congr 1
  apply List.filter_congr
  intro p hp
  rw [h.fixed p hp]

theorem Same.minus {r : Row} (h : Same P Q r) : minus Q r = minus P r := by
  unfold ProbCliques.minus
  congr 1
  apply List.filter_congr
  intro p hp
  rw [h.fixed p hp]

theorem Same.fixedSum {r : Row} (h : Same P Q r) : fixedSum Q r = fixedSum P r := by
  unfold ProbCliques.fixedSum
  have e : (r.coefs.filter fun p => fixedCol Q p.1) = r.coefs.filter fun p => fixedCol P p.1 :=
    List.filter_congr fun p hp => h.fixed p hp
  rw [e]
  congr 1
  apply List.map_congr_left
  intro p hp
  rw [(h p (List.mem_filter.1 hp).1).1]

/-- A model between two models that agree on a row agrees with both. -/
theorem Same.middle {r : Row} (h : Same P Q r) (h1 : Derived P R) (h2 : Derived R Q) : Same P R r ∧ Same R Q r := by
  have key : ∀ p ∈ r.coefs, R.colLower p.1 = P.colLower p.1 ∧ R.colUpper p.1 = P.colUpper p.1 := by
    intro p hp
    rcases h1.cols p.1 with h' | ⟨-, a, b, c, d, e⟩
    · exact h'
    · exfalso
      rcases h2.cols p.1 with ⟨f, g⟩ | ⟨-, f, g, -⟩
      · rw [← f, ← g, (h p hp).1, (h p hp).2, a, b] at e
        norm_num at e
      · rw [f, g] at e
        norm_num at e
  refine ⟨key, fun p hp => ?_⟩
  rw [(key p hp).1, (key p hp).2]
  exact h p hp

/-! ### Fixing columns keeps cliques from lower bounds -/

theorem shift_list (h : Derived R Q) : ∀ {l : SVec}, Good R l → ∃ k : ℤ,
    ((l.filter fun p => fixedCol Q p.1).map fun p => Q.colLower p.1 * p.2).sum =
      ((l.filter fun p => fixedCol R p.1).map fun p => R.colLower p.1 * p.2).sum + k ∧
    (((l.filter fun p => !fixedCol Q p.1 && decide (0 < p.2)).length : Nat) : ℤ) + k ≤
      ((l.filter fun p => !fixedCol R p.1 && decide (0 < p.2)).length : Nat) := by
  intro l
  induction l with
  | nil => intro _; exact ⟨0, by simp⟩
  | cons p l ih =>
    intro hg
    obtain ⟨k, h1, h2⟩ := ih fun q hq => hg q (List.mem_cons_of_mem _ hq)
    rcases h.cols p.1 with ⟨a, b⟩ | ⟨-, a, b, c, -, d⟩
    · have hf : fixedCol Q p.1 = fixedCol R p.1 := by unfold fixedCol; rw [a, b]
      refine ⟨k, ?_, ?_⟩
      · simp only [List.filter_cons, hf]
        split
        · simp only [List.map_cons, List.sum_cons, h1, a]; ring
        · exact h1
      · simp only [List.filter_cons, hf]
        split
        · simp only [List.length_cons]; push_cast; push_cast at h2; linarith
        · exact h2
    · have hQ : fixedCol Q p.1 = true := by
        unfold fixedCol
        rw [decide_eq_true_eq]
        have : Q.colUpper p.1 - Q.colLower p.1 ≤ 0 := by linarith
        exact lt_of_le_of_lt this (by norm_num)
      have hR : fixedCol R p.1 = false := by
        unfold fixedCol
        rw [a, b]
        norm_num
      have ha := ((hg p List.mem_cons_self).resolve_left (by rw [hR]; decide)).2.2.2
      by_cases h0 : 0 < p.2
      · rw [abs_of_pos h0] at ha
        rcases c with c | c
        · refine ⟨k, ?_, ?_⟩
          · simp [hQ, hR, h1, c]
          · simp [hQ, hR, h0]; omega
        · refine ⟨k + 1, ?_, ?_⟩
          · simp [hQ, hR, h1, c, ha]; ring
          · simp [hQ, hR, h0]; omega
      · rw [abs_of_nonpos (not_lt.1 h0)] at ha
        have h0' : p.2 = -1 := by linarith
        rcases c with c | c
        · refine ⟨k, ?_, ?_⟩
          · simp [hQ, hR, h1, c]
          · simp [hQ, hR, h0]; omega
        · refine ⟨k - 1, ?_, ?_⟩
          · simp [hQ, hR, h1, c, h0']; ring
          · simp [hQ, hR, h0]; omega

theorem shift_row (h : Derived R Q) {r : Row} (hg : Good R r.coefs) : ∃ k : ℤ, fixedSum Q r = fixedSum R r + k ∧
    ((plus Q r).length : ℤ) + k ≤ (plus R r).length := by
  obtain ⟨k, h1, h2⟩ := shift_list h hg
  refine ⟨k, h1, ?_⟩
  unfold plus
  rw [List.length_map, List.length_map]
  exact h2

/-- The gap of the lower bound does not grow. -/
theorem lower_later (h : Derived R Q) {r : Row} (hg : Good R r.coefs) {i j : ℤ}
    (hi : intLower (r.lb - fixedSum R r) = .ok i) (hj : intLower (r.lb - fixedSum Q r) = .ok j)
    (hR : -10 ^ 6 < r.lb - fixedSum R r) (hQ : -10 ^ 6 < r.lb - fixedSum Q r) :
    ((plus Q r).length : ℤ) - j ≤ (plus R r).length - i := by
  obtain ⟨k, h1, h2⟩ := shift_row h hg
  have e1 := intLower_ok hi (intMin_le hR)
  have e2 := intLower_ok hj (intMin_le hQ)
  have : r.lb - fixedSum Q r - 1 / 10 ^ 5 = r.lb - fixedSum R r - 1 / 10 ^ 5 - (k : ℚ) := by rw [h1]; ring
  rw [this, Int.ceil_sub_intCast] at e2
  omega

/-! ### The cliques -/

theorem size_le (Q : Prob) (r : Row) : (plus Q r).length ≤ r.coefs.length ∧ (minus Q r).length ≤ r.coefs.length := by
  unfold plus minus
  rw [List.length_map, List.length_map]
  exact ⟨List.length_filter_le _ _, List.length_filter_le _ _⟩

/-- A row whose bounds are both finite keeps its columns. -/
def Kept (P Q : Prob) (r : Row) : Prop := r.lb ≤ -P.inf ∨ P.inf ≤ r.ub ∨ Same P Q r

theorem cliqueOf_holds (hM : Moderate P) (hW : P.WF) {minSize maxSize : ℤ} (h : Derived P Q) {r : Row}
    (ho : Origin P Q minSize maxSize r) (hk : Kept P Q r) {iU iL : ℤ} (hU : intUpper (r.ub - fixedSum Q r) = .ok iU)
    (hL : intLower (r.lb - fixedSum Q r) = .ok iL) {c : Clique}
    (hc : cliqueOf (rescan Q r.coefs (scan0 r)) iU iL = some c) {x : Nat → ℚ} (hx : Q.Feasible x) : c.Holds x := by
  obtain ⟨hr, R, jU, jL, d1, d2, hg, hjU, hjL, hst, -⟩ := ho
  have hgQ := hg.later d2
  obtain ⟨b1, b2⟩ := binary_at h hM hW hr hgQ hx
  have hlen := hM.length r hr
  obtain ⟨s1, s2⟩ := size_le Q r
  have hmx : intMin + intMax = -1 := by unfold intMin intMax; norm_num
  rw [rescan_row] at hc
  unfold cliqueOf at hc
  have hbin : ∀ one, ∀ e ∈ entriesOf one (plus Q r) (minus Q r), x e.col = 0 ∨ x e.col = 1 := by
    intro one e he
    rcases List.mem_append.1 he with he | he
    · obtain ⟨j, hj, rfl⟩ := List.mem_map.1 he
      exact b1 j hj
    · obtain ⟨j, hj, rfl⟩ := List.mem_map.1 he
      exact b2 j hj
  have habs := abs_le.1 (h.fixedSum_le hM hr)
  by_cases h1 : r.ub - fixedSum Q r < 10 ^ 6 ∧ iU = 1 - (minus Q r).length
  · have hre : restate ⟨r.ub - fixedSum Q r, r.lb - fixedSum Q r, plus Q r, minus Q r, true⟩ iU = 1 := by
      unfold restate; rw [if_pos h1]
    rw [hre, if_neg (by decide), if_pos rfl] at hc
    obtain rfl := Option.some.inj hc
    have hc1 := upper_count h hM hW hr hgQ hx (le_intMax h1.1) hU
    refine ⟨hbin true, ?_, ?_⟩
    · change (entriesOf true (plus Q r) (minus Q r)).countP _ ≤ 1
      omega
    · intro he
      have he : iL = iU := of_decide_eq_true he
      change (entriesOf true (plus Q r) (minus Q r)).countP _ = 1
      by_cases hlo : (intMin : ℚ) ≤ r.lb - fixedSum Q r
      · have := (lower_count h hM hW hr hgQ hx hlo hL).2
        omega
      · have := intLower_small hL (not_le.1 hlo)
        omega
  · by_cases h2 : -10 ^ 6 < r.lb - fixedSum Q r
    swap
    · have hre : restate ⟨r.ub - fixedSum Q r, r.lb - fixedSum Q r, plus Q r, minus Q r, true⟩ iU = 0 := by
        unfold restate; rw [if_neg h1, if_neg h2]
      rw [hre, if_pos rfl] at hc
      cases hc
    have hre : restate ⟨r.ub - fixedSum Q r, r.lb - fixedSum Q r, plus Q r, minus Q r, true⟩ iU = -1 := by
      unfold restate; rw [if_neg h1, if_pos h2]
    rw [hre, if_neg (by decide), if_neg (by decide)] at hc
    obtain rfl := Option.some.inj hc
    obtain ⟨hc1, -⟩ := lower_count h hM hW hr hgQ hx (intMin_le h2) hL
    rcases hk with hk | hk | hk
    · exfalso
      linarith [habs.1]
    · -- no upper bound: the clique was found from the lower bound
      have habsR := abs_le.1 (d1.fixedSum_le hM hr)
      have hup : (10 : ℚ) ^ 10 ≤ r.ub - fixedSum R r := by linarith [habsR.2]
      have hst' : lowerState (r.lb - fixedSum R r) jL (plus R r).length = -1 := by
        rcases hst with hst | hst
        · exfalso
          unfold upperState at hst
          rw [if_neg (by linarith)] at hst
          cases hst
        · exact hst.2
      rcases lowerState_cases (lo := r.lb - fixedSum R r) (iL := jL) (nP := (plus R r).length) with
        ⟨hlo, ⟨-, hi⟩ | ⟨f, -⟩ | ⟨f, -⟩⟩ | f
      · have := lower_later d2 hg hjL hL hlo h2
        refine ⟨hbin false, ?_, ?_⟩
        · change (entriesOf false (plus Q r) (minus Q r)).countP _ ≤ 1
          omega
        · intro he
          have he : iL = iU := of_decide_eq_true he
          have hbig := intUpper_big hU (by unfold intMax; push_cast; linarith [habs.2])
          exfalso
          omega
      · rw [f] at hst'; cases hst'
      · rw [f] at hst'; cases hst'
      · rw [f] at hst'; cases hst'
    · -- nothing changed
      obtain ⟨-, k2⟩ := hk.middle d1 d2
      rw [k2.fixedSum] at hU hL h1 h2
      rw [hU] at hjU
      rw [hL] at hjL
      obtain rfl := Except.ok.inj hjU
      obtain rfl := Except.ok.inj hjL
      rw [k2.minus] at h1
      rcases hst with hst | ⟨-, hst⟩
      · exfalso
        rcases upperState_cases (up := r.ub - fixedSum R r) (iU := iU) (nM := (minus R r).length) with
          ⟨hup, ⟨-, hi⟩ | ⟨f, -⟩ | ⟨f, -⟩⟩ | f
        · exact h1 ⟨hup, hi⟩
        · rw [f] at hst; cases hst
        · rw [f] at hst; cases hst
        · rw [f] at hst; cases hst
      · rcases lowerState_cases (lo := r.lb - fixedSum R r) (iL := iL) (nP := (plus R r).length) with
          ⟨hlo, ⟨-, hi⟩ | ⟨f, -⟩ | ⟨f, -⟩⟩ | f
        · rw [← k2.plus] at hi
          refine ⟨hbin false, ?_, ?_⟩
          · change (entriesOf false (plus Q r) (minus Q r)).countP _ ≤ 1
            omega
          · intro he
            have he : iL = iU := of_decide_eq_true he
            change (entriesOf false (plus Q r) (minus Q r)).countP _ = 1
            by_cases hup : r.ub - fixedSum Q r ≤ intMax
            · have := upper_count_ge h hM hW hr hgQ hx hup (by rw [k2.fixedSum]; exact hU)
              omega
            · have := intUpper_big hU (by rw [← k2.fixedSum]; exact not_le.1 hup)
              exfalso
              omega
        · rw [f] at hst; cases hst
        · rw [f] at hst; cases hst
        · rw [f] at hst; cases hst

/-! ### The loop -/

theorem secondRow_ok {r : Row} {c : Option Clique} (h : secondRow Q r = .ok c) : ∃ iU iL,
    intUpper (r.ub - fixedSum Q r) = .ok iU ∧ intLower (r.lb - fixedSum Q r) = .ok iL ∧
      c = cliqueOf (rescan Q r.coefs (scan0 r)) iU iL := by
  unfold secondRow at h
  rw [show (rescan Q r.coefs (scan0 r)).up = r.ub - fixedSum Q r by rw [rescan_row],
    show (rescan Q r.coefs (scan0 r)).lo = r.lb - fixedSum Q r by rw [rescan_row]] at h
  cases hU : intUpper (r.ub - fixedSum Q r) with
  | error e => rw [hU] at h; cases h
  | ok iU =>
    cases hL : intLower (r.lb - fixedSum Q r) with
    | error e => rw [hU, hL] at h; cases h
    | ok iL =>
      rw [hU, hL] at h
      exact ⟨iU, iL, rfl, rfl, (Except.ok.inj h).symm⟩

theorem secondLoop_ok : ∀ {l : List Row} {cs : List Clique}, secondLoop Q l = .ok cs →
    ∃ os : List (Option Clique), List.Forall₂ (fun r o => secondRow Q r = .ok o) l os ∧ cs = os.flatMap Option.toList := by
  intro l
  induction l with
  | nil => intro cs h; rw [secondLoop] at h; rw [← Except.ok.inj h]; exact ⟨[], List.Forall₂.nil, rfl⟩
  | cons r l ih =>
    intro cs h
    rw [secondLoop] at h
    cases h1 : secondRow Q r with
    | error e => rw [h1] at h; cases h
    | ok c =>
      cases h2 : secondLoop Q l with
      | error e => rw [h1, h2] at h; cases h
      | ok cs' =>
        rw [h1, h2] at h
        obtain ⟨os, f, rfl⟩ := ih h2
        exact ⟨c :: os, List.Forall₂.cons h1 f, by rw [List.flatMap_cons]; exact (Except.ok.inj h).symm⟩

theorem forall2_right {α β : Type*} {S : α → β → Prop} : ∀ {l : List α} {m : List β}, List.Forall₂ S l m → ∀ b ∈ m, ∃ a ∈ l, S a b := by
  intro l m h
  induction h with
  | nil => intro b hb; simp at hb
  | cons h1 _ ih =>
    intro b hb
    rcases List.mem_cons.1 hb with rfl | hb
    · exact ⟨_, List.mem_cons_self, h1⟩
    · obtain ⟨a, ha, hs⟩ := ih b hb
      exact ⟨a, List.mem_cons_of_mem _ ha, hs⟩

theorem forall2_left {α β : Type*} {S : α → β → Prop} : ∀ {l : List α} {m : List β}, List.Forall₂ S l m → ∀ a ∈ l, ∃ b ∈ m, S a b := by
  intro l m h
  induction h with
  | nil => intro b hb; simp at hb
  | cons h1 _ ih =>
    intro b hb
    rcases List.mem_cons.1 hb with rfl | hb
    · exact ⟨_, List.mem_cons_self, h1⟩
    · obtain ⟨a, ha, hs⟩ := ih b hb
      exact ⟨a, List.mem_cons_of_mem _ ha, hs⟩

/-- What a run of `createCliques` looks like. -/
theorem createCliques_run {minSize maxSize : ℤ} {P' : Prob} {T : Tables} (h : createCliques P minSize maxSize = .ok (P', T)) :
    ∃ s, firstLoop (fun j => decide (colType P j = 1)) minSize maxSize P.rows ⟨P, [], 0, false⟩ = .ok s ∧ s.P = P' ∧
      ((s.infeasible = true ∧ T = ⟨-99999, [], none⟩) ∨ (s.infeasible = false ∧ s.rows = [] ∧ T = ⟨0, [], none⟩) ∨
        (s.infeasible = false ∧ s.rows ≠ [] ∧ ∃ cs st, secondLoop P' s.rows = .ok cs ∧ columnLists P'.nCols s.entries cs = .ok st ∧
          T = ⟨cs.length, cs, some st⟩)) := by
  unfold createCliques at h
  cases hf : firstLoop (fun j => decide (colType P j = 1)) minSize maxSize P.rows ⟨P, [], 0, false⟩ with
  | error e => rw [hf] at h; cases h
  | ok s =>
    rw [hf] at h
    simp only [Except.bind] at h
    unfold secondPart at h
    refine ⟨s, rfl, ?_⟩
    by_cases h1 : s.infeasible = true
    · rw [if_pos h1] at h
      have h := Prod.mk.inj (Except.ok.inj h)
      exact ⟨h.1, Or.inl ⟨h1, h.2.symm⟩⟩
    · rw [if_neg h1] at h
      have h1 : s.infeasible = false := by simpa using h1
      by_cases h2 : s.rows = []
      · rw [if_pos h2] at h
        have h := Prod.mk.inj (Except.ok.inj h)
        exact ⟨h.1, Or.inr (Or.inl ⟨h1, h2, h.2.symm⟩)⟩
      · rw [if_neg h2] at h
        cases h3 : secondLoop s.P s.rows with
        | error e => rw [h3] at h; cases h
        | ok cs =>
          rw [h3] at h
          simp only [Except.bind] at h
          cases h4 : columnLists s.P.nCols s.entries cs with
          | error e => rw [h4] at h; cases h
          | ok st =>
            rw [h4] at h
            have h := Prod.mk.inj (Except.ok.inj h)
            obtain ⟨rfl, h5⟩ := h
            exact ⟨rfl, Or.inr (Or.inr ⟨h1, h2, cs, st, h3, h4, h5.symm⟩)⟩

theorem run_inv (hM : Moderate P) (hW : P.WF) {minSize maxSize : ℤ} {s : First}
    (h : firstLoop (fun j => decide (colType P j = 1)) minSize maxSize P.rows ⟨P, [], 0, false⟩ = .ok s) :
    Inv P minSize maxSize s :=
  firstLoop_inv hM hW (bin_int P) P.rows _ s (fun _ h => h) (inv_start P minSize maxSize) h

/-- `createCliques` may fix columns of the solver, but the feasible points of the model stay the same. -/
theorem createCliques_points (hM : Moderate P) (hW : P.WF) {minSize maxSize : ℤ} {P' : Prob} {T : Tables}
    (h : createCliques P minSize maxSize = .ok (P', T)) (x : Nat → ℚ) : P.Feasible x ↔ P'.Feasible x := by
  obtain ⟨s, hf, rfl, -⟩ := createCliques_run h
  have hi := run_inv hM hW hf
  exact ⟨hi.keeps x, hi.derived.relax hM⟩

/-- If `createCliques` says that the problem is infeasible (a negative number), it has no feasible point. -/
theorem createCliques_infeasible (hM : Moderate P) (hW : P.WF) {minSize maxSize : ℤ} {P' : Prob} {T : Tables}
    (h : createCliques P minSize maxSize = .ok (P', T)) (hn : T.number < 0) (x : Nat → ℚ) : ¬ P.Feasible x := by
  obtain ⟨s, hf, rfl, h1 | h1 | ⟨-, -, cs, st, -, -, h1⟩⟩ := createCliques_run h
  · exact (run_inv hM hW hf).infeasible h1.1 x
  · rw [h1.2.2] at hn; simp at hn
  · rw [h1] at hn; simp at hn; omega

/-- Only binary columns of the solver are changed, and they are fixed. -/
theorem createCliques_fixes (hM : Moderate P) (hW : P.WF) {minSize maxSize : ℤ} {P' : Prob} {T : Tables}
    (h : createCliques P minSize maxSize = .ok (P', T)) : P'.nCols = P.nCols ∧ P'.rows = P.rows ∧ P'.isInt = P.isInt ∧
      ∀ j, (P'.colLower j = P.colLower j ∧ P'.colUpper j = P.colUpper j) ∨
        (P.isInt j = true ∧ P.colLower j = 0 ∧ P.colUpper j = 1 ∧ P'.colUpper j ≤ P'.colLower j) := by
  obtain ⟨s, hf, rfl, -⟩ := createCliques_run h
  have hi := (run_inv hM hW hf).derived
  refine ⟨hi.nCols, hi.rows, hi.isInt, fun j => ?_⟩
  rcases hi.cols j with h' | ⟨a, b, c, -, -, d⟩
  · exact Or.inl h'
  · exact Or.inr ⟨a, b, c, d⟩

/-- Every clique holds at every feasible point: at most one entry is at its strong value, and exactly one if the clique is
marked as an equality.  Missing for the full statement: rows with two finite bounds that lose columns while the rows are
scanned; see `createCliques_fails`. -/
theorem createCliques_sound_partial (hM : Moderate P) (hW : P.WF) {minSize maxSize : ℤ} {P' : Prob} {T : Tables}
    (h : createCliques P minSize maxSize = .ok (P', T))
    (hk : ∀ r ∈ P.rows, r.lb ≤ -P.inf ∨ P.inf ≤ r.ub ∨
      ∀ p ∈ r.coefs, P'.colLower p.1 = P.colLower p.1 ∧ P'.colUpper p.1 = P.colUpper p.1)
    {x : Nat → ℚ} (hx : P.Feasible x) : ∀ c ∈ T.cliques, c.Holds x := by
  intro c hc
  obtain ⟨s, hf, rfl, h1 | h1 | ⟨-, -, cs, st, h1, -, h2⟩⟩ := createCliques_run h
  · rw [h1.2] at hc; simp at hc
  · rw [h1.2.2] at hc; simp at hc
  · rw [h2] at hc
    have hi := run_inv hM hW hf
    obtain ⟨os, f, rfl⟩ := secondLoop_ok h1
    obtain ⟨o, ho, hc⟩ := List.mem_flatMap.1 hc
    obtain ⟨r, hr, hs⟩ := forall2_right f o ho
    obtain ⟨iU, iL, hU, hL, rfl⟩ := secondRow_ok hs
    have hor := hi.rows r hr
    exact cliqueOf_holds hM hW hi.derived hor (hk r hor.mem) hU hL (Option.mem_toList.1 hc) (hi.keeps x hx)

end Cgl.ProbCliques
