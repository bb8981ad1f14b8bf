import Verif.Gomory.Spec

/-!
# The inequality of one tableau row
-/

namespace Cgl.Gomory

theorem aboveInteger_frac {v : ℚ} (h : NearOk v) : aboveInteger v = v - ⌊v⌋ := by
  unfold aboveInteger
  split
  · rename_i hn
    have := h hn
    rw [this, Int.floor_intCast]; ring
  · rfl

theorem aboveInteger_of_ne {v : ℚ} (h : aboveInteger v ≠ 0) : aboveInteger v = v - ⌊v⌋ := by
  unfold aboveInteger at h ⊢
  split
  · rename_i hn; rw [if_pos hn] at h; exact absurd rfl h
  · rfl

theorem aboveInteger_nonneg (v : ℚ) : 0 ≤ aboveInteger v := by
  unfold aboveInteger
  split
  · exact le_refl _
  · exact frac_nonneg v

theorem coefficient_eq (f0 v : ℚ) (int : Bool) (h : int = true → NearOk v) :
    coefficient f0 int v = gmi f0 int v := by
  unfold coefficient gmi
  cases int
  · simp only [Bool.false_eq_true, if_false]
    rcases lt_trichotomy v 0 with h | h | h
    · rw [if_neg (not_lt.mpr h.le), if_pos h]; ring
    · subst h; simp
    · rw [if_pos h, if_neg (not_lt.mpr h.le)]
  · simp only [if_true]
    rw [aboveInteger_frac (h rfl)]
    split
    · ring
    · rfl

theorem gmi_zero (f0 : ℚ) (int : Bool) (h : 0 ≤ f0) : gmi f0 int 0 = 0 := by
  unfold gmi
  cases int
  · simp
  · simp [not_lt.mpr h]

theorem negIf_zero (b : Bool) : negIf b 0 = 0 := by cases b <;> simp [negIf]

/-- Distance of a column from its bound. -/
def tcol (P : Prob) (lp : Lp) (x : Nat → ℚ) (j : Nat) : ℚ :=
  if lp.colBasic j then 0 else if swap P lp j then P.colUpper j - x j else x j - P.colLower j

/-- Distance of a row activity from its bound. -/
def tslack (P : Prob) (lp : Lp) (x : Nat → ℚ) (i : Nat) : ℚ :=
  match rowType P lp i with
  | none => 0
  | some t => if t.upper then (P.row i).ub - P.activity x i else P.activity x i - (P.row i).lb

/-- By how much the inequality is satisfied at `x`. -/
def val (x : Nat → ℚ) (a : Acc) : ℚ := SVec.dot a.elems x - a.rhs

theorem colStep_val {P : Prob} {lp : Lp} {info : Info} {ρ : SVec} {f0 : ℚ} (h0 : 0 ≤ f0)
    (hn : NoTiny P lp info ρ f0) (x : Nat → ℚ)
    (hfix : ∀ j < P.nCols, P.colUpper j ≤ P.colLower j + testFixed info → tcol P lp x j = 0)
    (a : Acc) (j : Nat) (hj : j < P.nCols) :
    val x (colStep P lp info ρ f0 a j) = val x a +
      gmi f0 (P.isInt j) (negIf (swap P lp j) (tabEntry P ρ j)) * tcol P lp x j := by
  unfold colStep
  split
  · rename_i hb
    have hc := coefficient_eq f0 (negIf (swap P lp j) (tabEntry P ρ j)) (P.isInt j) (hn.near j hj hb.1)
    split
    · rename_i hz
      rw [hn.entry j hj hz, negIf_zero, gmi_zero _ _ h0]; ring
    · rw [← hc]
      have hcf := hn.coef j hj
      generalize coefficient f0 (P.isInt j) (negIf (swap P lp j) (tabEntry P ρ j)) = c at hcf
      dsimp only
      have e : tcol P lp x j = if swap P lp j then P.colUpper j - x j else x j - P.colLower j := by
        unfold tcol; rw [hb.1]; simp
      rw [e]
      split
      · unfold val
        rw [SVec.dot_append, SVec.dot_cons, SVec.dot_nil]
        dsimp only
        cases swap P lp j
        · simp only [negIf, Bool.false_eq_true, if_false]; ring
        · simp only [negIf, if_true]; ring
      · rename_i hs
        have : c = 0 := by
          apply hcf
          have e2 : |negIf (swap P lp j) c| = |c| := by
            cases swap P lp j
            · rfl
            · exact abs_neg c
          rw [e2] at hs
          exact not_le.mp hs
        subst this
        unfold val
        dsimp only
        rw [negIf_zero]; ring
  · rename_i hb
    have : tcol P lp x j = 0 := by
      by_cases h : lp.colBasic j = false
      · apply hfix j hj
        by_contra hc
        exact hb ⟨h, not_le.mp hc⟩
      · unfold tcol; simp only [Bool.not_eq_false] at h; rw [h]; simp
    rw [this]; ring

theorem colFold_val {P : Prob} {lp : Lp} {info : Info} {ρ : SVec} {f0 : ℚ} (h0 : 0 ≤ f0)
    (hn : NoTiny P lp info ρ f0) (x : Nat → ℚ)
    (hfix : ∀ j < P.nCols, P.colUpper j ≤ P.colLower j + testFixed info → tcol P lp x j = 0) :
    ∀ (l : List Nat) (a : Acc), (∀ j ∈ l, j < P.nCols) →
      val x (l.foldl (colStep P lp info ρ f0) a) = val x a + (l.map fun j =>
        gmi f0 (P.isInt j) (negIf (swap P lp j) (tabEntry P ρ j)) * tcol P lp x j).sum := by
  intro l
  induction l with
  | nil => intro a _; simp
  | cons j l ih =>
    intro a hl
    rw [List.foldl_cons, ih _ (fun k hk => hl k (List.mem_cons_of_mem _ hk)),
      colStep_val h0 hn x hfix a j (hl j List.mem_cons_self), List.map_cons, List.sum_cons]
    ring

theorem quickAdd_dot (x : Nat → ℚ) (j : Nat) (e : ℚ) :
    ∀ v : SVec, SVec.dot (quickAdd v j e) x = SVec.dot v x + e * x j := by
  intro v
  induction v with
  | nil =>
    unfold quickAdd
    split
    · rename_i h; rw [h]; simp
    · simp
  | cons p v ih =>
    obtain ⟨k, w⟩ := p
    unfold quickAdd
    split
    · rename_i h; subst h; simp only [SVec.dot_cons]; ring
    · simp only [SVec.dot_cons, ih]; ring

theorem quickFold_dot (x : Nat → ℚ) (c : ℚ) : ∀ (r v : SVec),
    SVec.dot (r.foldl (fun v q => quickAdd v q.1 (- c * q.2)) v) x = SVec.dot v x - c * SVec.dot r x := by
  intro r
  induction r with
  | nil => intro v; simp
  | cons q r ih =>
    intro v
    rw [List.foldl_cons, ih, quickAdd_dot, SVec.dot_cons]; ring

/-- Coefficient and integrality of the slack of a row. -/
def slackTerm (P : Prob) (lp : Lp) (x : Nat → ℚ) (p : Nat × ℚ) : Term :=
  match rowType P lp p.1 with
  | none => ⟨p.2, false, 0⟩
  | some t => ⟨negIf (! t.upper) p.2, t.int, tslack P lp x p.1⟩

theorem slackStep_val {P : Prob} {lp : Lp} {info : Info} {ρ : SVec} {f0 : ℚ} (h0 : 0 ≤ f0)
    (hn : NoTiny P lp info ρ f0) (x : Nat → ℚ) (a : Acc) (p : Nat × ℚ) (hp : p ∈ ρ) :
    val x (slackStep P lp f0 a p) = val x a +
      gmi f0 (slackTerm P lp x p).int (slackTerm P lp x p).a * (slackTerm P lp x p).t := by
  unfold slackStep slackTerm tslack
  rcases ht : rowType P lp p.1 with _ | t
  · simp
  · have hc := coefficient_eq f0 (negIf (! t.upper) p.2) t.int (hn.nearSlack p hp t ht)
    dsimp only
    rw [← hc]
    split
    · generalize coefficient f0 t.int (negIf (! t.upper) p.2) = c
      unfold val
      dsimp only
      rw [quickFold_dot]
      unfold Prob.activity
      cases t.upper
      · simp only [negIf, Bool.not_false, if_true, Bool.false_eq_true, if_false]; ring
      · simp only [negIf, Bool.not_true, if_true, Bool.false_eq_true, if_false]; ring
    · rename_i hs
      rw [hc, hn.slack p hp (not_le.mp hs), negIf_zero, gmi_zero _ _ h0]; ring

theorem slackFold_val {P : Prob} {lp : Lp} {info : Info} {ρ : SVec} {f0 : ℚ} (h0 : 0 ≤ f0)
    (hn : NoTiny P lp info ρ f0) (x : Nat → ℚ) : ∀ (l : SVec) (a : Acc), (∀ p ∈ l, p ∈ ρ) →
      val x (l.foldl (slackStep P lp f0) a) = val x a + (l.map fun p =>
        gmi f0 (slackTerm P lp x p).int (slackTerm P lp x p).a * (slackTerm P lp x p).t).sum := by
  intro l
  induction l with
  | nil => intro a _; simp
  | cons p l ih =>
    intro a hl
    rw [List.foldl_cons, ih _ fun q hq => hl q (List.mem_cons_of_mem _ hq),
      slackStep_val h0 hn x a p (hl p List.mem_cons_self), List.map_cons, List.sum_cons]
    ring

/-- The terms of the tableau row at a point. -/
def terms (P : Prob) (lp : Lp) (ρ : SVec) (x : Nat → ℚ) : List Term :=
  ((List.range P.nCols).map fun j => ⟨negIf (swap P lp j) (tabEntry P ρ j), P.isInt j, tcol P lp x j⟩) ++
    ρ.map (slackTerm P lp x)

theorem fullRow_val {P : Prob} {lp : Lp} {info : Info} {ρ : SVec} {f0 : ℚ} (h0 : 0 ≤ f0)
    (hn : NoTiny P lp info ρ f0) (x : Nat → ℚ)
    (hfix : ∀ j < P.nCols, P.colUpper j ≤ P.colLower j + testFixed info → tcol P lp x j = 0) :
    val x (fullRow P lp info ρ f0) = ((terms P lp ρ x).map fun e => gmi f0 e.int e.a * e.t).sum - f0 := by
  unfold fullRow colPart
  dsimp only
  rw [slackFold_val h0 hn x ρ _ fun _ h => h]
  have h1 := colFold_val h0 hn x hfix (List.range P.nCols) ⟨[], 0, 0⟩ fun j hj => List.mem_range.1 hj
  have e0 : val x ⟨[], 0, 0⟩ = 0 := by unfold val; simp
  rw [e0] at h1
  unfold terms
  rw [List.map_append, List.sum_append, List.map_map, List.map_map]
  unfold val at h1 ⊢
  dsimp only [Function.comp_def] at h1 ⊢
  linarith

/-! ### Facts about nonbasic columns and rows -/

theorem swap_spec {P : Prob} {lp : Lp} (hx : ExactData P) (hb : BasicSolution P lp) {j : Nat} (hj : j < P.nCols)
    (hnb : lp.colBasic j = false) :
    (swap P lp j = true ∧ lp.sol j = P.colUpper j ∧ P.colUpper j < P.inf) ∨
    (swap P lp j = false ∧ lp.sol j = P.colLower j ∧ - P.inf < P.colLower j) := by
  have hl : (0 : ℚ) < large := by unfold large; norm_num
  unfold swap
  rw [hnb]
  by_cases h : P.colUpper j - lp.sol j ≤ 1 / 10 ^ 7
  · left
    refine ⟨by simpa using h, ?_⟩
    rcases hb.col j hj hnb with h1 | h1
    · have he := hx.cols j hj (by rw [h1.1] at h; linarith)
      exact ⟨by rw [h1.1, he], (hx.range j hj (by rw [he]; linarith)).2⟩
    · exact h1
  · right
    refine ⟨by simpa using h, ?_⟩
    rcases hb.col j hj hnb with h1 | h1
    · exact h1
    · exfalso; apply h; rw [h1.1]; norm_num

theorem rowType_spec {P : Prob} {lp : Lp} (hx : ExactData P) (hb : BasicSolution P lp) {i : Nat}
    (hi : i < P.rows.length) (hnb : lp.rowBasic i = false) :
    (rowType P lp i = none ∧ (P.row i).lb = (P.row i).ub ∧ - P.inf < (P.row i).lb ∧ (P.row i).ub < P.inf) ∨
    (∃ t, rowType P lp i = some t ∧ t.upper = true ∧ P.activity lp.sol i = (P.row i).ub ∧ (P.row i).ub < P.inf ∧
      (t.int = true → intSlack P (P.row i) (P.row i).ub = true)) ∨
    (∃ t, rowType P lp i = some t ∧ t.upper = false ∧ P.activity lp.sol i = (P.row i).lb ∧ - P.inf < (P.row i).lb ∧
      (t.int = true → intSlack P (P.row i) (P.row i).lb = true)) := by
  unfold rowType
  by_cases h : (P.row i).lb + 1 / 10 ^ 7 < (P.row i).ub
  · right
    rw [if_pos ⟨hnb, h⟩]
    rcases hb.row i hi hnb with h1 | h1
    · right
      rw [if_neg (by rw [h1.1]; linarith), if_pos (by rw [h1.1]; norm_num)]
      exact ⟨_, rfl, rfl, h1.1, h1.2, id⟩
    · left
      rw [if_pos (by rw [h1.1]; norm_num)]
      exact ⟨_, rfl, rfl, h1.1, h1.2, id⟩
  · left
    rw [if_neg (by rintro ⟨_, h2⟩; exact h h2)]
    exact ⟨rfl, hx.rows i hi (not_lt.mp h)⟩

theorem IsInteger.sub' {a b : ℚ} (ha : IsInteger a) (hb : IsInteger b) : IsInteger (a - b) := by
  obtain ⟨m, rfl⟩ := ha; obtain ⟨n, rfl⟩ := hb; exact ⟨m - n, by push_cast; rfl⟩

theorem IsInteger.dot {P : Prob} {x : Nat → ℚ} (hf : P.Feasible x) : ∀ v : SVec,
    (∀ p ∈ v, p.1 < P.nCols ∧ P.isInt p.1 = true ∧ IsInteger p.2) → IsInteger (SVec.dot v x) := by
  intro v
  induction v with
  | nil => intro _; exact ⟨0, by simp⟩
  | cons p v ih =>
    intro h
    obtain ⟨h1, h2, m, hm⟩ := h p List.mem_cons_self
    obtain ⟨k, hk⟩ := ih fun q hq => h q (List.mem_cons_of_mem _ hq)
    obtain ⟨n, hn⟩ := hf.int p.1 h1 h2
    exact ⟨m * n + k, by rw [SVec.dot_cons, hk, hm, hn]; push_cast; ring⟩

theorem intSlack_activity {P : Prob} (hwf : P.WF) (hx : ExactData P) {i : Nat} (hi : i < P.rows.length) {rhs : ℚ}
    (h : intSlack P (P.row i) rhs = true) {x : Nat → ℚ} (hf : P.Feasible x) :
    aboveInteger rhs < 1 / 10 ^ 10 ∧ IsInteger (P.activity x i) := by
  unfold intSlack at h
  rw [Bool.and_eq_true, decide_eq_true_eq, List.all_eq_true] at h
  refine ⟨h.1, IsInteger.dot hf _ fun p hp => ?_⟩
  have h2 := h.2 p hp
  rw [Bool.and_eq_true] at h2
  refine ⟨hwf.cols _ (Prob.row_mem hi) p hp, h2.1, hx.coef i hi p hp h2.1 ?_⟩
  simpa using h2.2

theorem terms_eq {P : Prob} {lp : Lp} {ρ : SVec} (hwf : P.WF) (hx : ExactData P) (hb : BasicSolution P lp)
    (b : Nat) (hbn : b < P.nCols) (hbb : lp.colBasic b = true) (ht : TableauRow P lp b ρ)
    (x : Nat → ℚ) (hfix : ∀ i < P.rows.length, lp.rowBasic i = false → rowType P lp i = none →
      P.activity x i = P.activity lp.sol i) :
    x b + ((terms P lp ρ x).map fun e => e.a * e.t).sum = lp.sol b := by
  unfold terms
  rw [List.map_append, List.sum_append, List.map_map, List.map_map, list_range_sum]
  have e1 : ∀ j ∈ Finset.range P.nCols, ((fun e : Term => e.a * e.t) ∘ fun j =>
        ⟨negIf (swap P lp j) (tabEntry P ρ j), P.isInt j, tcol P lp x j⟩) j =
      (tabEntry P ρ j * x j - tabEntry P ρ j * lp.sol j) - (if j = b then x b - lp.sol b else 0) := by
    intro j hj
    rw [Finset.mem_range] at hj
    simp only [Function.comp]
    by_cases hjb : j = b
    · subst hjb
      unfold tcol
      rw [ht.pivot, hbb]; simp
    · rw [if_neg hjb]
      by_cases hc : lp.colBasic j = true
      · rw [ht.basic j hj hc hjb, negIf_zero]; ring
      · have hc : lp.colBasic j = false := by simpa using hc
        unfold tcol
        rcases swap_spec hx hb hj hc with h | h
        · rw [h.1, h.2.1, hc]; simp only [negIf, if_true, Bool.false_eq_true, if_false]; ring
        · rw [h.1, h.2.1, hc]; simp only [negIf, Bool.false_eq_true, if_false]; ring
  rw [Finset.sum_congr rfl e1, Finset.sum_sub_distrib, Finset.sum_sub_distrib, tab_sum hwf ρ ht.rows,
    tab_sum hwf ρ ht.rows, Finset.sum_ite_eq', if_pos (Finset.mem_range.mpr hbn)]
  have e2 : ∀ (l : SVec), (∀ p ∈ l, p ∈ ρ) → (l.map ((fun e : Term => e.a * e.t) ∘ slackTerm P lp x)).sum =
      (l.map fun p => p.2 * P.activity lp.sol p.1).sum - (l.map fun p => p.2 * P.activity x p.1).sum := by
    intro l
    induction l with
    | nil => intro _; simp
    | cons p l ih =>
      intro hl
      simp only [List.map_cons, List.sum_cons]
      rw [ih fun q hq => hl q (List.mem_cons_of_mem _ hq)]
      have hp := hl p List.mem_cons_self
      have hi := ht.rows p hp
      have : (slackTerm P lp x p).a * (slackTerm P lp x p).t =
          p.2 * P.activity lp.sol p.1 - p.2 * P.activity x p.1 := by
        by_cases hrb : lp.rowBasic p.1 = true
        · rw [ht.slack p hp hrb]
          unfold slackTerm
          split
          · simp
          · dsimp only; rw [ht.slack p hp hrb, negIf_zero]; ring
        · have hrb : lp.rowBasic p.1 = false := by simpa using hrb
          rcases rowType_spec hx hb hi hrb with h | ⟨t, h1, h2, h3, _⟩ | ⟨t, h1, h2, h3, _⟩
          · unfold slackTerm; rw [h.1, hfix p.1 hi hrb h.1]; ring
          · unfold slackTerm tslack
            rw [h1]; dsimp only; rw [h2, h3]
            simp only [negIf, Bool.not_true, Bool.false_eq_true, if_false, if_true]; ring
          · unfold slackTerm tslack
            rw [h1]; dsimp only; rw [h2, h3]
            simp only [negIf, Bool.not_false, Bool.false_eq_true, if_false, if_true]; ring
      simp only [Function.comp, this]; ring
  rw [e2 ρ fun _ h => h]
  ring

theorem tcol_sol {P : Prob} {lp : Lp} (hx : ExactData P) (hb : BasicSolution P lp) {j : Nat} (hj : j < P.nCols) :
    tcol P lp lp.sol j = 0 := by
  unfold tcol
  split
  · rfl
  · rename_i hc
    have hc : lp.colBasic j = false := by simpa using hc
    rcases swap_spec hx hb hj hc with h | h
    · rw [h.1, h.2.1]; simp
    · rw [h.1, h.2.1]; simp

theorem slackTerm_sol {P : Prob} {lp : Lp} (hx : ExactData P) (hb : BasicSolution P lp) {p : Nat × ℚ}
    (hi : p.1 < P.rows.length) : (slackTerm P lp lp.sol p).t = 0 := by
  by_cases hrb : lp.rowBasic p.1 = true
  · have : rowType P lp p.1 = none := by
      unfold rowType; rw [if_neg]; rintro ⟨h, _⟩; rw [hrb] at h; cases h
    unfold slackTerm; rw [this]
  · have hrb : lp.rowBasic p.1 = false := by simpa using hrb
    rcases rowType_spec hx hb hi hrb with h | ⟨t, h1, h2, h3, _⟩ | ⟨t, h1, h2, h3, _⟩
    · unfold slackTerm; rw [h.1]
    · unfold slackTerm tslack
      rw [h1]; dsimp only; rw [h2, h3]; simp
    · unfold slackTerm tslack
      rw [h1]; dsimp only; rw [h2, h3]; simp

theorem testFixed_le (info : Info) : testFixed info ≤ 1 / 10 ^ 7 := by
  unfold testFixed; split <;> norm_num

theorem feasible_fixed {P : Prob} (hx : ExactData P) {x : Nat → ℚ} (hf : P.Feasible x) {j : Nat} (hj : j < P.nCols)
    (h : P.colUpper j ≤ P.colLower j + 1 / 10 ^ 7) : x j = P.colUpper j ∧ x j = P.colLower j := by
  have hl : (0 : ℚ) < large := by unfold large; norm_num
  have he := hx.cols j hj h
  have hr := hx.range j hj (by rw [he]; linarith)
  have h1 := hf.upper j hj hr.2
  have h2 := hf.lower j hj hr.1
  rw [he] at h2 ⊢
  exact ⟨le_antisymm h1 h2, le_antisymm h1 h2⟩

theorem tcol_fixed {P : Prob} {lp : Lp} (hx : ExactData P) {x : Nat → ℚ} (hf : P.Feasible x) (info : Info) (j : Nat)
    (hj : j < P.nCols) (h : P.colUpper j ≤ P.colLower j + testFixed info) : tcol P lp x j = 0 := by
  have := feasible_fixed hx hf hj (le_trans h (by linarith [testFixed_le info]))
  unfold tcol
  split
  · rfl
  · split
    · rw [this.1]; ring
    · rw [this.2]; ring

theorem row_fixed {P : Prob} {lp : Lp} (hx : ExactData P) (hb : BasicSolution P lp) {x : Nat → ℚ} (hf : P.Feasible x)
    (i : Nat) (hi : i < P.rows.length) (hrb : lp.rowBasic i = false) (h : rowType P lp i = none) :
    P.activity x i = P.activity lp.sol i := by
  rcases rowType_spec hx hb hi hrb with h | ⟨t, h1, _⟩ | ⟨t, h1, _⟩
  · have hs := hf.rows _ (Prob.row_mem hi)
    have e1 : P.activity x i = (P.row i).ub := le_antisymm (hs.2 h.2.2.2) (h.2.1 ▸ hs.1 h.2.2.1)
    rw [e1]
    rcases hb.row i hi hrb with h2 | h2
    · rw [h2.1, h.2.1]
    · rw [h2.1]
  · rw [h] at h1; cases h1
  · rw [h] at h1; cases h1

theorem terms_ok {P : Prob} {lp : Lp} {ρ : SVec} (hwf : P.WF) (hx : ExactData P) (hb : BasicSolution P lp)
    (hρ : ∀ p ∈ ρ, p.1 < P.rows.length) {x : Nat → ℚ} (hf : P.Feasible x) :
    ∀ e ∈ terms P lp ρ x, 0 ≤ e.t ∧ (e.int = true → IsInteger e.t) := by
  intro e he
  rcases List.mem_append.1 he with h | h
  · obtain ⟨j, hj, rfl⟩ := List.mem_map.1 h
    have hj := List.mem_range.1 hj
    dsimp only
    unfold tcol
    split
    · exact ⟨le_refl _, fun _ => ⟨0, rfl⟩⟩
    · rename_i hc
      have hc : lp.colBasic j = false := by simpa using hc
      rcases swap_spec hx hb hj hc with h | h
      · rw [h.1, if_pos rfl]
        refine ⟨by have := hf.upper j hj h.2.2; linarith, fun hi => ?_⟩
        exact IsInteger.sub' (hx.intUpper j hj hi h.2.2) (hf.int j hj hi)
      · rw [h.1, if_neg (by simp)]
        refine ⟨by have := hf.lower j hj h.2.2; linarith, fun hi => ?_⟩
        exact IsInteger.sub' (hf.int j hj hi) (hx.intLower j hj hi h.2.2)
  · obtain ⟨p, hp, rfl⟩ := List.mem_map.1 h
    have hi := hρ p hp
    have hs := hf.rows _ (Prob.row_mem hi)
    by_cases hrb : lp.rowBasic p.1 = true
    · have : rowType P lp p.1 = none := by
        unfold rowType; rw [if_neg]; rintro ⟨h, _⟩; rw [hrb] at h; cases h
      unfold slackTerm; rw [this]
      exact ⟨le_refl _, fun h => by cases h⟩
    · have hrb : lp.rowBasic p.1 = false := by simpa using hrb
      rcases rowType_spec hx hb hi hrb with h | ⟨t, h1, h2, h3, h4, h5⟩ | ⟨t, h1, h2, h3, h4, h5⟩
      · unfold slackTerm; rw [h.1]
        exact ⟨le_refl _, fun h => by cases h⟩
      · unfold slackTerm tslack
        rw [h1]; dsimp only; rw [h2, if_pos rfl]
        refine ⟨by have := hs.2 h4; unfold Prob.activity; linarith, fun hint => ?_⟩
        have := intSlack_activity hwf hx hi (h5 hint) hf
        exact IsInteger.sub' (hx.rowUpper p.1 hi this.1) this.2
      · unfold slackTerm tslack
        rw [h1]; dsimp only; rw [h2, if_neg (by simp)]
        refine ⟨by have := hs.1 h4; unfold Prob.activity; linarith, fun hint => ?_⟩
        have := intSlack_activity hwf hx hi (h5 hint) hf
        exact IsInteger.sub' this.2 (hx.rowLower p.1 hi this.1)

/-- The inequality of a tableau row holds at every feasible point. -/
theorem fullRow_valid {P : Prob} {lp : Lp} {info : Info} {ρ : SVec} {b : Nat}
    (hwf : P.WF) (hx : ExactData P) (hb : BasicSolution P lp) (hbn : b < P.nCols) (hbb : lp.colBasic b = true)
    (hbi : P.isInt b = true) (ht : TableauRow P lp b ρ) (hf0 : aboveInteger (lp.sol b) ≠ 0)
    (hn : NoTiny P lp info ρ (aboveInteger (lp.sol b))) {x : Nat → ℚ} (hf : P.Feasible x) :
    (fullRow P lp info ρ (aboveInteger (lp.sol b))).rhs ≤
      SVec.dot (fullRow P lp info ρ (aboveInteger (lp.sol b))).elems x := by
  have hv := fullRow_val (aboveInteger_nonneg _) hn x (tcol_fixed hx hf info)
  have hok := terms_ok hwf hx hb ht.rows hf
  have hg := gmi_ineq (lp.sol b) (x b) (hf.int b hbn hbi) (terms P lp ρ x) (fun e he => (hok e he).1)
    (fun e he => (hok e he).2) (terms_eq hwf hx hb b hbn hbb ht x (row_fixed hx hb hf))
  unfold val at hv
  rw [aboveInteger_of_ne hf0] at hv ⊢
  linarith

/-- The inequality of a tableau row is violated by the LP solution, by the fractional part of the basic variable. -/
theorem fullRow_violated {P : Prob} {lp : Lp} {info : Info} {ρ : SVec} {f0 : ℚ} (h0 : 0 ≤ f0) (hx : ExactData P)
    (hb : BasicSolution P lp) (hρ : ∀ p ∈ ρ, p.1 < P.rows.length) (hn : NoTiny P lp info ρ f0) :
    SVec.dot (fullRow P lp info ρ f0).elems lp.sol = (fullRow P lp info ρ f0).rhs - f0 := by
  have hv := fullRow_val h0 hn lp.sol (fun j hj _ => tcol_sol hx hb hj)
  have hz : ((terms P lp ρ lp.sol).map fun e => gmi f0 e.int e.a * e.t).sum = 0 := by
    apply List.sum_eq_zero
    intro v hv
    obtain ⟨e, he, rfl⟩ := List.mem_map.1 hv
    have : e.t = 0 := by
      rcases List.mem_append.1 he with h | h
      · obtain ⟨j, hj, rfl⟩ := List.mem_map.1 h
        exact tcol_sol hx hb (List.mem_range.1 hj)
      · obtain ⟨p, hp, rfl⟩ := List.mem_map.1 h
        exact slackTerm_sol hx hb (hρ p hp)
    rw [this, mul_zero]
  unfold val at hv
  rw [hz] at hv
  linarith

end Cgl.Gomory
