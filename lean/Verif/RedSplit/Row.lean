import Verif.RedSplit.Spec

/-!
# The cut of one combination of tableau rows
-/

namespace Cgl.RedSplit

/-- Row `r` of the tableau over columns and slacks. -/
def tabv (P : Prob) (lp : Lp) (r j : Nat) : ℚ := if j < P.nCols then lp.z r j else lp.slack r (j - P.nCols)

theorem ext_col {P : Prob} {x : Nat → ℚ} {j : Nat} (h : j < P.nCols) : ext P x j = x j := if_pos h
theorem ext_slack (P : Prob) (x : Nat → ℚ) (i : Nat) : ext P x (P.nCols + i) = P.rhs i - P.activity x i := by
  unfold ext; rw [if_neg (by omega), Nat.add_sub_cancel_left]

theorem sum_all (P : Prob) (f : Nat → ℚ) : ∑ j ∈ Finset.range (P.nCols + P.rows.length), f j =
    ∑ j ∈ Finset.range P.nCols, f j + ∑ i ∈ Finset.range P.rows.length, f (P.nCols + i) :=
  Finset.sum_range_add _ _ _

/-- The row of the tableau vanishes on differences. -/
theorem tab_zero {P : Prob} (hwf : P.WF) {lp : Lp} {r : Nat} (ht : TableauRow P lp r) (x y : Nat → ℚ) :
    ∑ j ∈ Finset.range (P.nCols + P.rows.length), tabv P lp r j * (ext P x j - ext P y j) = 0 := by
  have key : ∀ w : Nat → ℚ, ∑ j ∈ Finset.range P.nCols, lp.z r j * w j =
      ∑ i ∈ Finset.range P.rows.length, lp.slack r i * P.activity w i := by
    intro w
    rw [Finset.sum_congr rfl fun j hj => by rw [ht.entry j (Finset.mem_range.mp hj), Finset.sum_mul], Finset.sum_comm]
    refine Finset.sum_congr rfl fun i hi => ?_
    unfold Prob.activity
    rw [dot_eq_sum _ P.nCols (hwf.cols _ (Prob.row_mem (Finset.mem_range.mp hi))) w, Finset.mul_sum]
    refine Finset.sum_congr rfl fun j _ => ?_
    change (P.row i).coef j * _ * _ = _ * ((P.row i).coef j * _)
    ring
  rw [sum_all]
  have e1 : ∑ j ∈ Finset.range P.nCols, tabv P lp r j * (ext P x j - ext P y j) =
      ∑ j ∈ Finset.range P.nCols, lp.z r j * x j - ∑ j ∈ Finset.range P.nCols, lp.z r j * y j := by
    rw [← Finset.sum_sub_distrib]
    refine Finset.sum_congr rfl fun j hj => ?_
    have hj := Finset.mem_range.mp hj
    unfold tabv
    rw [if_pos hj, ext_col hj, ext_col hj]; ring
  have e2 : ∑ i ∈ Finset.range P.rows.length, tabv P lp r (P.nCols + i) * (ext P x (P.nCols + i) - ext P y (P.nCols + i)) =
      - (∑ i ∈ Finset.range P.rows.length, lp.slack r i * P.activity x i) +
      ∑ i ∈ Finset.range P.rows.length, lp.slack r i * P.activity y i := by
    rw [← Finset.sum_neg_distrib, ← Finset.sum_add_distrib]
    refine Finset.sum_congr rfl fun i _ => ?_
    unfold tabv
    rw [if_neg (by omega), Nat.add_sub_cancel_left, ext_slack, ext_slack]; ring
  rw [e1, e2, key x, key y]; ring

/-- Rows that were picked. -/
structure Picked (prm : Prm) (P : Prob) (lp : Lp) (sel : List Nat) : Prop where
  lt : ∀ k < sel.length, sel.getD k 0 < P.rows.length
  col : ∀ k < sel.length, lp.basis (sel.getD k 0) < P.nCols
  frac : ∀ k < sel.length, isFrac prm P lp (lp.basis (sel.getD k 0)) = true

theorem isFrac_basic {prm : Prm} {P : Prob} {lp : Lp} {j : Nat} (h : isFrac prm P lp j = true) :
    lp.cstat j = 1 ∧ isInteger prm P j = true := by
  simp only [isFrac, Bool.and_eq_true, decide_eq_true_eq] at h
  exact ⟨h.1.1.1, h.1.1.2⟩

theorem nonBasic_iff {P : Prob} {lp : Lp} {j : Nat} : nonBasic P lp j = true ↔ stat P lp j = 2 ∨ stat P lp j = 3 := by
  simp [nonBasic]

theorem good_cases {P : Prob} {lp : Lp} (h : goodModel P lp = true) {j : Nat} (hj : j < P.nCols + P.rows.length) :
    stat P lp j = 1 ∨ nonBasic P lp j = true := by
  have := List.all_eq_true.mp h j (List.mem_range.mpr hj)
  simpa using this

/-- One tableau row, with the basic column on its own. -/
theorem tab_split {P : Prob} (hwf : P.WF) {lp : Lp} (hgood : goodModel P lp = true) {r : Nat} (ht : TableauRow P lp r)
    (hb : lp.basis r < P.nCols) (hs : lp.cstat (lp.basis r) = 1) (x y : Nat → ℚ) :
    (x (lp.basis r) - y (lp.basis r)) + ∑ j ∈ Finset.range (P.nCols + P.rows.length),
      (if nonBasic P lp j = true then tabv P lp r j * (ext P x j - ext P y j) else 0) = 0 := by
  refine Eq.trans ?_ (tab_zero hwf ht x y)
  have hsb : stat P lp (lp.basis r) = 1 := by unfold stat; rw [if_pos hb]; exact hs
  have : (x (lp.basis r) - y (lp.basis r)) = ∑ j ∈ Finset.range (P.nCols + P.rows.length),
      (if j = lp.basis r then tabv P lp r j * (ext P x j - ext P y j) else 0) := by
    rw [Finset.sum_ite_eq', if_pos (Finset.mem_range.mpr (by omega))]
    unfold tabv
    rw [if_pos hb, ht.pivot, ext_col hb, ext_col hb]; ring
  rw [this, ← Finset.sum_add_distrib]
  refine Finset.sum_congr rfl fun j hj => ?_
  have hj := Finset.mem_range.mp hj
  by_cases e : j = lp.basis r
  · have hn : ¬ nonBasic P lp j = true := by rw [nonBasic_iff, e, hsb]; omega
    rw [if_pos e, if_neg hn]; ring
  · rw [if_neg e]
    by_cases hn : nonBasic P lp j = true
    · rw [if_pos hn]; ring
    · have h1 := (good_cases hgood hj).resolve_right hn
      have : tabv P lp r j = 0 := by
        unfold tabv; unfold stat at h1
        split
        · rename_i hc; rw [if_pos hc] at h1; exact ht.basic j hc h1 e
        · rename_i hc; rw [if_neg hc] at h1; exact ht.slackBasic _ (by omega) h1
      rw [if_neg hn, this]; ring

/-- The reduced rows are the combinations given by the multipliers. -/
def Combined (P : Prob) (lp : Lp) (sel : List Nat) (s : St) : Prop :=
  ∀ r < sel.length, ∀ j, s.tab r j = ∑ k ∈ Finset.range sel.length, (s.pi r k : ℚ) * tabv P lp (sel.getD k 0) j

theorem comboRow_nonBasic {prm : Prm} {P : Prob} {lp : Lp} {sel : List Nat} {s : St} (hc : Combined P lp sel s) {r : Nat}
    (hr : r < sel.length) {j : Nat} (hn : nonBasic P lp j = true) :
    comboRow prm P lp sel s r j = ∑ k ∈ Finset.range sel.length, (s.pi r k : ℚ) * tabv P lp (sel.getD k 0) j := by
  unfold comboRow
  by_cases hi : intNB prm P lp j = true
  · have hcj : contNB prm P lp j = false := by simp [contNB, hi]
    rw [hcj, if_neg (by simp), if_pos hi, list_range_sum]
    have hj : j < P.nCols := by
      simp only [intNB, Bool.and_eq_true, decide_eq_true_eq] at hi; exact hi.1.2
    refine Finset.sum_congr rfl fun k _ => ?_
    unfold tabv; rw [if_pos hj]
  · have hcj : contNB prm P lp j = true := by simp [contNB, hi, hn]
    rw [if_pos hcj, hc r hr]

/-- The combination of the rows. -/
theorem combo_split {prm : Prm} {P : Prob} (hwf : P.WF) {lp : Lp} (hgood : goodModel P lp = true) {sel : List Nat}
    {s : St} (hp : Picked prm P lp sel) (hc : Combined P lp sel s)
    (ht : ∀ k < sel.length, TableauRow P lp (sel.getD k 0)) {r : Nat} (hr : r < sel.length) (x : Nat → ℚ) :
    ∑ k ∈ Finset.range sel.length, (s.pi r k : ℚ) * x (lp.basis (sel.getD k 0)) +
      ∑ j ∈ Finset.range (P.nCols + P.rows.length),
      (if nonBasic P lp j = true then comboRow prm P lp sel s r j * (ext P x j - ext P lp.xlp j) else 0) =
    comboRhs lp sel s r := by
  unfold comboRhs
  rw [list_range_sum]
  have h0 : ∑ k ∈ Finset.range sel.length, (s.pi r k : ℚ) * ((x (lp.basis (sel.getD k 0)) -
      lp.xlp (lp.basis (sel.getD k 0))) + ∑ j ∈ Finset.range (P.nCols + P.rows.length),
      (if nonBasic P lp j = true then tabv P lp (sel.getD k 0) j * (ext P x j - ext P lp.xlp j) else 0)) = 0 := by
    refine Finset.sum_eq_zero fun k hk => ?_
    have hk := Finset.mem_range.mp hk
    rw [tab_split hwf hgood (ht k hk) (hp.col k hk) (isFrac_basic (hp.frac k hk)).1, mul_zero]
  have h1 : ∑ j ∈ Finset.range (P.nCols + P.rows.length),
      (if nonBasic P lp j = true then comboRow prm P lp sel s r j * (ext P x j - ext P lp.xlp j) else 0) =
      ∑ k ∈ Finset.range sel.length, (s.pi r k : ℚ) * ∑ j ∈ Finset.range (P.nCols + P.rows.length),
      (if nonBasic P lp j = true then tabv P lp (sel.getD k 0) j * (ext P x j - ext P lp.xlp j) else 0) := by
    simp only [Finset.mul_sum]
    rw [Finset.sum_comm]
    refine Finset.sum_congr rfl fun j _ => ?_
    by_cases hn : nonBasic P lp j = true
    · simp only [if_pos hn]
      rw [comboRow_nonBasic hc hr hn, Finset.sum_mul]
      exact Finset.sum_congr rfl fun k _ => by ring
    · simp only [if_neg hn, mul_zero, Finset.sum_const_zero]
  rw [h1]
  have h2 : ∑ k ∈ Finset.range sel.length, (s.pi r k : ℚ) * (x (lp.basis (sel.getD k 0)) -
      lp.xlp (lp.basis (sel.getD k 0))) = ∑ k ∈ Finset.range sel.length, (s.pi r k : ℚ) * x (lp.basis (sel.getD k 0)) -
      ∑ k ∈ Finset.range sel.length, (s.pi r k : ℚ) * lp.xlp (lp.basis (sel.getD k 0)) := by
    rw [← Finset.sum_sub_distrib]; exact Finset.sum_congr rfl fun k _ => by ring
  rw [Finset.sum_congr rfl fun k _ => mul_add _ _ _, Finset.sum_add_distrib, h2] at h0
  linarith

/-! ### The terms of the Gomory inequality -/

/-- Distance of a nonbasic variable from its bound. -/
def dist (P : Prob) (lp : Lp) (x : Nat → ℚ) (j : Nat) : ℚ :=
  if nonBasic P lp j = true then
    if stat P lp j = 2 then ext P lp.xlp j - ext P x j else ext P x j - ext P lp.xlp j
  else 0

/-- One term. -/
def term (prm : Prm) (P : Prob) (lp : Lp) (row : Nat → ℚ) (x : Nat → ℚ) (j : Nat) : Term :=
  ⟨flip P lp row j, intNB prm P lp j, dist P lp x j⟩

theorem flip_dist (P : Prob) (lp : Lp) (row x : Nat → ℚ) (j : Nat) :
    flip P lp row j * dist P lp x j =
      if nonBasic P lp j = true then row j * (ext P x j - ext P lp.xlp j) else 0 := by
  unfold flip dist
  by_cases hn : nonBasic P lp j = true
  · simp only [if_pos hn]
    split <;> ring
  · simp only [if_neg hn, mul_zero]

/-- The left-hand side of the Gomory inequality. -/
def gom (prm : Prm) (P : Prob) (lp : Lp) (row : Nat → ℚ) (f0 : ℚ) (x : Nat → ℚ) : ℚ :=
  ∑ j ∈ Finset.range (P.nCols + P.rows.length), gmi f0 (intNB prm P lp j) (flip P lp row j) * dist P lp x j

theorem flip_flip (P : Prob) (lp : Lp) (row : Nat → ℚ) (j : Nat) : flip P lp (flip P lp row) j = row j := by
  unfold flip; split <;> ring

theorem contNB_of {prm : Prm} {P : Prob} {lp : Lp} {j : Nat} (hn : nonBasic P lp j = true)
    (hi : ¬ intNB prm P lp j = true) : contNB prm P lp j = true := by simp [contNB, hi, hn]

theorem cgCoef_eq {f0 v f : ℚ} {int cont : Bool} (hf : int = true → f = v - ⌊v⌋) (hc : int = false → cont = true)
    (h1 : f0 ≠ 1) : cgCoef f0 int cont f v = v - gmi f0 int v := by
  have h1 : 1 - f0 ≠ 0 := sub_ne_zero.mpr (Ne.symm h1)
  unfold cgCoef gmi
  cases int with
  | true =>
    rw [hf rfl, if_pos rfl, if_pos rfl]
    split
    · field_simp; ring
    · ring
  | false =>
    simp only [hc rfl, if_true, Bool.false_eq_true, if_false]
    split
    · field_simp; ring
    · ring

theorem cg2Coef_eq {f0 v f : ℚ} {int cont : Bool} (hf : int = true → f = v - ⌊v⌋) (hc : int = false → cont = true) :
    cg2Coef f0 int cont f v = - gmi f0 int v := by
  unfold cg2Coef gmi
  cases int with
  | true =>
    rw [hf rfl, if_pos rfl, if_pos rfl]
    split <;> ring
  | false =>
    simp only [hc rfl, if_true, Bool.false_eq_true, if_false]
    split <;> ring

/-- Value of a dense row with its slacks, minus its right-hand side. -/
def excess (P : Prob) (d : Dense) (x : Nat → ℚ) : ℚ :=
  ∑ j ∈ Finset.range (P.nCols + P.rows.length), d.row j * ext P x j - d.rhs

theorem rowRhs_eq {P : Prob} {i : Nat} (h : (P.row i).lb = (P.row i).ub) (h1 : - P.inf < (P.row i).lb)
    (h2 : (P.row i).ub < P.inf) : P.rhs i = (P.row i).ub := by
  unfold Prob.rhs Row.senseRhs
  rw [if_pos h1, if_pos h2, if_pos h.symm]

theorem bound_eq {P : Prob} {lp : Lp} (hb : BasicSolution P lp) {j : Nat} (hj : j < P.nCols + P.rows.length)
    (hn : nonBasic P lp j = true) : bound P lp j = ext P lp.xlp j := by
  unfold bound
  rw [nonBasic_iff] at hn
  by_cases hc : j < P.nCols
  · rw [if_pos hc, ext_col hc]
    have hs : stat P lp j = lp.cstat j := if_pos hc
    rw [hs] at hn ⊢
    rcases hn with h | h
    · rw [if_pos h, (hb.upper j hc h).1]
    · rw [if_neg (by omega), (hb.lower j hc h).1]
  · rw [if_neg hc, hb.act _ (by omega)]
    unfold ext; rw [if_neg hc]

theorem basicPart {prm : Prm} {P : Prob} {lp : Lp} {sel : List Nat} (hp : Picked prm P lp sel) (s : St) (r : Nat)
    (x : Nat → ℚ) :
    ∑ j ∈ Finset.range (P.nCols + P.rows.length), (if nonBasic P lp j = true then 0 else
      ((List.range sel.length).map fun k => if lp.basis (sel.getD k 0) = j then (s.pi r k : ℚ) else 0).sum * ext P x j) =
    ∑ k ∈ Finset.range sel.length, (s.pi r k : ℚ) * x (lp.basis (sel.getD k 0)) := by
  have : ∀ j, (if nonBasic P lp j = true then 0 else
      ((List.range sel.length).map fun k => if lp.basis (sel.getD k 0) = j then (s.pi r k : ℚ) else 0).sum * ext P x j) =
      ∑ k ∈ Finset.range sel.length, (if lp.basis (sel.getD k 0) = j then (s.pi r k : ℚ) * ext P x j else 0) := by
    intro j
    rw [list_range_sum]
    split
    · rename_i hn
      symm
      refine Finset.sum_eq_zero fun k hk => ?_
      have hk := Finset.mem_range.mp hk
      rw [if_neg]
      intro e
      have hb := (isFrac_basic (hp.frac k hk)).1
      have hlt := hp.col k hk
      rw [e] at hb hlt
      rw [nonBasic_iff] at hn
      have hs : stat P lp j = lp.cstat j := if_pos hlt
      omega
    · rw [Finset.sum_mul]
      refine Finset.sum_congr rfl fun k _ => ?_
      split <;> ring
  simp only [this]
  rw [Finset.sum_comm]
  refine Finset.sum_congr rfl fun k hk => ?_
  have hk := Finset.mem_range.mp hk
  have hlt := hp.col k hk
  rw [Finset.sum_ite_eq, if_pos (Finset.mem_range.mpr (by omega)), ext_col hlt]

/-- The cut before the slacks are substituted: its excess at any point is the fractional part minus the left-hand side of
the Gomory inequality. -/
theorem unflip_excess {prm : Prm} {P : Prob} (hwf : P.WF) {lp : Lp} (hb : BasicSolution P lp)
    (hgood : goodModel P lp = true) {sel : List Nat} {s : St} (hp : Picked prm P lp sel) (hc : Combined P lp sel s)
    (ht : ∀ k < sel.length, TableauRow P lp (sel.getD k 0)) {r : Nat} (hr : r < sel.length)
    (hnear : ∀ j < P.nCols, intNB prm P lp j = true →
      aboveInteger prm (flip P lp (comboRow prm P lp sel s r) j) =
        flip P lp (comboRow prm P lp sel s r) j - ⌊flip P lp (comboRow prm P lp sel s r) j⌋)
    (ha : 0 < par prm .away) {d : Dense}
    (hd : cgCut prm P lp ⟨flip P lp (comboRow prm P lp sel s r), comboRhs lp sel s r⟩ = some d) (x : Nat → ℚ) :
    excess P (unflip P lp d) x = aboveInteger prm (comboRhs lp sel s r) -
      gom prm P lp (comboRow prm P lp sel s r) (aboveInteger prm (comboRhs lp sel s r)) x := by
  set row := comboRow prm P lp sel s r with hrow
  set β := comboRhs lp sel s r with hβ
  set f0 := aboveInteger prm β with hf0
  have hcomb := combo_split hwf hgood hp hc ht hr x
  rw [← hrow, ← hβ] at hcomb
  -- the value of the nonbasic part, for any coefficients
  have hval : ∀ c : Nat → ℚ, (∀ j, d.row j = c j) → excess P (unflip P lp d) x =
      ∑ j ∈ Finset.range (P.nCols + P.rows.length), (if nonBasic P lp j = true then 0 else c j * ext P x j) +
      ∑ j ∈ Finset.range (P.nCols + P.rows.length), c j * dist P lp x j - d.rhs := by
    intro c hcd
    unfold excess unflip
    dsimp only
    unfold indices
    rw [list_range_sum]
    have : ∑ j ∈ Finset.range (P.nCols + P.rows.length), flip P lp d.row j * ext P x j =
        ∑ j ∈ Finset.range (P.nCols + P.rows.length), (if nonBasic P lp j = true then 0 else c j * ext P x j) +
        ∑ j ∈ Finset.range (P.nCols + P.rows.length), c j * dist P lp x j +
        ∑ j ∈ Finset.range (P.nCols + P.rows.length),
          (if nonBasic P lp j = true then flip P lp d.row j * bound P lp j else 0) := by
      rw [← Finset.sum_add_distrib, ← Finset.sum_add_distrib]
      refine Finset.sum_congr rfl fun j hj => ?_
      have hj := Finset.mem_range.mp hj
      by_cases hn : nonBasic P lp j = true
      · rw [if_pos hn, if_pos hn, bound_eq hb hj hn]
        unfold flip dist
        rw [if_pos hn, hcd j]
        split <;> ring
      · rw [if_neg hn, if_neg hn]
        unfold flip dist
        rw [if_neg hn, hcd j]
        have : ¬ stat P lp j = 2 := fun h => hn (nonBasic_iff.mpr (Or.inl h))
        rw [if_neg this]; ring
    rw [this]; ring
  have hgsum : ∑ j ∈ Finset.range (P.nCols + P.rows.length), flip P lp row j * dist P lp x j =
      β - ∑ k ∈ Finset.range sel.length, (s.pi r k : ℚ) * x (lp.basis (sel.getD k 0)) := by
    rw [Finset.sum_congr rfl fun j _ => flip_dist P lp row x j]
    linarith
  unfold cgCut at hd
  simp only [← hf0] at hd
  split at hd
  · cases hd
  rename_i haway
  push Not at haway
  have hne : f0 ≠ 1 := by intro h; rw [h] at haway; linarith [haway.2]
  have hnf : ∀ j, intNB prm P lp j = true → aboveInteger prm (flip P lp row j) = flip P lp row j - ⌊flip P lp row j⌋ := by
    intro j hj
    have : j < P.nCols := by simp only [intNB, Bool.and_eq_true, decide_eq_true_eq] at hj; exact hj.1.2
    exact hnear j this hj
  split at hd
  · rename_i hcg
    cases hd
    rw [hval _ fun j => rfl]
    have e1 : ∑ j ∈ Finset.range (P.nCols + P.rows.length), (if nonBasic P lp j = true then 0 else
        cgCoef f0 (intNB prm P lp j) (contNB prm P lp j) (aboveInteger prm (flip P lp row j)) (flip P lp row j) * ext P x j) =
        ∑ k ∈ Finset.range sel.length, (s.pi r k : ℚ) * x (lp.basis (sel.getD k 0)) := by
      rw [← basicPart hp s r x]
      refine Finset.sum_congr rfl fun j _ => ?_
      by_cases hn : nonBasic P lp j = true
      · rw [if_pos hn, if_pos hn]
      · rw [if_neg hn, if_neg hn]
        have hi : intNB prm P lp j = false := by simp [intNB, hn]
        have hcn : contNB prm P lp j = false := by simp [contNB, hn]
        have h2 : ¬ stat P lp j = 2 := fun h => hn (nonBasic_iff.mpr (Or.inl h))
        rw [hi, hcn]
        unfold cgCoef flip
        rw [if_neg (by simp), if_neg (by simp), if_neg h2, hrow]
        unfold comboRow
        rw [hi, hcn, if_neg (by simp), if_neg (by simp), if_pos hcg]
    have e2 : ∑ j ∈ Finset.range (P.nCols + P.rows.length),
        cgCoef f0 (intNB prm P lp j) (contNB prm P lp j) (aboveInteger prm (flip P lp row j)) (flip P lp row j) *
          dist P lp x j = β - ∑ k ∈ Finset.range sel.length, (s.pi r k : ℚ) * x (lp.basis (sel.getD k 0)) -
          gom prm P lp row f0 x := by
      rw [← hgsum, gom, ← Finset.sum_sub_distrib]
      refine Finset.sum_congr rfl fun j _ => ?_
      by_cases hn : nonBasic P lp j = true
      · rw [cgCoef_eq (hnf j) (fun hi => contNB_of hn (by simp [hi])) hne]; ring
      · unfold dist; rw [if_neg hn]; ring
    rw [e1, e2]; ring
  · rename_i hcg
    cases hd
    rw [hval _ fun j => rfl]
    have e1 : ∑ j ∈ Finset.range (P.nCols + P.rows.length), (if nonBasic P lp j = true then 0 else
        cg2Coef f0 (intNB prm P lp j) (contNB prm P lp j) (aboveInteger prm (flip P lp row j)) (flip P lp row j) * ext P x j) =
        0 := by
      refine Finset.sum_eq_zero fun j _ => ?_
      by_cases hn : nonBasic P lp j = true
      · rw [if_pos hn]
      · rw [if_neg hn]
        have hi : intNB prm P lp j = false := by simp [intNB, hn]
        have hcn : contNB prm P lp j = false := by simp [contNB, hn]
        have h2 : ¬ stat P lp j = 2 := fun h => hn (nonBasic_iff.mpr (Or.inl h))
        rw [hi, hcn]
        unfold cg2Coef flip
        rw [if_neg (by simp), if_neg (by simp), if_neg h2, hrow]
        unfold comboRow
        rw [hi, hcn, if_neg (by simp), if_neg (by simp), if_neg hcg]; ring
    have e2 : ∑ j ∈ Finset.range (P.nCols + P.rows.length),
        cg2Coef f0 (intNB prm P lp j) (contNB prm P lp j) (aboveInteger prm (flip P lp row j)) (flip P lp row j) *
          dist P lp x j = - gom prm P lp row f0 x := by
      rw [gom, ← Finset.sum_neg_distrib]
      refine Finset.sum_congr rfl fun j _ => ?_
      by_cases hn : nonBasic P lp j = true
      · rw [cg2Coef_eq (hnf j) (fun hi => contNB_of hn (by simp [hi]))]; ring
      · unfold dist; rw [if_neg hn]; ring
    rw [e1, e2]; ring

/-! ### At feasible points the Gomory inequality holds -/

theorem isInteger_at {prm : Prm} {P : Prob} (hx : ExactData prm P) {x : Nat → ℚ} (hf : P.Feasible x) {j : Nat}
    (hj : j < P.nCols) (h : isInteger prm P j = true) : IsInteger (x j) := by
  by_cases hi : P.isInt j = true
  · exact hf.int j hj hi
  · unfold isInteger at h
    rw [if_neg hi, Bool.and_eq_true, decide_eq_true_eq, decide_eq_true_eq] at h
    have h4 := hx.fixed j hj (by simpa using hi) h
    have h1 := hf.lower j hj h4.2.2.1
    have h2 := hf.upper j hj h4.2.2.2
    rw [h4.1] at h1
    rw [le_antisymm h2 h1]
    exact h4.2.1

theorem isInteger_sub {a b : ℚ} : IsInteger a → IsInteger b → IsInteger (a - b) := by
  rintro ⟨m, rfl⟩ ⟨n, rfl⟩; exact ⟨m - n, by push_cast; ring⟩

theorem bound_integer {prm : Prm} {P : Prob} {lp : Lp} (hb : BasicSolution P lp) (hx : ExactData prm P) {j : Nat}
    (hj : j < P.nCols) (hn : nonBasic P lp j = true) (h : isInteger prm P j = true) : IsInteger (lp.xlp j) := by
  rw [nonBasic_iff] at hn
  have hs : stat P lp j = lp.cstat j := if_pos hj
  rw [hs] at hn
  by_cases hi : P.isInt j = true
  · rcases hn with h2 | h2
    · obtain ⟨e, hl⟩ := hb.upper j hj h2
      rw [e]; exact hx.intUpper j hj hi hl
    · obtain ⟨e, hl⟩ := hb.lower j hj h2
      rw [e]; exact hx.intLower j hj hi hl
  · unfold isInteger at h
    rw [if_neg hi, Bool.and_eq_true, decide_eq_true_eq, decide_eq_true_eq] at h
    have h4 := hx.fixed j hj (by simpa using hi) h
    rcases hn with h2 | h2
    · rw [(hb.upper j hj h2).1]; exact h4.2.1
    · rw [(hb.lower j hj h2).1, h4.1]; exact h4.2.1

theorem dist_nonneg {P : Prob} {lp : Lp} (hb : BasicSolution P lp) {x : Nat → ℚ} (hf : P.Feasible x) {j : Nat}
    (hj : j < P.nCols + P.rows.length) : 0 ≤ dist P lp x j := by
  unfold dist
  split
  · rename_i hn
    rw [nonBasic_iff] at hn
    by_cases hc : j < P.nCols
    · rw [ext_col hc, ext_col hc]
      have hs : stat P lp j = lp.cstat j := if_pos hc
      rw [hs] at hn ⊢
      split
      · rename_i h2
        obtain ⟨e, hl⟩ := hb.upper j hc h2
        have := hf.upper j hc hl
        rw [e]; linarith
      · rename_i h2
        obtain ⟨e, hl⟩ := hb.lower j hc (hn.resolve_left h2)
        have := hf.lower j hc hl
        rw [e]; linarith
    · obtain ⟨i, rfl⟩ : ∃ i, j = P.nCols + i := ⟨j - P.nCols, by omega⟩
      have hi : i < P.rows.length := by omega
      have hs : stat P lp (P.nCols + i) = lp.rstat i := by
        unfold stat; rw [if_neg hc, Nat.add_sub_cancel_left]
      rw [ext_slack, ext_slack]
      rw [hs] at hn ⊢
      have hrow := hf.rows _ (Prob.row_mem hi)
      have ha := hb.act i hi
      split
      · rename_i h2
        obtain ⟨e, hl⟩ := hb.rowLower i hi h2
        have := hrow.1 hl
        unfold Prob.activity at ha ⊢
        linarith
      · rename_i h2
        obtain ⟨e, hl⟩ := hb.rowUpper i hi (hn.resolve_left h2)
        have := hrow.2 hl
        unfold Prob.activity at ha ⊢
        linarith
  · exact le_refl _

theorem aboveInteger_pos {prm : Prm} {v : ℚ} (h : aboveInteger prm v ≠ 0) : aboveInteger prm v = v - ⌊v⌋ := by
  unfold aboveInteger at h ⊢
  split
  · rename_i h'; rw [if_pos h'] at h; exact absurd rfl h
  · rfl

theorem sum_pi_int (n : Nat) (f : Nat → ℤ) (g : Nat → ℚ) (h : ∀ k < n, IsInteger (g k)) :
    IsInteger (∑ k ∈ Finset.range n, (f k : ℚ) * g k) := by
  induction n with
  | zero => exact ⟨0, by simp⟩
  | succ n ih =>
    obtain ⟨a, ha⟩ := ih fun k hk => h k (by omega)
    obtain ⟨b, hb⟩ := h n (by omega)
    rw [Finset.sum_range_succ, ha, hb]
    exact ⟨a + f n * b, by push_cast; ring⟩

/-- The Gomory inequality at a feasible point. -/
theorem gom_ge {prm : Prm} {P : Prob} (hwf : P.WF) {lp : Lp} (hb : BasicSolution P lp) (hx : ExactData prm P)
    (hgood : goodModel P lp = true) {sel : List Nat} {s : St} (hp : Picked prm P lp sel) (hc : Combined P lp sel s)
    (ht : ∀ k < sel.length, TableauRow P lp (sel.getD k 0)) {r : Nat} (hr : r < sel.length)
    (h0 : aboveInteger prm (comboRhs lp sel s r) ≠ 0) {x : Nat → ℚ} (hf : P.Feasible x) :
    aboveInteger prm (comboRhs lp sel s r) ≤
      gom prm P lp (comboRow prm P lp sel s r) (aboveInteger prm (comboRhs lp sel s r)) x := by
  have hcomb := combo_split hwf hgood hp hc ht hr x
  rw [aboveInteger_pos h0]
  have := gmi_ineq (comboRhs lp sel s r) (∑ k ∈ Finset.range sel.length, (s.pi r k : ℚ) * x (lp.basis (sel.getD k 0)))
    (sum_pi_int _ (fun k => s.pi r k) _ fun k hk => isInteger_at hx hf (hp.col k hk) (isFrac_basic (hp.frac k hk)).2)
    ((List.range (P.nCols + P.rows.length)).map (term prm P lp (comboRow prm P lp sel s r) x)) ?_ ?_ ?_
  · rw [List.map_map] at this
    rw [gom, ← list_range_sum]
    exact this
  · intro e he
    obtain ⟨j, hj, rfl⟩ := List.mem_map.1 he
    exact dist_nonneg hb hf (List.mem_range.1 hj)
  · intro e he hint
    obtain ⟨j, hj, rfl⟩ := List.mem_map.1 he
    have hi : intNB prm P lp j = true := hint
    simp only [intNB, Bool.and_eq_true, decide_eq_true_eq] at hi
    obtain ⟨⟨hn, hlt⟩, hint⟩ := hi
    have h1 := isInteger_at hx hf hlt hint
    have h2 := bound_integer hb hx hlt hn hint
    change IsInteger (dist P lp x j)
    unfold dist
    rw [if_pos hn, ext_col hlt, ext_col hlt]
    split
    · exact isInteger_sub h2 h1
    · exact isInteger_sub h1 h2
  · rw [List.map_map, list_range_sum, ← hcomb]
    congr 1
    exact Finset.sum_congr rfl fun j _ => flip_dist P lp _ x j

/-! ### Substituting the slacks -/

/-- Value of a dense row over the columns, minus its right-hand side. -/
def colExcess (P : Prob) (d : Dense) (x : Nat → ℚ) : ℚ :=
  ∑ j ∈ Finset.range P.nCols, d.row j * x j - d.rhs

theorem filter_sum (n : Nat) (p : Nat → Bool) (f : Nat → ℚ) :
    (((List.range n).filter p).map f).sum = ∑ i ∈ Finset.range n, if p i = true then f i else 0 := by
  rw [← list_range_sum]
  induction List.range n with
  | nil => rfl
  | cons a l ih =>
    rw [List.filter_cons]
    cases h : p a with
    | true => simp only [if_true, List.map_cons, List.sum_cons, ih, h]
    | false => simp only [h, List.map_cons, List.sum_cons, Bool.false_eq_true, if_false, zero_add]; exact ih

theorem eliminate_excess {prm : Prm} {P : Prob} (hwf : P.WF) {d : Dense} {x : Nat → ℚ}
    (h : ∀ i < P.rows.length, eliminated prm P d i = false → d.row (P.nCols + i) * ext P x (P.nCols + i) = 0) :
    colExcess P (eliminate prm P d) x = excess P d x := by
  unfold colExcess excess eliminate
  dsimp only
  rw [sum_all]
  simp only [filter_sum]
  have e1 : ∑ j ∈ Finset.range P.nCols, d.row j * ext P x j = ∑ j ∈ Finset.range P.nCols, d.row j * x j :=
    Finset.sum_congr rfl fun j hj => by rw [ext_col (Finset.mem_range.mp hj)]
  have e2 : ∑ i ∈ Finset.range P.rows.length, d.row (P.nCols + i) * ext P x (P.nCols + i) =
      ∑ i ∈ Finset.range P.rows.length, (if eliminated prm P d i = true then d.row (P.nCols + i) * P.rhs i else 0) -
      ∑ i ∈ Finset.range P.rows.length, (if eliminated prm P d i = true then d.row (P.nCols + i) * P.activity x i else 0) := by
    rw [← Finset.sum_sub_distrib]
    refine Finset.sum_congr rfl fun i hi => ?_
    have hi := Finset.mem_range.mp hi
    by_cases he : eliminated prm P d i = true
    · rw [if_pos he, if_pos he, ext_slack]; ring
    · rw [if_neg he, if_neg he, h i hi (by simpa using he)]; ring
  have e3 : ∑ j ∈ Finset.range P.nCols, (d.row j - ∑ i ∈ Finset.range P.rows.length,
        (if eliminated prm P d i = true then d.row (P.nCols + i) * (P.row i).coef j else 0)) * x j =
      ∑ j ∈ Finset.range P.nCols, d.row j * x j - ∑ i ∈ Finset.range P.rows.length,
        (if eliminated prm P d i = true then d.row (P.nCols + i) * P.activity x i else 0) := by
    simp only [sub_mul, Finset.sum_sub_distrib, Finset.sum_mul]
    congr 1
    rw [Finset.sum_comm]
    refine Finset.sum_congr rfl fun i hi => ?_
    split
    · unfold Prob.activity
      rw [dot_eq_sum _ P.nCols (hwf.cols _ (Prob.row_mem (Finset.mem_range.mp hi))) x, Finset.mul_sum]
      refine Finset.sum_congr rfl fun j _ => ?_
      change _ * (P.row i).coef j * _ = _ * ((P.row i).coef j * _)
      ring
    · simp
  rw [e1, e2, e3]; ring

/-! ### Packing -/

theorem scaleValue_bounds {sqrt : ℚ → ℚ} {a : ℚ} {n : Nat} {v : ℚ} (hw : scaleValue sqrt a n = some v) :
    1 / 50 ≤ v ∧ v ≤ 50 := by
  unfold scaleValue at hw
  split at hw
  · split at hw
    · cases hw; norm_num
    · cases hw
  · split at hw
    · cases hw
    · rename_i hn
      push Not at hn
      cases hw; exact hn

theorem scaleFactor_pos {prm : Prm} {P : Prob} {sqrt : ℚ → ℚ} {row : Nat → ℚ} {v : ℚ}
    (h : scaleFactor prm P sqrt row = some v) : 1 / 50 ≤ v ∧ v ≤ 50 := by
  unfold scaleFactor at h
  split at h
  · exact scaleValue_bounds h
  · cases h

theorem dot_map_range (n : Nat) (p : Nat → Bool) (f x : Nat → ℚ) :
    SVec.dot (((List.range n).filter p).map fun j => (j, f j)) x =
      ∑ j ∈ Finset.range n, if p j = true then f j * x j else 0 := by
  rw [← filter_sum, SVec.dot, List.map_map]; rfl

/-- The packed row holds wherever the dense one does, if every dropped coefficient is paid for. -/
theorem packRow_le {prm : Prm} {P : Prob} {sqrt : ℚ → ℚ} {xlp : Nat → ℚ} {d : Dense} {es : SVec} {rhs : ℚ}
    (hl : par prm .LUB < P.inf) (h : packRow prm P sqrt xlp d = some (es, rhs))
    (hdrop : ∀ v, scaleFactor prm P sqrt d.row = some v → ∀ j < P.nCols, d.row j ≠ 0 → kept prm P j (d.row j / v) = true ∨
      (0 < d.row j ∧ lowLub prm P j = false) ∨ (d.row j < 0 ∧ upLub prm P j = false))
    {x : Nat → ℚ} (hf : P.Feasible x) (hle : colExcess P d x ≤ 0) : SVec.dot es x ≤ rhs := by
  unfold packRow at h
  split at h
  · cases h
  rename_i v hv
  dsimp only at h
  split at h
  · cases h
  split at h
  · cases h
  cases h
  have hv0 : 0 < v := by have := (scaleFactor_pos hv).1; linarith
  rw [dot_map_range, list_range_sum]
  have hsum : ∑ j ∈ Finset.range P.nCols, d.row j / v * x j ≤ d.rhs / v := by
    have : ∑ j ∈ Finset.range P.nCols, d.row j / v * x j = (∑ j ∈ Finset.range P.nCols, d.row j * x j) / v := by
      rw [div_eq_mul_inv, Finset.sum_mul]; exact Finset.sum_congr rfl fun j _ => by ring
    rw [this]
    unfold colExcess at hle
    exact div_le_div_of_nonneg_right (by linarith) hv0.le
  have hterm : ∑ j ∈ Finset.range P.nCols, ((if kept prm P j (d.row j / v) = true then d.row j / v * x j else 0) +
      taken prm P j (d.row j / v)) ≤ ∑ j ∈ Finset.range P.nCols, d.row j / v * x j := by
    refine Finset.sum_le_sum fun j hj => ?_
    have hj := Finset.mem_range.mp hj
    have hpos : 0 < d.row j / v ↔ 0 < d.row j := div_pos_iff_of_pos_right hv0
    have hneg : d.row j / v < 0 ↔ d.row j < 0 := by
      rw [div_lt_iff₀ hv0, zero_mul]
    by_cases h0 : d.row j = 0
    · have e : d.row j / v = 0 := by rw [h0, zero_div]
      rw [e]
      have : taken prm P j 0 = 0 := by unfold taken; simp
      rw [this]; simp
    · have hd := hdrop v hv j hj h0
      unfold kept at hd ⊢
      unfold taken
      rw [← hpos, ← hneg] at hd
      by_cases h1 : par prm .EPS_COEFF < |d.row j / v|
      · simp only [if_pos h1]; simp
      · simp only [if_neg h1] at hd ⊢
        by_cases h2 : 0 < d.row j / v ∧ lowLub prm P j = false
        · simp only [if_pos h2]
          have hb : |P.colLower j| ≤ par prm .LUB := by simpa [lowLub] using h2.2
          have hb' := abs_le.mp hb
          have hlo := hf.lower j hj (by linarith [hb'.1])
          have := mul_le_mul_of_nonneg_left hlo h2.1.le
          simp only [Bool.false_eq_true, if_false]; linarith
        · simp only [if_neg h2] at hd ⊢
          by_cases h3 : d.row j / v < 0 ∧ upLub prm P j = false
          · simp only [if_pos h3]
            have hb : |P.colUpper j| ≤ par prm .LUB := by simpa [upLub] using h3.2
            have hb' := abs_le.mp hb
            have hup := hf.upper j hj (by linarith [hb'.2])
            have := mul_le_mul_of_nonpos_left hup h3.1.le
            simp only [Bool.false_eq_true, if_false]; linarith
          · simp only [if_neg h3] at hd ⊢
            rcases hd with hd | hd | hd
            · rw [if_pos hd]; simp
            · exact absurd hd h2
            · exact absurd hd h3
  rw [Finset.sum_add_distrib] at hterm
  linarith

end Cgl.RedSplit
