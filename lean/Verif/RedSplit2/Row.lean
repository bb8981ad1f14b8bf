import Verif.RedSplit2.Spec

/-!
# The cut of one combination
-/

namespace Cgl.RedSplit2

open RedSplit (stat indices nonBasic goodModel flip tabv Dense BasicSolution TableauRow ext dist ext_col ext_slack
  nonBasic_iff good_cases flip_dist filter_sum colExcess dot_map_range sum_pi_int isInteger_sub dist_nonneg)

/-! ### The rows that are used -/

theorem fill_spec (c : Call) : ∀ (l kept : List Nat) (p : Option Nat), (∀ r ∈ l, r < c.P.rows.length) →
    (∀ r ∈ kept ++ p.toList, r < c.P.rows.length ∧ usable c r = true) →
    ∀ r ∈ fill c l kept p, r < c.P.rows.length ∧ usable c r = true := by
  intro l
  induction l with
  | nil => intro kept p _ h; exact h
  | cons a l ih =>
    intro kept p hl h
    have ha := hl a (List.mem_cons_self ..)
    have hl' : ∀ r ∈ l, r < c.P.rows.length := fun r hr => hl r (List.mem_cons_of_mem _ hr)
    unfold fill
    split
    · rename_i hu
      split
      · refine ih _ _ hl' fun r hr => ?_
        simp only [Option.toList_none, List.append_nil, List.mem_append, List.mem_singleton] at hr
        rcases hr with hr | rfl
        · exact h r (List.mem_append_left _ hr)
        · exact ⟨ha, hu⟩
      · refine ih _ _ hl' fun r hr => ?_
        simp only [Option.toList_some, List.mem_append, List.mem_singleton] at hr
        rcases hr with hr | rfl
        · exact h r (List.mem_append_left _ hr)
        · exact ⟨ha, hu⟩
    · exact ih _ _ hl' h

theorem slots_spec {c : Call} {r : Nat} (h : r ∈ slots c) : r < c.P.rows.length ∧ usable c r = true :=
  fill_spec c _ _ _ (fun _ hr => List.mem_range.mp hr) (by simp) r h

theorem getD_mem {l : List Nat} {k : Nat} (h : k < l.length) : l.getD k 0 ∈ l := by
  rw [show l.getD k 0 = l[k] by simp [List.getD, h]]
  exact List.getElem_mem h

theorem tab_eq {c : Call} {k : Nat} (h : k < (slots c).length) (j : Nat) :
    tab c k j = tabv c.P c.lp.toLp ((slots c).getD k 0) j := by
  unfold tab
  rw [List.getElem?_eq_getElem h]
  simp [List.getD, h]

theorem usable_iff {c : Call} {r : Nat} : usable c r = true ↔
    c.lp.basis r < c.P.nCols ∧ c.lp.cstat (c.lp.basis r) = 1 ∧ isInteger c (c.lp.basis r) = true := by
  simp [usable, isIntBasic]

theorem intNB_col {c : Call} {j : Nat} (h : intNB c j = true) : j < c.P.nCols := by
  simp only [intNB, Bool.and_eq_true, decide_eq_true_eq] at h; exact h.1.2

theorem contNB_of {c : Call} {j : Nat} (hn : nonBasic c.P c.lp.toLp j = true) (hi : ¬ intNB c j = true) :
    contNB c j = true := by simp [contNB, hi, hn]

/-- The entry of the combination in a nonbasic column. -/
theorem comboRow_nonBasic {c : Call} (hx : Exact c) (hs : (slots c).length = mTab c) (m : Nat → ℤ) {j : Nat}
    (hn : nonBasic c.P c.lp.toLp j = true) : comboRow c m j =
      ∑ k ∈ Finset.range (mTab c), (m k : ℚ) * tabv c.P c.lp.toLp ((slots c).getD k 0) j := by
  unfold comboRow
  split
  · rw [list_range_sum]
    exact Finset.sum_congr rfl fun k hk => by rw [tab_eq (by rw [hs]; exact Finset.mem_range.mp hk)]
  · rename_i hc
    have hi : intNB c j = true := by by_contra hi; exact hc (contNB_of hn hi)
    rw [if_pos hi, list_range_sum]
    refine Finset.sum_congr rfl fun k hk => ?_
    have hk : k < (slots c).length := by rw [hs]; exact Finset.mem_range.mp hk
    rw [tab_eq hk]
    unfold cut0
    split
    · rfl
    · rename_i ht
      by_contra hne
      have : tabv c.P c.lp.toLp ((slots c).getD k 0) j ≠ 0 := by
        intro h0; rw [h0] at hne; exact hne rfl
      exact ht (hx.tiny _ (slots_spec (getD_mem hk)).1 j (intNB_col hi) this)

theorem comboRow_basic {c : Call} (m : Nat → ℤ) {j : Nat} (hn : ¬ nonBasic c.P c.lp.toLp j = true) :
    comboRow c m j = 0 := by
  unfold comboRow
  rw [if_neg (by simp [contNB, hn]), if_neg (by simp [intNB, hn])]

/-- The equation behind a combination of tableau rows. -/
theorem combo_split {c : Call} (hwf : c.P.WF) (hgood : goodModel c.P c.lp.toLp = true) (ht : Tableau c) (hx : Exact c)
    (hs : (slots c).length = mTab c) (m : Nat → ℤ) (x : Nat → ℚ) :
    ∑ k ∈ Finset.range (mTab c), (m k : ℚ) * x (c.lp.basis ((slots c).getD k 0)) +
      ∑ j ∈ Finset.range (c.P.nCols + c.P.rows.length),
        (if nonBasic c.P c.lp.toLp j = true then comboRow c m j * (ext c.P x j - ext c.P c.lp.xlp j) else 0) =
      comboRhs c m := by
  have h1 : ∑ j ∈ Finset.range (c.P.nCols + c.P.rows.length),
        (if nonBasic c.P c.lp.toLp j = true then comboRow c m j * (ext c.P x j - ext c.P c.lp.xlp j) else 0) =
      ∑ k ∈ Finset.range (mTab c), (m k : ℚ) * ∑ j ∈ Finset.range (c.P.nCols + c.P.rows.length),
        (if nonBasic c.P c.lp.toLp j = true then
          tabv c.P c.lp.toLp ((slots c).getD k 0) j * (ext c.P x j - ext c.P c.lp.xlp j) else 0) := by
    simp only [Finset.mul_sum]
    rw [Finset.sum_comm]
    refine Finset.sum_congr rfl fun j _ => ?_
    by_cases hn : nonBasic c.P c.lp.toLp j = true
    · simp only [if_pos hn]
      rw [comboRow_nonBasic hx hs m hn, Finset.sum_mul]
      exact Finset.sum_congr rfl fun k _ => by ring
    · simp [if_neg hn]
  rw [h1, ← Finset.sum_add_distrib]
  unfold comboRhs
  rw [list_range_sum]
  refine Finset.sum_congr rfl fun k hk => ?_
  have hk : k < (slots c).length := by rw [hs]; exact Finset.mem_range.mp hk
  obtain ⟨hr, hu⟩ := slots_spec (getD_mem hk)
  obtain ⟨hb, hst, _⟩ := usable_iff.mp hu
  have := RedSplit.tab_split hwf hgood (ht _ hr hb) hb hst x c.lp.xlp
  unfold rhsTab
  rw [← mul_add]
  congr 1
  linarith

/-! ### At feasible points the Gomory inequality holds -/

theorem isInteger_at {c : Call} (hx : Exact c) {x : Nat → ℚ} (hf : c.P.Feasible x) {j : Nat} (hj : j < c.P.nCols)
    (h : isInteger c j = true) : IsInteger (x j) := by
  by_cases hi : c.P.isInt j = true
  · exact hf.int j hj hi
  · unfold isInteger at h
    rw [if_neg hi, Bool.and_eq_true, decide_eq_true_eq, decide_eq_true_eq] at h
    have h4 := hx.fixed j hj (by simpa using hi) h
    have h1 := hf.lower j hj h4.2.2.1
    have h2 := hf.upper j hj h4.2.2.2
    rw [h4.1] at h1
    rw [le_antisymm h2 h1]
    exact h4.2.1

theorem bound_integer {c : Call} (hb : BasicSolution c.P c.lp.toLp) (hx : Exact c) {j : Nat} (hj : j < c.P.nCols)
    (hn : nonBasic c.P c.lp.toLp j = true) (h : isInteger c j = true) : IsInteger (c.lp.xlp j) := by
  rw [nonBasic_iff] at hn
  have hs : stat c.P c.lp.toLp j = c.lp.cstat j := if_pos hj
  rw [hs] at hn
  by_cases hi : c.P.isInt j = true
  · rcases hn with h2 | h2
    · obtain ⟨e, hl⟩ := hb.upper j hj h2
      rw [e]; exact hx.intUpper j hj hi hl
    · obtain ⟨e, hl⟩ := hb.lower j hj h2
      rw [e]; exact hx.intLower j hj hi hl
  · unfold isInteger at h
    rw [if_neg hi, Bool.and_eq_true, decide_eq_true_eq, decide_eq_true_eq] at h
    have h4 := hx.fixed j hj (by simpa using hi) h
    rcases hn with h2 | h2
    · rw [(hb.upper j hj h2).1]; exact h4.2.1
    · rw [(hb.lower j hj h2).1, h4.1]; exact h4.2.1

theorem aboveInteger_pos {c : Call} {v : ℚ} (h : aboveInteger c v ≠ 0) : aboveInteger c v = v - ⌊v⌋ := by
  unfold aboveInteger at h ⊢
  split
  · rename_i h'; rw [if_pos h'] at h; exact absurd rfl h
  · rfl

/-- Left-hand side of the Gomory inequality of a combination. -/
def gom (c : Call) (m : Nat → ℤ) (f0 : ℚ) (x : Nat → ℚ) : ℚ :=
  ∑ j ∈ Finset.range (c.P.nCols + c.P.rows.length), gmi f0 (intNB c j) ((flipped c m).row j) * dist c.P c.lp.toLp x j

theorem gom_ge {c : Call} (hwf : c.P.WF) (hb : BasicSolution c.P c.lp.toLp) (hgood : goodModel c.P c.lp.toLp = true)
    (ht : Tableau c) (hx : Exact c) (hs : (slots c).length = mTab c) (m : Nat → ℤ)
    (h0 : aboveInteger c (comboRhs c m) ≠ 0) {x : Nat → ℚ} (hf : c.P.Feasible x) :
    aboveInteger c (comboRhs c m) ≤ gom c m (aboveInteger c (comboRhs c m)) x := by
  have hcomb := combo_split hwf hgood ht hx hs m x
  rw [aboveInteger_pos h0]
  have := gmi_ineq (comboRhs c m) (∑ k ∈ Finset.range (mTab c), (m k : ℚ) * x (c.lp.basis ((slots c).getD k 0)))
    (sum_pi_int _ m _ fun k hk => by
      obtain ⟨_, hu⟩ := slots_spec (getD_mem (l := slots c) (k := k) (by rw [hs]; exact hk))
      obtain ⟨hc, _, hi⟩ := usable_iff.mp hu
      exact isInteger_at hx hf hc hi)
    ((List.range (c.P.nCols + c.P.rows.length)).map fun j =>
      (⟨(flipped c m).row j, intNB c j, dist c.P c.lp.toLp x j⟩ : Term)) ?_ ?_ ?_
  · rw [List.map_map] at this
    rw [gom, ← list_range_sum]
    exact this
  · intro e he
    obtain ⟨j, hj, rfl⟩ := List.mem_map.1 he
    exact dist_nonneg hb hf (List.mem_range.1 hj)
  · intro e he hint
    obtain ⟨j, hj, rfl⟩ := List.mem_map.1 he
    have hi : intNB c j = true := hint
    simp only [intNB, Bool.and_eq_true, decide_eq_true_eq] at hi
    obtain ⟨⟨hn, hlt⟩, hint⟩ := hi
    have h1 := isInteger_at hx hf hlt hint
    have h2 := bound_integer hb hx hlt hn hint
    change IsInteger (dist c.P c.lp.toLp x j)
    unfold dist
    rw [if_pos hn, ext_col hlt, ext_col hlt]
    split
    · exact isInteger_sub h2 h1
    · exact isInteger_sub h1 h2
  · rw [List.map_map, list_range_sum, ← hcomb]
    congr 1
    exact Finset.sum_congr rfl fun j _ => flip_dist c.P c.lp.toLp (comboRow c m) x j

/-! ### The value of the cut -/

theorem cgCoef_eq {f0 v f : ℚ} {int cont : Bool} (hf : int = true → f = v - ⌊v⌋) (hc : int = false → cont = true)
    (h1 : f0 ≠ 1) : cgCoef f0 int cont f v = - (1 - f0) * gmi f0 int v := by
  have h1 : 1 - f0 ≠ 0 := sub_ne_zero.mpr (Ne.symm h1)
  unfold cgCoef gmi
  cases int with
  | true =>
    rw [hf rfl]
    simp only [if_true]
    split <;> field_simp
  | false =>
    rw [hc rfl]
    simp only [Bool.false_eq_true, if_false, if_true]
    split <;> field_simp

/-- What a cut needs to be about: the cut before unflipping, evaluated at the distances from the LP solution. -/
def distVal (c : Call) (d : Dense) (x : Nat → ℚ) : ℚ :=
  ∑ j ∈ Finset.range (c.P.nCols + c.P.rows.length), d.row j * dist c.P c.lp.toLp x j - d.rhs

theorem cgCut_val {c : Call} (ha : 0 < c.par .away) {m : Nat → ℤ} {d : Dense} (hd : cgCut c (flipped c m) = some d)
    (hnear : ∀ j < c.P.nCols, intNB c j = true →
      aboveInteger c ((flipped c m).row j) = (flipped c m).row j - ⌊(flipped c m).row j⌋) (x : Nat → ℚ) :
    distVal c d x = (1 - aboveInteger c (comboRhs c m)) *
      (aboveInteger c (comboRhs c m) - gom c m (aboveInteger c (comboRhs c m)) x) ∧
    c.par .away ≤ aboveInteger c (comboRhs c m) ∧ c.par .away ≤ 1 - aboveInteger c (comboRhs c m) := by
  unfold cgCut at hd
  dsimp only at hd
  have hr : (flipped c m).rhs = comboRhs c m := rfl
  rw [hr] at hd
  split at hd
  · cases hd
  rename_i haway
  push Not at haway
  cases hd
  refine ⟨?_, haway.1, haway.2⟩
  set f0 := aboveInteger c (comboRhs c m) with hf0
  have hne : f0 ≠ 1 := by intro h; rw [h] at haway; linarith [haway.2]
  unfold distVal gom
  dsimp only
  have : ∑ j ∈ Finset.range (c.P.nCols + c.P.rows.length),
      cgCoef f0 (intNB c j) (contNB c j) (aboveInteger c ((flipped c m).row j)) ((flipped c m).row j) *
        dist c.P c.lp.toLp x j =
      - (1 - f0) * ∑ j ∈ Finset.range (c.P.nCols + c.P.rows.length),
        gmi f0 (intNB c j) ((flipped c m).row j) * dist c.P c.lp.toLp x j := by
    rw [Finset.mul_sum]
    refine Finset.sum_congr rfl fun j _ => ?_
    by_cases hn : nonBasic c.P c.lp.toLp j = true
    · rw [cgCoef_eq (fun hi => hnear j (intNB_col hi) hi) (fun hi => contNB_of hn (by simp [hi])) hne]; ring
    · unfold dist; rw [if_neg hn]; ring
  rw [this]; ring

/-- A cut has nothing in basic columns and slacks. -/
theorem cgCut_basic {c : Call} {m : Nat → ℤ} {d : Dense} (hd : cgCut c (flipped c m) = some d) {j : Nat}
    (hn : ¬ nonBasic c.P c.lp.toLp j = true) : d.row j = 0 := by
  unfold cgCut at hd
  dsimp only at hd
  split at hd
  · cases hd
  cases hd
  dsimp only
  have hi : intNB c j = false := by simp [intNB, hn]
  have hcn : contNB c j = false := by simp [contNB, hn]
  have h2 : ¬ stat c.P c.lp.toLp j = 2 := fun h => hn (nonBasic_iff.mpr (Or.inl h))
  rw [hi, hcn]
  unfold cgCoef flipped RedSplit.flip
  dsimp only
  rw [if_neg (by simp), if_neg (by simp), if_neg h2, comboRow_basic m hn]

/-- The slack of a nonbasic row against the right-hand side the code uses. -/
theorem eff_slack {c : Call} (hb : BasicSolution c.P c.lp.toLp) {d : Dense} {i : Nat} (hi : i < c.P.rows.length)
    (h0 : ¬ nonBasic c.P c.lp.toLp (c.P.nCols + i) = true → d.row (c.P.nCols + i) = 0) (x : Nat → ℚ) :
    flip c.P c.lp.toLp d.row (c.P.nCols + i) * (effRhs c i - c.P.activity x i) =
      d.row (c.P.nCols + i) * dist c.P c.lp.toLp x (c.P.nCols + i) := by
  have hs : stat c.P c.lp.toLp (c.P.nCols + i) = c.lp.rstat i := by
    unfold stat; rw [if_neg (by omega), Nat.add_sub_cancel_left]
  by_cases hn : nonBasic c.P c.lp.toLp (c.P.nCols + i) = true
  · unfold RedSplit.flip dist effRhs
    rw [if_pos hn, ext_slack, ext_slack, hs]
    have hn' := nonBasic_iff.mp hn
    rw [hs] at hn'
    have ha := hb.act i hi
    by_cases h2 : c.lp.rstat i = 2
    · rw [if_pos h2, if_pos h2, if_pos h2]
      have := (hb.rowLower i hi h2).1
      rw [← this, ha]; ring
    · have h3 := hn'.resolve_left h2
      rw [if_neg h2, if_neg h2, if_neg h2, if_pos h3]
      have := (hb.rowUpper i hi h3).1
      rw [← this, ha]; ring
  · have := h0 hn
    unfold RedSplit.flip
    split <;> rw [this] <;> ring

theorem unflip_col {c : Call} (hb : BasicSolution c.P c.lp.toLp) {d : Dense} {j : Nat} (hj : j < c.P.nCols)
    (h0 : ¬ nonBasic c.P c.lp.toLp j = true → d.row j = 0) (x : Nat → ℚ) :
    flip c.P c.lp.toLp d.row j * x j - (if stat c.P c.lp.toLp j = 3 then d.row j * c.P.colLower j
      else if stat c.P c.lp.toLp j = 2 then - d.row j * c.P.colUpper j else 0) =
      d.row j * dist c.P c.lp.toLp x j := by
  have hs : stat c.P c.lp.toLp j = c.lp.cstat j := if_pos hj
  by_cases hn : nonBasic c.P c.lp.toLp j = true
  · unfold RedSplit.flip dist
    rw [if_pos hn, ext_col hj, ext_col hj, hs]
    have hn' := nonBasic_iff.mp hn
    rw [hs] at hn'
    by_cases h2 : c.lp.cstat j = 2
    · have h3 : ¬ c.lp.cstat j = 3 := by omega
      rw [if_pos h2, if_neg h3, if_pos h2, if_pos h2, (hb.upper j hj h2).1]; ring
    · have h3 := hn'.resolve_left h2
      rw [if_neg h2, if_pos h3, if_neg h2, (hb.lower j hj h3).1]; ring
  · have := h0 hn
    unfold RedSplit.flip
    split <;> split <;> (try split) <;> rw [this] <;> ring

/-- Unflipping and substituting the slacks does not change the value. -/
theorem eliminate_val {c : Call} (hwf : c.P.WF) (hb : BasicSolution c.P c.lp.toLp) {d : Dense}
    (h0 : ∀ j, ¬ nonBasic c.P c.lp.toLp j = true → d.row j = 0)
    (hel : ∀ i < c.P.rows.length, |d.row (c.P.nCols + i)| ≤ c.par .EPS_ELIM → d.row (c.P.nCols + i) = 0) (x : Nat → ℚ) :
    colExcess c.P (eliminate c (unflip c d)) x = distVal c d x := by
  have habs : ∀ j, |flip c.P c.lp.toLp d.row j| = |d.row j| := by
    intro j; unfold RedSplit.flip; split
    · exact abs_neg _
    · rfl
  unfold colExcess distVal eliminate unflip
  dsimp only
  simp only [filter_sum, list_range_sum, decide_eq_true_eq, habs]
  rw [RedSplit.sum_all]
  have e1 : ∑ j ∈ Finset.range c.P.nCols, d.row j * dist c.P c.lp.toLp x j =
      ∑ j ∈ Finset.range c.P.nCols, flip c.P c.lp.toLp d.row j * x j -
      ∑ j ∈ Finset.range c.P.nCols, (if stat c.P c.lp.toLp j = 3 then d.row j * c.P.colLower j
        else if stat c.P c.lp.toLp j = 2 then - d.row j * c.P.colUpper j else 0) := by
    rw [← Finset.sum_sub_distrib]
    exact Finset.sum_congr rfl fun j hj => (unflip_col hb (Finset.mem_range.mp hj) (h0 j) x).symm
  have e2 : ∑ i ∈ Finset.range c.P.rows.length, d.row (c.P.nCols + i) * dist c.P c.lp.toLp x (c.P.nCols + i) =
      ∑ i ∈ Finset.range c.P.rows.length, (if c.par .EPS_ELIM < |d.row (c.P.nCols + i)| then
        flip c.P c.lp.toLp d.row (c.P.nCols + i) * effRhs c i else 0) -
      ∑ i ∈ Finset.range c.P.rows.length, (if c.par .EPS_ELIM < |d.row (c.P.nCols + i)| then
        flip c.P c.lp.toLp d.row (c.P.nCols + i) * c.P.activity x i else 0) := by
    rw [← Finset.sum_sub_distrib]
    refine Finset.sum_congr rfl fun i hi => ?_
    have hi := Finset.mem_range.mp hi
    rw [← eff_slack hb hi (h0 _) x]
    split
    · ring
    · rename_i hlt
      have := hel i hi (not_lt.mp hlt)
      unfold RedSplit.flip
      split <;> rw [this] <;> ring
  have e3 : ∑ j ∈ Finset.range c.P.nCols, (flip c.P c.lp.toLp d.row j - ∑ i ∈ Finset.range c.P.rows.length,
        (if c.par .EPS_ELIM < |d.row (c.P.nCols + i)| then
          flip c.P c.lp.toLp d.row (c.P.nCols + i) * (c.P.row i).coef j else 0)) * x j =
      ∑ j ∈ Finset.range c.P.nCols, flip c.P c.lp.toLp d.row j * x j - ∑ i ∈ Finset.range c.P.rows.length,
        (if c.par .EPS_ELIM < |d.row (c.P.nCols + i)| then
          flip c.P c.lp.toLp d.row (c.P.nCols + i) * c.P.activity x i else 0) := by
    simp only [sub_mul, Finset.sum_sub_distrib, Finset.sum_mul]
    congr 1
    rw [Finset.sum_comm]
    refine Finset.sum_congr rfl fun i hi => ?_
    split
    · unfold Prob.activity
      rw [dot_eq_sum _ c.P.nCols (hwf.cols _ (Prob.row_mem (Finset.mem_range.mp hi))) x, Finset.mul_sum]
      refine Finset.sum_congr rfl fun j _ => ?_
      change _ * (c.P.row i).coef j * _ = _ * ((c.P.row i).coef j * _)
      ring
    · simp
  rw [e1, e2, e3]; ring

/-! ### Packing -/

theorem packRow_some {c : Call} {d : Dense} {es : SVec} {rhs : ℚ} (h : packRow c d = .ok (some (es, rhs))) :
    es = packed c d ∧ rhs = packedRhs c d ∧ dynOk c d.row = true ∧
      (∃ s, maxSupport c = .ok s ∧ (es.length : ℤ) ≤ s) ∧
      (rhs < es.dot c.lp.xlp → c.par .MINVIOL * es.length ≤ es.dot c.lp.xlp - rhs) := by
  unfold packRow at h
  split at h
  · cases h
  rename_i s hs
  rw [Except.ok.injEq] at h
  split at h
  · cases h
  rename_i h1
  split at h
  · cases h
  rename_i h2
  split at h
  · cases h
  rename_i h3
  cases h
  push Not at h2 h3
  exact ⟨rfl, rfl, by simpa using h1, ⟨s, hs, h2⟩, h3⟩

/-- What is taken off for a dropped coefficient is at most its term. -/
theorem taken_le {c : Call} (hinf : 10^20 ≤ c.P.inf) {x : Nat → ℚ} (hf : c.P.Feasible x) (hm : Moderate c.P x) {j : Nat}
    (hj : j < c.P.nCols) (v : ℚ) : taken c j v ≤ v * x j := by
  have hx := abs_le.mp (hm j hj)
  unfold taken
  split
  · rename_i hv
    refine mul_le_mul_of_nonneg_left (max_le ?_ hx.1) hv.le
    by_cases hl : - c.P.inf < c.P.colLower j
    · exact hf.lower j hj hl
    · push Not at hl; linarith [hx.1]
  · rename_i hv
    refine mul_le_mul_of_nonpos_left (le_min ?_ hx.2) (not_lt.mp hv)
    by_cases hl : c.P.colUpper j < c.P.inf
    · exact hf.upper j hj hl
    · push Not at hl; linarith [hx.2]

/-- The packed row holds at moderate feasible points wherever the dense one does. -/
theorem packed_le {c : Call} (hinf : 10^20 ≤ c.P.inf) {d : Dense} {x : Nat → ℚ} (hf : c.P.Feasible x)
    (hm : Moderate c.P x) (hle : colExcess c.P d x ≤ 0) : (packed c d).dot x ≤ packedRhs c d := by
  unfold packed packedRhs
  rw [dot_map_range, filter_sum]
  unfold colExcess at hle
  have : ∑ j ∈ Finset.range c.P.nCols, (if big c (d.row j) = true then d.row j * x j else 0) +
      ∑ j ∈ Finset.range c.P.nCols, (if (! big c (d.row j)) = true then taken c j (d.row j) else 0) ≤
      ∑ j ∈ Finset.range c.P.nCols, d.row j * x j := by
    rw [← Finset.sum_add_distrib]
    refine Finset.sum_le_sum fun j hj => ?_
    by_cases hb : big c (d.row j) = true
    · rw [if_pos hb, if_neg (by simp [hb])]; simp
    · rw [if_neg hb, if_pos (by simpa using hb), zero_add]
      exact taken_le hinf hf hm (Finset.mem_range.mp hj) _
  linarith

/-- The cut of a combination holds at moderate feasible points. -/
theorem cut_le {c : Call} (hs : SafeParams c) (ha : 0 < c.par .away) (hwf : c.P.WF) (hb : BasicSolution c.P c.lp.toLp)
    (hgood : goodModel c.P c.lp.toLp = true) (ht : Tableau c) (hx : Exact c) (hsl : (slots c).length = mTab c)
    {m : Nat → ℤ} (hm : Small c m) {d : Dense} (hd : cgCut c (flipped c m) = some d) {es : SVec} {rhs : ℚ}
    (h : packRow c (eliminate c (unflip c d)) = .ok (some (es, rhs))) {x : Nat → ℚ} (hf : c.P.Feasible x)
    (hmod : Moderate c.P x) : es.dot x ≤ rhs := by
  obtain ⟨rfl, rfl, _⟩ := packRow_some h
  refine packed_le hs.inf hf hmod ?_
  rw [eliminate_val hwf hb (fun j hj => cgCut_basic hd hj) (hx.elim m hm d hd)]
  obtain ⟨hv, h1, h2⟩ := cgCut_val ha hd (hx.near m hm) x
  rw [hv]
  have := gom_ge hwf hb hgood ht hx hsl m (by linarith) hf
  nlinarith

/-- Before packing, the LP solution violates the cut of a combination by the product of the fractional parts. -/
theorem cut_lp {c : Call} (ha : 0 < c.par .away) (hwf : c.P.WF) (hb : BasicSolution c.P c.lp.toLp) (hx : Exact c)
    {m : Nat → ℤ} (hm : Small c m) {d : Dense} (hd : cgCut c (flipped c m) = some d) :
    c.par .away * (1 / 2) ≤ colExcess c.P (eliminate c (unflip c d)) c.lp.xlp := by
  rw [eliminate_val hwf hb (fun j hj => cgCut_basic hd hj) (hx.elim m hm d hd)]
  obtain ⟨hv, h1, h2⟩ := cgCut_val ha hd (hx.near m hm) c.lp.xlp
  rw [hv]
  have : gom c m (aboveInteger c (comboRhs c m)) c.lp.xlp = 0 := by
    unfold gom
    refine Finset.sum_eq_zero fun j _ => ?_
    have : dist c.P c.lp.toLp c.lp.xlp j = 0 := by unfold dist; split <;> (try split) <;> simp
    rw [this, mul_zero]
  rw [this, sub_zero]
  rcases le_total (aboveInteger c (comboRhs c m)) (1 / 2) with h | h <;> nlinarith

end Cgl.RedSplit2
