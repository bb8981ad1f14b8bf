import Verif.Twomir.Ineq
import Verif.Twomir.Spec

/-!
# From constraints to cuts

Every step between a base constraint and the cut in terms of the columns keeps what holds at a feasible point.
-/

namespace Cgl.Twomir

/-! ### Variables and their bounds -/

theorem notNear_frac {q : ℚ} (h : NotNearInt q) (hf : frac q ≤ 1 / 10 ^ 10) : IsInteger q := h hf

theorem isInteger_sub {a b : ℚ} (ha : IsInteger a) (hb : IsInteger b) : IsInteger (a - b) := by
  obtain ⟨m, rfl⟩ := ha
  obtain ⟨n, rfl⟩ := hb
  exact ⟨m - n, by push_cast; ring⟩

theorem isInteger_mul {a b : ℚ} (ha : IsInteger a) (hb : IsInteger b) : IsInteger (a * b) := by
  obtain ⟨m, rfl⟩ := ha
  obtain ⟨n, rfl⟩ := hb
  exact ⟨m * n, by push_cast; ring⟩

theorem isInteger_dot (v : SVec) (x : Nat → ℚ) (h : ∀ p ∈ v, IsInteger p.2 ∧ IsInteger (x p.1)) :
    IsInteger (v.dot x) := by
  induction v with
  | nil => exact ⟨0, by simp⟩
  | cons p v ih =>
    obtain ⟨m, hm⟩ := ih fun q hq => h q (List.mem_cons_of_mem _ hq)
    obtain ⟨n, hn⟩ := isInteger_mul (h p List.mem_cons_self).1 (h p List.mem_cons_self).2
    exact ⟨n + m, by rw [SVec.dot_cons, hm, hn]; push_cast; ring⟩

variable {P : Prob} {x : Nat → ℚ}

theorem slack_nonneg (hf : P.Feasible x) (hr : Representable P x) {i : Nat} (hi : i < P.rows.length) :
    0 ≤ slack P x i := by
  have hs := hf.rows _ (Prob.row_mem hi)
  unfold slack
  split
  · rename_i ha
    have := hs.2 (of_decide_eq_true ha)
    unfold Prob.activity; linarith
  · by_cases hb : -P.inf < (P.row i).lb
    · have := hs.1 hb
      unfold Prob.activity; linarith
    · have := hr.act i hi
      linarith

theorem ext_lower (hf : P.Feasible x) (hr : Representable P x) {j : Nat} (hj : j < P.nCols + P.rows.length) :
    lbD P j ≤ ext P x j := by
  unfold lbD ext
  split
  · rename_i hc
    have hlow : P.colLower j ≤ x j := by
      by_cases h : -P.inf < P.colLower j
      · exact hf.lower j hc h
      · have := (abs_le.mp (hr.cols j hc)).1; linarith
    split
    · rename_i hint
      obtain ⟨z, hz⟩ := hf.int j hc hint
      rw [hz] at hlow ⊢
      exact_mod_cast Int.ceil_le.mpr hlow
    · exact hlow
  · exact slack_nonneg hf hr (by omega)

theorem ext_upper (hf : P.Feasible x) (hr : Representable P x) {j : Nat} (hj : j < P.nCols + P.rows.length) :
    ext P x j ≤ ubD P j := by
  unfold ubD ext
  split
  · rename_i hc
    have hup : x j ≤ P.colUpper j := by
      by_cases h : P.colUpper j < P.inf
      · exact hf.upper j hc h
      · have := (abs_le.mp (hr.cols j hc)).2; linarith
    split
    · rename_i hint
      obtain ⟨z, hz⟩ := hf.int j hc hint
      rw [hz] at hup ⊢
      exact_mod_cast Int.le_floor.mpr hup
    · exact hup
  · have hi : j - P.nCols < P.rows.length := by omega
    split
    · rename_i hab
      rw [Bool.and_eq_true] at hab
      unfold slack
      rw [if_pos hab.1]
      have := (hf.rows _ (Prob.row_mem hi)).1 (of_decide_eq_true hab.2)
      unfold Prob.activity; linarith
    · exact hr.slk _ hi

/-- An integer variable (column or slack) has an integer value and integer bounds. -/
theorem ext_int (hwf : P.WF) (hc : Clear P) (hf : P.Feasible x) {j : Nat} (hj : j < P.nCols + P.rows.length)
    (hint : isIntD P j = true) : IsInteger (ext P x j) ∧ IsInteger (lbD P j) ∧ IsInteger (ubD P j) := by
  unfold isIntD at hint
  unfold lbD ubD ext
  split at hint
  · rename_i hj
    simp only [if_pos hj, if_pos hint]
    exact ⟨hf.int j hj hint, ⟨_, rfl⟩, ⟨_, rfl⟩⟩
  · rename_i hnj
    simp only [if_neg hnj]
    have hi : j - P.nCols < P.rows.length := by omega
    generalize j - P.nCols = i at hint hi
    have hm := Prob.row_mem hi
    unfold intSlack at hint
    rw [Bool.and_eq_true] at hint
    obtain ⟨h1, h2⟩ := hint
    have hact : IsInteger (P.activity x i) := by
      apply isInteger_dot
      intro p hp
      have := List.all_eq_true.mp h2 p hp
      rw [Bool.and_eq_true] at this
      exact ⟨notNear_frac (hc.coef _ hm p hp) (of_decide_eq_true this.1), hf.int _ (hwf.cols _ hm p hp) this.2⟩
    refine ⟨?_, ⟨0, by simp⟩, ?_⟩
    · unfold slack
      split
      · rename_i ha
        rw [if_pos ha, Bool.and_eq_true] at h1
        exact isInteger_sub (notNear_frac (hc.ub _ hm) (of_decide_eq_true h1.1)) hact
      · rename_i ha
        rw [if_neg ha] at h1
        exact isInteger_sub hact (notNear_frac (hc.lb _ hm) (of_decide_eq_true h1))
    · split
      · rename_i hab
        rw [Bool.and_eq_true] at hab
        rw [if_pos hab.1, Bool.and_eq_true, hab.2] at h1
        simp only [Bool.not_true, Bool.false_or] at h1
        exact isInteger_sub (notNear_frac (hc.ub _ hm) (of_decide_eq_true h1.1))
          (notNear_frac (hc.lb _ hm) (of_decide_eq_true h1.2))
      · exact hc.inf

/-! ### Transformation -/

/-- Distance of a variable to the bound it is measured from. -/
def dist (D : Data) (X : Nat → ℚ) (j : Nat) : ℚ := if flip D j then ubD D.P j - X j else X j - lbD D.P j

theorem turn_dot (D : Data) (l : SVec) (X : Nat → ℚ) :
    SVec.dot (l.map (turn D)) (dist D X) = SVec.dot l X - (l.map fun p => p.2 * anchor D p.1).sum := by
  induction l with
  | nil => simp
  | cons p l ih =>
    rw [List.map_cons, SVec.dot_cons, ih, SVec.dot_cons, List.map_cons, List.sum_cons]
    unfold turn dist anchor
    by_cases h : flip D p.1 = true
    · simp only [h, if_true]; ring
    · simp only [h, if_false, Bool.false_eq_true]; ring

/-- Transformation keeps the gap between the two sides. -/
theorem transform_gap (D : Data) (c : Con) (X : Nat → ℚ) :
    SVec.dot (transform D c).es (dist D X) - (transform D c).rhs = SVec.dot c.es X - c.rhs := by
  change SVec.dot (c.es.map (turn D)) (dist D X) - (c.rhs - _) = _
  rw [turn_dot]; ring

theorem untransform_gap (D : Data) (c : Con) (X : Nat → ℚ) :
    SVec.dot (unTransform D c).es X - (unTransform D c).rhs = SVec.dot c.es (dist D X) - c.rhs := by
  change SVec.dot (c.es.map (turn D)) X - (c.rhs + _) = _
  have key : SVec.dot (c.es.map (turn D)) X - (c.es.map fun p => if flip D p.1 then - (p.2 * ubD D.P p.1) else
      p.2 * lbD D.P p.1).sum = SVec.dot c.es (dist D X) := by
    induction c.es with
    | nil => simp
    | cons p l ih =>
      rw [List.map_cons, SVec.dot_cons, SVec.dot_cons, ← ih, List.map_cons, List.sum_cons]
      unfold turn dist
      by_cases h : flip D p.1 = true
      · simp only [h, if_true]; ring
      · simp only [h, if_false, Bool.false_eq_true]; ring
  rw [← key]; ring

theorem dist_nonneg (D : Data) {x : Nat → ℚ} (hf : D.P.Feasible x) (hr : Representable D.P x) {j : Nat}
    (hj : j < D.P.nCols + D.P.rows.length) : 0 ≤ dist D (ext D.P x) j := by
  unfold dist
  have := ext_lower hf hr hj
  have := ext_upper hf hr hj
  split <;> linarith

theorem dist_le (D : Data) {x : Nat → ℚ} (hf : D.P.Feasible x) (hr : Representable D.P x) {j : Nat}
    (hj : j < D.P.nCols + D.P.rows.length) : dist D (ext D.P x) j ≤ ubD D.P j - lbD D.P j := by
  unfold dist
  have := ext_lower hf hr hj
  have := ext_upper hf hr hj
  split <;> linarith

theorem dist_int (D : Data) {x : Nat → ℚ} (hwf : D.P.WF) (hc : Clear D.P) (hf : D.P.Feasible x) {j : Nat}
    (hj : j < D.P.nCols + D.P.rows.length) (hint : isIntD D.P j = true) : IsInteger (dist D (ext D.P x) j) := by
  obtain ⟨h1, h2, h3⟩ := ext_int hwf hc hf hj hint
  unfold dist
  split
  · exact isInteger_sub h3 h1
  · exact isInteger_sub h1 h2

/-! ### Cleaning and scaling -/

theorem niceEntry_ge (P : Prob) (j : Nat) (v t : ℚ) (h0 : 0 ≤ t) (hu : t ≤ ubD P j - lbD P j)
    (hn : ¬ (0 < v ∧ v < 1 / 10 ^ 13))
    (hi : isIntD P j = true → 0 < frac v → frac v < 1 / 10 ^ 7 → 0 ≤ lbD P j)
    (hc : isIntD P j = false → 0 < v → v < 1 / 10 ^ 7 → 0 ≤ lbD P j) :
    v * t ≤ (niceEntry P j v).1 * t + (niceEntry P j v).2 := by
  have hfn := frac_nonneg v
  have hfl := floor_add_frac v
  unfold niceEntry
  by_cases hint : isIntD P j = true
  · rw [if_pos hint]
    by_cases h1 : frac v < 1 / 10 ^ 7
    · rw [if_pos h1]
      split
      · change v * t ≤ (⌊v⌋ : ℚ) * t + frac v * ubD P j
        have : frac v * t ≤ frac v * ubD P j := by
          rcases hfn.eq_or_lt with h | h
          · rw [← h]; simp
          · have := hi hint h h1
            exact mul_le_mul_of_nonneg_left (by linarith) hfn
        calc v * t = (⌊v⌋ : ℚ) * t + frac v * t := by conv_lhs => rw [← hfl]
                                                      ring
          _ ≤ _ := by linarith
      · change v * t ≤ ((⌊v⌋ : ℚ) + 1 / 10 ^ 7) * t + 0
        have : v * t ≤ ((⌊v⌋ : ℚ) + 1 / 10 ^ 7) * t := mul_le_mul_of_nonneg_right (by linarith) h0
        linarith
    · rw [if_neg h1]
      split
      · change v * t ≤ (⌈v⌉ : ℚ) * t + 0
        have : v * t ≤ (⌈v⌉ : ℚ) * t := mul_le_mul_of_nonneg_right (Int.le_ceil v) h0
        linarith
      · change v * t ≤ v * t + 0
        linarith
  · rw [if_neg hint]
    have hint' : isIntD P j = false := by simpa using hint
    by_cases h1 : v < 1 / 10 ^ 13
    · rw [if_pos h1]
      have : v ≤ 0 := by by_contra h; exact hn ⟨not_le.mp h, h1⟩
      have := mul_nonpos_of_nonpos_of_nonneg this h0
      change v * t ≤ 0 * t + 0
      linarith
    · rw [if_neg h1]
      have hv : 0 < v := lt_of_lt_of_le (by norm_num) (not_lt.mp h1)
      by_cases h2 : v < 1 / 10 ^ 7
      · rw [if_pos h2]
        have := hc hint' hv h2
        split
        · change v * t ≤ 0 * t + v * ubD P j
          have : v * t ≤ v * ubD P j := mul_le_mul_of_nonneg_left (by linarith) hv.le
          linarith
        · change v * t ≤ 1 / 10 ^ 7 * t + 0
          have : v * t ≤ 1 / 10 ^ 7 * t := mul_le_mul_of_nonneg_right h2.le h0
          linarith
      · rw [if_neg h2]
        change v * t ≤ v * t + 0
        linarith

theorem niceEntry_zero (P : Prob) (j : Nat) : niceEntry P j 0 = (0, 0) := by
  have : frac 0 = 0 := by unfold frac; simp
  unfold niceEntry
  rw [this]
  simp

theorem nicefy_holds (P : Prob) (c : Con) (t : Nat → ℚ) (hn : NiceOk P c) (h0 : ∀ p ∈ c.es, 0 ≤ t p.1)
    (hu : ∀ p ∈ c.es, t p.1 ≤ ubD P p.1 - lbD P p.1) (h : c.rhs ≤ SVec.dot c.es t) :
    (nicefy P c).rhs ≤ SVec.dot (nicefy P c).es t := by
  have key : SVec.dot c.es t ≤ SVec.dot (c.es.map fun p => (p.1, (niceEntry P p.1 (deNoise p.2)).1)) t +
      (c.es.map fun p => (niceEntry P p.1 (deNoise p.2)).2).sum := by
    unfold NiceOk at hn
    clear h
    generalize c.es = l at hn h0 hu ⊢
    induction l with
    | nil => simp
    | cons p l ih =>
      have := ih (fun q hq => hn q (List.mem_cons_of_mem _ hq)) (fun q hq => h0 q (List.mem_cons_of_mem _ hq))
        (fun q hq => hu q (List.mem_cons_of_mem _ hq))
      rw [List.map_cons, SVec.dot_cons, SVec.dot_cons, List.map_cons, List.sum_cons]
      have hp0 := h0 p List.mem_cons_self
      obtain ⟨h1, h2, h3⟩ := hn p List.mem_cons_self
      have : p.2 * t p.1 ≤ (niceEntry P p.1 (deNoise p.2)).1 * t p.1 + (niceEntry P p.1 (deNoise p.2)).2 := by
        by_cases hz : |p.2| < 1 / 10 ^ 13
        · have e : deNoise p.2 = 0 := by unfold deNoise; rw [if_pos hz]
          rw [e, niceEntry_zero]
          have : p.2 ≤ 0 := by
            by_contra hc
            exact h1 ⟨not_le.mp hc, (abs_lt.mp hz).2⟩
          have := mul_nonpos_of_nonpos_of_nonneg this hp0
          simpa using this
        · have e : deNoise p.2 = p.2 := by unfold deNoise; rw [if_neg hz]
          rw [e]
          exact niceEntry_ge P p.1 p.2 (t p.1) hp0 (hu p List.mem_cons_self) h1 h2 h3
      linarith
  change c.rhs - _ ≤ SVec.dot (c.es.map fun p => (p.1, (niceEntry P p.1 (deNoise p.2)).1)) t
  linarith

theorem scale_dot (t : ℤ) (l : SVec) (X : Nat → ℚ) :
    SVec.dot (l.map fun p => (p.1, p.2 * (t : ℚ))) X = SVec.dot l X * t := by
  induction l with
  | nil => simp
  | cons p l ih => rw [List.map_cons, SVec.dot_cons, SVec.dot_cons, ih]; ring

theorem steps_ge {lo hi t : ℤ} (h : t ∈ steps lo hi) : lo ≤ t := by
  unfold steps at h
  rw [List.mem_filter, List.mem_map] at h
  obtain ⟨⟨i, _, rfl⟩, _⟩ := h
  omega

/-- The constraint the inequality is built from is never of sense `L`, so that the error returns of
`DGG_nicefyConstraint`, `DGG_buildMir` and `DGG_build2step` for that sense are never taken. -/
theorem prepared_sense (P : Prob) (par : Par) (c : Con) (t : ℤ)
    (ht : t ∈ steps (minStep c.sense par.tMin) par.tMax ++ steps (minStep c.sense par.qMin) par.qMax) :
    (prepared P par c t).sense = .G := by
  unfold prepared
  split
  · rename_i he
    have he' := of_decide_eq_true he
    have ht0 : 0 < t := by
      rcases List.mem_append.mp ht with h | h
      · have := steps_ge h; omega
      · have := steps_ge h; omega
    change (if t < 0 then _ else _) = Sns.G
    rw [if_neg (by omega)]
    rfl
  · rfl

theorem scale_idx (t : ℤ) (c : Con) : (scale t c).es.map Prod.fst = c.es.map Prod.fst := by
  unfold scale; simp

theorem mem_idx {l m : SVec} (h : l.map Prod.fst = m.map Prod.fst) {p : Nat × ℚ} (hp : p ∈ l) :
    ∃ q ∈ m, q.1 = p.1 := by
  have : p.1 ∈ m.map Prod.fst := h ▸ List.mem_map_of_mem hp
  obtain ⟨q, hq, e⟩ := List.mem_map.mp this
  exact ⟨q, hq, e⟩

theorem prepared_idx (P : Prob) (par : Par) (c : Con) (t : ℤ) :
    (prepared P par c t).es.map Prod.fst = c.es.map Prod.fst := by
  unfold prepared
  split
  · rw [scale_idx]; unfold nicefy; simp
  · unfold nicefy; simp [scale]

theorem prepared_holds (P : Prob) (par : Par) (c : Con) (t : ℤ)
    (ht : t ∈ steps (minStep c.sense par.tMin) par.tMax ++ steps (minStep c.sense par.qMin) par.qMax)
    (X : Nat → ℚ) (hn : NiceOk P (niceArg par c t)) (h0 : ∀ p ∈ c.es, 0 ≤ X p.1)
    (hu : ∀ p ∈ c.es, X p.1 ≤ ubD P p.1 - lbD P p.1) (h : SVec.dot c.es X = c.rhs) :
    (prepared P par c t).rhs ≤ SVec.dot (prepared P par c t).es X := by
  unfold niceArg at hn
  unfold prepared
  split
  · rename_i he
    rw [if_pos he] at hn
    have he' := of_decide_eq_true he
    have ht0 : 0 < t := by
      rcases List.mem_append.mp ht with h | h
      · have := steps_ge h; omega
      · have := steps_ge h; omega
    have h1 := nicefy_holds P c X hn h0 hu h.ge
    change (nicefy P c).rhs * t ≤ SVec.dot ((nicefy P c).es.map fun p => (p.1, p.2 * (t : ℚ))) X
    rw [scale_dot]
    have : (0 : ℚ) < t := by exact_mod_cast ht0
    exact mul_le_mul_of_nonneg_right h1 this.le
  · rename_i he
    rw [if_neg he] at hn
    apply nicefy_holds P (scale t c) X hn
    · intro p hp
      obtain ⟨q, hq, e⟩ := mem_idx (scale_idx t c) hp
      rw [← e]; exact h0 q hq
    · intro p hp
      obtain ⟨q, hq, e⟩ := mem_idx (scale_idx t c) hp
      rw [← e]; exact hu q hq
    · change c.rhs * t ≤ SVec.dot (c.es.map fun p => (p.1, p.2 * (t : ℚ))) X
      rw [scale_dot, h]

/-! ### Substitution of slacks -/

theorem coef_sum (hwf : P.WF) {i : Nat} (hi : i < P.rows.length) (x : Nat → ℚ) :
    ∑ j ∈ Finset.range P.nCols, (P.row i).coef j * x j = P.activity x i := by
  unfold Prob.activity
  rw [dot_eq_sum _ P.nCols (hwf.cols _ (Prob.row_mem hi)) x]
  rfl

theorem slack_eq (hwf : P.WF) {i : Nat} (hi : i < P.rows.length) (x : Nat → ℚ) :
    slack P x i = slackConst P i + ∑ j ∈ Finset.range P.nCols, slackCoef P i j * x j := by
  unfold slack slackConst slackCoef
  rw [← coef_sum hwf hi x]
  by_cases h : above P i = true
  · simp only [h, if_true, neg_mul, Finset.sum_neg_distrib]; ring
  · simp only [h, if_false, Bool.false_eq_true]; ring

theorem lcut_sum (hwf : P.WF) (l : SVec) (hl : ∀ p ∈ l, p.1 < P.nCols + P.rows.length) (x : Nat → ℚ) :
    ∑ j ∈ Finset.range P.nCols, (l.map fun p =>
      if p.1 < P.nCols then (if p.1 = j then p.2 else 0) else slackCoef P (p.1 - P.nCols) j * p.2).sum * x j =
    SVec.dot l (ext P x) - (l.map fun p =>
      if p.1 < P.nCols then 0 else slackConst P (p.1 - P.nCols) * p.2).sum := by
  induction l with
  | nil => simp
  | cons p l ih =>
    simp only [List.map_cons, List.sum_cons, add_mul, Finset.sum_add_distrib]
    rw [ih fun q hq => hl q (List.mem_cons_of_mem _ hq), SVec.dot_cons]
    by_cases h : p.1 < P.nCols
    · simp only [if_pos h]
      have : ∑ j ∈ Finset.range P.nCols, (if p.1 = j then p.2 else 0) * x j = p.2 * x p.1 := by
        rw [Finset.sum_eq_single p.1]
        · simp
        · intro b _ hb; rw [if_neg (Ne.symm hb), zero_mul]
        · intro hn; exact absurd (Finset.mem_range.mpr h) hn
      rw [this]
      unfold ext; rw [if_pos h]; ring
    · simp only [if_neg h]
      have hi : p.1 - P.nCols < P.rows.length := by have := hl p List.mem_cons_self; omega
      have e : ext P x p.1 = slack P x (p.1 - P.nCols) := by unfold ext; rw [if_neg h]
      rw [e, slack_eq hwf hi x, mul_add, Finset.mul_sum]
      have : ∑ j ∈ Finset.range P.nCols, slackCoef P (p.1 - P.nCols) j * p.2 * x j =
          ∑ j ∈ Finset.range P.nCols, p.2 * (slackCoef P (p.1 - P.nCols) j * x j) :=
        Finset.sum_congr rfl fun j _ => by ring
      rw [this]; ring

theorem filter_range_dot (n : Nat) (f : Nat → ℚ) (q : Nat → Bool) (x : Nat → ℚ)
    (h : ∀ j < n, q j = false → f j = 0) :
    SVec.dot (((List.range n).filter q).map fun j => (j, f j)) x = ∑ j ∈ Finset.range n, f j * x j := by
  induction n with
  | zero => simp
  | succ n ih =>
    rw [List.range_succ, List.filter_append, List.map_append, SVec.dot_append, ih fun j hj => h j (by omega),
      Finset.sum_range_succ]
    congr 1
    by_cases hq : q n = true
    · rw [List.filter_cons_of_pos (by simpa using hq)]
      simp [SVec.dot]
    · rw [List.filter_cons_of_neg (by simpa using hq)]
      rw [h n (by omega) (by simpa using hq)]
      simp

theorem substitute_gap (hwf : P.WF) (c : Con) (hs : SubstExact P c) (hl : ∀ p ∈ c.es, p.1 < P.nCols + P.rows.length)
    (x : Nat → ℚ) :
    SVec.dot (substitute P c).es x - (substitute P c).rhs = SVec.dot c.es (ext P x) - c.rhs := by
  have h1 : SVec.dot (substitute P c).es x = ∑ j ∈ Finset.range P.nCols, lcut P c j * x j := by
    apply filter_range_dot
    intro j hj hq
    exact hs j hj (not_lt.mp (of_decide_eq_false hq))
  rw [h1]
  unfold lcut
  rw [lcut_sum hwf c.es hl x]
  change _ - (c.rhs - _) = _
  ring

/-! ### From a base constraint to its cuts -/

theorem finishAll_mem (D : Data) (l : List Con) (c : Con) (h : c ∈ finishAll D l) :
    ∃ r ∈ l, c = finishCut D r ∧ desirable D c = true := by
  induction l with
  | nil => cases h
  | cons a l ih =>
    unfold finishAll at h
    simp only at h
    split at h
    · rename_i hd
      rcases List.mem_cons.mp h with rfl | h
      · exact ⟨a, List.mem_cons_self, rfl, hd⟩
      · obtain ⟨r, hr, h'⟩ := ih h
        exact ⟨r, List.mem_cons_of_mem _ hr, h'⟩
    · have : c ∈ finishAll D l := by
        revert h
        rcases hl : (finishAll D l).getLast? with _ | e
        · intro h; cases h
        · intro h
          rcases List.mem_cons.mp h with rfl | h
          · exact List.mem_of_getLast? hl
          · exact List.mem_of_mem_dropLast h
      obtain ⟨r, hr, h'⟩ := ih this
      exact ⟨r, List.mem_cons_of_mem _ hr, h'⟩

theorem transform_idx (D : Data) (c : Con) : (transform D c).es.map Prod.fst = c.es.map Prod.fst := by
  simp [transform, turn]

theorem buildMir_idx (P : Prob) (c : Con) : (buildMir P c).es.map Prod.fst = c.es.map Prod.fst := by
  simp [buildMir]

theorem build2step_idx {P : Prob} {α : ℚ} {c cut : Con} (h : build2step P α c = some cut) :
    cut.es.map Prod.fst = c.es.map Prod.fst := by
  unfold build2step at h
  simp only at h
  split at h; · cases h
  split at h; · cases h
  split at h; · cases h
  cases h
  simp

theorem add2step_idx {D : Data} {a : ℤ} {c cut : Con} (h : cut ∈ add2step D a c) :
    cut.es.map Prod.fst = c.es.map Prod.fst ∧ cut.sense = .G := by
  unfold add2step at h
  split at h
  · cases h
  · split at h
    · cases h
    · rename_i cut' hb
      split at h
      · rw [List.mem_singleton] at h
        subst h
        refine ⟨build2step_idx hb, ?_⟩
        unfold build2step at hb
        simp only at hb
        split at hb; · cases hb
        split at hb; · cases hb
        split at hb; · cases hb
        cases hb
        rfl
      · cases h

/-- A cut of the list of raw cuts: built from a prepared constraint by one of the two inequalities. -/
theorem rawCuts_cases {D : Data} {par : Par} {c cut : Con} (h : cut ∈ rawCuts D par c) :
    ∃ t ∈ steps (minStep c.sense par.tMin) par.tMax ++ steps (minStep c.sense par.qMin) par.qMax,
      cut = buildMir D.P (prepared D.P par c t) ∨ cut ∈ add2step D par.aMax (prepared D.P par c t) := by
  unfold rawCuts at h
  rcases List.mem_append.mp h with h | h
  · obtain ⟨t, ht, h'⟩ := List.mem_flatMap.mp h
    refine ⟨t, List.mem_append_left _ ht, Or.inl ?_⟩
    split at h'
    · cases h'
    · simpa using h'
  · obtain ⟨t, ht, h'⟩ := List.mem_flatMap.mp h
    refine ⟨t, List.mem_append_right _ ht, Or.inr ?_⟩
    split at h'
    · cases h'
    · exact h'

theorem rawCuts_idx {D : Data} {par : Par} {c cut : Con} (h : cut ∈ rawCuts D par c) :
    cut.es.map Prod.fst = c.es.map Prod.fst ∧ cut.sense = .G := by
  obtain ⟨t, _, h' | h'⟩ := rawCuts_cases h
  · rw [h', buildMir_idx, prepared_idx]; exact ⟨rfl, rfl⟩
  · rw [(add2step_idx h').1, prepared_idx]; exact ⟨rfl, (add2step_idx h').2⟩

/-- A cut that `DGG_generateCutsFromBase` adds to the list holds at every feasible point at which the base constraint is
tight, if no tolerance changes anything. -/
theorem fromBase_holds (D : Data) (par : Par) (b cut : Con) (hwf : D.P.WF) (hc : Clear D.P) (hcl : BaseClean D par b)
    (hidx : ∀ p ∈ b.es, p.1 < D.P.nCols + D.P.rows.length) (h : cut ∈ fromBase D par b) {x : Nat → ℚ}
    (hf : D.P.Feasible x) (hr : Representable D.P x) (hb : SVec.dot b.es (ext D.P x) = b.rhs) :
    cut.rhs ≤ SVec.dot cut.es x := by
  unfold fromBase at h
  split at h; · cases h
  split at h; · cases h
  split at h; · cases h
  simp only at h
  split at h; · cases h
  obtain ⟨raw, hraw, rfl, _⟩ := finishAll_mem D _ _ h
  set c := transform D b with hcdef
  have hidx' : ∀ p ∈ c.es, p.1 < D.P.nCols + D.P.rows.length := by
    intro p hp
    obtain ⟨q, hq, e⟩ := mem_idx (transform_idx D b) hp
    rw [← e]; exact hidx q hq
  have h0 : ∀ p ∈ c.es, 0 ≤ dist D (ext D.P x) p.1 := fun p hp => dist_nonneg D hf hr (hidx' p hp)
  have hu : ∀ p ∈ c.es, dist D (ext D.P x) p.1 ≤ ubD D.P p.1 - lbD D.P p.1 :=
    fun p hp => dist_le D hf hr (hidx' p hp)
  have htight : SVec.dot c.es (dist D (ext D.P x)) = c.rhs := by
    have := transform_gap D b (ext D.P x)
    linarith
  have hholds : raw.rhs ≤ SVec.dot raw.es (dist D (ext D.P x)) := by
    obtain ⟨t, ht, hcase⟩ := rawCuts_cases hraw
    have hp := prepared_holds D.P par c t ht (dist D (ext D.P x)) (hcl.1 t ht) h0 hu htight
    have h0' : ∀ p ∈ (prepared D.P par c t).es, 0 ≤ dist D (ext D.P x) p.1 := by
      intro p hp
      obtain ⟨q, hq, e⟩ := mem_idx (prepared_idx D.P par c t) hp
      rw [← e]; exact h0 q hq
    have hi' : ∀ p ∈ (prepared D.P par c t).es, isIntD D.P p.1 = true → IsInteger (dist D (ext D.P x) p.1) := by
      intro p hp hint
      obtain ⟨q, hq, e⟩ := mem_idx (prepared_idx D.P par c t) hp
      rw [← e] at hint ⊢
      exact dist_int D hwf hc hf (hidx' q hq) hint
    rcases hcase with rfl | h'
    · exact buildMir_holds D.P _ _ h0' hi' hp
    · exact add2step_holds D par.aMax _ _ h' _ h0' hi' hp
  have hridx : ∀ p ∈ (unTransform D raw).es, p.1 < D.P.nCols + D.P.rows.length := by
    intro p hp
    have e1 : (unTransform D raw).es.map Prod.fst = c.es.map Prod.fst := by
      rw [← (rawCuts_idx hraw).1]; simp [unTransform, turn]
    obtain ⟨q, hq, e⟩ := mem_idx e1 hp
    rw [← e]; exact hidx' q hq
  have g1 := substitute_gap hwf (unTransform D raw) (hcl.2 raw hraw) hridx x
  have g2 := untransform_gap D raw (ext D.P x)
  change (substitute D.P (unTransform D raw)).rhs ≤ SVec.dot (substitute D.P (unTransform D raw)).es x
  linarith

/-! ### Base constraints -/

theorem slack_bound (x : Nat → ℚ) (i : Nat) (v : ℚ) :
    (if above P i then v else - v) * slack P x i =
      v * ((if above P i then (P.row i).ub else (P.row i).lb) - P.activity x i) := by
  unfold slack
  by_cases h : above P i = true
  · simp only [h, if_true]
  · simp only [h, if_false, Bool.false_eq_true]; ring

theorem ext_slack (P : Prob) (x : Nat → ℚ) (i : Nat) : ext P x (P.nCols + i) = slack P x i := by
  unfold ext; simp

theorem eq_slack (hc : Clear P) (hf : P.Feasible x) {i : Nat} (hi : i < P.rows.length) (he : isEq P i = true) :
    (if above P i then (P.row i).ub else (P.row i).lb) = P.activity x i := by
  obtain ⟨h1, h2, h3⟩ := hc.eq _ (Prob.row_mem hi) (of_decide_eq_true he)
  have hs := hf.rows _ (Prob.row_mem hi)
  have a := hs.1 h3
  have b := hs.2 h2
  have : above P i = true := decide_eq_true h2
  rw [if_pos this]
  unfold Prob.activity
  linarith

theorem tableauCon_tight (D : Data) (k : Nat) (ρ : SVec) (hwf : D.P.WF) (hc : Clear D.P)
    (hρ : ∀ p ∈ ρ, p.1 < D.P.rows.length)
    (hz : ∀ j < D.P.nCols, (D.basic j = true ∧ j ≠ k ∨ |tabEntry D.P ρ j| ≤ 1 / 10 ^ 12) → tabEntry D.P ρ j = 0)
    {x : Nat → ℚ} (hf : D.P.Feasible x) :
    SVec.dot (tableauCon D k ρ).es (ext D.P x) = (tableauCon D k ρ).rhs := by
  unfold tableauCon
  simp only [SVec.dot_append]
  rw [filter_range_dot]
  · have e1 : ∑ j ∈ Finset.range D.P.nCols, tabEntry D.P ρ j * ext D.P x j =
        ∑ j ∈ Finset.range D.P.nCols, tabEntry D.P ρ j * x j := by
      refine Finset.sum_congr rfl fun j hj => ?_
      unfold ext; rw [if_pos (Finset.mem_range.mp hj)]
    rw [e1, tab_sum hwf ρ hρ x]
    clear hz e1
    induction ρ with
    | nil => simp
    | cons p l ih =>
      have ih := ih (fun q hq => hρ q (List.mem_cons_of_mem _ hq))
      have hp := hρ p List.mem_cons_self
      by_cases he : isEq D.P p.1 = true
      · rw [List.filter_cons_of_neg (by simp [he])]
        simp only [List.map_cons, List.sum_cons]
        rw [eq_slack hc hf hp he]
        linarith
      · rw [List.filter_cons_of_pos (by simp [he])]
        simp only [List.map_cons, List.sum_cons, SVec.dot_cons]
        rw [ext_slack, slack_bound]
        linarith
  · intro j hj hq
    apply hz j hj
    rw [Bool.and_eq_false_iff] at hq
    rcases hq with hq | hq
    · left
      rw [Bool.or_eq_false_iff] at hq
      refine ⟨by simpa using hq.1, by simpa using hq.2⟩
    · right
      exact not_lt.mp (of_decide_eq_false hq)

theorem tableauCon_idx (D : Data) (k : Nat) (ρ : SVec) (hρ : ∀ p ∈ ρ, p.1 < D.P.rows.length) :
    ∀ p ∈ (tableauCon D k ρ).es, p.1 < D.P.nCols + D.P.rows.length := by
  intro p hp
  rcases List.mem_append.mp hp with h | h
  · obtain ⟨j, hj, rfl⟩ := List.mem_map.mp h
    have := List.mem_range.mp (List.mem_filter.mp hj).1
    show j < _
    omega
  · obtain ⟨q, hq, rfl⟩ := List.mem_map.mp h
    have := hρ q (List.mem_filter.mp hq).1
    show D.P.nCols + q.1 < _
    omega

theorem dot_ext (v : SVec) (h : ∀ p ∈ v, p.1 < P.nCols) (x : Nat → ℚ) : SVec.dot v (ext P x) = SVec.dot v x := by
  induction v with
  | nil => rfl
  | cons p v ih =>
    rw [SVec.dot_cons, SVec.dot_cons, ih fun q hq => h q (List.mem_cons_of_mem _ hq)]
    unfold ext
    rw [if_pos (h p List.mem_cons_self)]

theorem formulaCon_tight (hwf : P.WF) (hc : Clear P) {i : Nat} (hi : i < P.rows.length) {x : Nat → ℚ}
    (hf : P.Feasible x) : SVec.dot (formulaCon P i).es (ext P x) = (formulaCon P i).rhs := by
  unfold formulaCon
  simp only [SVec.dot_append]
  rw [dot_ext _ (hwf.cols _ (Prob.row_mem hi))]
  by_cases he : isEq P i = true
  · rw [if_pos he, eq_slack hc hf hi he]
    simp [Prob.activity]
  · rw [if_neg he]
    simp only [SVec.dot_cons, SVec.dot_nil]
    rw [ext_slack]
    have := slack_bound (P := P) x i 1
    change P.activity x i + _ = _
    linarith

theorem formulaCon_idx (hwf : P.WF) {i : Nat} (hi : i < P.rows.length) :
    ∀ p ∈ (formulaCon P i).es, p.1 < P.nCols + P.rows.length := by
  intro p hp
  rcases List.mem_append.mp hp with h | h
  · have := hwf.cols _ (Prob.row_mem hi) p h
    omega
  · split at h
    · cases h
    · rw [List.mem_singleton] at h
      subst h
      show P.nCols + i < _
      omega

theorem div_dot (s : ℚ) (l : SVec) (X : Nat → ℚ) :
    SVec.dot (l.map fun p => (p.1, p.2 / s)) X = SVec.dot l X / s := by
  induction l with
  | nil => simp
  | cons p l ih => rw [List.map_cons, SVec.dot_cons, SVec.dot_cons, ih]; ring

theorem scaledCon_tight (D : Data) (base : Con) (s : ℚ) (X : Nat → ℚ)
    (h : SVec.dot base.es (dist D X) = base.rhs) :
    SVec.dot (scaledCon D base s).es X = (scaledCon D base s).rhs := by
  have g := untransform_gap D { es := base.es.map fun p => (p.1, p.2 / s), rhs := base.rhs / s,
                                sense := if base.sense = .L then .G else base.sense } X
  simp only at g
  rw [div_dot, h] at g
  unfold scaledCon
  linarith

theorem scaledCon_idx (D : Data) (base : Con) (s : ℚ) :
    (scaledCon D base s).es.map Prod.fst = base.es.map Prod.fst := by
  simp [scaledCon, unTransform, turn]

theorem formLoop_mem {D : Data} {slk : ℚ} {base : Con} {prob : ℚ} {draw : Nat → ℚ} {es : SVec} :
    ∀ {p : Nat} {seen : List ℤ} {l : List Con}, formLoop D slk base prob draw p seen es = some l →
      ∀ c ∈ l, ∃ s, c = scaledCon D base s := by
  induction es with
  | nil =>
    intro p seen l h c hc
    unfold formLoop at h
    cases h; cases hc
  | cons e es ih =>
    intro p seen l h c hc
    unfold formLoop at h
    split at h
    · simp only at h
      split at h
      · cases h
      · rename_i k _
        split at h
        · exact ih h c hc
        · split at h
          · cases h
          · rename_i l' hl'
            cases h
            rcases List.mem_cons.mp hc with rfl | hc
            · exact ⟨_, rfl⟩
            · exact ih hl' c hc
    · exact ih h c hc

theorem formBases_mem {D : Data} {draw : Nat → ℚ} {i : Nat} {l : List Con} (h : formBases D draw i = some l) :
    ∀ c ∈ l, ∃ s, c = scaledCon D (transform D (formulaCon D.P i)) s := by
  intro c hc
  unfold formBases at h
  simp only at h
  split at h
  · cases h; cases hc
  · exact formLoop_mem h c hc

theorem allFormBases_mem {D : Data} {draw : Nat → Nat → ℚ} {is : List Nat} :
    ∀ {l : List Con}, allFormBases D draw is = some l →
      ∀ c ∈ l, ∃ i ∈ is, ∃ s, c = scaledCon D (transform D (formulaCon D.P i)) s := by
  induction is with
  | nil => intro l h c hc; unfold allFormBases at h; cases h; cases hc
  | cons i is ih =>
    intro l h c hc
    unfold allFormBases at h
    rcases h1 : formBases D (draw i) i with _ | a
    · rw [h1] at h; cases h
    · rcases h2 : allFormBases D draw is with _ | b
      · rw [h1, h2] at h; cases h
      · rw [h1, h2] at h
        cases h
        rcases List.mem_append.mp hc with hc | hc
        · obtain ⟨s, hs⟩ := formBases_mem h1 c hc
          exact ⟨i, List.mem_cons_self, s, hs⟩
        · obtain ⟨i', hi', s, hs⟩ := ih h2 c hc
          exact ⟨i', List.mem_cons_of_mem _ hi', s, hs⟩

/-- Every base constraint of a call is over existing variables and is tight at every feasible point. -/
theorem bases_tight (D : Data) (prm : Prm) (info : Info) (fact : Option (Nat → SVec)) (draw : Nat → Nat → ℚ)
    (hwf : D.P.WF) (hc : Clear D.P) (ht : TabClean D (mkPar D.P prm info) fact) {bs : List Con}
    (h : bases D prm info fact draw = some bs) {b : Con} (hb : b ∈ bs) :
    (∀ p ∈ b.es, p.1 < D.P.nCols + D.P.rows.length) ∧
      ∀ x, D.P.Feasible x → SVec.dot b.es (ext D.P x) = b.rhs := by
  unfold bases at h
  simp only at h
  split at h
  · cases h
  · rename_i f hf
    cases h
    rcases List.mem_append.mp hb with hb | hb
    · split at hb
      · unfold tabBases at hb
        unfold TabClean at ht
        split at hb
        · cases hb
        · rename_i ρ
          simp only at ht
          obtain ⟨hb, _⟩ := List.mem_filter.mp hb
          obtain ⟨k, hk, rfl⟩ := List.mem_map.mp hb
          obtain ⟨hk1, hk2⟩ := List.mem_filter.mp hk
          obtain ⟨h1, h2⟩ := ht k (List.mem_range.mp hk1) hk2
          exact ⟨tableauCon_idx D k _ h1, fun x hx => tableauCon_tight D k _ hwf hc h1 h2 hx⟩
      · cases hb
    · split at hf
      · obtain ⟨i, hi, s, rfl⟩ := allFormBases_mem hf b hb
        have hi' : i < D.P.rows.length := by
          have := List.mem_range.mp hi
          omega
        constructor
        · intro p hp
          obtain ⟨q, hq, e⟩ := mem_idx (scaledCon_idx D _ s) hp
          obtain ⟨q', hq', e'⟩ := mem_idx (transform_idx D _) hq
          rw [← e, ← e']
          exact formulaCon_idx hwf hi' q' hq'
        · intro x hx
          apply scaledCon_tight
          have g := transform_gap D (formulaCon D.P i) (ext D.P x)
          have := formulaCon_tight hwf hc hi' hx
          linarith
      · cases hf; cases hb

end Cgl.Twomir
