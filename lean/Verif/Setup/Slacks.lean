import Verif.Setup.Cliques

/-! # Slack columns -/

namespace Cgl.Setup

/-- The rows that get no slack column hold. -/
def Rest (S : Prob) (ks : List ℕ) (x : Nat → ℚ) : Prop := ∀ (k : ℕ) (r : Row), S.rows[k]? = some r → k ∉ ks → r.Sat S.inf x

/-- The value of a slack column. -/
def slackValue (s : Slack) (r : Row) (x : Nat → ℚ) : ℚ := if 0 < s.coef then r.ub - SVec.dot r.coefs x else SVec.dot r.coefs x - r.lb

/-- A value that the slack column may take. -/
def Allowed (inf : ℚ) (s : Slack) (t : ℚ) : Prop := 0 ≤ t ∧ (s.upper < inf → t ≤ s.upper) ∧ (s.int = true → IsInteger t)

/-- The slack column is right for its row: all feasible points give it an allowed value, and if it has an allowed value then the
row holds; the right hand side is finite. -/
structure SlackOk (S : Prob) (ks : List ℕ) (s : Slack) (r : Row) : Prop where
  coef : s.coef = 1 ∨ s.coef = -1
  rhs : -S.inf < (if 0 < s.coef then r.ub else r.lb) ∧ (if 0 < s.coef then r.ub else r.lb) < S.inf
  value : ∀ x, S.Feasible x → Allowed S.inf s (slackValue s r x)
  back : ∀ x, Box S x → Rest S ks x → Allowed S.inf s (slackValue s r x) → r.Sat S.inf x

theorem dot_agree (v : SVec) (n : ℕ) (hv : ∀ p ∈ v, p.1 < n) (x y : Nat → ℚ) (h : ∀ j < n, x j = y j) : SVec.dot v x = SVec.dot v y := by
  induction v with
  | nil => rfl
  | cons p v ih =>
    rw [SVec.dot_cons, SVec.dot_cons, h p.1 (hv p List.mem_cons_self), ih fun q hq => hv q (List.mem_cons_of_mem _ hq)]

theorem feasible_agree (S : Prob) (hc : ∀ r ∈ S.rows, ∀ p ∈ r.coefs, p.1 < S.nCols) (x y : Nat → ℚ) (h : ∀ j < S.nCols, x j = y j)
    (hx : S.Feasible x) : S.Feasible y := by
  refine ⟨fun r hr => ?_, fun j hj => ?_, fun j hj => ?_, fun j hj hi => ?_⟩
  · have := hx.rows r hr
    unfold Row.Sat at this ⊢
    rwa [dot_agree r.coefs S.nCols (hc r hr) y x fun j hj => (h j hj).symm]
  · rw [← h j hj]; exact hx.lower j hj
  · rw [← h j hj]; exact hx.upper j hj
  · rw [← h j hj]; exact hx.int j hj hi

theorem addSlack_row (S : Prob) (s : Slack) (k : ℕ) :
    (addSlack S s).rows[k]? = if s.row = k then (S.rows[k]?).map (equation S.nCols s) else S.rows[k]? := by
  unfold addSlack
  dsimp only
  rw [List.getElem?_modify]
  split <;> simp

/-- The equation says that the slack column has its value. -/
theorem equation_sat (inf : ℚ) (n : ℕ) (s : Slack) (r : Row) (hs : s.coef = 1 ∨ s.coef = -1)
    (hr : -inf < (if 0 < s.coef then r.ub else r.lb) ∧ (if 0 < s.coef then r.ub else r.lb) < inf) (y : Nat → ℚ) :
    (equation n s r).Sat inf y ↔ y n = slackValue s r y := by
  unfold Row.Sat equation slackValue lbOk ubOk
  rw [SVec.dot_append, SVec.dot_cons, SVec.dot_nil]
  dsimp only
  rcases hs with h | h
  · rw [h] at hr ⊢
    rw [if_pos (by norm_num)] at hr ⊢
    rw [if_pos (by norm_num)]
    constructor
    · rintro ⟨p, q⟩
      have p := p hr.1; have q := q hr.2
      linarith
    · intro e
      rw [e]
      exact ⟨fun _ => by linarith, fun _ => by linarith⟩
  · rw [h] at hr ⊢
    rw [if_neg (by norm_num)] at hr ⊢
    rw [if_neg (by norm_num)]
    constructor
    · rintro ⟨p, q⟩
      have p := p hr.1; have q := q hr.2
      linarith
    · intro e
      rw [e]
      exact ⟨fun _ => by linarith, fun _ => by linarith⟩

theorem addSlack_box (S : Prob) (s : Slack) (y : Nat → ℚ) (h : Box (addSlack S s) y) : Box S y := by
  have hlt : ∀ j, j < S.nCols → j < (addSlack S s).nCols := fun j hj => Nat.lt_succ_of_lt hj
  refine ⟨fun j hj => ?_, fun j hj => ?_, fun j hj hi => ?_⟩
  · have := h.lower j (hlt j hj)
    unfold addSlack at this; dsimp only at this
    rwa [if_neg (by omega)] at this
  · have := h.upper j (hlt j hj)
    unfold addSlack at this; dsimp only at this
    rwa [if_neg (by omega)] at this
  · have := h.int j (hlt j hj)
    unfold addSlack at this; dsimp only at this
    rw [if_neg (by omega)] at this
    exact this hi

theorem box_of_feasible {P : Prob} {x : Nat → ℚ} (h : P.Feasible x) : Box P x := ⟨h.lower, h.upper, h.int⟩

theorem addSlack_sat_iff (S : Prob) (s : Slack) (r : Row) (hrow : S.rows[s.row]? = some r) (y : Nat → ℚ) :
    (∀ q ∈ (addSlack S s).rows, q.Sat S.inf y) ↔
      ((∀ k q, S.rows[k]? = some q → k ≠ s.row → q.Sat S.inf y) ∧ (equation S.nCols s r).Sat S.inf y) := by
  constructor
  · intro h
    refine ⟨fun k q hq hk => h q ?_, h _ ?_⟩
    · apply List.mem_of_getElem? (i := k)
      rw [addSlack_row, if_neg (Ne.symm hk), hq]
    · apply List.mem_of_getElem? (i := s.row)
      rw [addSlack_row, if_pos rfl, hrow]; rfl
  · rintro ⟨h1, h2⟩ q hq
    obtain ⟨k, hk⟩ := List.getElem?_of_mem hq
    rw [addSlack_row] at hk
    by_cases hs : s.row = k
    · rw [if_pos hs, ← hs, hrow] at hk
      simp only [Option.map_some, Option.some.injEq] at hk
      rw [← hk]; exact h2
    · rw [if_neg hs] at hk
      exact h1 k q hk (Ne.symm hs)

/-- What is feasible with the slack column is feasible without. -/
theorem addSlack_back (S : Prob) (ks : List ℕ) (s : Slack) (r : Row) (hrow : S.rows[s.row]? = some r) (hin : s.row ∈ ks)
    (hok : SlackOk S ks s r) (y : Nat → ℚ) (h : (addSlack S s).Feasible y) : S.Feasible y := by
  have hb := addSlack_box S s y (box_of_feasible h)
  obtain ⟨h1, h2⟩ := (addSlack_sat_iff S s r hrow y).mp h.rows
  have hv := (equation_sat S.inf S.nCols s r hok.coef hok.rhs y).mp h2
  have hn : S.nCols < (addSlack S s).nCols := Nat.lt_succ_self _
  have hal : Allowed S.inf s (y S.nCols) := by
    have a := h.lower S.nCols hn
    have b := h.upper S.nCols hn
    have c := h.int S.nCols hn
    unfold addSlack at a b c
    dsimp only at a b c
    rw [if_pos rfl] at a b c
    have hpos : -S.inf < 0 := by
      have := hok.rhs; linarith [this.1, this.2]
    exact ⟨a hpos, b, c⟩
  have hrest : Rest S ks y := fun k q hq hk => h1 k q hq fun e => hk (e ▸ hin)
  have hr : r.Sat S.inf y := hok.back y hb hrest (hv ▸ hal)
  refine ⟨fun q hq => ?_, hb.lower, hb.upper, hb.int⟩
  obtain ⟨k, hk⟩ := List.getElem?_of_mem hq
  by_cases hs : k = s.row
  · rw [hs, hrow] at hk
    rw [← Option.some.inj hk]; exact hr
  · exact h1 k q hk hs

/-- What is feasible without the slack column can be extended. -/
theorem addSlack_forth (S : Prob) (hc : ∀ r ∈ S.rows, ∀ p ∈ r.coefs, p.1 < S.nCols) (ks : List ℕ) (s : Slack) (r : Row)
    (hrow : S.rows[s.row]? = some r) (hok : SlackOk S ks s r) (x : Nat → ℚ) (h : S.Feasible x) :
    ∃ y, (∀ j < S.nCols, y j = x j) ∧ (addSlack S s).Feasible y := by
  refine ⟨fun j => if j = S.nCols then slackValue s r x else x j, fun j hj => if_neg (by omega), ?_⟩
  set y : Nat → ℚ := fun j => if j = S.nCols then slackValue s r x else x j with hy
  have hag : ∀ j < S.nCols, x j = y j := fun j hj => (if_neg (by omega)).symm
  have hyn : y S.nCols = slackValue s r x := if_pos rfl
  have hf := feasible_agree S hc x y hag h
  have hval : slackValue s r y = slackValue s r x := by
    unfold slackValue
    rw [dot_agree r.coefs S.nCols (hc r (List.mem_of_getElem? hrow)) y x fun j hj => (hag j hj).symm]
  have hal := hok.value x h
  refine ⟨?_, fun j hj => ?_, fun j hj => ?_, fun j hj => ?_⟩
  · refine (addSlack_sat_iff S s r hrow y).mpr ⟨fun k q hq _ => hf.rows q (List.mem_of_getElem? hq), ?_⟩
    exact (equation_sat S.inf S.nCols s r hok.coef hok.rhs y).mpr (by rw [hyn, hval])
  · have hj : j < S.nCols + 1 := hj
    unfold addSlack; dsimp only
    by_cases e : j = S.nCols
    · rw [if_pos e, e, hyn]; exact fun _ => hal.1
    · rw [if_neg e]; exact hf.lower j (by omega)
  · have hj : j < S.nCols + 1 := hj
    unfold addSlack; dsimp only
    by_cases e : j = S.nCols
    · rw [if_pos e, e, hyn]; exact hal.2.1
    · rw [if_neg e]; exact hf.upper j (by omega)
  · have hj : j < S.nCols + 1 := hj
    unfold addSlack; dsimp only
    by_cases e : j = S.nCols
    · rw [if_pos e, e, hyn]; exact hal.2.2
    · rw [if_neg e]; exact hf.int j (by omega)

theorem addSlack_cols (S : Prob) (hc : ∀ r ∈ S.rows, ∀ p ∈ r.coefs, p.1 < S.nCols) (s : Slack) :
    ∀ r ∈ (addSlack S s).rows, ∀ p ∈ r.coefs, p.1 < (addSlack S s).nCols := by
  intro q hq p hp
  change p.1 < S.nCols + 1
  obtain ⟨k, hk⟩ := List.getElem?_of_mem hq
  rw [addSlack_row] at hk
  by_cases hs : s.row = k
  · rw [if_pos hs] at hk
    obtain ⟨r, hr, rfl⟩ := Option.map_eq_some_iff.mp hk
    rcases List.mem_append.mp hp with hp | hp
    · have := hc r (List.mem_of_getElem? hr) p hp; omega
    · rw [List.mem_singleton] at hp; rw [hp]; exact Nat.lt_succ_self _
  · rw [if_neg hs] at hk
    have := hc q (List.mem_of_getElem? hk) p hp; omega

theorem rest_of_addSlack (S : Prob) (ks : List ℕ) (s : Slack) (hin : s.row ∈ ks) (y : Nat → ℚ) (h : Rest (addSlack S s) ks y) :
    Rest S ks y := by
  intro k r hr hk
  refine h k r ?_ hk
  rw [addSlack_row, if_neg (fun e : s.row = k => hk (e ▸ hin)), hr]

/-- A slack column for one row does not disturb those for others. -/
theorem slackOk_addSlack (S : Prob) (ks : List ℕ) (s : Slack) (r : Row) (hrow : S.rows[s.row]? = some r) (hin : s.row ∈ ks)
    (hok : SlackOk S ks s r) (s' : Slack) (r' : Row) (hok' : SlackOk S ks s' r') : SlackOk (addSlack S s) ks s' r' :=
  ⟨hok'.coef, hok'.rhs, fun x hx => hok'.value x (addSlack_back S ks s r hrow hin hok x hx),
    fun x hx hr ha => hok'.back x (addSlack_box S s x hx) (rest_of_addSlack S ks s hin x hr) ha⟩

/-- All slack columns. -/
theorem addSlacks_extends (l : List Slack) (S : Prob) (ks : List ℕ) (hc : ∀ r ∈ S.rows, ∀ p ∈ r.coefs, p.1 < S.nCols)
    (hnd : (l.map Slack.row).Nodup) (hin : ∀ s ∈ l, s.row ∈ ks)
    (hok : ∀ s ∈ l, ∃ r, S.rows[s.row]? = some r ∧ SlackOk S ks s r) : Extends (addSlacks S l) S := by
  induction l generalizing S with
  | nil => exact ⟨fun y h => h, fun x h => ⟨x, fun _ _ => rfl, h⟩⟩
  | cons s l ih =>
    obtain ⟨r, hrow, hs⟩ := hok s List.mem_cons_self
    have hin0 := hin s List.mem_cons_self
    rw [List.map_cons, List.nodup_cons] at hnd
    obtain ⟨h1, h2⟩ := ih (addSlack S s) (addSlack_cols S hc s) hnd.2 (fun t ht => hin t (List.mem_cons_of_mem _ ht)) (fun t ht => by
      obtain ⟨r', hrow', ht'⟩ := hok t (List.mem_cons_of_mem _ ht)
      have hne : s.row ≠ t.row := fun e => hnd.1 (List.mem_map.mpr ⟨t, ht, e.symm⟩)
      exact ⟨r', by rw [addSlack_row, if_neg hne, hrow'], slackOk_addSlack S ks s r hrow hin0 hs t r' ht'⟩)
    refine ⟨fun y h => addSlack_back S ks s r hrow hin0 hs y (h1 y h), fun x h => ?_⟩
    obtain ⟨y, hy, hfy⟩ := addSlack_forth S hc ks s r hrow hs x h
    obtain ⟨z, hz, hfz⟩ := h2 y hfy
    exact ⟨z, fun j hj => (hz j (Nat.lt_succ_of_lt hj)).trans (hy j hj), hfz⟩

/-! ### The rows become equations -/

theorem addSlacks_other (l : List Slack) (S : Prob) (k : ℕ) (h : k ∉ l.map Slack.row) : (addSlacks S l).rows[k]? = S.rows[k]? := by
  induction l generalizing S with
  | nil => rfl
  | cons s l ih =>
    rw [List.map_cons, List.mem_cons, not_or] at h
    change (addSlacks (addSlack S s) l).rows[k]? = _
    rw [ih _ h.2, addSlack_row, if_neg (Ne.symm h.1)]

theorem addSlacks_equation (l : List Slack) (S : Prob) (hnd : (l.map Slack.row).Nodup) (k : ℕ) (h : k ∈ l.map Slack.row) (r : Row)
    (hr : (addSlacks S l).rows[k]? = some r) : Equation r := by
  induction l generalizing S with
  | nil => simp at h
  | cons s l ih =>
    rw [List.map_cons, List.nodup_cons] at hnd
    change (addSlacks (addSlack S s) l).rows[k]? = _ at hr
    rw [List.map_cons, List.mem_cons] at h
    rcases h with rfl | h
    · rw [addSlacks_other l _ _ hnd.1, addSlack_row, if_pos rfl] at hr
      obtain ⟨q, -, rfl⟩ := Option.map_eq_some_iff.mp hr
      exact rfl
    · exact ih _ hnd.2 h hr

/-! ### All inequalities -/

theorem allSlacks_rows (P : Prob) (l : List Row) (i : ℕ) (s : Slack) (h : s ∈ allSlacks P l i) :
    ∃ j r, l[j]? = some r ∧ inequality r = true ∧ s = rowSlack P r (i + j) := by
  induction l generalizing i with
  | nil => simp [allSlacks] at h
  | cons r l ih =>
    unfold allSlacks at h
    have tail : s ∈ allSlacks P l (i + 1) → ∃ j r', (r :: l)[j]? = some r' ∧ inequality r' = true ∧ s = rowSlack P r' (i + j) := by
      intro h
      obtain ⟨j, r', h1, h2, h3⟩ := ih (i + 1) h
      exact ⟨j + 1, r', by simpa using h1, h2, by rw [h3]; congr 1; omega⟩
    by_cases hq : inequality r = true
    · rw [if_pos hq] at h
      rcases List.mem_cons.mp h with rfl | h
      · exact ⟨0, r, by simp, hq, rfl⟩
      · exact tail h
    · rw [if_neg hq] at h
      exact tail h

theorem allSlacks_ge (P : Prob) (l : List Row) (i : ℕ) : ∀ k ∈ (allSlacks P l i).map Slack.row, i ≤ k := by
  intro k hk
  obtain ⟨s, hs, rfl⟩ := List.mem_map.mp hk
  obtain ⟨j, r, -, -, rfl⟩ := allSlacks_rows P l i s hs
  exact Nat.le_add_right _ _

theorem allSlacks_nodup (P : Prob) (l : List Row) (i : ℕ) : ((allSlacks P l i).map Slack.row).Nodup := by
  induction l generalizing i with
  | nil => simp [allSlacks]
  | cons r l ih =>
    unfold allSlacks
    by_cases hq : inequality r = true
    · rw [if_pos hq, List.map_cons, List.nodup_cons]
      refine ⟨fun hm => ?_, ih (i + 1)⟩
      have := allSlacks_ge P l (i + 1) _ hm
      change i + 1 ≤ i at this
      omega
    · rw [if_neg hq]; exact ih (i + 1)

theorem allSlacks_mem (P : Prob) (l : List Row) (i j : ℕ) (r : Row) (hr : l[j]? = some r) (hq : inequality r = true) :
    i + j ∈ (allSlacks P l i).map Slack.row := by
  induction l generalizing i j with
  | nil => simp at hr
  | cons r' l ih =>
    unfold allSlacks
    cases j with
    | zero =>
      simp only [List.getElem?_cons_zero, Option.some.injEq] at hr
      rw [hr, if_pos hq, List.map_cons]
      exact List.mem_cons_self
    | succ j =>
      have := ih (i + 1) j (by simpa using hr)
      rw [show i + (j + 1) = i + 1 + j by omega]
      by_cases hq' : inequality r' = true
      · rw [if_pos hq', List.map_cons]; exact List.mem_cons_of_mem _ this
      · rw [if_neg hq']; exact this

theorem isInteger_floor {v : ℚ} (h : (⌊v⌋ : ℚ) = v) : IsInteger v := ⟨⌊v⌋, h.symm⟩

theorem dot_integer (P : Prob) (v : SVec) (hc : ∀ p ∈ v, p.1 < P.nCols) (x : Nat → ℚ) (hx : Box P x)
    (h : (v.all fun p => P.isInt p.1 && decide ((⌊p.2⌋ : ℚ) = p.2)) = true) : IsInteger (SVec.dot v x) := by
  induction v with
  | nil => exact ⟨0, by simp⟩
  | cons p v ih =>
    rw [List.all_cons, Bool.and_eq_true, Bool.and_eq_true, decide_eq_true_eq] at h
    obtain ⟨a, ha⟩ := ih (fun q hq => hc q (List.mem_cons_of_mem _ hq)) h.2
    obtain ⟨b, hb⟩ := hx.int p.1 (hc p List.mem_cons_self) h.1.1
    rw [SVec.dot_cons, ha, hb, ← h.1.2]
    exact ⟨⌊p.2⌋ * b + a, by push_cast; ring⟩

/-- The slack column of an inequality is right. -/
theorem rowSlack_ok (S : Prob) (ks : List ℕ) (k : ℕ) (r : Row) (hr : r ∈ S.rows) (hcols : ∀ p ∈ r.coefs, p.1 < S.nCols)
    (hi : 10 ^ 30 ≤ S.inf) (hmax : S.inf ≤ dblMax) (hb : Bounded S.inf (10 ^ 18) r) (hq : inequality r = true) :
    SlackOk S ks (rowSlack S r k) r := by
  unfold inequality at hq
  rw [Bool.and_eq_true, Bool.or_eq_true, decide_eq_true_eq, decide_eq_true_eq, decide_eq_true_eq] at hq
  obtain ⟨hlt, hfin⟩ := hq
  have hintval : allInteger S r = true → ∀ x, Box S x → (-S.inf < r.lb → IsInteger (SVec.dot r.coefs x - r.lb)) ∧
      (r.ub < S.inf → IsInteger (r.ub - SVec.dot r.coefs x)) := by
    intro ha x hx
    unfold allInteger at ha
    rw [Bool.and_eq_true, Bool.and_eq_true] at ha
    obtain ⟨⟨h1, h2⟩, h3⟩ := ha
    obtain ⟨d, hd⟩ := dot_integer S r.coefs hcols x hx h3
    have hf := bounded_far (by norm_num) hb
    rw [hd]
    constructor
    · intro hl
      have : -10 ^ 20 < r.lb := by
        by_contra hc; have := hf.1 (not_lt.mp hc); linarith
      simp only [this, decide_true, Bool.true_and, Bool.not_eq_true', decide_eq_false_iff_not, not_not] at h1
      obtain ⟨z, hz⟩ := isInteger_floor h1
      exact ⟨d - z, by rw [hz]; push_cast; ring⟩
    · intro hl
      have : r.ub < 10 ^ 20 := by
        by_contra hc; have := hf.2 (not_lt.mp hc); linarith
      simp only [this, decide_true, Bool.true_and, Bool.not_eq_true', decide_eq_false_iff_not, not_not] at h2
      obtain ⟨z, hz⟩ := isInteger_floor h2
      exact ⟨z - d, by rw [hz]; push_cast; ring⟩
  rcases hb with ⟨hl | hl, hu | hu⟩
  · exfalso
    rcases hfin with h | h <;> linarith
  · have hu' := abs_le.mp hu
    have hc : ¬ |r.lb| < |r.ub| := by
      rw [abs_of_nonpos (by linarith : r.lb ≤ 0)]; linarith
    have hs : rowSlack S r k = ⟨k, 1, dblMax, allInteger S r⟩ := by
      unfold rowSlack; rw [if_neg hc, if_pos (by linarith [hu'.1])]
    rw [hs]
    refine ⟨Or.inl rfl, ?_, fun x hx => ?_, fun x hx _ ha => ?_⟩
    · rw [if_pos (by norm_num)]; exact ⟨by linarith [hu'.1], by linarith [hu'.2]⟩
    · unfold slackValue
      rw [if_pos (by norm_num)]
      have := (hx.rows r hr).2 (by linarith [hu'.2])
      exact ⟨by linarith, fun h => absurd h (by dsimp only; linarith), fun h => (hintval h x (box_of_feasible hx)).2 (by linarith [hu'.2])⟩
    · unfold slackValue at ha
      rw [if_pos (by norm_num)] at ha
      exact ⟨fun h => absurd h (by linarith), fun _ => by linarith [ha.1]⟩
  · have hl' := abs_le.mp hl
    have hc : |r.lb| < |r.ub| := by
      rw [abs_of_nonneg (by linarith : 0 ≤ r.ub)]; linarith
    have hs : rowSlack S r k = ⟨k, -1, dblMax, allInteger S r⟩ := by
      unfold rowSlack; rw [if_pos hc, if_pos (by linarith [hl'.2])]
    rw [hs]
    refine ⟨Or.inr rfl, ?_, fun x hx => ?_, fun x hx _ ha => ?_⟩
    · rw [if_neg (by norm_num)]; exact ⟨by linarith [hl'.1], by linarith [hl'.2]⟩
    · unfold slackValue
      rw [if_neg (by norm_num)]
      have := (hx.rows r hr).1 (by linarith [hl'.1])
      exact ⟨by linarith, fun h => absurd h (by dsimp only; linarith), fun h => (hintval h x (box_of_feasible hx)).1 (by linarith [hl'.1])⟩
    · unfold slackValue at ha
      rw [if_neg (by norm_num)] at ha
      exact ⟨fun _ => by linarith [ha.1], fun h => absurd h (by linarith)⟩
  · have hl' := abs_le.mp hl
    have hu' := abs_le.mp hu
    have hup : (rowSlack S r k).upper = r.ub - r.lb := by
      unfold rowSlack; dsimp only; rw [if_neg (by linarith [hl'.1, hu'.2])]
    have hint : (rowSlack S r k).int = allInteger S r := rfl
    have hco : (rowSlack S r k).coef = 1 ∨ (rowSlack S r k).coef = -1 := by
      unfold rowSlack; dsimp only; split
      · exact Or.inr rfl
      · exact Or.inl rfl
    have hfl : -S.inf < r.lb := by linarith [hl'.1]
    have hfu : r.ub < S.inf := by linarith [hu'.2]
    refine ⟨hco, ?_, fun x hx => ?_, fun x hx _ ha => ?_⟩
    · split
      · exact ⟨by linarith, hfu⟩
      · exact ⟨hfl, by linarith⟩
    · have h1 := (hx.rows r hr).1 hfl
      have h2 := (hx.rows r hr).2 hfu
      unfold Allowed
      rw [hup, hint]
      unfold slackValue
      split
      · exact ⟨by linarith, fun _ => by linarith, fun h => (hintval h x (box_of_feasible hx)).2 hfu⟩
      · exact ⟨by linarith, fun _ => by linarith, fun h => (hintval h x (box_of_feasible hx)).1 hfl⟩
    · unfold Allowed at ha
      rw [hup] at ha
      obtain ⟨h1, h2, -⟩ := ha
      have h2 := h2 (by linarith [hl'.1, hu'.2])
      unfold slackValue at h1 h2
      split at h1
      · rw [if_pos (by assumption)] at h2
        exact ⟨fun _ => by linarith, fun _ => by linarith⟩
      · rw [if_neg (by assumption)] at h2
        exact ⟨fun _ => by linarith, fun _ => by linarith⟩

/-- The slack column of a clique row is right. -/
theorem cliqueSlack_ok (S : Prob) (ks : List ℕ) (k : ℕ) (a : Row × SVec) (hr : a.1 ∈ S.rows) (Q : Prob) (hF : Fine Q) (hR : RowFine Q a)
    (hinf : Q.inf = S.inf) (hk : kind (look Q a) = .clique) (m : ℤ)
    (hw : wanted m (look Q a) = true) (hcr : Crisp (look Q a).up ∧ Crisp (look Q a).lo)
    (hbox : ∀ x, Box S x → Rest S ks x → Box Q x) : SlackOk S ks (cliqueSlack k) a.1 := by
  obtain ⟨A, hA, hup, hlo, hg⟩ := look_ok Q hF a hR.copy hR.cols hR.sized
  obtain ⟨hgood, hn⟩ := kind_near (k := look Q a) (by rw [hk]; simp)
  obtain ⟨hp, -, hdot⟩ := hg hgood
  unfold wanted at hw
  simp only [Bool.and_eq_true, decide_eq_true_eq] at hw
  obtain ⟨⟨⟨-, hminus⟩, -⟩, hne⟩ := hw
  have hv := kind_val.1 hk
  rw [hminus, List.length_nil, Nat.cast_zero, sub_zero] at hv
  rw [hminus] at hdot
  have hi : 10 ^ 30 ≤ S.inf := hinf ▸ hF.inf
  -- the right hand side is exactly 1
  have hu1 : (look Q a).up = 1 := by
    rw [hv] at hn
    push_cast at hn
    have hnear := abs_le.mp hn
    have hfl : ⌊(look Q a).up + 1 / 2⌋ = 1 := by
      rw [Int.floor_eq_iff]; push_cast
      constructor <;> linarith [hnear.1, hnear.2]
    have := hcr.1
    unfold Crisp at this
    rw [hfl] at this
    push_cast at this
    exact this (by rw [abs_sub_comm]; linarith)
  -- the left hand side is at most 0
  have hl0 : (look Q a).lo ≤ 0 := by
    have hle : (look Q a).lo ≤ 1 := by rw [hlo]; rw [hup] at hu1; linarith [hR.ordered]
    by_contra hc
    have hc := not_le.mp hc
    have hcl : ⌈(look Q a).lo - 1 / 10 ^ 5⌉ = 0 := by
      have h1 : ⌈(look Q a).lo - 1 / 10 ^ 5⌉ ≤ 1 := Int.ceil_le.mpr (by push_cast; linarith)
      have h2 : -1 < ⌈(look Q a).lo - 1 / 10 ^ 5⌉ := Int.lt_ceil.mpr (by push_cast; linarith)
      rw [hv] at hne
      omega
    have hsmall : (look Q a).lo ≤ 1 / 10 ^ 5 := by
      have := Int.le_ceil ((look Q a).lo - 1 / 10 ^ 5)
      rw [hcl] at this; push_cast at this; linarith
    have hfl : ⌊(look Q a).lo + 1 / 2⌋ = 0 := by
      rw [Int.floor_eq_iff]; push_cast
      constructor <;> linarith
    have := hcr.2
    unfold Crisp at this
    rw [hfl] at this
    push_cast at this
    have := this (by rw [sub_zero, abs_of_pos hc]; exact hsmall)
    linarith
  have hA' := abs_le.mp hA
  have hub : a.1.ub = 1 + A := by linarith
  have hval : ∀ x, Box Q x → slackValue (cliqueSlack k) a.1 x = 1 - total x (look Q a).plus := by
    intro x hx
    unfold slackValue cliqueSlack
    dsimp only
    rw [if_pos (by norm_num), hdot x hx, hub, total_nil]; ring
  have hrhs : -S.inf < a.1.ub ∧ a.1.ub < S.inf := ⟨by linarith [hA'.1], by linarith [hA'.2]⟩
  refine ⟨Or.inl rfl, ?_, fun x hx => ?_, fun x hx hrest ha => ?_⟩
  · unfold cliqueSlack; dsimp only
    rw [if_pos (by norm_num)]; exact hrhs
  · have hb := hbox x (box_of_feasible hx) fun i r hri _ => hx.rows r (List.mem_of_getElem? hri)
    have hbin := fun j hj => binary_val hF.inf hb (hp j hj)
    obtain ⟨z, hz⟩ := total_int x _ hbin
    have hnn := total_nonneg x _ hbin
    have hs := (hx.rows a.1 hr).2 hrhs.2
    rw [hdot x hb, hub, total_nil] at hs
    rw [hval x hb]
    exact ⟨by linarith, fun _ => by unfold cliqueSlack; dsimp only; linarith, fun _ => ⟨1 - z, by rw [hz]; push_cast; ring⟩⟩
  · have hb := hbox x hx hrest
    have hbin := fun j hj => binary_val hF.inf hb (hp j hj)
    have hnn := total_nonneg x _ hbin
    rw [hval x hb] at ha
    refine ⟨fun _ => ?_, fun _ => ?_⟩
    · rw [hdot x hb, total_nil]; linarith
    · rw [hdot x hb, total_nil]; linarith [ha.1]

end Cgl.Setup
