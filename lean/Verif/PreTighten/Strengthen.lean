import Verif.PreTighten.Cols

/-!
# The changed coefficients
-/

namespace Cgl.PreTighten

section Loop

variable (isInt : Nat → Bool) (nl nu ml mu : Nat → ℚ) (gap : ℚ)

/-- The coefficient of the entry after the loop. -/
def nv (p : Nat × ℚ) : ℚ :=
  if differs p.2 (newValue (isInt p.1) gap (nu p.1 - nl p.1) p.2) then newValue (isInt p.1) gap (nu p.1 - nl p.1) p.2
  else p.2

/-- The adjustment of the bounds for the entry. -/
def adj (p : Nat × ℚ) : ℚ :=
  if differs p.2 (newValue (isInt p.1) gap (nu p.1 - nl p.1) p.2) then
    adjust gap (ml p.1) (mu p.1) p.2 (newValue (isInt p.1) gap (nu p.1 - nl p.1) p.2) else 0

/-- The row after the loop. -/
theorem loop_eq (es done : SVec) (l u : ℚ) (n : Nat) :
    (strengthenLoop isInt nl nu ml mu gap es done l u n).1 =
      ⟨(es.map (adj isInt nl nu ml mu gap)).foldl adjustLb l, (es.map (adj isInt nl nu ml mu gap)).foldl adjustUb u,
        done ++ es.map fun p => (p.1, nv isInt nl nu gap p)⟩ := by
  induction es generalizing done l u n with
  | nil => simp [strengthenLoop]
  | cons p es ih =>
    unfold strengthenLoop
    by_cases h : differs p.2 (newValue (isInt p.1) gap (nu p.1 - nl p.1) p.2) = true
    · rw [if_pos h, ih, List.map_cons, List.foldl_cons, List.foldl_cons, List.map_cons]
      simp only [adj, nv, if_pos h, List.append_assoc, List.singleton_append]
    · rw [if_neg h, ih, List.map_cons, List.foldl_cons, List.foldl_cons, List.map_cons]
      simp only [adj, nv, if_neg h, List.append_assoc, List.singleton_append]
      simp only [adjustLb, adjustUb, ne_eq, not_true_eq_false, false_and, if_false]

theorem loop_count_ge (es done : SVec) (l u : ℚ) (n : Nat) :
    n ≤ (strengthenLoop isInt nl nu ml mu gap es done l u n).2 := by
  induction es generalizing done l u n with
  | nil => exact le_refl _
  | cons p es ih =>
    unfold strengthenLoop
    split
    · exact le_trans (Nat.le_succ n) (ih ..)
    · exact ih ..

/-- The row is as before if nothing is counted. -/
theorem loop_same {es done : SVec} {l u : ℚ} {n : Nat}
    (h : (strengthenLoop isInt nl nu ml mu gap es done l u n).2 ≤ n) :
    (strengthenLoop isInt nl nu ml mu gap es done l u n).1 = ⟨l, u, done ++ es⟩ := by
  induction es generalizing done l u n with
  | nil => simp [strengthenLoop]
  | cons p es ih =>
    unfold strengthenLoop at h ⊢
    by_cases hd : differs p.2 (newValue (isInt p.1) gap (nu p.1 - nl p.1) p.2) = true
    · rw [if_pos hd] at h
      have := loop_count_ge isInt nl nu ml mu gap es (done ++ [(p.1, newValue (isInt p.1) gap (nu p.1 - nl p.1) p.2)])
        (adjustLb l (adjust gap (ml p.1) (mu p.1) p.2 (newValue (isInt p.1) gap (nu p.1 - nl p.1) p.2)))
        (adjustUb u (adjust gap (ml p.1) (mu p.1) p.2 (newValue (isInt p.1) gap (nu p.1 - nl p.1) p.2))) (n + 1)
      omega
    · rw [if_neg hd] at h ⊢
      rw [ih h, List.append_assoc, List.singleton_append]

end Loop

theorem foldl_lb_free {l : ℚ} (h : l ≤ -((10 ^ 20 : ℕ) : ℚ)) (as : List ℚ) : as.foldl adjustLb l = l := by
  induction as with
  | nil => rfl
  | cons a as ih =>
    rw [List.foldl_cons, show adjustLb l a = l from if_neg fun hc => absurd hc.2 (not_lt.mpr h)]
    exact ih

theorem foldl_ub_free {u : ℚ} (h : ((10 ^ 20 : ℕ) : ℚ) ≤ u) (as : List ℚ) : as.foldl adjustUb u = u := by
  induction as with
  | nil => rfl
  | cons a as ih =>
    rw [List.foldl_cons, show adjustUb u a = u from if_neg fun hc => absurd hc.2 (not_lt.mpr h)]
    exact ih

theorem abs_sum_nonneg (as : List ℚ) : 0 ≤ (as.map fun a => |a|).sum :=
  List.sum_nonneg fun a ha => by obtain ⟨b, _, rfl⟩ := List.mem_map.mp ha; exact abs_nonneg b

theorem foldl_lb {l : ℚ} (as : List ℚ) (h : -((10 ^ 20 : ℕ) : ℚ) < l - (as.map fun a => |a|).sum) :
    as.foldl adjustLb l = l - as.sum := by
  induction as generalizing l with
  | nil => simp
  | cons a as ih =>
    rw [List.map_cons, List.sum_cons] at h
    have h1 := abs_sum_nonneg as
    have h2 := abs_nonneg a
    have h3 := le_abs_self a
    have e : adjustLb l a = l - a := by
      unfold adjustLb
      by_cases ha : a = 0
      · rw [if_neg (by simp [ha])]; linarith
      · rw [if_pos ⟨ha, by linarith⟩]
    rw [List.foldl_cons, e, ih (by linarith), List.sum_cons]
    ring

theorem foldl_ub {u : ℚ} (as : List ℚ) (h : u + (as.map fun a => |a|).sum < ((10 ^ 20 : ℕ) : ℚ)) :
    as.foldl adjustUb u = u - as.sum := by
  induction as generalizing u with
  | nil => simp
  | cons a as ih =>
    rw [List.map_cons, List.sum_cons] at h
    have h1 := abs_sum_nonneg as
    have h2 := abs_nonneg a
    have h3 := neg_abs_le a
    have e : adjustUb u a = u - a := by
      unfold adjustUb
      by_cases ha : a = 0
      · rw [if_neg (by simp [ha])]; linarith
      · rw [if_pos ⟨ha, by linarith⟩]
    rw [List.foldl_cons, e, ih (by linarith), List.sum_cons]
    ring

theorem abs_sum_le (as : List ℚ) : |as.sum| ≤ (as.map fun a => |a|).sum := by
  induction as with
  | nil => simp
  | cons a as ih =>
    rw [List.sum_cons, List.map_cons, List.sum_cons]
    exact le_trans (abs_add_le _ _) (by linarith)

/-- The new row holds if and only if its activity plus the adjustments is within the bounds of the old row. -/
theorem adjusted_sat {inf : ℚ} (hinf : 10 ^ 100 ≤ inf) {r : Row} (hb : RowBounds inf r) {es : SVec} {as : List ℚ}
    (ha : (as.map fun a => |a|).sum ≤ 10 ^ 19) {x : Nat → ℚ} :
    (Row.mk (as.foldl adjustLb r.lb) (as.foldl adjustUb r.ub) es).Sat inf x ↔
      (-inf < r.lb → r.lb ≤ SVec.dot es x + as.sum) ∧ (r.ub < inf → SVec.dot es x + as.sum ≤ r.ub) := by
  have h20 : ((10 ^ 20 : ℕ) : ℚ) = 10 ^ 20 := by norm_num
  have hs := abs_le.mp (le_trans (abs_sum_le as) ha)
  unfold Row.Sat
  refine and_congr ?_ ?_
  · rcases hb.1 with hl | hl
    · dsimp only
      rw [foldl_lb_free (by rw [h20]; linarith)]
      exact ⟨fun _ h => absurd h (by linarith), fun _ h => absurd h (by linarith)⟩
    · have hl' := abs_le.mp hl
      dsimp only
      rw [foldl_lb _ (by rw [h20]; linarith [hl'.1])]
      constructor
      · intro h h'; have := h (by linarith [hl'.1, hs.2]); linarith
      · intro h h'; have := h (by linarith [hl'.1]); linarith
  · rcases hb.2 with hl | hl
    · dsimp only
      rw [foldl_ub_free (by rw [h20]; linarith)]
      exact ⟨fun _ h => absurd h (by linarith), fun _ h => absurd h (by linarith)⟩
    · have hl' := abs_le.mp hl
      dsimp only
      rw [foldl_ub _ (by rw [h20]; linarith [hl'.2])]
      constructor
      · intro h h'; have := h (by linarith [hl'.2, hs.1]); linarith
      · intro h h'; have := h (by linarith [hl'.2]); linarith

/-! ### The entries of a row that is looked at -/

/-- The bounds used for the changes and the point: a column whose coefficient may change is integer, has new bounds
that are the bounds of the model and differ by 1, and the point has one of them as its value. -/
structure Cell (isInt : Nat → Bool) (nl nu ml : Nat → ℚ) (x : Nat → ℚ) (p : Nat × ℚ) : Prop where
  one : 0 < nu p.1 - nl p.1 → nu p.1 - nl p.1 ≤ 1 → isInt p.1 = true →
    nu p.1 = nl p.1 + 1 ∧ ml p.1 = nl p.1 ∧ (x p.1 = nl p.1 ∨ x p.1 = nl p.1 + 1)

/-- What the loop does to an entry: nothing, or a step from `v` towards 0 to the value of `gap`. -/
theorem cell_cases {isInt : Nat → Bool} {nl nu ml mu x : Nat → ℚ} {gap : ℚ} {p : Nat × ℚ}
    (hc : Cell isInt nl nu ml x p) :
    (nv isInt nl nu gap p = p.2 ∧ adj isInt nl nu ml mu gap p = 0) ∨
    (nu p.1 = nl p.1 + 1 ∧ (x p.1 = nl p.1 ∨ x p.1 = nl p.1 + 1) ∧ nv isInt nl nu gap p = gap ∧
      adj isInt nl nu ml mu gap p = nl p.1 * (p.2 - gap) ∧ ((0 < gap ∧ gap < p.2) ∨ (gap < 0 ∧ p.2 < gap))) := by
  by_cases hd : differs p.2 (newValue (isInt p.1) gap (nu p.1 - nl p.1) p.2) = true
  · right
    have hn : 0 < nu p.1 - nl p.1 ∧ nu p.1 - nl p.1 ≤ 1 ∧ 0 < p.2 * gap ∧ isInt p.1 = true ∧
        |gap| < |p.2 * (nu p.1 - nl p.1)| := by
      by_contra hc
      rw [newValue, if_neg hc] at hd
      simp only [differs, sub_self, abs_zero, decide_eq_true_eq] at hd
      norm_num at hd
    obtain ⟨e1, e2, e3⟩ := hc.one hn.1 hn.2.1 hn.2.2.2.1
    have hw : newValue (isInt p.1) gap (nu p.1 - nl p.1) p.2 = gap := by
      rw [newValue, if_pos hn, show nu p.1 - nl p.1 = 1 by linarith, div_one]
    obtain ⟨h1, h2, h3, h4, h5⟩ := hn
    rw [show nu p.1 - nl p.1 = 1 by linarith, mul_one] at h5
    have hsign : (0 < gap ∧ gap < p.2) ∨ (gap < 0 ∧ p.2 < gap) := by
      rcases pos_and_pos_or_neg_and_neg_of_mul_pos h3 with ⟨a, b⟩ | ⟨a, b⟩
      · left; rw [abs_of_pos a, abs_of_pos b] at h5; exact ⟨b, h5⟩
      · right; rw [abs_of_neg a, abs_of_neg b] at h5; exact ⟨b, by linarith⟩
    refine ⟨e1, e3, ?_, ?_, hsign⟩
    · rw [nv, if_pos hd, hw]
    · rw [adj, if_pos hd, hw, adjust, e2]
      rcases hsign with ⟨a, b⟩ | ⟨a, b⟩
      · rw [if_pos a, if_pos (by linarith)]
      · rw [if_neg (by linarith), if_pos (by linarith)]
  · left
    exact ⟨by rw [nv, if_neg hd], by rw [adj, if_neg hd]⟩

/-- The contribution of an entry to the activity of the new row plus the adjustments. -/
def term (isInt : Nat → Bool) (nl nu ml mu : Nat → ℚ) (gap : ℚ) (x : Nat → ℚ) (p : Nat × ℚ) : ℚ :=
  nv isInt nl nu gap p * x p.1 + adj isInt nl nu ml mu gap p

theorem terms_eq (isInt : Nat → Bool) (nl nu ml mu : Nat → ℚ) (gap : ℚ) (x : Nat → ℚ) (es : SVec) :
    SVec.dot (es.map fun p => (p.1, nv isInt nl nu gap p)) x + (es.map (adj isInt nl nu ml mu gap)).sum =
      (es.map (term isInt nl nu ml mu gap x)).sum := by
  induction es with
  | nil => simp
  | cons p es ih =>
    rw [List.map_cons, SVec.dot_cons, List.map_cons, List.sum_cons, List.map_cons, List.sum_cons, ← ih]
    simp only [term]
    ring

theorem adj_small {isInt : Nat → Bool} {nl nu ml mu x : Nat → ℚ} {gap : ℚ} {es : SVec}
    (hc : ∀ p ∈ es, Cell isInt nl nu ml x p) :
    ((es.map (adj isInt nl nu ml mu gap)).map fun a => |a|).sum ≤ (es.map fun p => |p.2| * (|x p.1| + 1)).sum := by
  rw [List.map_map]
  refine List.sum_le_sum fun p hp => ?_
  simp only [Function.comp]
  have h0 : 0 ≤ |p.2| * (|x p.1| + 1) := mul_nonneg (abs_nonneg _) (by linarith [abs_nonneg (x p.1)])
  rcases cell_cases (mu := mu) (gap := gap) (hc p hp) with ⟨_, h⟩ | ⟨_, hx, _, h, hs⟩
  · rw [h, abs_zero]; exact h0
  · rw [h, abs_mul, mul_comm]
    refine mul_le_mul ?_ ?_ (abs_nonneg _) (abs_nonneg _)
    · rcases hs with ⟨a, b⟩ | ⟨a, b⟩
      · rw [abs_of_pos (show 0 < p.2 - gap by linarith), abs_of_pos (show 0 < p.2 by linarith)]; linarith
      · rw [abs_of_neg (show p.2 - gap < 0 by linarith), abs_of_neg (show p.2 < 0 by linarith)]; linarith
    · rcases hx with hx | hx
      · rw [hx]; linarith
      · have := abs_add_le (x p.1) (-1)
        rw [hx] at this ⊢
        rw [abs_neg, abs_one] at this
        rwa [add_neg_cancel_right] at this

theorem sum_le_sum' {α : Type} {es : List α} {f g : α → ℚ} (h : ∀ p ∈ es, f p ≤ g p) :
    (es.map f).sum ≤ (es.map g).sum := List.sum_le_sum h

/-- With a positive gap the new row is weaker term by term. -/
theorem term_le {isInt : Nat → Bool} {nl nu ml mu x : Nat → ℚ} {gap : ℚ} (hg : 0 < gap) {p : Nat × ℚ}
    (hc : Cell isInt nl nu ml x p) : term isInt nl nu ml mu gap x p ≤ p.2 * x p.1 := by
  unfold term
  rcases cell_cases (mu := mu) (gap := gap) hc with ⟨h1, h2⟩ | ⟨_, hx, h1, h2, hs⟩
  · rw [h1, h2, add_zero]
  · rw [h1, h2]
    have : gap < p.2 := by
      rcases hs with h | h
      · exact h.2
      · linarith [h.1]
    rcases hx with hx | hx <;> rw [hx] <;> nlinarith

theorem term_ge {isInt : Nat → Bool} {nl nu ml mu x : Nat → ℚ} {gap : ℚ} (hg : gap < 0) {p : Nat × ℚ}
    (hc : Cell isInt nl nu ml x p) : p.2 * x p.1 ≤ term isInt nl nu ml mu gap x p := by
  unfold term
  rcases cell_cases (mu := mu) (gap := gap) hc with ⟨h1, h2⟩ | ⟨_, hx, h1, h2, hs⟩
  · rw [h1, h2, add_zero]
  · rw [h1, h2]
    have : p.2 < gap := by
      rcases hs with h | h
      · linarith [h.1]
      · exact h.2
    rcases hx with hx | hx <;> rw [hx] <;> nlinarith

/-- A term is that of the old row, or the column has its upper bound and the term is its lower bound plus the gap. -/
theorem term_cases {isInt : Nat → Bool} {nl nu ml mu x : Nat → ℚ} {gap : ℚ} {p : Nat × ℚ}
    (hc : Cell isInt nl nu ml x p) : term isInt nl nu ml mu gap x p = p.2 * x p.1 ∨
      (nl p.1 < nu p.1 ∧ term isInt nl nu ml mu gap x p = nl p.1 * p.2 + gap ∧
        ((0 < gap ∧ 0 < p.2) ∨ (gap < 0 ∧ p.2 < 0))) := by
  unfold term
  rcases cell_cases (mu := mu) (gap := gap) hc with ⟨h1, h2⟩ | ⟨hu, hx, h1, h2, hs⟩
  · left; rw [h1, h2, add_zero]
  · rw [h1, h2]
    rcases hx with hx | hx
    · left; rw [hx]; ring
    · right
      refine ⟨by linarith, by rw [hx]; ring, ?_⟩
      rcases hs with h | h
      · exact .inl ⟨h.1, by linarith [h.2]⟩
      · exact .inr ⟨h.1, by linarith [h.2]⟩

/-- An entry of the sum is at most the contribution of a point within the bounds. -/
theorem loTerm3_le {nl nu x : Nat → ℚ} {p : Nat × ℚ} (hx : nl p.1 ≤ x p.1 ∧ x p.1 ≤ nu p.1) {v : ℚ}
    (h : loTerm3 nl nu p = some v) (h0 : p.2 ≠ 0) : v ≤ p.2 * x p.1 := by
  unfold loTerm3 at h
  split at h
  · unfold loTerm at h
    rcases lt_or_gt_of_ne h0 with hp | hp
    · rw [if_neg (by linarith), if_pos hp] at h
      unfold atUp at h
      split at h
      · obtain rfl := Option.some.inj h; nlinarith [hx.2]
      · exact absurd h (by simp)
    · rw [if_pos hp] at h
      unfold atLo at h
      split at h
      · obtain rfl := Option.some.inj h; nlinarith [hx.1]
      · exact absurd h (by simp)
  · obtain rfl := Option.some.inj h
    rename_i hn
    rw [show x p.1 = nl p.1 by linarith [hx.1, hx.2]]
    linarith

theorem le_hiTerm3 {nl nu x : Nat → ℚ} {p : Nat × ℚ} (hx : nl p.1 ≤ x p.1 ∧ x p.1 ≤ nu p.1) {v : ℚ}
    (h : hiTerm3 nl nu p = some v) (h0 : p.2 ≠ 0) : p.2 * x p.1 ≤ v := by
  unfold hiTerm3 at h
  split at h
  · unfold hiTerm at h
    rcases lt_or_gt_of_ne h0 with hp | hp
    · rw [if_neg (by linarith), if_pos hp] at h
      unfold atLo at h
      split at h
      · obtain rfl := Option.some.inj h; nlinarith [hx.1]
      · exact absurd h (by simp)
    · rw [if_pos hp] at h
      unfold atUp at h
      split at h
      · obtain rfl := Option.some.inj h; nlinarith [hx.2]
      · exact absurd h (by simp)
  · obtain rfl := Option.some.inj h
    rename_i hn
    rw [show x p.1 = nl p.1 by linarith [hx.1, hx.2]]
    linarith

/-- The term of an entry with positive coefficient, if it is finite. -/
theorem loTerm3_pos {nl nu : Nat → ℚ} {p : Nat × ℚ} (hp : 0 < p.2) {v : ℚ} (h : loTerm3 nl nu p = some v) :
    v = nl p.1 * p.2 := by
  unfold loTerm3 at h
  split at h
  · unfold loTerm at h
    rw [if_pos hp] at h
    unfold atLo at h
    split at h
    · exact (Option.some.inj h).symm
    · exact absurd h (by simp)
  · exact (Option.some.inj h).symm

theorem hiTerm3_neg {nl nu : Nat → ℚ} {p : Nat × ℚ} (hp : p.2 < 0) {v : ℚ} (h : hiTerm3 nl nu p = some v) :
    v = nl p.1 * p.2 := by
  unfold hiTerm3 at h
  split at h
  · unfold hiTerm at h
    rw [if_neg (by linarith), if_pos hp] at h
    unfold atLo at h
    split at h
    · exact (Option.some.inj h).symm
    · exact absurd h (by simp)
  · exact (Option.some.inj h).symm

/-! ### The row -/

/-- A positive gap is the distance of the lower bound from the smallest activity. -/
theorem gap_pos {lo up : Nat → ℚ} {r : Row} (h : 0 < gapOf lo up r) :
    lowGap lo up r = true ∧ infDown lo up r.coefs = 0 ∧ gapOf lo up r = r.lb - sumDown lo up r.coefs := by
  unfold gapOf at h ⊢
  by_cases h1 : lowGap lo up r = true
  · rw [if_pos h1] at h ⊢
    by_cases h2 : infDown lo up r.coefs ≠ 0
    · rw [if_pos h2] at h; exact absurd h (lt_irrefl _)
    · rw [if_neg h2]
      exact ⟨h1, not_not.mp h2, rfl⟩
  · rw [if_neg h1] at h
    by_cases h3 : upGap lo up r = true
    · rw [if_pos h3] at h
      split at h
      · exact absurd h (lt_irrefl _)
      · simp only [upGap, Bool.and_eq_true, decide_eq_true_eq] at h3
        linarith [h3.1.1]
    · rw [if_neg h3] at h; exact absurd h (lt_irrefl _)

theorem gap_neg {lo up : Nat → ℚ} {r : Row} (h : gapOf lo up r < 0) :
    upGap lo up r = true ∧ infUp lo up r.coefs = 0 ∧ gapOf lo up r = r.ub - sumUp lo up r.coefs := by
  unfold gapOf at h ⊢
  by_cases h1 : lowGap lo up r = true
  · rw [if_pos h1] at h
    split at h
    · exact absurd h (lt_irrefl _)
    · simp only [lowGap, Bool.and_eq_true, decide_eq_true_eq] at h1
      linarith [h1.1.1]
  · rw [if_neg h1] at h ⊢
    by_cases h3 : upGap lo up r = true
    · rw [if_pos h3] at h ⊢
      by_cases h2 : infUp lo up r.coefs ≠ 0
      · rw [if_pos h2] at h; exact absurd h (lt_irrefl _)
      · rw [if_neg h2]
        exact ⟨h3, not_not.mp h2, by ring⟩
    · rw [if_neg h3] at h; exact absurd h (lt_irrefl _)

theorem total_sum (es : SVec) (f : Nat × ℚ → Option ℚ) :
    total (es.map f) = (es.map fun p => (f p).getD 0).sum := by
  unfold total
  rw [List.map_map]; rfl

theorem sum_ge_of {α : Type} {es : List α} {m t : α → ℚ} {g : ℚ} (h : ∀ p ∈ es, m p ≤ t p) {q : α} (hq : q ∈ es)
    (hg : m q + g ≤ t q) : (es.map m).sum + g ≤ (es.map t).sum := by
  have h1 := sum_le_one (f := fun p => m p - t p) (fun p hp => by linarith [h p hp]) hq
  rw [sum_sub] at h1
  linarith

/-- The row with changed coefficients holds at every integer point of the row. -/
theorem strengthen_keeps {isInt : Nat → Bool} {nl nu ml mu x : Nat → ℚ} {r : Row} {inf : ℚ}
    (hg : gapOf nl nu r ≠ 0) (hc : ∀ p ∈ r.coefs, Cell isInt nl nu ml x p)
    (hx : ∀ p ∈ r.coefs, nl p.1 ≤ x p.1 ∧ x p.1 ≤ nu p.1) (h0 : ∀ p ∈ r.coefs, p.2 ≠ 0) (hs : r.Sat inf x) :
    (-inf < r.lb → r.lb ≤ (r.coefs.map (term isInt nl nu ml mu (gapOf nl nu r) x)).sum) ∧
      (r.ub < inf → (r.coefs.map (term isInt nl nu ml mu (gapOf nl nu r) x)).sum ≤ r.ub) := by
  rcases lt_or_gt_of_ne hg with hg | hg
  · obtain ⟨_, hi, he⟩ := gap_neg hg
    have hle := sum_le_sum' fun p hp => term_ge (mu := mu) hg (hc p hp)
    change SVec.dot r.coefs x ≤ _ at hle
    refine ⟨fun hl => le_trans (hs.1 hl) hle, fun hl => ?_⟩
    by_cases hall : ∀ p ∈ r.coefs, term isInt nl nu ml mu (gapOf nl nu r) x p = p.2 * x p.1
    · rw [List.map_congr_left hall]; exact hs.2 hl
    · push Not at hall
      obtain ⟨q, hq, hne⟩ := hall
      have key : ∀ p ∈ r.coefs, term isInt nl nu ml mu (gapOf nl nu r) x p ≤ (hiTerm3 nl nu p).getD 0 ∧
          (term isInt nl nu ml mu (gapOf nl nu r) x p ≠ p.2 * x p.1 →
            term isInt nl nu ml mu (gapOf nl nu r) x p = (hiTerm3 nl nu p).getD 0 + gapOf nl nu r) := by
        intro p hp
        obtain ⟨v, hv⟩ := flags_eq_zero hi (List.mem_map.mpr ⟨p, hp, rfl⟩)
        rw [hv, Option.getD_some]
        rcases term_cases (mu := mu) (gap := gapOf nl nu r) (hc p hp) with e | ⟨_, e, hsg⟩
        · exact ⟨by rw [e]; exact le_hiTerm3 (hx p hp) hv (h0 p hp), fun h => absurd e h⟩
        · have hp2 : p.2 < 0 := by
            rcases hsg with h | h
            · linarith [h.1]
            · exact h.2
          rw [hiTerm3_neg hp2 hv, e]
          exact ⟨by linarith, fun _ => rfl⟩
      have h1 := sum_ge_of (m := term isInt nl nu ml mu (gapOf nl nu r) x) (t := fun p => (hiTerm3 nl nu p).getD 0)
        (g := -gapOf nl nu r) (fun p hp => (key p hp).1) hq (by rw [(key q hq).2 hne]; linarith)
      rw [← total_sum] at h1
      change _ ≤ sumUp nl nu r.coefs at h1
      linarith
  · obtain ⟨_, hi, he⟩ := gap_pos hg
    have hle := sum_le_sum' fun p hp => term_le (mu := mu) hg (hc p hp)
    change _ ≤ SVec.dot r.coefs x at hle
    refine ⟨fun hl => ?_, fun hl => le_trans hle (hs.2 hl)⟩
    by_cases hall : ∀ p ∈ r.coefs, term isInt nl nu ml mu (gapOf nl nu r) x p = p.2 * x p.1
    · rw [List.map_congr_left hall]; exact hs.1 hl
    · push Not at hall
      obtain ⟨q, hq, hne⟩ := hall
      have key : ∀ p ∈ r.coefs, (loTerm3 nl nu p).getD 0 ≤ term isInt nl nu ml mu (gapOf nl nu r) x p ∧
          (term isInt nl nu ml mu (gapOf nl nu r) x p ≠ p.2 * x p.1 →
            term isInt nl nu ml mu (gapOf nl nu r) x p = (loTerm3 nl nu p).getD 0 + gapOf nl nu r) := by
        intro p hp
        obtain ⟨v, hv⟩ := flags_eq_zero hi (List.mem_map.mpr ⟨p, hp, rfl⟩)
        rw [hv, Option.getD_some]
        rcases term_cases (mu := mu) (gap := gapOf nl nu r) (hc p hp) with e | ⟨_, e, hsg⟩
        · exact ⟨by rw [e]; exact loTerm3_le (hx p hp) hv (h0 p hp), fun h => absurd e h⟩
        · have hp2 : 0 < p.2 := by
            rcases hsg with h | h
            · exact h.2
            · linarith [h.1]
          rw [loTerm3_pos hp2 hv, e]
          exact ⟨by linarith, fun _ => rfl⟩
      have h1 := sum_ge_of (m := fun p => (loTerm3 nl nu p).getD 0) (t := term isInt nl nu ml mu (gapOf nl nu r) x)
        (g := gapOf nl nu r) (fun p hp => (key p hp).1) hq (by rw [(key q hq).2 hne])
      rw [← total_sum] at h1
      change sumDown nl nu r.coefs + _ ≤ _ at h1
      linarith

/-- A column within `d` of the bounds used in the sums: within the bounds if these differ, and near the lower bound if
they do not. -/
def Close (d : ℚ) (nl nu x : Nat → ℚ) (j : Nat) : Prop :=
  (nl j < nu j → nl j ≤ x j ∧ x j ≤ nu j) ∧ (¬ nl j < nu j → |x j - nl j| ≤ d)

theorem le_hiTerm3_close {d : ℚ} (hd : 0 ≤ d) {nl nu x : Nat → ℚ} {p : Nat × ℚ} (hx : Close d nl nu x p.1) {v : ℚ}
    (h : hiTerm3 nl nu p = some v) (h0 : p.2 ≠ 0) : p.2 * x p.1 ≤ v + d * |p.2| := by
  by_cases hn : nl p.1 < nu p.1
  · have := le_hiTerm3 (hx.1 hn) h h0
    have := mul_nonneg hd (abs_nonneg p.2)
    linarith
  · unfold hiTerm3 at h
    rw [if_neg hn] at h
    obtain rfl := Option.some.inj h
    have h1 := le_abs_self (p.2 * (x p.1 - nl p.1))
    rw [abs_mul] at h1
    have h2 := mul_le_mul_of_nonneg_left (hx.2 hn) (abs_nonneg p.2)
    linarith

theorem loTerm3_close_le {d : ℚ} (hd : 0 ≤ d) {nl nu x : Nat → ℚ} {p : Nat × ℚ} (hx : Close d nl nu x p.1) {v : ℚ}
    (h : loTerm3 nl nu p = some v) (h0 : p.2 ≠ 0) : v - d * |p.2| ≤ p.2 * x p.1 := by
  by_cases hn : nl p.1 < nu p.1
  · have := loTerm3_le (hx.1 hn) h h0
    have := mul_nonneg hd (abs_nonneg p.2)
    linarith
  · unfold loTerm3 at h
    rw [if_neg hn] at h
    obtain rfl := Option.some.inj h
    have h1 := neg_abs_le (p.2 * (x p.1 - nl p.1))
    rw [abs_mul] at h1
    have h2 := mul_le_mul_of_nonneg_left (hx.2 hn) (abs_nonneg p.2)
    linarith

/-- An integer point of the row with changed coefficients satisfies the row. -/
theorem strengthen_back {isInt : Nat → Bool} {nl nu ml mu x : Nat → ℚ} {r : Row} {inf d : ℚ}
    (hg : gapOf nl nu r ≠ 0) (hd : 0 ≤ d) (hc : ∀ p ∈ r.coefs, Cell isInt nl nu ml x p)
    (hx : ∀ p ∈ r.coefs, Close d nl nu x p.1) (h0 : ∀ p ∈ r.coefs, p.2 ≠ 0) (hi : IntRow inf x r)
    (ht : d * absSum r.coefs < 1)
    (h1 : -inf < r.lb → r.lb ≤ (r.coefs.map (term isInt nl nu ml mu (gapOf nl nu r) x)).sum)
    (h2 : r.ub < inf → (r.coefs.map (term isInt nl nu ml mu (gapOf nl nu r) x)).sum ≤ r.ub) : r.Sat inf x := by
  have h30 : e30 = 10 ^ 30 := by unfold e30; norm_num
  rcases lt_or_gt_of_ne hg with hg | hg
  · obtain ⟨hgap, _, _⟩ := gap_neg hg
    have hle := sum_le_sum' fun p hp => term_ge (mu := mu) hg (hc p hp)
    change SVec.dot r.coefs x ≤ _ at hle
    refine ⟨fun hl => ?_, fun hl => le_trans hle (h2 hl)⟩
    have hb := abs_le.mp (hi.bounds.1.resolve_left (by linarith))
    simp only [upGap, Bool.and_eq_true, Bool.or_eq_true, decide_eq_true_eq] at hgap
    rcases hgap.2 with ⟨h3, h4⟩ | h3
    · have h5 := near_le_dot h4 fun q hq w hw => loTerm3_close_le hd (hx q hq) hw (h0 q hq)
      change sumDown nl nu r.coefs - _ ≤ _ at h5
      exact int_le (hi.lb hl) hi.dot (t := d * absSum r.coefs) (by linarith) ht
    · rw [h30] at h3; linarith [hb.1]
  · obtain ⟨hgap, _, _⟩ := gap_pos hg
    have hle := sum_le_sum' fun p hp => term_le (mu := mu) hg (hc p hp)
    change _ ≤ SVec.dot r.coefs x at hle
    refine ⟨fun hl => le_trans (h1 hl) hle, fun hl => ?_⟩
    have hb := abs_le.mp (hi.bounds.2.resolve_left (by linarith))
    simp only [lowGap, Bool.and_eq_true, Bool.or_eq_true, decide_eq_true_eq] at hgap
    rcases hgap.2 with ⟨h3, h4⟩ | h3
    · have h5 := dot_le_near h4 fun q hq w hw => le_hiTerm3_close hd (hx q hq) hw (h0 q hq)
      change _ ≤ sumUp nl nu r.coefs + _ at h5
      exact int_le hi.dot (hi.ub hl) (t := d * absSum r.coefs) (by linarith) ht
    · rw [h30] at h3; linarith [hb.2]

/-! ### All rows -/

/-- The columns of integer points of the model. -/
theorem model_cell {c : Call} {x : Nat → ℚ} (hint : ∀ j < c.P.nCols, c.P.isInt j = true → IsInteger (x j))
    (hm : Box c.P.nCols (modelLo c) (modelUp c) x) {p : Nat × ℚ} (hp : p.1 < c.P.nCols) :
    Cell c.P.isInt (newLo c) (newUp c) (modelLo c) x p := by
  constructor
  intro h1 h2 hi
  have hmv := moves_of_lt hp (by linarith)
  have hb := hm p.1 hp
  simp only [modelLo, modelUp, if_pos hmv] at hb ⊢
  obtain ⟨z, hz⟩ := newLo_int hmv hi
  obtain ⟨w, hw⟩ := newUp_int hmv hi
  obtain ⟨y, hy⟩ := hint p.1 hp hi
  rw [hz, hw] at h1 h2
  rw [hz, hw, hy] at hb
  rw [hz, hw, hy]
  have a1 : 0 < w - z := by exact_mod_cast h1
  have a2 : w - z ≤ 1 := by exact_mod_cast h2
  have b1 : z ≤ y := by exact_mod_cast hb.1
  have b2 : y ≤ w := by exact_mod_cast hb.2
  refine ⟨?_, trivial, ?_⟩
  · exact_mod_cast (by omega : w = z + 1)
  · rcases (by omega : y = z ∨ y = z + 1) with e | e
    · left; rw [e]
    · right; rw [e]; push_cast; rfl

theorem strengthenRow_keeps {c : Call} (hinf : 10 ^ 100 ≤ c.P.inf) {x : Nat → ℚ}
    (hint : ∀ j < c.P.nCols, c.P.isInt j = true → IsInteger (x j))
    (hm : Box c.P.nCols (modelLo c) (modelUp c) x) (hn : Box c.P.nCols (newLo c) (newUp c) x) {r : Row}
    (hf : Fit c.P.nCols c.P.inf x r) (hs : r.Sat c.P.inf x) : (strengthenRow c r).1.Sat c.P.inf x := by
  unfold strengthenRow
  split
  · rename_i h
    have hc := fun p hp => model_cell hint hm (hf.ok.cols p hp)
    rw [loop_eq, List.nil_append, adjusted_sat hinf hf.bounds (le_trans (adj_small hc) hf.moderate), terms_eq]
    refine strengthen_keeps ?_ hc (fun p hp => hn p.1 (hf.ok.cols p hp)) hf.ok.nonzero hs
    intro h0
    rw [h0, abs_zero] at h
    have := h.2
    norm_num at this
  · exact hs

theorem model_close {c : Call} (hP : PureInteger c.P) (ht : 0 ≤ c.tol) (hf : (passes c).infeas = 0) {x : Nat → ℚ}
    (hm : Box c.P.nCols (modelLo c) (modelUp c) x) {j : Nat} (hj : j < c.P.nCols) :
    Close (slop c) (newLo c) (newUp c) x j := by
  have s2 : 100 * c.tol ≤ slop c := le_max_right ..
  have s1 : 1/100000 ≤ slop c := le_max_left ..
  have hb := hm j hj
  by_cases h : moves c j = true
  · simp only [modelLo, modelUp, if_pos h] at hb
    refine ⟨fun _ => hb, fun hn => ?_⟩
    rw [show x j = newLo c j by linarith, sub_self, abs_zero]
    linarith
  · refine ⟨fun hn => absurd (moves_of_lt hj hn) h, fun _ => ?_⟩
    obtain ⟨e1, e2, _, _⟩ := fixed_near ht hf (box1_of_model hP hm) hj h
    simp only [newLo, if_neg h]
    rw [abs_le]
    exact ⟨by linarith, by linarith⟩

theorem strengthenRow_back {c : Call} (hP : PureInteger c.P) (hinf : 10 ^ 100 ≤ c.P.inf) (ht : 0 ≤ c.tol)
    (hz : (passes c).infeas = 0) {x : Nat → ℚ}
    (hint : ∀ j < c.P.nCols, c.P.isInt j = true → IsInteger (x j))
    (hm : Box c.P.nCols (modelLo c) (modelUp c) x) {r : Row} (hf : Fit c.P.nCols c.P.inf x r)
    (hi : IntRow c.P.inf x r) (hsm : slop c * absSum r.coefs < 1)
    (hs : (strengthenRow c r).1.Sat c.P.inf x) : r.Sat c.P.inf x := by
  unfold strengthenRow at hs
  split at hs
  · rename_i h
    have hc := fun p hp => model_cell hint hm (hf.ok.cols p hp)
    rw [loop_eq, List.nil_append, adjusted_sat hinf hf.bounds (le_trans (adj_small hc) hf.moderate), terms_eq] at hs
    refine strengthen_back ?_ (le_trans (by norm_num) (le_max_left _ _ : 1/100000 ≤ slop c)) hc
      (fun p hp => model_close hP ht hz hm (hf.ok.cols p hp)) hf.ok.nonzero hi hsm hs.1 hs.2
    intro h0
    rw [h0, abs_zero] at h
    have := h.2
    norm_num at this
  · exact hs

theorem strengthenRow_same {c : Call} {r : Row} (h : (strengthenRow c r).2 = 0) : (strengthenRow c r).1 = r := by
  unfold strengthenRow at h ⊢
  split
  · rename_i hc
    rw [if_pos hc] at h
    rw [loop_same _ _ _ _ _ _ (le_of_eq h), List.nil_append]
  · rfl

end Cgl.PreTighten
