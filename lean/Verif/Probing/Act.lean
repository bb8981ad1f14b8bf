import Verif.Probing.Generate
import Mathlib.Algebra.Order.BigOperators.Group.List
import Mathlib.Tactic.Linarith
import Mathlib.Tactic.Ring

/-!
# Activities of rows: bounds and changes
-/

namespace Cgl.Probing

theorem dblMax_big : (10 : ℚ) ^ 31 ≤ dblMax := by
  unfold dblMax
  have h : (10 : ℕ) ^ 31 ≤ 2 ^ 1024 - 2 ^ 971 := by decide +kernel
  exact_mod_cast h

/-- The elements of a prepared row have the right signs. -/
structure PRow.WF (r : PRow) : Prop where
  neg : ∀ p ∈ r.neg, p.2 < 0
  pos : ∀ p ∈ r.pos, 0 < p.2

theorem prepRow_wf (lo up : Nat → ℚ) (r : Row) : (prepRow lo up r).WF where
  neg := by
    intro p hp
    simp only [prepRow, List.mem_filter, Bool.and_eq_true, decide_eq_true_eq] at hp
    exact hp.2.2
  pos := by
    intro p hp
    simp only [prepRow, List.mem_filter, Bool.and_eq_true, decide_eq_true_eq] at hp
    exact hp.2.2

/-- Sum of the elements of column `c`. -/
def csum (v : SVec) (c : Nat) : ℚ := ((v.filter fun e => decide (e.1 = c)).map Prod.snd).sum

@[simp] theorem csum_nil (c : Nat) : csum [] c = 0 := rfl

theorem csum_cons (e : Nat × ℚ) (v : SVec) (c : Nat) :
    csum (e :: v) c = (if e.1 = c then e.2 else 0) + csum v c := by
  unfold csum
  by_cases h : e.1 = c <;> simp [h]

theorem csum_nonneg {v : SVec} (h : ∀ p ∈ v, 0 < p.2) (c : Nat) : 0 ≤ csum v c := by
  induction v with
  | nil => simp
  | cons e v ih =>
    rw [csum_cons]
    have := ih fun p hp => h p (List.mem_cons_of_mem _ hp)
    have h2 := h e List.mem_cons_self
    split <;> linarith

theorem csum_nonpos {v : SVec} (h : ∀ p ∈ v, p.2 < 0) (c : Nat) : csum v c ≤ 0 := by
  induction v with
  | nil => simp
  | cons e v ih =>
    rw [csum_cons]
    have := ih fun p hp => h p (List.mem_cons_of_mem _ hp)
    have h2 := h e List.mem_cons_self
    split <;> linarith

theorem dot_update (v : SVec) (f : Nat → ℚ) (c : Nat) (n : ℚ) :
    v.dot (Function.update f c n) = v.dot f + csum v c * (n - f c) := by
  induction v with
  | nil => simp
  | cons e v ih =>
    rw [SVec.dot_cons, SVec.dot_cons, csum_cons, ih]
    by_cases h : e.1 = c
    · subst h; simp only [Function.update_self, if_true]; ring
    · simp only [Function.update_of_ne h, if_neg h]; ring

/-- A nonnegative weighted difference is at least each of its terms. -/
theorem dot_mono_pos {v : SVec} (h : ∀ p ∈ v, 0 < p.2) {f k : Nat → ℚ} (hf : ∀ p ∈ v, f p.1 ≤ k p.1) :
    v.dot f ≤ v.dot k ∧ ∀ p ∈ v, p.2 * (k p.1 - f p.1) ≤ v.dot k - v.dot f := by
  induction v with
  | nil => simp
  | cons e v ih =>
    obtain ⟨i1, i2⟩ := ih (fun p hp => h p (List.mem_cons_of_mem _ hp)) fun p hp => hf p (List.mem_cons_of_mem _ hp)
    have h2 := h e List.mem_cons_self
    have h3 := hf e List.mem_cons_self
    have h4 : 0 ≤ e.2 * (k e.1 - f e.1) := mul_nonneg h2.le (by linarith)
    rw [SVec.dot_cons, SVec.dot_cons]
    refine ⟨by linarith, ?_⟩
    intro p hp
    rcases List.mem_cons.mp hp with rfl | hp
    · linarith
    · have := i2 p hp; linarith

theorem dot_mono_neg {v : SVec} (h : ∀ p ∈ v, p.2 < 0) {f k : Nat → ℚ} (hf : ∀ p ∈ v, f p.1 ≤ k p.1) :
    v.dot k ≤ v.dot f ∧ ∀ p ∈ v, p.2 * (f p.1 - k p.1) ≤ v.dot f - v.dot k := by
  induction v with
  | nil => simp
  | cons e v ih =>
    obtain ⟨i1, i2⟩ := ih (fun p hp => h p (List.mem_cons_of_mem _ hp)) fun p hp => hf p (List.mem_cons_of_mem _ hp)
    have h2 := h e List.mem_cons_self
    have h3 := hf e List.mem_cons_self
    have h4 : 0 ≤ e.2 * (f e.1 - k e.1) := mul_nonneg_of_nonpos_of_nonpos h2.le (by linarith)
    rw [SVec.dot_cons, SVec.dot_cons]
    refine ⟨by linarith, ?_⟩
    intro p hp
    rcases List.mem_cons.mp hp with rfl | hp
    · linarith
    · have := i2 p hp; linarith

/-- Largest activity of a row within the bounds. -/
def hi (lo up : Nat → ℚ) (r : PRow) : ℚ := r.neg.dot lo + r.pos.dot up
/-- Smallest activity of a row within the bounds. -/
def low (lo up : Nat → ℚ) (r : PRow) : ℚ := r.neg.dot up + r.pos.dot lo

/-- `x` is within the bounds, for the columns of the row. -/
def InBox (lo up : Nat → ℚ) (x : Nat → ℚ) (r : PRow) : Prop := ∀ p ∈ r.els, lo p.1 ≤ x p.1 ∧ x p.1 ≤ up p.1

theorem InBox.neg {lo up x : Nat → ℚ} {r : PRow} (h : InBox lo up x r) : ∀ p ∈ r.neg, lo p.1 ≤ x p.1 ∧ x p.1 ≤ up p.1 :=
  fun p hp => h p (List.mem_append_left _ hp)
theorem InBox.pos {lo up x : Nat → ℚ} {r : PRow} (h : InBox lo up x r) : ∀ p ∈ r.pos, lo p.1 ≤ x p.1 ∧ x p.1 ≤ up p.1 :=
  fun p hp => h p (List.mem_append_right _ hp)

theorem els_dot (r : PRow) (x : Nat → ℚ) : r.els.dot x = r.neg.dot x + r.pos.dot x := by
  unfold PRow.els; rw [SVec.dot_append]

/-- The activity at `x` is at most the largest one, also if one column is left out. -/
theorem le_hi {lo up x : Nat → ℚ} {r : PRow} (hr : r.WF) (hb : InBox lo up x r) :
    r.els.dot x ≤ hi lo up r ∧
    (∀ p ∈ r.els, 0 < p.2 → p.2 * (up p.1 - x p.1) ≤ hi lo up r - r.els.dot x) ∧
    (∀ p ∈ r.els, p.2 < 0 → p.2 * (lo p.1 - x p.1) ≤ hi lo up r - r.els.dot x) := by
  have h1 := dot_mono_neg hr.neg fun p hp => (hb.neg p hp).1
  have h2 := dot_mono_pos hr.pos fun p hp => (hb.pos p hp).2
  rw [els_dot]; unfold hi
  refine ⟨by linarith [h1.1, h2.1], ?_, ?_⟩
  · intro p hp hv
    rcases List.mem_append.mp hp with hp | hp
    · exact absurd (hr.neg p hp) (not_lt.mpr hv.le)
    · have := h2.2 p hp; linarith [h1.1]
  · intro p hp hv
    rcases List.mem_append.mp hp with hp | hp
    · have := h1.2 p hp; linarith [h2.1]
    · exact absurd (hr.pos p hp) (not_lt.mpr hv.le)

theorem low_le {lo up x : Nat → ℚ} {r : PRow} (hr : r.WF) (hb : InBox lo up x r) :
    low lo up r ≤ r.els.dot x ∧
    (∀ p ∈ r.els, 0 < p.2 → p.2 * (x p.1 - lo p.1) ≤ r.els.dot x - low lo up r) ∧
    (∀ p ∈ r.els, p.2 < 0 → p.2 * (x p.1 - up p.1) ≤ r.els.dot x - low lo up r) := by
  have h1 := dot_mono_neg hr.neg fun p hp => (hb.neg p hp).2
  have h2 := dot_mono_pos hr.pos fun p hp => (hb.pos p hp).1
  rw [els_dot]; unfold low
  refine ⟨by linarith [h1.1, h2.1], ?_, ?_⟩
  · intro p hp hv
    rcases List.mem_append.mp hp with hp | hp
    · exact absurd (hr.neg p hp) (not_lt.mpr hv.le)
    · have := h2.2 p hp; linarith [h1.1]
  · intro p hp hv
    rcases List.mem_append.mp hp with hp | hp
    · have := h1.2 p hp; linarith [h2.1]
    · exact absurd (hr.pos p hp) (not_lt.mpr hv.le)

/-- Tighter bounds make the smallest activity larger. -/
theorem low_mono {lo up lo' up' : Nat → ℚ} {r : PRow} (hr : r.WF) (h1 : ∀ p ∈ r.els, lo p.1 ≤ lo' p.1)
    (h2 : ∀ p ∈ r.els, up' p.1 ≤ up p.1) : low lo up r ≤ low lo' up' r := by
  unfold low
  have a := (dot_mono_neg hr.neg fun p hp => h2 p (List.mem_append_left _ hp)).1
  have b := (dot_mono_pos hr.pos fun p hp => h1 p (List.mem_append_right _ hp)).1
  linarith

theorem hi_mono {lo up lo' up' : Nat → ℚ} {r : PRow} (hr : r.WF) (h1 : ∀ p ∈ r.els, lo p.1 ≤ lo' p.1)
    (h2 : ∀ p ∈ r.els, up' p.1 ≤ up p.1) : hi lo' up' r ≤ hi lo up r := by
  unfold hi
  have a := (dot_mono_neg hr.neg fun p hp => h1 p (List.mem_append_left _ hp)).1
  have b := (dot_mono_pos hr.pos fun p hp => h2 p (List.mem_append_right _ hp)).1
  linarith

theorem low_update_lo (lo up : Nat → ℚ) (r : PRow) (c : Nat) (n : ℚ) :
    low (Function.update lo c n) up r = low lo up r + csum r.pos c * (n - lo c) := by
  unfold low; rw [dot_update]; ring
theorem low_update_up (lo up : Nat → ℚ) (r : PRow) (c : Nat) (n : ℚ) :
    low lo (Function.update up c n) r = low lo up r + csum r.neg c * (n - up c) := by
  unfold low; rw [dot_update]; ring
theorem hi_update_lo (lo up : Nat → ℚ) (r : PRow) (c : Nat) (n : ℚ) :
    hi (Function.update lo c n) up r = hi lo up r + csum r.neg c * (n - lo c) := by
  unfold hi; rw [dot_update]; ring
theorem hi_update_up (lo up : Nat → ℚ) (r : PRow) (c : Nat) (n : ℚ) :
    hi lo (Function.update up c n) r = hi lo up r + csum r.pos c * (n - up c) := by
  unfold hi; rw [dot_update]; ring

/-! ### Elements of a column -/

/-- Sum of the elements of row `i` in a column with (`b`) or without the sign that changes the minimum. -/
def sideSum (b raised : Bool) (es : List (Nat × ℚ)) (i : Nat) : ℚ :=
  ((es.filter fun e => decide (e.1 = i) && (minSide raised e.2 == b)).map Prod.snd).sum

@[simp] theorem sideSum_nil (b raised : Bool) (i : Nat) : sideSum b raised [] i = 0 := rfl

theorem sideSum_cons (b raised : Bool) (e : Nat × ℚ) (es : List (Nat × ℚ)) (i : Nat) :
    sideSum b raised (e :: es) i = (if e.1 = i ∧ minSide raised e.2 = b then e.2 else 0) + sideSum b raised es i := by
  unfold sideSum
  by_cases h : e.1 = i <;> by_cases h2 : minSide raised e.2 = b <;> simp [h, h2]

theorem sideSum_append (b raised : Bool) (es fs : List (Nat × ℚ)) (i : Nat) :
    sideSum b raised (es ++ fs) i = sideSum b raised es i + sideSum b raised fs i := by
  unfold sideSum; simp

/-- The elements of column `c` in a list of rows numbered from `k`. -/
def colElsFrom (rows : List PRow) (k c : Nat) : List (Nat × ℚ) :=
  (rows.zipIdx k).flatMap fun p => (p.1.els.filter fun e => decide (e.1 = c)).map fun e => (p.2, e.2)

theorem sideSum_rowPart (b raised : Bool) (v : SVec) (c k i : Nat) :
    sideSum b raised ((v.filter fun e => decide (e.1 = c)).map fun e => (k, e.2)) i =
      if k = i then ((v.filter fun e => decide (e.1 = c) && (minSide raised e.2 == b)).map Prod.snd).sum else 0 := by
  induction v with
  | nil => simp
  | cons e v ih =>
    by_cases h : e.1 = c
    · simp only [List.filter_cons, h, decide_true, if_true, List.map_cons, sideSum_cons, ih, Bool.true_and]
      by_cases hk : k = i
      · by_cases h2 : minSide raised e.2 = b <;> simp [hk, h2]
      · simp [hk]
    · simp only [List.filter_cons, h, decide_false, Bool.false_and]
      simpa using ih

theorem sideSum_colElsFrom (b raised : Bool) (c i : Nat) : ∀ (rows : List PRow) (k : Nat),
    sideSum b raised (colElsFrom rows k c) i =
      if k ≤ i then
        ((rows[i - k]?).map fun r => ((r.els.filter fun e => decide (e.1 = c) && (minSide raised e.2 == b)).map Prod.snd).sum).getD 0
      else 0
  | [], k => by simp [colElsFrom]
  | r :: rows, k => by
    have ih := sideSum_colElsFrom b raised c i rows (k + 1)
    have e : colElsFrom (r :: rows) k c =
        ((r.els.filter fun e => decide (e.1 = c)).map fun e => (k, e.2)) ++ colElsFrom rows (k + 1) c := by
      simp [colElsFrom, List.zipIdx_cons]
    rw [e, sideSum_append, sideSum_rowPart, ih]
    rcases lt_trichotomy k i with h | h | h
    · rw [if_neg (by omega), if_pos (by omega), if_pos (by omega)]
      have : i - k = (i - (k + 1)) + 1 := by omega
      rw [this, List.getElem?_cons_succ]; simp
    · subst h
      rw [if_pos rfl, if_neg (by omega), if_pos le_rfl]; simp
    · rw [if_neg (by omega), if_neg (by omega), if_neg (by omega)]; simp

theorem sideSum_split (b raised : Bool) (r : PRow) (hr : r.WF) (c : Nat) :
    ((r.els.filter fun e => decide (e.1 = c) && (minSide raised e.2 == b)).map Prod.snd).sum =
      if b = raised then csum r.pos c else csum r.neg c := by
  have hn : ∀ (v : SVec), (∀ p ∈ v, p.2 < 0) →
      ((v.filter fun e => decide (e.1 = c) && (minSide raised e.2 == b)).map Prod.snd).sum =
        if b = raised then 0 else csum v c := by
    intro v hv
    induction v with
    | nil => simp
    | cons e v ih =>
      have h2 := hv e List.mem_cons_self
      have ih := ih fun p hp => hv p (List.mem_cons_of_mem _ hp)
      have hm : minSide raised e.2 = !raised := by
        unfold minSide; cases raised <;> simp [h2, h2.le]
      rw [csum_cons]
      by_cases hc : e.1 = c
      · by_cases hb : b = raised
        · subst hb; simp only [if_true] at ih ⊢; simp [hc, hm, ih]
        · have : b = !raised := by cases b <;> cases raised <;> simp_all
          subst this; simp only [if_neg hb] at ih ⊢; simp [hc, hm, ih]
      · simp only [List.filter_cons, hc, decide_false, Bool.false_and]
        simpa using ih
  have hp : ∀ (v : SVec), (∀ p ∈ v, 0 < p.2) →
      ((v.filter fun e => decide (e.1 = c) && (minSide raised e.2 == b)).map Prod.snd).sum =
        if b = raised then csum v c else 0 := by
    intro v hv
    induction v with
    | nil => simp
    | cons e v ih =>
      have h2 := hv e List.mem_cons_self
      have ih := ih fun p hp => hv p (List.mem_cons_of_mem _ hp)
      have hm : minSide raised e.2 = raised := by
        unfold minSide; cases raised <;> simp [h2, h2.le]
      rw [csum_cons]
      by_cases hc : e.1 = c
      · by_cases hb : b = raised
        · subst hb; simp only [if_true] at ih ⊢; simp [hc, hm, ih]
        · have hb' : ¬ raised = b := fun h => hb h.symm
          simp only [if_neg hb] at ih ⊢; simp [hc, hm, ih, hb']
      · simp only [List.filter_cons, hc, decide_false, Bool.false_and]
        simpa using ih
  unfold PRow.els
  rw [List.filter_append, List.map_append, List.sum_append, hn _ hr.neg, hp _ hr.pos]
  split <;> simp

/-- The elements of a column in row `i`. -/
theorem sideSum_col (b raised : Bool) {rows : List PRow} {i : Nat} {r : PRow} (h : rows[i]? = some r) (hr : r.WF)
    (c : Nat) : sideSum b raised (colEls rows c) i = if b = raised then csum r.pos c else csum r.neg c := by
  have := sideSum_colElsFrom b raised c i rows 0
  rw [show colEls rows c = colElsFrom rows 0 c from rfl, this, if_pos (Nat.zero_le _), Nat.sub_zero, h]
  exact sideSum_split b raised r hr c

end Cgl.Probing
