import Verif.Probing.Tighten
import Mathlib.Algebra.BigOperators.Group.Finset.Basic
import Mathlib.Algebra.Order.BigOperators.Group.Finset

/-!
# Moving the bounds of one column

What the state of `probe` says about a point `x` that is within its bounds.
-/

namespace Cgl.Probing

/-- What holds of the point all the time.  `live` are the columns that were not fixed at the start. -/
structure Env (g : Cfg) (n : Nat) (x : Nat → ℚ) (live : Nat → Bool) : Prop where
  wf : ∀ r ∈ g.rows, r.WF
  cols : ∀ r ∈ g.rows, ∀ p ∈ r.els, p.1 < n
  rowLe : ∀ r ∈ g.rows, r.lb ≤ r.els.dot x ∧ r.els.dot x ≤ r.ub
  modest : ∀ r ∈ g.rows, (r.els.map fun p => |p.2| * (|x p.1| + 10 ^ 10)).sum ≤ 10 ^ 20
  int : ∀ c < n, g.isInt c = true → IsInteger (x c)
  price : g.current + ∑ c ∈ Finset.range n, (if live c then g.dj c * (x c - g.sol c) else 0) ≤ g.cutoff

/-- What the state says about the point. -/
structure G (g : Cfg) (n : Nat) (x : Nat → ℚ) (live : Nat → Bool) (s : St) : Prop where
  box : ∀ c < n, s.lo c ≤ x c ∧ x c ≤ s.up c
  mono : ∀ c < n, g.curLo c ≤ s.lo c ∧ s.up c ≤ g.curUp c
  gap : ∀ c < n, s.gap c = s.up c - s.lo c - tol
  min : ∀ (i : Nat) r, g.rows[i]? = some r → s.minR i ≤ low s.lo s.up r ∨ s.minR i = -10 ^ 31
  max : ∀ (i : Nat) r, g.rows[i]? = some r → hi s.lo s.up r ≤ s.maxR i ∨ s.maxR i = 10 ^ 31
  dj : ∀ c < n, live c = true → (0 < g.dj c → g.sol c ≤ s.lo c) ∧ (g.dj c < 0 → s.up c ≤ g.sol c)

/-- Least increase of the objective by one column. -/
def pot (g : Cfg) (lo up : Nat → ℚ) (c : Nat) : ℚ :=
  if 0 < g.dj c then g.dj c * (lo c - g.sol c) else g.dj c * (up c - g.sol c)

/-- `objVal` is at most the least increase. -/
def O (g : Cfg) (n : Nat) (live : Nat → Bool) (s : St) : Prop :=
  s.obj ≤ g.current + ∑ c ∈ Finset.range n, (if live c then pot g s.lo s.up c else 0)

variable {g : Cfg} {n : Nat} {x : Nat → ℚ} {live : Nat → Bool} {s : St}

theorem sum_update_le {f f' : Nat → ℚ} {c : Nat} (hc : c < n) (h : ∀ k < n, k ≠ c → f k ≤ f' k) {d : ℚ}
    (hd : f c + d ≤ f' c) : ∑ k ∈ Finset.range n, f k + d ≤ ∑ k ∈ Finset.range n, f' k := by
  have hm : c ∈ Finset.range n := Finset.mem_range.mpr hc
  rw [← Finset.add_sum_erase _ _ hm, ← Finset.add_sum_erase _ _ hm]
  have : ∑ k ∈ (Finset.range n).erase c, f k ≤ ∑ k ∈ (Finset.range n).erase c, f' k := by
    refine Finset.sum_le_sum fun k hk => ?_
    rw [Finset.mem_erase, Finset.mem_range] at hk
    exact h k hk.2 hk.1
  linarith

theorem pot_le (hG : G g n x live s) {c : Nat} (hc : c < n) : pot g s.lo s.up c ≤ g.dj c * (x c - g.sol c) := by
  have := hG.box c hc
  unfold pot
  split
  · rename_i h; exact mul_le_mul_of_nonneg_left (by linarith) h.le
  · rename_i h; exact mul_le_mul_of_nonpos_left (by linarith) (not_lt.mp h)

theorem obj_le_cutoff (he : Env g n x live) (hG : G g n x live s) (hO : O g n live s) : s.obj ≤ g.cutoff := by
  refine le_trans hO (le_trans ?_ he.price)
  have : ∑ c ∈ Finset.range n, (if live c then pot g s.lo s.up c else 0) ≤
      ∑ c ∈ Finset.range n, (if live c then g.dj c * (x c - g.sol c) else 0) := by
    refine Finset.sum_le_sum fun c hc => ?_
    split
    · exact pot_le hG (Finset.mem_range.mp hc)
    · exact le_rfl
  linarith

/-- One term of a sum of nonnegative terms. -/
theorem term_le_sum {α : Type*} (f : α → ℚ) {l : List α} (h : ∀ a ∈ l, 0 ≤ f a) {a : α} (ha : a ∈ l) : f a ≤ (l.map f).sum := by
  refine List.single_le_sum ?_ (f a) (List.mem_map_of_mem ha)
  intro y hy
  obtain ⟨b, hb, rfl⟩ := List.mem_map.mp hy
  exact h b hb

theorem Env.term (he : Env g n x live) {r : PRow} (hr : r ∈ g.rows) {p : Nat × ℚ} (hp : p ∈ r.els) :
    |p.2| * (|x p.1| + 10 ^ 10) ≤ 10 ^ 20 :=
  le_trans (term_le_sum (fun p : Nat × ℚ => |p.2| * (|x p.1| + 10 ^ 10))
    (fun p _ => mul_nonneg (abs_nonneg _) (by have := abs_nonneg (x p.1); positivity)) hp) (he.modest r hr)

theorem abs_dot_le (v : SVec) (x : Nat → ℚ) : |v.dot x| ≤ (v.map fun p => |p.2| * (|x p.1| + 10 ^ 10)).sum := by
  induction v with
  | nil => simp
  | cons e v ih =>
    rw [SVec.dot_cons, List.map_cons, List.sum_cons]
    refine le_trans (abs_add_le _ _) (add_le_add ?_ ih)
    rw [abs_mul]
    exact mul_le_mul_of_nonneg_left (by norm_num) (abs_nonneg _)

theorem Env.small (he : Env g n x live) {r : PRow} (hr : r ∈ g.rows) : |r.els.dot x| ≤ 10 ^ 20 :=
  le_trans (abs_dot_le _ _) (he.modest r hr)

theorem G.inBox (he : Env g n x live) (hG : G g n x live s) {r : PRow} (hr : r ∈ g.rows) : InBox s.lo s.up x r :=
  fun p hp => hG.box p.1 (he.cols r hr p hp)

theorem G.minR_le (he : Env g n x live) (hG : G g n x live s) {i : Nat} {r : PRow} (hr : g.rows[i]? = some r) :
    s.minR i ≤ r.els.dot x := by
  have hm := List.mem_of_getElem? hr
  rcases hG.min i r hr with h | h
  · exact le_trans h (low_le (he.wf r hm) (hG.inBox he hm)).1
  · have := abs_le.mp (he.small hm)
    have h2 : (10 : ℚ) ^ 20 ≤ 10 ^ 31 := by norm_num
    linarith [this.1]

theorem G.le_maxR (he : Env g n x live) (hG : G g n x live s) {i : Nat} {r : PRow} (hr : g.rows[i]? = some r) :
    r.els.dot x ≤ s.maxR i := by
  have hm := List.mem_of_getElem? hr
  rcases hG.max i r hr with h | h
  · exact le_trans (le_hi (he.wf r hm) (hG.inBox he hm)).1 h
  · have := abs_le.mp (he.small hm)
    have h2 : (10 : ℚ) ^ 20 ≤ 10 ^ 31 := by norm_num
    linarith [this.2]

/-! ### Rows of a column -/

theorem touch_same (i : Nat) (s : St) : (touch i s).lo = s.lo ∧ (touch i s).up = s.up ∧ (touch i s).gap = s.gap ∧
    (touch i s).mark = s.mark ∧ (touch i s).minR = s.minR ∧ (touch i s).maxR = s.maxR ∧ (touch i s).sC = s.sC ∧
    (touch i s).obj = s.obj ∧ (touch i s).bad = s.bad ∧ (touch i s).exact = s.exact := by
  unfold touch; split <;> simp

/-- Everything but the rows is as before. -/
structure SameCols (s t : St) : Prop where
  lo : t.lo = s.lo
  up : t.up = s.up
  gap : t.gap = s.gap
  mark : t.mark = s.mark
  sC : t.sC = s.sC
  obj : t.obj = s.obj
  bad : t.bad = s.bad
  exact : t.exact = s.exact

theorem SameCols.refl (s : St) : SameCols s s := ⟨rfl, rfl, rfl, rfl, rfl, rfl, rfl, rfl⟩
theorem SameCols.trans {a b c : St} (h : SameCols a b) (k : SameCols b c) : SameCols a c :=
  ⟨k.lo.trans h.lo, k.up.trans h.up, k.gap.trans h.gap, k.mark.trans h.mark, k.sC.trans h.sC, k.obj.trans h.obj,
    k.bad.trans h.bad, k.exact.trans h.exact⟩

theorem shiftRow_same (g : Cfg) (raised : Bool) (mv : ℚ) (e : Nat × ℚ) (s : St) :
    SameCols s (shiftRow g raised mv e s).1 := by
  obtain ⟨a, b, c, d, -, -, f, h, i, j⟩ := touch_same e.1 s
  unfold shiftRow
  dsimp only
  split
  · split <;> exact ⟨a, b, c, d, f, h, i, j⟩
  · split <;> exact ⟨a, b, c, d, f, h, i, j⟩

theorem shiftRows_same (g : Cfg) (raised : Bool) (mv : ℚ) : ∀ (es : List (Nat × ℚ)) (s : St),
    SameCols s (shiftRows g raised mv es s).1
  | [], s => SameCols.refl s
  | e :: es, s => by
    have h := shiftRow_same g raised mv e s
    unfold shiftRows
    rcases hh : shiftRow g raised mv e s with ⟨t, b⟩
    rw [hh] at h
    cases b
    · exact h.trans (shiftRows_same g raised mv es t)
    · exact h

/-- The change `d` covers the move `mv`. -/
def Covers (raised : Bool) (mv d : ℚ) : Prop := if raised then mv ≤ d ∧ 0 ≤ d else d ≤ mv ∧ d ≤ 0

theorem Covers.min {raised : Bool} {mv d v : ℚ} (h : Covers raised mv d) (hv : minSide raised v = true) :
    v * mv ≤ v * d ∧ 0 ≤ v * d := by
  unfold Covers at h; unfold minSide at hv
  cases raised
  · simp only [Bool.false_eq_true, if_false, decide_eq_true_eq] at h hv
    exact ⟨mul_le_mul_of_nonpos_left h.1 hv.le, mul_nonneg_of_nonpos_of_nonpos hv.le h.2⟩
  · simp only [if_true, decide_eq_true_eq] at h hv
    exact ⟨mul_le_mul_of_nonneg_left h.1 hv.le, mul_nonneg hv.le h.2⟩

theorem Covers.max {raised : Bool} {mv d v : ℚ} (h : Covers raised mv d) (hv : minSide raised v = false) :
    v * d ≤ v * mv ∧ v * d ≤ 0 := by
  unfold Covers at h; unfold minSide at hv
  cases raised
  · simp only [Bool.false_eq_true, if_false, decide_eq_false_iff_not, not_lt] at h hv
    exact ⟨mul_le_mul_of_nonneg_left h.1 hv, mul_nonpos_of_nonneg_of_nonpos hv h.2⟩
  · simp only [if_true, decide_eq_false_iff_not, not_lt] at h hv
    exact ⟨mul_le_mul_of_nonpos_left h.1 hv, mul_nonpos_of_nonpos_of_nonneg hv h.2⟩

theorem sideSum_min_nonneg {raised : Bool} {mv d : ℚ} (h : Covers raised mv d) (es : List (Nat × ℚ)) (i : Nat) :
    0 ≤ sideSum true raised es i * d := by
  induction es with
  | nil => simp
  | cons e es ih =>
    rw [sideSum_cons, add_mul]
    split
    · rename_i hh; have := (h.min hh.2).2; linarith
    · linarith

theorem sideSum_max_nonpos {raised : Bool} {mv d : ℚ} (h : Covers raised mv d) (es : List (Nat × ℚ)) (i : Nat) :
    sideSum false raised es i * d ≤ 0 := by
  induction es with
  | nil => simp
  | cons e es ih =>
    rw [sideSum_cons, add_mul]
    split
    · rename_i hh; have := (h.max hh.2).2; linarith
    · linarith

/-- After the change `d`, the minima are at most `B` and the maxima at least `C`. -/
def RowsOk (g : Cfg) (raised : Bool) (d : ℚ) (es : List (Nat × ℚ)) (B C : Nat → ℚ) (s : St) : Prop :=
  ∀ (i : Nat) r, g.rows[i]? = some r →
    (s.minR i + sideSum true raised es i * d ≤ B i ∨ s.minR i = -10 ^ 31) ∧
    (C i ≤ s.maxR i + sideSum false raised es i * d ∨ s.maxR i = 10 ^ 31)

/-- The targets are within the rows. -/
def Within (g : Cfg) (B C : Nat → ℚ) : Prop :=
  ∀ (i : Nat) r, g.rows[i]? = some r → B i ≤ r.ub ∧ -10 ^ 31 ≤ r.ub ∧ r.lb ≤ C i ∧ r.lb ≤ 10 ^ 31

theorem Cfg.ub_eq {g : Cfg} {i : Nat} {r : PRow} (h : g.rows[i]? = some r) : g.ub i = r.ub := by
  unfold Cfg.ub; rw [h]; rfl
theorem Cfg.lb_eq {g : Cfg} {i : Nat} {r : PRow} (h : g.rows[i]? = some r) : g.lb i = r.lb := by
  unfold Cfg.lb; rw [h]; rfl
theorem Cfg.els_eq {g : Cfg} {i : Nat} {r : PRow} (h : g.rows[i]? = some r) : g.els i = r.els := by
  unfold Cfg.els; rw [h]; rfl

theorem shiftRow_ok {raised : Bool} {mv d : ℚ} (hcov : Covers raised mv d) {B C : Nat → ℚ} (hw : Within g B C)
    {e : Nat × ℚ} {es : List (Nat × ℚ)} {r : PRow} (hr : g.rows[e.1]? = some r)
    (h : RowsOk g raised d (e :: es) B C s) :
    RowsOk g raised d es B C (shiftRow g raised mv e s).1 ∧ (shiftRow g raised mv e s).2 = false := by
  obtain ⟨-, -, -, -, tm, tM, -, -, -, -⟩ := touch_same e.1 s
  obtain ⟨w1, w2, w3, w4⟩ := hw e.1 r hr
  have p1 : (0 : ℚ) < 1 / 10 ^ 5 := by norm_num
  have p2 : ¬ ((-10 : ℚ) ^ 10 < -10 ^ 31) := by norm_num
  have key := h e.1 r hr
  rw [sideSum_cons, sideSum_cons] at key
  have n1 := sideSum_min_nonneg hcov es e.1
  have n2 := sideSum_max_nonpos hcov es e.1
  unfold shiftRow
  dsimp only
  split
  · rename_i hside
    simp only [hside, and_true, if_true] at key
    have hne : ¬ (true = false) := by decide
    obtain ⟨m1, m2⟩ := hcov.min hside
    rw [g.ub_eq hr]
    -- the row of the element
    have hrow : ∀ q : ℚ, q = (if -10 ^ 10 < s.minR e.1 then s.minR e.1 + e.2 * mv else s.minR e.1) →
        (q + sideSum true raised es e.1 * d ≤ B e.1 ∨ q = -10 ^ 31) ∧ ¬ (r.ub + 1 / 10 ^ 5 < q) := by
      intro q hq
      rcases key.1 with hk | hk
      · have hq2 : q + sideSum true raised es e.1 * d ≤ B e.1 := by
          rw [hq]; split <;> (rw [add_mul] at hk; linarith)
        exact ⟨Or.inl hq2, by linarith⟩
      · have : q = -10 ^ 31 := by
          rw [hq, hk, if_neg (by norm_num)]
        exact ⟨Or.inr this, by rw [this]; linarith⟩
    split
    · rename_i hlt
      rw [tm] at hlt ⊢
      have := hrow (s.minR e.1 + e.2 * mv) (by rw [if_pos hlt])
      refine ⟨?_, ?_⟩
      · intro i r' hi
        by_cases hie : i = e.1
        · subst hie
          dsimp only
          rw [Function.update_self, tM]
          refine ⟨this.1, ?_⟩
          have h2 := key.2
          simpa using h2
        · dsimp only
          rw [Function.update_of_ne hie, tM]
          have h2 := h i r' hi
          rw [sideSum_cons, sideSum_cons] at h2
          have hne2 : ¬ e.1 = i := fun hh => hie hh.symm
          simpa [hne2] using h2
      · dsimp only
        rw [decide_eq_false_iff_not, Function.update_self]; exact this.2
    · rename_i hlt
      rw [tm] at hlt ⊢
      have := hrow (s.minR e.1) (by rw [if_neg hlt])
      refine ⟨?_, ?_⟩
      · intro i r' hi
        by_cases hie : i = e.1
        · subst hie
          rw [tm, tM]
          refine ⟨this.1, ?_⟩
          have h2 := key.2
          simpa using h2
        · rw [tm, tM]
          have h2 := h i r' hi
          rw [sideSum_cons, sideSum_cons] at h2
          have hne2 : ¬ e.1 = i := fun hh => hie hh.symm
          simpa [hne2] using h2
      · rw [decide_eq_false_iff_not]; exact this.2
  · rename_i hside
    have hside : minSide raised e.2 = false := by simpa using hside
    simp only [hside, and_true, if_true] at key
    obtain ⟨m1, m2⟩ := hcov.max hside
    rw [g.lb_eq hr]
    have hrow : ∀ q : ℚ, q = (if s.maxR e.1 < 10 ^ 10 then s.maxR e.1 + e.2 * mv else s.maxR e.1) →
        (C e.1 ≤ q + sideSum false raised es e.1 * d ∨ q = 10 ^ 31) ∧ ¬ (q < r.lb - 1 / 10 ^ 5) := by
      intro q hq
      rcases key.2 with hk | hk
      · have hq2 : C e.1 ≤ q + sideSum false raised es e.1 * d := by
          rw [hq]; split <;> (rw [add_mul] at hk; linarith)
        exact ⟨Or.inl hq2, by linarith⟩
      · have : q = 10 ^ 31 := by
          rw [hq, hk, if_neg (by norm_num)]
        exact ⟨Or.inr this, by rw [this]; linarith⟩
    split
    · rename_i hlt
      rw [tM] at hlt ⊢
      have := hrow (s.maxR e.1 + e.2 * mv) (by rw [if_pos hlt])
      refine ⟨?_, ?_⟩
      · intro i r' hi
        by_cases hie : i = e.1
        · subst hie
          dsimp only
          rw [Function.update_self, tm]
          refine ⟨?_, this.1⟩
          have h2 := key.1
          simpa using h2
        · dsimp only
          rw [Function.update_of_ne hie, tm]
          have h2 := h i r' hi
          rw [sideSum_cons, sideSum_cons] at h2
          have hne2 : ¬ e.1 = i := fun hh => hie hh.symm
          simpa [hne2] using h2
      · dsimp only
        rw [decide_eq_false_iff_not, Function.update_self]; exact this.2
    · rename_i hlt
      rw [tM] at hlt ⊢
      have := hrow (s.maxR e.1) (by rw [if_neg hlt])
      refine ⟨?_, ?_⟩
      · intro i r' hi
        by_cases hie : i = e.1
        · subst hie
          rw [tm, tM]
          refine ⟨?_, this.1⟩
          have h2 := key.1
          simpa using h2
        · rw [tm, tM]
          have h2 := h i r' hi
          rw [sideSum_cons, sideSum_cons] at h2
          have hne2 : ¬ e.1 = i := fun hh => hie hh.symm
          simpa [hne2] using h2
      · rw [decide_eq_false_iff_not]; exact this.2

theorem shiftRows_ok {raised : Bool} {mv d : ℚ} (hcov : Covers raised mv d) {B C : Nat → ℚ} (hw : Within g B C) :
    ∀ (es : List (Nat × ℚ)) (s : St), (∀ e ∈ es, ∃ r, g.rows[e.1]? = some r) → RowsOk g raised d es B C s →
      RowsOk g raised d [] B C (shiftRows g raised mv es s).1 ∧ (shiftRows g raised mv es s).2 = false
  | [], _, _, h => ⟨h, rfl⟩
  | e :: es, s, hes, h => by
    obtain ⟨r, hr⟩ := hes e List.mem_cons_self
    obtain ⟨h1, h2⟩ := shiftRow_ok hcov hw hr h
    unfold shiftRows
    rcases hh : shiftRow g raised mv e s with ⟨t, b⟩
    rw [hh] at h1 h2
    dsimp only at h1 h2
    subst h2
    exact shiftRows_ok hcov hw es t (fun e' h' => hes e' (List.mem_cons_of_mem _ h')) h1

theorem colEls_row {rows : List PRow} {c : Nat} : ∀ e ∈ colEls rows c, ∃ r, rows[e.1]? = some r ∧ (c, e.2) ∈ r.els := by
  intro e he
  unfold colEls at he
  obtain ⟨⟨r, i⟩, hp, he⟩ := List.mem_flatMap.mp he
  obtain ⟨q, hq, rfl⟩ := List.mem_map.mp he
  rw [List.mem_filter, decide_eq_true_eq] at hq
  have := List.mem_zipIdx' hp
  refine ⟨r, ?_, ?_⟩
  · rw [List.getElem?_eq_getElem this.1, ← this.2]
  · rw [← hq.2]; exact hq.1

/-- The rows of column `c` after its lower bound (`raised`) or upper bound went to `b`, by at least `mv`. -/
theorem shiftCol_ok (he : Env g n x live) {raised : Bool} {c : Nat} (hc : c < n) {mv b : ℚ} {lo up : Nat → ℚ}
    (hbox : ∀ c < n, lo c ≤ x c ∧ x c ≤ up c)
    (hmin : ∀ (i : Nat) r, g.rows[i]? = some r → s.minR i ≤ low lo up r ∨ s.minR i = -10 ^ 31)
    (hmax : ∀ (i : Nat) r, g.rows[i]? = some r → hi lo up r ≤ s.maxR i ∨ s.maxR i = 10 ^ 31)
    (hcov : Covers raised mv (if raised then b - lo c else b - up c))
    (hb : if raised then b ≤ x c else x c ≤ b) {lo' up' : Nat → ℚ}
    (hlo : lo' = if raised then Function.update lo c b else lo)
    (hup : up' = if raised then up else Function.update up c b) :
    (shiftRows g raised mv (g.col c) s).2 = false ∧
    (∀ c < n, lo' c ≤ x c ∧ x c ≤ up' c) ∧
    (∀ (i : Nat) r, g.rows[i]? = some r →
      (shiftRows g raised mv (g.col c) s).1.minR i ≤ low lo' up' r ∨ (shiftRows g raised mv (g.col c) s).1.minR i = -10 ^ 31) ∧
    (∀ (i : Nat) r, g.rows[i]? = some r →
      hi lo' up' r ≤ (shiftRows g raised mv (g.col c) s).1.maxR i ∨ (shiftRows g raised mv (g.col c) s).1.maxR i = 10 ^ 31) := by
  have hbox' : ∀ c < n, lo' c ≤ x c ∧ x c ≤ up' c := by
    intro k hk
    rw [hlo, hup]
    cases raised
    · simp only [Bool.false_eq_true, if_false] at hb ⊢
      by_cases hkc : k = c
      · subst hkc; rw [Function.update_self]; exact ⟨(hbox k hk).1, hb⟩
      · rw [Function.update_of_ne hkc]; exact hbox k hk
    · simp only [if_true] at hb ⊢
      by_cases hkc : k = c
      · subst hkc; rw [Function.update_self]; exact ⟨hb, (hbox k hk).2⟩
      · rw [Function.update_of_ne hkc]; exact hbox k hk
  have hin : ∀ r ∈ g.rows, InBox lo' up' x r := fun r hr p hp => hbox' p.1 (he.cols r hr p hp)
  let B : Nat → ℚ := fun i => ((g.rows[i]?).map (low lo' up')).getD 0
  let C : Nat → ℚ := fun i => ((g.rows[i]?).map (hi lo' up')).getD 0
  have hB : ∀ (i : Nat) r, g.rows[i]? = some r → B i = low lo' up' r := fun i r h => by simp [B, h]
  have hC : ∀ (i : Nat) r, g.rows[i]? = some r → C i = hi lo' up' r := fun i r h => by simp [C, h]
  have hw : Within g B C := by
    intro i r hr
    have hm := List.mem_of_getElem? hr
    have h1 := he.rowLe r hm
    have h2 := abs_le.mp (he.small hm)
    have h3 : (10 : ℚ) ^ 20 ≤ 10 ^ 31 := by norm_num
    rw [hB i r hr, hC i r hr]
    exact ⟨le_trans (low_le (he.wf r hm) (hin r hm)).1 h1.2, by linarith [h2.1], le_trans h1.1 (le_hi (he.wf r hm) (hin r hm)).1,
      by linarith [h2.2]⟩
  have hok : RowsOk g raised (if raised then b - lo c else b - up c) (g.col c) B C s := by
    intro i r hr
    have hm := List.mem_of_getElem? hr
    rw [hB i r hr, hC i r hr]
    have e1 : sideSum true raised (g.col c) i = if true = raised then csum r.pos c else csum r.neg c :=
      sideSum_col true raised hr (he.wf r hm) c
    have e2 : sideSum false raised (g.col c) i = if false = raised then csum r.pos c else csum r.neg c :=
      sideSum_col false raised hr (he.wf r hm) c
    rw [e1, e2, hlo, hup]
    cases raised
    · simp only [Bool.false_eq_true, Bool.true_eq_false, if_false, if_true]
      refine ⟨(hmin i r hr).imp_left fun h => ?_, (hmax i r hr).imp_left fun h => ?_⟩
      · rw [low_update_up]; linarith
      · rw [hi_update_up]; linarith
    · simp only [Bool.false_eq_true, if_false, if_true]
      refine ⟨(hmin i r hr).imp_left fun h => ?_, (hmax i r hr).imp_left fun h => ?_⟩
      · rw [low_update_lo]; linarith
      · rw [hi_update_lo]; linarith
  obtain ⟨h1, h2⟩ := shiftRows_ok hcov hw (g.col c) s
    (fun e hh => (colEls_row e hh).imp fun r hr => hr.1) hok
  refine ⟨h2, hbox', ?_, ?_⟩
  · intro i r hr
    have := (h1 i r hr).1
    rw [hB i r hr] at this
    simpa using this
  · intro i r hr
    have := (h1 i r hr).2
    rw [hC i r hr] at this
    simpa using this

/-! ### Moves -/

/-- The point is within the state and the objective is right. -/
def GO (g : Cfg) (n : Nat) (x : Nat → ℚ) (live : Nat → Bool) (s : St) : Prop := G g n x live s ∧ O g n live s

theorem ceil_ge_of_int {q : ℚ} (h : IsInteger q) : q ≤ ((⌈q - 1 / 10 ^ 4⌉ : ℤ) : ℚ) := le_ceil_of_int h le_rfl
theorem floor_le_int {q : ℚ} (h : IsInteger q) : ((⌊q + 1 / 10 ^ 4⌋ : ℤ) : ℚ) ≤ q := floor_le_of_int h le_rfl

theorem moveUp_go (he : Env g n x live) (h : GO g n x live s) {c : Nat} (hc : c < n) (hl : live c = true) {b : ℚ}
    (hb : b ≤ x c) (hi : g.isInt c = true → IsInteger b) (hm : g.isInt c = false → s.lo c ≤ b) :
    GO g n x live (moveUp g c b s) ∧ (moveUp g c b s).up = s.up ∧ (moveUp g c b s).bad = s.bad := by
  obtain ⟨hG, hO⟩ := h
  obtain ⟨b', hb'⟩ : ∃ b' : ℚ, b' = if g.isInt c then max (s.lo c) ⌈b - 1 / 10 ^ 4⌉ else b := ⟨_, rfl⟩
  have h1 : b ≤ b' ∧ s.lo c ≤ b' ∧ b' ≤ x c := by
    rw [hb']
    split
    · rename_i hint
      exact ⟨le_trans (ceil_ge_of_int (hi hint)) (le_max_right _ _), le_max_left _ _,
        max_le (hG.box c hc).1 (ceil_lo (he.int c hc hint) hb)⟩
    · rename_i hint
      exact ⟨le_rfl, hm (by simpa using hint), hb⟩
  have hcov : Covers true (b - s.lo c) (if true then b' - s.lo c else b' - s.up c) := by
    simp only [Covers, if_true]; constructor <;> linarith [h1.1, h1.2.1]
  unfold moveUp
  dsimp only
  rw [← hb']
  obtain ⟨s1, hs1⟩ : ∃ s1 : St, s1 = { s with
      obj := if g.sol c < b ∧ ¬ g.dj c < 0 then s.obj + (b - s.lo c) * g.dj c else s.obj
      lo := Function.update s.lo c b'
      gap := Function.update s.gap c (s.up c - b' - tol)
      mark := Function.update s.mark c ((s.mark c).moved b' (s.up c)) } := ⟨_, rfl⟩
  rw [← hs1]
  obtain ⟨k1, k2, k3, k4⟩ := shiftCol_ok he (s := s1) (raised := true) hc hG.box (by rw [hs1]; exact hG.min)
    (by rw [hs1]; exact hG.max) hcov (by simpa using h1.2.2) rfl rfl
  have hs := shiftRows_same g true (b - s.lo c) (g.col c) s1
  simp only [if_true] at k2 k3 k4
  have hlo : (shiftRows g true (b - s.lo c) (g.col c) s1).1.lo = Function.update s.lo c b' := by rw [hs.lo, hs1]
  have hup : (shiftRows g true (b - s.lo c) (g.col c) s1).1.up = s.up := by rw [hs.up, hs1]
  have hgap : (shiftRows g true (b - s.lo c) (g.col c) s1).1.gap = Function.update s.gap c (s.up c - b' - tol) := by
    rw [hs.gap, hs1]
  have hobj : (shiftRows g true (b - s.lo c) (g.col c) s1).1.obj =
      if g.sol c < b ∧ ¬ g.dj c < 0 then s.obj + (b - s.lo c) * g.dj c else s.obj := by
    rw [hs.obj, hs1]
  have hbad : (shiftRows g true (b - s.lo c) (g.col c) s1).1.bad = s.bad := by rw [hs.bad, hs1]
  unfold spoil
  rw [k1, if_neg (by decide)]
  refine ⟨⟨⟨?_, ?_, ?_, ?_, ?_, ?_⟩, ?_⟩, hup, hbad⟩
  · rw [hlo, hup]; exact k2
  · rw [hlo, hup]
    intro k hk
    by_cases hkc : k = c
    · subst hkc; rw [Function.update_self]; exact ⟨le_trans (hG.mono k hk).1 h1.2.1, (hG.mono k hk).2⟩
    · rw [Function.update_of_ne hkc]; exact hG.mono k hk
  · rw [hlo, hup, hgap]
    intro k hk
    by_cases hkc : k = c
    · subst hkc; rw [Function.update_self, Function.update_self]
    · rw [Function.update_of_ne hkc, Function.update_of_ne hkc]; exact hG.gap k hk
  · rw [hlo, hup]; exact k3
  · rw [hlo, hup]; exact k4
  · rw [hlo, hup]
    intro k hk hlk
    by_cases hkc : k = c
    · subst hkc; rw [Function.update_self]; exact ⟨fun h => le_trans ((hG.dj k hk hlk).1 h) h1.2.1, (hG.dj k hk hlk).2⟩
    · rw [Function.update_of_ne hkc]; exact hG.dj k hk hlk
  · unfold O at hO ⊢
    rw [hlo, hup, hobj]
    have hsum : ∀ d : ℚ, (d = 0 ∨ (0 ≤ g.dj c ∧ d = (b - s.lo c) * g.dj c)) →
        ∑ k ∈ Finset.range n, (if live k then pot g s.lo s.up k else 0) + d ≤
        ∑ k ∈ Finset.range n, (if live k then pot g (Function.update s.lo c b') s.up k else 0) := by
      intro d hd
      refine sum_update_le hc ?_ ?_
      · intro k _ hkc
        split
        · unfold pot; rw [Function.update_of_ne hkc]
        · exact le_rfl
      · rw [if_pos hl, if_pos hl]
        unfold pot
        rw [Function.update_self]
        split
        · rename_i hdj
          have e1 : g.dj c * (b - s.lo c) ≤ g.dj c * (b' - s.lo c) := mul_le_mul_of_nonneg_left (by linarith [h1.1]) hdj.le
          have e2 : 0 ≤ g.dj c * (b' - s.lo c) := mul_nonneg hdj.le (by linarith [h1.2.1])
          rcases hd with rfl | ⟨-, rfl⟩ <;> linarith
        · rename_i hdj
          rcases hd with rfl | ⟨h0, rfl⟩
          · linarith
          · have : g.dj c = 0 := le_antisymm (not_lt.mp hdj) h0
            rw [this]; linarith
    split
    · rename_i hh
      have := hsum ((b - s.lo c) * g.dj c) (Or.inr ⟨not_lt.mp hh.2, rfl⟩)
      linarith
    · have := hsum 0 (Or.inl rfl)
      linarith

theorem moveDown_go (he : Env g n x live) (h : GO g n x live s) {c : Nat} (hc : c < n) (hl : live c = true) {b mv : ℚ}
    (hmv : mv = b - s.up c)
    (hb : x c ≤ b) (hi : g.isInt c = true → IsInteger b) (hm : g.isInt c = false → b ≤ s.up c) :
    GO g n x live (moveDown g c b mv s) ∧ (moveDown g c b mv s).lo = s.lo ∧ (moveDown g c b mv s).bad = s.bad := by
  obtain ⟨hG, hO⟩ := h
  subst hmv
  obtain ⟨b', hb'⟩ : ∃ b' : ℚ, b' = if g.isInt c then min (s.up c) ⌊b + 1 / 10 ^ 4⌋ else b := ⟨_, rfl⟩
  have h1 : b' ≤ b ∧ b' ≤ s.up c ∧ x c ≤ b' := by
    rw [hb']
    split
    · rename_i hint
      exact ⟨le_trans (min_le_right _ _) (floor_le_int (hi hint)), min_le_left _ _,
        le_min (hG.box c hc).2 (floor_up (he.int c hc hint) hb)⟩
    · rename_i hint
      exact ⟨le_rfl, hm (by simpa using hint), hb⟩
  have hcov : Covers false (b - s.up c) (if false then b' - s.lo c else b' - s.up c) := by
    simp only [Covers, Bool.false_eq_true, if_false]; constructor <;> linarith [h1.1, h1.2.1]
  unfold moveDown
  dsimp only
  rw [← hb']
  obtain ⟨s1, hs1⟩ : ∃ s1 : St, s1 = { s with
      obj := if b < g.sol c ∧ ¬ 0 < g.dj c then s.obj + (b - s.up c) * g.dj c else s.obj
      up := Function.update s.up c b'
      gap := Function.update s.gap c (b' - s.lo c - tol)
      mark := Function.update s.mark c ((s.mark c).moved (s.lo c) b') } := ⟨_, rfl⟩
  rw [← hs1]
  obtain ⟨k1, k2, k3, k4⟩ := shiftCol_ok he (s := s1) (raised := false) hc hG.box (by rw [hs1]; exact hG.min)
    (by rw [hs1]; exact hG.max) hcov (by simpa using h1.2.2) rfl rfl
  have hs := shiftRows_same g false (b - s.up c) (g.col c) s1
  simp only [Bool.false_eq_true, if_false] at k2 k3 k4
  have hlo : (shiftRows g false (b - s.up c) (g.col c) s1).1.lo = s.lo := by rw [hs.lo, hs1]
  have hup : (shiftRows g false (b - s.up c) (g.col c) s1).1.up = Function.update s.up c b' := by rw [hs.up, hs1]
  have hgap : (shiftRows g false (b - s.up c) (g.col c) s1).1.gap = Function.update s.gap c (b' - s.lo c - tol) := by
    rw [hs.gap, hs1]
  have hobj : (shiftRows g false (b - s.up c) (g.col c) s1).1.obj =
      if b < g.sol c ∧ ¬ 0 < g.dj c then s.obj + (b - s.up c) * g.dj c else s.obj := by
    rw [hs.obj, hs1]
  have hbad : (shiftRows g false (b - s.up c) (g.col c) s1).1.bad = s.bad := by rw [hs.bad, hs1]
  unfold spoil
  rw [k1, if_neg (by decide)]
  refine ⟨⟨⟨?_, ?_, ?_, ?_, ?_, ?_⟩, ?_⟩, hlo, hbad⟩
  · rw [hlo, hup]; exact k2
  · rw [hlo, hup]
    intro k hk
    by_cases hkc : k = c
    · subst hkc; rw [Function.update_self]; exact ⟨(hG.mono k hk).1, le_trans h1.2.1 (hG.mono k hk).2⟩
    · rw [Function.update_of_ne hkc]; exact hG.mono k hk
  · rw [hlo, hup, hgap]
    intro k hk
    by_cases hkc : k = c
    · subst hkc; rw [Function.update_self, Function.update_self]
    · rw [Function.update_of_ne hkc, Function.update_of_ne hkc]; exact hG.gap k hk
  · rw [hlo, hup]; exact k3
  · rw [hlo, hup]; exact k4
  · rw [hlo, hup]
    intro k hk hlk
    by_cases hkc : k = c
    · subst hkc; rw [Function.update_self]; exact ⟨(hG.dj k hk hlk).1, fun h => le_trans h1.2.1 ((hG.dj k hk hlk).2 h)⟩
    · rw [Function.update_of_ne hkc]; exact hG.dj k hk hlk
  · unfold O at hO ⊢
    rw [hlo, hup, hobj]
    have hsum : ∀ d : ℚ, (d = 0 ∨ (g.dj c ≤ 0 ∧ d = (b - s.up c) * g.dj c)) →
        ∑ k ∈ Finset.range n, (if live k then pot g s.lo s.up k else 0) + d ≤
        ∑ k ∈ Finset.range n, (if live k then pot g s.lo (Function.update s.up c b') k else 0) := by
      intro d hd
      refine sum_update_le hc ?_ ?_
      · intro k _ hkc
        split
        · unfold pot; rw [Function.update_of_ne hkc]
        · exact le_rfl
      · rw [if_pos hl, if_pos hl]
        unfold pot
        rw [Function.update_self]
        split
        · rename_i hdj
          rcases hd with rfl | ⟨h0, rfl⟩
          · linarith
          · exact absurd hdj (not_lt.mpr h0)
        · rename_i hdj
          have hdj := not_lt.mp hdj
          have e1 : g.dj c * (b - s.up c) ≤ g.dj c * (b' - s.up c) := mul_le_mul_of_nonpos_left (by linarith [h1.1]) hdj
          have e2 : 0 ≤ g.dj c * (b' - s.up c) := mul_nonneg_of_nonpos_of_nonpos hdj (by linarith [h1.2.1])
          rcases hd with rfl | ⟨-, rfl⟩ <;> linarith
    split
    · rename_i hh
      have := hsum ((b - s.up c) * g.dj c) (Or.inr ⟨not_lt.mp hh.2, rfl⟩)
      linarith
    · have := hsum 0 (Or.inl rfl)
      linarith

end Cgl.Probing
