import Verif.LiftProject.Spec
import Mathlib.Algebra.BigOperators.Group.List.Lemmas

/-!
# C76 - C79 (CglLiftAndProject)
-/

namespace Cgl.LiftProject

/-! ### The arrays -/

theorem mapM_some {α β : Type} (f : α → Option β) (g : α → β) : ∀ l : List α, (∀ a ∈ l, f a = some (g a)) →
    l.mapM f = some (l.map g) := by
  intro l
  induction l with
  | nil => intro _; rfl
  | cons a l ih =>
    intro h
    rw [List.mapM_cons, h a List.mem_cons_self, ih fun b hb => h b (List.mem_cons_of_mem _ hb)]
    rfl

theorem flatMap_slice {β : Type} (f : Nat → List β) (m : Nat) : ∀ i < m, ∀ t < (f i).length,
    ((List.range m).flatMap f)[((List.range i).map fun k => (f k).length).sum + t]? = (f i)[t]? := by
  intro i hi t ht
  have e : (List.range m).flatMap f = (List.range i).flatMap f ++ (f i ++ ((List.range (m - i - 1)).map (fun k => i + 1 + k)).flatMap f) := by
    have : List.range m = List.range i ++ (i :: (List.range (m - i - 1)).map (fun k => i + 1 + k)) := by
      have h1 : m = i + (m - i) := by omega
      have h2 : m - i = (m - i - 1) + 1 := by omega
      conv_lhs => rw [h1, List.range_add, h2, List.range_succ_eq_map]
      simp only [List.map_cons, List.map_map, add_zero]
      congr 2
      refine List.map_congr_left fun k _ => ?_
      simp only [Function.comp]; omega
    rw [this, List.flatMap_append, List.flatMap_cons]
  have hl : ((List.range i).flatMap f).length = ((List.range i).map fun k => (f k).length).sum := by
    rw [List.length_flatMap]
  rw [e, ← hl, List.getElem?_append_right (by omega), Nat.add_sub_cancel_left, List.getElem?_append_left ht]

theorem starts_sum {I : Input} (h : NoGaps I) : ∀ i ≤ I.m,
    I.starts i + i = ((List.range i).map fun k => (I.P.row k).coefs.length + 1).sum := by
  intro i
  induction i with
  | zero => intro _; rw [h.1]; rfl
  | succ i ih =>
    intro hi
    rw [List.range_succ, List.map_append, List.sum_append, ← ih (by omega), h.2 i (by omega)]
    simp only [List.map_cons, List.map_nil, List.sum_cons, List.sum_nil]
    omega

theorem uBlock_length (I : Input) (i : Nat) : (uBlock I i).length = (I.P.row i).coefs.length + 1 := by simp [uBlock]
theorem vBlock_length (I : Input) (i : Nat) : (vBlock I i).length = (I.P.row i).coefs.length + 1 := by simp [vBlock]

theorem mem_u {I : Input} (h : NoGaps I) {i : Nat} (hi : i < I.m) {t : Nat} (ht : t < (uBlock I i).length) :
    memory I (I.starts i + i + t) = (uBlock I i)[t]? := by
  have hs := starts_sum h i (by omega)
  have hm := starts_sum h (i+1) (by omega)
  have hmm : I.starts (i+1) + (i+1) ≤ offset I := by
    have : ∀ d, i + 1 + d ≤ I.m → I.starts (i+1) + (i+1) ≤ I.starts (i+1+d) + (i+1+d) := by
      intro d
      induction d with
      | zero => intro _; exact le_refl _
      | succ d ih =>
        intro hd
        have h1 := h.2 (i+1+d) (by omega)
        have h2 := ih (by omega)
        have e : i + 1 + (d + 1) = i + 1 + d + 1 := by omega
        rw [e, h1]
        omega
    have := this (I.m - (i+1)) (by omega)
    rw [show i + 1 + (I.m - (i+1)) = I.m by omega] at this
    exact this
  have := h.2 i hi
  rw [uBlock_length] at ht
  unfold memory
  rw [if_pos (by omega), hs]
  have := flatMap_slice (uBlock I) I.m i hi t (by rw [uBlock_length]; exact ht)
  simpa only [uBlock_length] using this

theorem mem_v {I : Input} (h : NoGaps I) {i : Nat} (hi : i < I.m) {t : Nat} (ht : t < (vBlock I i).length) :
    memory I (offset I + (I.starts i + i) + t) = (vBlock I i)[t]? := by
  have hs := starts_sum h i (by omega)
  unfold memory
  rw [if_neg (by omega), hs, show offset I + ((List.range i).map fun k => (I.P.row k).coefs.length + 1).sum + t - offset I =
    ((List.range i).map fun k => (I.P.row k).coefs.length + 1).sum + t by omega]
  have := flatMap_slice (vBlock I) I.m i hi t ht
  simpa only [vBlock_length] using this

theorem range_map_getElem {β : Type} [Inhabited β] (l : List β) : (List.range l.length).map (fun t => l[t]?.getD default) = l := by
  apply List.ext_getElem?
  intro i
  by_cases hi : i < l.length
  · rw [List.getElem?_map, List.getElem?_range hi]; simp [hi]
  · rw [List.getElem?_eq_none (by simp; omega), List.getElem?_eq_none (by omega)]

theorem bColumn_u {I : Input} (h : NoGaps I) {c : Nat} (hc : c < I.m) : bColumn I c = some (uBlock I c) := by
  unfold bColumn bLength bStart
  rw [if_pos hc, if_pos hc, ← uBlock_length, mapM_some _ (fun t => (uBlock I c)[t]?.getD default), range_map_getElem]
  intro t ht
  rw [List.mem_range] at ht
  rw [mem_u h hc ht]
  simp [ht]

theorem bColumn_v {I : Input} (h : NoGaps I) {c : Nat} (hc : c < I.m) : bColumn I (I.m + c) = some (vBlock I c) := by
  unfold bColumn bLength bStart
  rw [if_neg (by omega), if_neg (by omega), Nat.add_sub_cancel_left, ← vBlock_length,
    mapM_some _ (fun t => (vBlock I c)[t]?.getD default), range_map_getElem]
  intro t ht
  rw [List.mem_range] at ht
  rw [mem_v h hc ht]
  simp [ht]

/-- Without gaps the arrays describe the intended columns. -/
theorem base_ok {I : Input} (h : NoGaps I) (hm : 0 < I.m) :
    base I = .ok ((List.range I.m).map (uBlock I) ++ (List.range I.m).map (vBlock I)) := by
  unfold base
  rw [if_neg (by omega), mapM_some _ (fun c => if c < I.m then uBlock I c else vBlock I (c - I.m))]
  · dsimp only
    rw [show 2 * I.m = I.m + I.m by omega, List.range_add, List.map_append, List.map_map]
    congr 2
    · exact List.map_congr_left fun c hc => by rw [if_pos (List.mem_range.1 hc)]
    · refine List.map_congr_left fun c hc => ?_
      simp only [Function.comp]
      rw [if_neg (by omega), Nat.add_sub_cancel_left]
  · intro c hc
    rw [List.mem_range] at hc
    split
    · rename_i h1; exact bColumn_u h h1
    · rename_i h1
      have := bColumn_v h (c := c - I.m) (by omega)
      rwa [show I.m + (c - I.m) = c by omega] at this

/-! ### The rows of the cone problem -/

theorem dense_append (a b : SVec) (i : Nat) : denseAt (a ++ b) i = denseAt a i + denseAt b i := by
  simp [denseAt]

theorem dense_neg (a : SVec) (i : Nat) : denseAt (a.map fun p => (p.1, - p.2)) i = - denseAt a i := by
  induction a with
  | nil => simp [denseAt]
  | cons p a ih =>
    rw [List.map_cons, dense_cons, dense_cons, ih]
    dsimp only
    split <;> ring

theorem dense_out {a : SVec} {n i : Nat} (h : ∀ p ∈ a, p.1 < n) (hi : n ≤ i) : denseAt a i = 0 := by
  induction a with
  | nil => simp [denseAt]
  | cons p a ih =>
    rw [dense_cons, ih fun q hq => h q (List.mem_cons_of_mem _ hq)]
    have := h p List.mem_cons_self
    rw [if_neg (by omega)]; ring

theorem dense_coef (r : Row) (k : Nat) : denseAt r.coefs k = r.coef k := rfl

theorem row_cols {P : Prob} (hwf : P.WF) {i : Nat} (hi : i < P.rows.length) : ∀ p ∈ (P.row i).coefs, p.1 < P.nCols :=
  hwf.cols _ (Prob.row_mem hi)

/-- The columns of the cone problem for column `j`. -/
def coneCols (I : Input) : List SVec := (List.range I.m).map (uBlock I) ++ (List.range I.m).map (vBlock I)

theorem coneCols_u (I : Input) (l : List SVec) {c : Nat} (hc : c < I.m) : (coneCols I ++ l).getD c [] = uBlock I c := by
  unfold coneCols
  rw [List.getD_eq_getElem?_getD, List.getElem?_append_left (by simp; omega), List.getElem?_append_left (by simpa using hc)]
  simp [hc]

theorem coneCols_v (I : Input) (l : List SVec) {c : Nat} (hc : c < I.m) :
    (coneCols I ++ l).getD (I.m + c) [] = vBlock I c := by
  unfold coneCols
  rw [List.getD_eq_getElem?_getD, List.getElem?_append_left (by simp; omega), List.getElem?_append_right (by simp)]
  simp [hc]

theorem coneCols_last (I : Input) (a b : SVec) :
    (coneCols I ++ [a, b]).getD (2 * I.m) [] = a ∧ (coneCols I ++ [a, b]).getD (2 * I.m + 1) [] = b := by
  have hl : (coneCols I).length = 2 * I.m := by unfold coneCols; simp; omega
  constructor
  · rw [List.getD_eq_getElem?_getD, List.getElem?_append_right (by omega), hl, Nat.sub_self]; rfl
  · rw [List.getD_eq_getElem?_getD, List.getElem?_append_right (by omega), hl, Nat.add_sub_cancel_left]; rfl

theorem cone_row (I : Input) (beta : ℚ) (j : Nat) (w : Nat → ℚ) (r : Nat) :
    (cone I beta (coneCols I) j).row w r = ∑ i ∈ Finset.range I.m, denseAt (uBlock I i) r * w i +
      ∑ i ∈ Finset.range I.m, denseAt (vBlock I i) r * w (I.m + i) +
      denseAt [(j, -1), (I.n + 1, 1)] r * w (2 * I.m) + denseAt [(j, 1)] r * w (2 * I.m + 1) := by
  have hl : (coneCols I ++ [[(j, (-1:ℚ)), (I.n + 1, 1)], [(j, 1)]]).length = I.m + I.m + 1 + 1 := by
    unfold coneCols; simp; omega
  unfold Lp.row cone
  dsimp only
  rw [hl, list_range_sum, Finset.sum_range_succ, Finset.sum_range_succ, Finset.sum_range_add]
  obtain ⟨h1, h2⟩ := coneCols_last I [(j, (-1:ℚ)), (I.n + 1, 1)] [(j, 1)]
  rw [show I.m + I.m = 2 * I.m by omega, h1, h2]
  congr 3
  · exact Finset.sum_congr rfl fun i hi => by rw [coneCols_u _ _ (Finset.mem_range.1 hi)]
  · exact Finset.sum_congr rfl fun i hi => by rw [coneCols_v _ _ (Finset.mem_range.1 hi)]

/-- What a solution of the cone problem satisfies, in the notation of the paper. -/
structure Multipliers (I : Input) (beta : ℚ) (j : Nat) (w : Nat → ℚ) : Prop where
  u : ∀ i < I.m, 0 ≤ w i
  v : ∀ i < I.m, 0 ≤ w (I.m + i)
  balance : ∀ k < I.n, ∑ i ∈ Finset.range I.m, (I.P.row i).coef k * w i + (if k = j then w (2 * I.m + 1) else 0) =
    ∑ i ∈ Finset.range I.m, (I.P.row i).coef k * w (I.m + i) + (if k = j then w (2 * I.m) else 0)
  ub : ∑ i ∈ Finset.range I.m, (I.P.row i).lb * w i = beta
  vb : ∑ i ∈ Finset.range I.m, (I.P.row i).lb * w (I.m + i) + w (2 * I.m) = beta

theorem multipliers_of {I : Input} (hwf : I.P.WF) {beta : ℚ} {j : Nat} (hj : j < I.n) {w : Nat → ℚ}
    (h : (cone I beta (coneCols I) j).Feasible w) : Multipliers I beta j w := by
  have hlen : (cone I beta (coneCols I) j).rhs.length = I.n + 2 := by simp [cone]
  have hrow := h.rows
  rw [hlen] at hrow
  have hout : ∀ i < I.m, ∀ r, I.n ≤ r → denseAt (I.P.row i).coefs r = 0 := fun i hi r hr =>
    dense_out (row_cols hwf hi) hr
  have single : ∀ (a k : Nat) (q : ℚ), denseAt [(a, q)] k = if a = k then q else 0 := by
    intro a k q; rw [dense_cons]; simp [denseAt]
  have double : ∀ k, denseAt [(j, (-1:ℚ)), (I.n + 1, 1)] k = (if j = k then -1 else 0) + if I.n + 1 = k then 1 else 0 := by
    intro k; rw [dense_cons, single]
  refine ⟨fun i hi => h.nonneg i (by show i < 2 * I.m; omega), fun i hi => h.nonneg _ (by show _ < 2 * I.m; omega), ?_, ?_, ?_⟩
  · intro k hk
    have e := hrow k (by omega)
    rw [cone_row] at e
    have hr : (cone I beta (coneCols I) j).rhs.getD k 0 = 0 := by
      show (List.replicate I.n (0:ℚ) ++ [beta, beta]).getD k 0 = 0
      rw [List.getD_eq_getElem?_getD, List.getElem?_append_left (by simpa using hk)]
      simp [hk]
    rw [hr, single, double] at e
    have eu : ∑ i ∈ Finset.range I.m, denseAt (uBlock I i) k * w i = ∑ i ∈ Finset.range I.m, (I.P.row i).coef k * w i := by
      refine Finset.sum_congr rfl fun i _ => ?_
      rw [uBlock, dense_append, single, if_neg (by omega), add_zero, dense_coef]
    have ev : ∑ i ∈ Finset.range I.m, denseAt (vBlock I i) k * w (I.m + i) =
        - ∑ i ∈ Finset.range I.m, (I.P.row i).coef k * w (I.m + i) := by
      rw [← Finset.sum_neg_distrib]
      refine Finset.sum_congr rfl fun i _ => ?_
      rw [vBlock, dense_append, single, if_neg (by omega), add_zero, dense_neg, dense_coef]; ring
    rw [eu, ev, if_neg (show ¬ I.n + 1 = k by omega)] at e
    by_cases hkj : k = j
    · subst hkj
      simp only [if_true] at e ⊢
      linarith
    · rw [if_neg (Ne.symm hkj), if_neg (Ne.symm hkj)] at e
      rw [if_neg hkj, if_neg hkj]
      linarith
  · have e := hrow I.n (by omega)
    rw [cone_row] at e
    have hr : (cone I beta (coneCols I) j).rhs.getD I.n 0 = beta := by
      show (List.replicate I.n (0:ℚ) ++ [beta, beta]).getD I.n 0 = beta
      rw [List.getD_eq_getElem?_getD, List.getElem?_append_right (by simp)]
      simp
    rw [hr, single, double, if_neg (show ¬ j = I.n by omega), if_neg (show ¬ I.n + 1 = I.n by omega)] at e
    have eu : ∑ i ∈ Finset.range I.m, denseAt (uBlock I i) I.n * w i = ∑ i ∈ Finset.range I.m, (I.P.row i).lb * w i := by
      refine Finset.sum_congr rfl fun i hi => ?_
      rw [uBlock, dense_append, single, if_pos rfl, hout i (Finset.mem_range.1 hi) _ (le_refl _), zero_add]
    have ev : ∑ i ∈ Finset.range I.m, denseAt (vBlock I i) I.n * w (I.m + i) = 0 := by
      refine Finset.sum_eq_zero fun i hi => ?_
      rw [vBlock, dense_append, single, if_neg (by omega), dense_neg, hout i (Finset.mem_range.1 hi) _ (le_refl _)]; ring
    rw [eu, ev, if_neg (show ¬ j = I.n by omega)] at e
    linarith
  · have e := hrow (I.n + 1) (by omega)
    rw [cone_row] at e
    have hr : (cone I beta (coneCols I) j).rhs.getD (I.n + 1) 0 = beta := by
      show (List.replicate I.n (0:ℚ) ++ [beta, beta]).getD (I.n + 1) 0 = beta
      rw [List.getD_eq_getElem?_getD, List.getElem?_append_right (by simp)]
      simp
    rw [hr, single, double, if_neg (show ¬ j = I.n + 1 by omega), if_pos rfl] at e
    have eu : ∑ i ∈ Finset.range I.m, denseAt (uBlock I i) (I.n + 1) * w i = 0 := by
      refine Finset.sum_eq_zero fun i hi => ?_
      rw [uBlock, dense_append, single, if_neg (by omega), hout i (Finset.mem_range.1 hi) _ (by omega)]; ring
    have ev : ∑ i ∈ Finset.range I.m, denseAt (vBlock I i) (I.n + 1) * w (I.m + i) =
        ∑ i ∈ Finset.range I.m, (I.P.row i).lb * w (I.m + i) := by
      refine Finset.sum_congr rfl fun i hi => ?_
      rw [vBlock, dense_append, single, if_pos rfl, dense_neg, hout i (Finset.mem_range.1 hi) _ (by omega)]; ring
    rw [eu, ev, if_neg (show ¬ j = I.n + 1 by omega)] at e
    linarith

/-! ### The cut -/

theorem cut_dot (I : Input) (beta : ℚ) {j : Nat} (hj : j < I.n) (w x : Nat → ℚ) (hwf : I.P.WF) :
    SVec.dot (cutOf I beta j w).row x = ∑ i ∈ Finset.range I.m, w i * I.P.activity x i + w (2 * I.m + 1) * x j := by
  unfold SVec.dot cutOf
  dsimp only
  rw [List.map_map, show ((List.range I.n).map ((fun p : Nat × ℚ => p.2 * x p.1) ∘ fun k => (k, alpha I j w k))).sum =
    ((List.range I.n).map fun k => alpha I j w k * x k).sum from rfl, list_range_sum]
  unfold alpha
  simp only [list_range_sum, add_mul, Finset.sum_add_distrib]
  congr 1
  · have : ∀ i ∈ Finset.range I.m, w i * I.P.activity x i = ∑ k ∈ Finset.range I.n, (I.P.row i).coef k * w i * x k := by
      intro i hi
      unfold Prob.activity SVec.dot
      rw [sum_dense _ I.n (row_cols hwf (Finset.mem_range.1 hi)), Finset.mul_sum]
      refine Finset.sum_congr rfl fun k _ => ?_
      rw [dense_coef]; ring
    rw [Finset.sum_congr rfl this, Finset.sum_comm]
    exact Finset.sum_congr rfl fun k _ => by rw [Finset.sum_mul]
  · rw [Finset.sum_eq_single j]
    · rw [if_pos rfl]
    · intro k _ hk; rw [if_neg hk, zero_mul]
    · intro hn; exact absurd (Finset.mem_range.2 hj) hn

/-- The argument of the paper: the cut holds at every point that satisfies the lower bounds of the rows and has 0 or 1
in column `j`. -/
theorem disjunction {I : Input} (hwf : I.P.WF) {beta : ℚ} {j : Nat} (hj : j < I.n) {w : Nat → ℚ}
    (h : Multipliers I beta j w) {x : Nat → ℚ} (hx : ∀ i < I.m, (I.P.row i).lb ≤ I.P.activity x i) (h01 : x j = 0 ∨ x j = 1) :
    beta ≤ SVec.dot (cutOf I beta j w).row x := by
  rcases h01 with h0 | h1
  · rw [cut_dot I beta hj w x hwf, h0, mul_zero, add_zero, ← h.ub]
    exact Finset.sum_le_sum fun i hi => by
      rw [mul_comm]
      exact mul_le_mul_of_nonneg_left (hx i (Finset.mem_range.1 hi)) (h.u i (Finset.mem_range.1 hi))
  · have e : SVec.dot (cutOf I beta j w).row x =
        ∑ i ∈ Finset.range I.m, w (I.m + i) * I.P.activity x i + w (2 * I.m) * x j := by
      have := cut_dot I beta hj (fun c => if c < I.m then w (I.m + c) else if c = 2 * I.m + 1 then w (2 * I.m) else 0) x hwf
      rw [show ∑ i ∈ Finset.range I.m, (fun c => if c < I.m then w (I.m + c) else if c = 2 * I.m + 1 then w (2 * I.m) else 0) i *
          I.P.activity x i = ∑ i ∈ Finset.range I.m, w (I.m + i) * I.P.activity x i from
        Finset.sum_congr rfl fun i hi => by dsimp only; rw [if_pos (Finset.mem_range.1 hi)]] at this
      rw [if_neg (show ¬ 2 * I.m + 1 < I.m by omega), if_pos rfl] at this
      rw [← this]
      unfold SVec.dot cutOf
      dsimp only
      rw [List.map_map, List.map_map]
      congr 1
      refine List.map_congr_left fun k hk => ?_
      rw [List.mem_range] at hk
      simp only [Function.comp]
      congr 1
      unfold alpha
      rw [list_range_sum, list_range_sum, h.balance k hk]
      congr 1
      · exact Finset.sum_congr rfl fun i hi => by simp only [Finset.mem_range.1 hi, if_true]
      · simp only [show ¬ 2 * I.m + 1 < I.m by omega, if_false, if_true]
    rw [e, h1, mul_one, ← h.vb]
    refine add_le_add (Finset.sum_le_sum fun i hi => ?_) (le_refl _)
    rw [mul_comm]
    exact mul_le_mul_of_nonneg_left (hx i (Finset.mem_range.1 hi)) (h.v i (Finset.mem_range.1 hi))

theorem binary_value {P : Prob} {x : Nat → ℚ} (hx : P.Feasible x) (hinf : 1 < P.inf) {j : Nat} (hj : j < P.nCols)
    (hb : colType P j = 1) : x j = 0 ∨ x j = 1 := by
  unfold colType at hb
  split at hb
  · rename_i hint
    split at hb
    · rename_i hc
      obtain ⟨z, hz⟩ := hx.int j hj hint
      have hl : (0:ℚ) ≤ x j := by
        have := hx.lower j hj
        unfold lbOk at this
        rcases hc.2 with h | h <;> rw [h] at this <;> linarith [this (by linarith)]
      have hu : x j ≤ 1 := by
        have := hx.upper j hj
        unfold ubOk at this
        rcases hc.1 with h | h <;> rw [h] at this <;> linarith [this (by linarith)]
      rw [hz] at hl hu ⊢
      have h0 : 0 ≤ z := by exact_mod_cast hl
      have h1 : z ≤ 1 := by exact_mod_cast hu
      have : z = 0 ∨ z = 1 := by omega
      rcases this with rfl | rfl
      · exact Or.inl rfl
      · exact Or.inr rfl
    · exact absurd hb (by simp)
  · exact absurd hb (by simp)

/-! ### The loop -/

/-- Where a cut comes from: a column that is not 0 or 1, and an optimal solution of its cone problem. -/
structure FromColumn (o : Obj) (I : Input) (solve : Solver) (cols : List SVec) (c : RowCut) (j : Nat) (w : Nat → ℚ) : Prop where
  lt : j < I.n
  frac : relEq (I.x j) 0 = false ∧ relEq (I.x j) 1 = false
  solved : solve (cone I o.beta cols j) = some w
  cut : c = cutOf I o.beta j w

theorem round_from {o : Obj} {I : Input} {solve : Solver} {cols : List SVec} {cs cs' : List RowCut} {j : Nat} (hj : j < I.n)
    (h : round I o.beta solve cols cs j = .ok cs') :
    cs <+: cs' ∧ cs'.length ≤ cs.length + 1 ∧ ∀ c ∈ cs', c ∈ cs ∨ ∃ w, FromColumn o I solve cols c j w := by
  have triv : ∀ c ∈ cs, c ∈ cs ∨ ∃ w, FromColumn o I solve cols c j w := fun c hc => Or.inl hc
  unfold round at h
  split at h
  · exact absurd h (by simp)
  · split at h
    · obtain rfl := Except.ok.inj h; exact ⟨List.prefix_rfl, by omega, triv⟩
    · split at h
      · obtain rfl := Except.ok.inj h; exact ⟨List.prefix_rfl, by omega, triv⟩
      · rename_i hfr
        split at h
        · obtain rfl := Except.ok.inj h; exact ⟨List.prefix_rfl, by omega, triv⟩
        · rename_i w hw
          obtain rfl := Except.ok.inj h
          refine ⟨?_, ?_, fun c hc => ?_⟩
          · unfold insertIfNotDuplicate; split
            · exact List.prefix_rfl
            · exact List.prefix_append _ _
          · unfold insertIfNotDuplicate; split
            · omega
            · simp
          · rw [mem_insertIfNotDuplicate] at hc
            refine hc.imp_right fun e => ⟨w, hj, ?_, hw, e⟩
            simpa using hfr

theorem loop_from {o : Obj} {I : Input} {solve : Solver} {cols : List SVec} : ∀ (l : List Nat) (cs cs' : List RowCut),
    (∀ j ∈ l, j < I.n) → l.foldlM (round I o.beta solve cols) cs = .ok cs' →
    cs <+: cs' ∧ cs'.length ≤ cs.length + l.length ∧ ∀ c ∈ cs', c ∈ cs ∨ ∃ j w, FromColumn o I solve cols c j w := by
  intro l
  induction l with
  | nil =>
    intro cs cs' _ h
    obtain rfl := Except.ok.inj h
    exact ⟨List.prefix_rfl, by simp, fun c hc => Or.inl hc⟩
  | cons j l ih =>
    intro cs cs' hl h
    rw [List.foldlM_cons] at h
    rcases hr : round I o.beta solve cols cs j with f | cs1
    · rw [hr] at h; exact absurd h (by simp [bind, Except.bind])
    · rw [hr] at h
      obtain ⟨a1, a2, a3⟩ := round_from (hl j List.mem_cons_self) hr
      obtain ⟨b1, b2, b3⟩ := ih cs1 cs' (fun k hk => hl k (List.mem_cons_of_mem _ hk)) h
      refine ⟨a1.trans b1, by simp only [List.length_cons]; omega, fun c hc => ?_⟩
      rcases b3 c hc with h1 | h1
      · rcases a3 c h1 with h2 | ⟨w, hw⟩
        · exact Or.inl h2
        · exact Or.inr ⟨j, w, hw⟩
      · exact Or.inr h1

theorem generate_from {o : Obj} {I : Input} {solve : Solver} {cs cs' : List RowCut}
    (h : generateCuts o I solve cs = .ok cs') : ∃ cols, base I = .ok cols ∧
    cs <+: cs' ∧ cs'.length ≤ cs.length + I.n ∧ ∀ c ∈ cs', c ∈ cs ∨ ∃ j w, FromColumn o I solve cols c j w := by
  unfold generateCuts at h
  rcases hb : base I with f | cols
  · rw [hb] at h; exact absurd h (by simp)
  · rw [hb] at h
    have := loop_from _ _ _ (fun j hj => List.mem_range.1 hj) h
    rw [List.length_range] at this
    exact ⟨cols, rfl, this⟩

theorem base_pos {I : Input} {cols : List SVec} (h : base I = .ok cols) : 0 < I.m := by
  unfold base at h
  split at h
  · exact absurd h (by simp)
  · omega

/-! ### The properties -/

/-- C76: the cuts are valid, provided the solver is right, the matrix has no gaps, the rows have lower bounds, and no
column other than a binary one has a fractional value. -/
theorem liftAndProject_valid_partial {o : Obj} {I : Input} {solve : Solver} {cs cs' : List RowCut} (hwf : I.P.WF)
    (hinf : 1 < I.P.inf) (hs : Right solve) (hg : NoGaps I) (hc : Canonical I.P) (hb : FractionalBinary I)
    (h : generateCuts o I solve cs = .ok cs') {c : RowCut} (hnew : c ∈ cs') (hold : c ∉ cs) : c.ValidIn I.P := by
  obtain ⟨cols, hbase, -, -, hfrom⟩ := generate_from h
  obtain ⟨j, w, hj⟩ := (hfrom c hnew).resolve_left hold
  rw [base_ok hg (base_pos hbase)] at hbase
  obtain rfl := Except.ok.inj hbase
  have hm := multipliers_of hwf hj.lt (hs _ _ hj.solved).1
  intro x hx
  rw [hj.cut]
  refine ⟨fun _ => disjunction hwf hj.lt hm (fun i hi => ?_)
    (binary_value hx hinf hj.lt (hb j hj.lt hj.frac.1 hj.frac.2)), fun hu => absurd hu (lt_irrefl _)⟩
  have hr := Prob.row_mem hi
  exact (hx.rows _ hr).1 (hc _ hr)

/-- C77: the cuts that are there stay in place, and each column adds at most one cut, which lists all columns in order
with lower bound `beta` and no upper bound. -/
theorem liftAndProject_adds {o : Obj} {I : Input} {solve : Solver} {cs cs' : List RowCut}
    (h : generateCuts o I solve cs = .ok cs') :
    cs <+: cs' ∧ cs'.length ≤ cs.length + I.P.nCols ∧
    ∀ c ∈ cs', c ∉ cs → c.lb = o.beta ∧ c.ub = I.P.inf ∧ c.row.map Prod.fst = List.range I.P.nCols := by
  obtain ⟨cols, -, h1, h2, h3⟩ := generate_from h
  refine ⟨h1, h2, fun c hc hn => ?_⟩
  obtain ⟨j, w, hj⟩ := (h3 c hc).resolve_left hn
  rw [hj.cut]
  refine ⟨rfl, rfl, ?_⟩
  show ((List.range I.n).map fun k => (k, alpha I j w k)).map Prod.fst = _
  rw [List.map_map]
  exact List.map_id _

/-- C77: `beta` is 1 or -1 in every object, however it came about. -/
theorem beta_pm_one {o : Obj} (h : Reachable o) : o.beta = 1 ∨ o.beta = -1 := by
  induction h with
  | new => exact Or.inl rfl
  | copy _ ih => exact ih
  | assign _ _ _ ih => exact ih
  | setBeta _ hb _ =>
    unfold Obj.setBeta at hb
    split at hb
    · rename_i h1
      obtain rfl := Except.ok.inj hb
      rcases h1 with rfl | rfl
      · exact Or.inl (by norm_num)
      · exact Or.inr (by norm_num)
    · exact absurd hb (by simp)

/-- C77: `setBeta` accepts 1 and -1 only and changes nothing else; a copy or the result of an assignment is the same as
the original. -/
theorem set_beta (o : Obj) (b : ℤ) : (b = 1 ∨ b = -1 → o.setBeta b = .ok ⟨b, o.epsilon, o.onetol⟩) ∧
    (b ≠ 1 → b ≠ -1 → o.setBeta b = .error .exception) ∧ o.copy = o ∧ ∀ a : Obj, a.assign o = o := by
  refine ⟨fun h => if_pos h, fun h1 h2 => if_neg ?_, rfl, fun _ => rfl⟩
  rintro (h | h)
  · exact h1 h
  · exact h2 h

/-- C78: the value of the cut at the LP solution is the optimal value of the cone problem, so the cut cuts off the LP
solution exactly when that value is less than `beta`. -/
theorem liftAndProject_violation_partial {o : Obj} {I : Input} {solve : Solver} {cs cs' : List RowCut} (hwf : I.P.WF)
    (hs : Right solve) (hg : NoGaps I) (h : generateCuts o I solve cs = .ok cs') {c : RowCut} (hnew : c ∈ cs') (hold : c ∉ cs) :
    ∃ j < I.n, ∃ w, (cone I o.beta (coneCols I) j).Feasible w ∧
      SVec.dot c.row I.x = (cone I o.beta (coneCols I) j).value w ∧
      ∀ w', (cone I o.beta (coneCols I) j).Feasible w' → SVec.dot c.row I.x ≤ SVec.dot (cutOf I o.beta j w').row I.x := by
  obtain ⟨cols, hbase, -, -, hfrom⟩ := generate_from h
  obtain ⟨j, w, hj⟩ := (hfrom c hnew).resolve_left hold
  rw [base_ok hg (base_pos hbase)] at hbase
  obtain rfl := Except.ok.inj hbase
  have hval : ∀ w', SVec.dot (cutOf I o.beta j w').row I.x = (cone I o.beta (coneCols I) j).value w' := by
    intro w'
    rw [cut_dot I o.beta hj.lt w' I.x hwf]
    unfold Lp.value cone
    dsimp only
    have hl : ((List.range I.m).map (I.P.activity I.x) ++ List.replicate I.m 0 ++ [0, I.x j]).length = I.m + I.m + 1 + 1 := by simp; omega
    have g1 : ∀ i < I.m, ((List.range I.m).map (I.P.activity I.x) ++ List.replicate I.m 0 ++ [0, I.x j]).getD i 0 = I.P.activity I.x i := by
      intro i hi
      rw [List.getD_eq_getElem?_getD, List.getElem?_append_left (by simp; omega), List.getElem?_append_left (by simpa using hi)]
      simp [hi]
    have g2 : ∀ i < I.m, ((List.range I.m).map (I.P.activity I.x) ++ List.replicate I.m 0 ++ [0, I.x j]).getD (I.m + i) 0 = 0 := by
      intro i hi
      rw [List.getD_eq_getElem?_getD, List.getElem?_append_left (by simp; omega), List.getElem?_append_right (by simp)]
      simp [hi]
    have g3 : ((List.range I.m).map (I.P.activity I.x) ++ List.replicate I.m 0 ++ [0, I.x j]).getD (I.m + I.m) 0 = 0 := by
      rw [List.getD_eq_getElem?_getD, List.getElem?_append_right (by simp)]
      simp
    have g4 : ((List.range I.m).map (I.P.activity I.x) ++ List.replicate I.m 0 ++ [0, I.x j]).getD (I.m + I.m + 1) 0 = I.x j := by
      rw [List.getD_eq_getElem?_getD, List.getElem?_append_right (by simp)]
      simp
    rw [hl, list_range_sum, Finset.sum_range_succ, Finset.sum_range_succ, Finset.sum_range_add, g3, g4]
    rw [Finset.sum_congr rfl fun i hi => congrArg (· * w' i) (g1 i (Finset.mem_range.1 hi)),
      Finset.sum_congr rfl fun i hi => congrArg (· * w' (I.m + i)) (g2 i (Finset.mem_range.1 hi))]
    simp only [zero_mul, Finset.sum_const_zero]
    rw [show 2 * I.m + 1 = I.m + I.m + 1 by omega]
    have : ∑ i ∈ Finset.range I.m, w' i * I.P.activity I.x i = ∑ i ∈ Finset.range I.m, I.P.activity I.x i * w' i :=
      Finset.sum_congr rfl fun i _ => mul_comm _ _
    rw [this]; ring
  obtain ⟨hf, hopt⟩ := hs _ _ hj.solved
  refine ⟨j, hj.lt, w, hf, ?_, fun w' hw' => ?_⟩
  · rw [hj.cut, hval]
  · rw [hj.cut, hval, hval]
    exact hopt w' hw'

/-- C79: with more columns than rows, at least one row and no gaps, a call returns. -/
theorem liftAndProject_returns_partial (o : Obj) {I : Input} (solve : Solver) (cs : List RowCut) (hg : NoGaps I) (hm : 0 < I.m)
    (hn : I.m < I.n) : ∃ cs', generateCuts o I solve cs = .ok cs' := by
  unfold generateCuts
  rw [base_ok hg hm]
  dsimp only
  generalize (List.range I.n) = l
  induction l generalizing cs with
  | nil => exact ⟨cs, rfl⟩
  | cons j l ih =>
    have : ∃ cs1, round I o.beta solve ((List.range I.m).map (uBlock I) ++ (List.range I.m).map (vBlock I)) cs j = .ok cs1 := by
      unfold round
      rw [if_neg (by omega)]
      split
      · exact ⟨_, rfl⟩
      · split
        · exact ⟨_, rfl⟩
        · split <;> exact ⟨_, rfl⟩
    obtain ⟨cs1, h1⟩ := this
    rw [List.foldlM_cons, h1]
    exact ih cs1

/-- The binary columns. -/
def binaries (P : Prob) : List Nat := (List.range P.nCols).filter fun j => colType P j == 1

/-- In the documented form there are two rows for every binary column. -/
theorem documented_rows {P : Prob} (h : Documented P) : 2 * (binaries P).length ≤ P.rows.length := by
  have hsub : ((binaries P).map fun j => ([(j, (1:ℚ))] : SVec)) ++ ((binaries P).map fun j => ([(j, (-1:ℚ))] : SVec)) ⊆
      P.rows.map Row.coefs := by
    intro v hv
    rw [List.mem_append, List.mem_map, List.mem_map] at hv
    have hb : ∀ j ∈ binaries P, j < P.nCols ∧ colType P j = 1 := by
      intro j hj
      unfold binaries at hj
      simpa using hj
    rcases hv with ⟨j, hj, rfl⟩ | ⟨j, hj, rfl⟩
    · obtain ⟨r, hr, -, e⟩ := h.zero j (hb j hj).1 (hb j hj).2
      exact List.mem_map.2 ⟨r, hr, e⟩
    · obtain ⟨r, hr, -, e⟩ := h.one j (hb j hj).1 (hb j hj).2
      exact List.mem_map.2 ⟨r, hr, e⟩
  have hnd : (binaries P).Nodup := List.Nodup.filter _ List.nodup_range
  have hn : (((binaries P).map fun j => ([(j, (1:ℚ))] : SVec)) ++ ((binaries P).map fun j => ([(j, (-1:ℚ))] : SVec))).Nodup := by
    rw [List.nodup_append]
    refine ⟨hnd.map fun a b e => by simpa using e, hnd.map fun a b e => by simpa using e, ?_⟩
    intro a ha b hb e
    rw [List.mem_map] at ha hb
    obtain ⟨i, -, rfl⟩ := ha
    obtain ⟨k, -, rfl⟩ := hb
    simp only [List.cons.injEq, Prod.mk.injEq, and_true] at e
    exact absurd e.2 (by norm_num)
  have := (List.Nodup.subperm hn hsub).length_le
  simp only [List.length_append, List.length_map] at this
  omega

/-- C79 fails for every problem in the documented form in which at least half of the columns are binary: the call reads
outside the array of column types (or, with no rows at all, outside another array). -/
theorem documented_fails (o : Obj) {I : Input} (solve : Solver) (cs : List RowCut) (hg : NoGaps I) (hd : Documented I.P)
    (hn : 0 < I.n) (hb : I.n ≤ 2 * (binaries I.P).length) : generateCuts o I solve cs = .error .outside := by
  have hm : I.n ≤ I.m := le_trans hb (documented_rows hd)
  unfold generateCuts
  rw [base_ok hg (by omega)]
  dsimp only
  obtain ⟨k, hk⟩ : ∃ k, I.n = k + 1 := ⟨I.n - 1, by omega⟩
  have hr : round I o.beta solve ((List.range I.m).map (uBlock I) ++ (List.range I.m).map (vBlock I)) cs 0 = .error .outside := by
    unfold round
    rw [if_pos hm]
  rw [hk, List.range_succ_eq_map, List.foldlM_cons, hr]
  rfl

end Cgl.LiftProject
