import Verif.Probing.Exact
import Mathlib.Algebra.BigOperators.Ring.Finset
import Mathlib.Algebra.BigOperators.Group.Finset.Piecewise

/-!
# Calls that do not fail, and the reduced costs of an optimal solution
-/

namespace Cgl.Probing

variable {P : Prob} {A : Params} {L : Lp} {x : Nat → ℚ}

/-! ### Reduced costs -/

theorem sum_coefAt (n : Nat) (z : Nat → ℚ) : ∀ v : SVec, (∀ p ∈ v, p.1 < n) →
    ∑ c ∈ Finset.range n, coefAt v c * z c = v.dot z
  | [], _ => by simp [coefAt]
  | p :: v, h => by
    have ih := sum_coefAt n z v fun q hq => h q (List.mem_cons_of_mem _ hq)
    have hp := h p List.mem_cons_self
    rw [SVec.dot_cons, ← ih]
    have : ∀ c ∈ Finset.range n, coefAt (p :: v) c * z c = (if p.1 = c then p.2 * z c else 0) + coefAt v c * z c := by
      intro c _
      unfold coefAt
      by_cases hc : p.1 = c
      · rw [List.filter_cons_of_pos (by simpa using hc), if_pos hc, List.map_cons, List.sum_cons]; ring
      · rw [List.filter_cons_of_neg (by simpa using hc), if_neg hc, zero_add]
    rw [Finset.sum_congr rfl this, Finset.sum_add_distrib, Finset.sum_ite_eq]
    rw [if_pos (Finset.mem_range.mpr hp)]

theorem dot_sub (v : SVec) (y z : Nat → ℚ) : v.dot (fun c => y c - z c) = v.dot y - v.dot z := by
  induction v with
  | nil => simp
  | cons p v ih => rw [SVec.dot_cons, SVec.dot_cons, SVec.dot_cons, ih]; ring

theorem sum_list_sum (n : Nat) (y : Nat → ℚ) (z : Nat → ℚ) : ∀ l : List (Row × Nat), (∀ p ∈ l, ∀ q ∈ p.1.coefs, q.1 < n) →
    ∑ c ∈ Finset.range n, (l.map fun p => y p.2 * coefAt p.1.coefs c).sum * z c =
      (l.map fun p => y p.2 * p.1.coefs.dot z).sum
  | [], _ => by simp
  | p :: l, h => by
    have ih := sum_list_sum n y z l fun q hq => h q (List.mem_cons_of_mem _ hq)
    have h1 := sum_coefAt n z p.1.coefs (h p List.mem_cons_self)
    rw [List.map_cons, List.sum_cons, ← ih, ← h1, Finset.mul_sum, ← Finset.sum_add_distrib]
    refine Finset.sum_congr rfl fun c _ => ?_
    rw [List.map_cons, List.sum_cons]; ring

theorem list_sum_nonneg {α : Type*} (f : α → ℚ) : ∀ l : List α, (∀ a ∈ l, 0 ≤ f a) → 0 ≤ (l.map f).sum
  | [], _ => by simp
  | a :: l, h => by
    rw [List.map_cons, List.sum_cons]
    have := list_sum_nonneg f l fun b hb => h b (List.mem_cons_of_mem _ hb)
    linarith [h a List.mem_cons_self]

theorem list_sum_mul_left {α : Type*} (k : ℚ) (f : α → ℚ) : ∀ l : List α, (l.map fun a => k * f a).sum = k * (l.map f).sum
  | [] => by simp
  | a :: l => by rw [List.map_cons, List.sum_cons, List.map_cons, List.sum_cons, list_sum_mul_left k f l]; ring

theorem mem_zipIdx_fst {p : Row × Nat} {l : List Row} (h : p ∈ l.zipIdx) : p.1 ∈ l := by
  have := List.mem_map_of_mem (f := Prod.fst) h
  rwa [List.zipIdx_map_fst] at this

theorem dualBound_optimal (hw : P.WF) (ho : Optimal P L) (hx : P.Feasible x) : DualBound P L x := by
  obtain ⟨hv, y, hy, hrow⟩ := ho
  unfold DualBound
  have h1 : ∑ c ∈ Finset.range P.nCols, L.dj c * L.sense * (x c - L.sol c) =
      L.sense * (∑ c ∈ Finset.range P.nCols, L.obj c * x c - ∑ c ∈ Finset.range P.nCols, L.obj c * L.sol c) -
        L.sense * (P.rows.zipIdx.map fun p => y p.2 * p.1.coefs.dot fun c => x c - L.sol c).sum := by
    rw [← sum_list_sum P.nCols y _ P.rows.zipIdx fun p hp => hw.cols p.1 (mem_zipIdx_fst hp), ← Finset.sum_sub_distrib,
      Finset.mul_sum, Finset.mul_sum, ← Finset.sum_sub_distrib]
    refine Finset.sum_congr rfl fun c hc => ?_
    rw [hy c (Finset.mem_range.mp hc)]; ring
  have h2 : 0 ≤ L.sense * (P.rows.zipIdx.map fun p => y p.2 * p.1.coefs.dot fun c => x c - L.sol c).sum := by
    rw [← list_sum_mul_left]
    refine list_sum_nonneg _ _ fun p hp => ?_
    rw [dot_sub]
    obtain ⟨hl, hu⟩ := hrow p hp
    obtain ⟨sl, su⟩ := hx.rows p.1 (mem_zipIdx_fst hp)
    rcases lt_trichotomy (L.sense * y p.2) 0 with hs | hs | hs
    · obtain ⟨h3, h4⟩ := hu hs
      have := su h3
      rw [← mul_assoc]
      exact mul_nonneg_of_nonpos_of_nonpos hs.le (by rw [h4]; linarith)
    · rw [← mul_assoc, hs, zero_mul]
    · obtain ⟨h3, h4⟩ := hl hs
      have := sl h3
      rw [← mul_assoc]
      exact mul_nonneg hs.le (by rw [h4]; linarith)
  rw [h1, hv]
  unfold Lp.objValue
  linarith

/-! ### Faults -/

theorem cutoff_ok (hD : Data P A L) (hT : Tame P A L) : cutoffOk (cutoff P A L) = true := by
  have : -10 ^ 30 ≤ cutoff P A L := by
    rw [cutoff_eq]
    have hi := hD.inf
    rcases hT.hasLimit with h1 | ⟨h1, h2⟩
    · split
      · rcases hl : L.limit with _ | l
        · rw [h1, Option.getD_none]
          norm_num at hi ⊢; linarith
        · rw [Option.getD_some]; exact hT.limit l hl
      · rw [h1]; norm_num at hi ⊢; linarith
    · rw [if_pos h1]
      rcases hl : L.limit with _ | l
      · rw [hl] at h2; cases h2
      · rw [Option.getD_some]; exact hT.limit l hl
  unfold cutoffOk
  rw [decide_eq_true_eq]
  by_cases h : 10 ^ 30 < cutoff P A L
  · exact Or.inr h
  · exact Or.inl (abs_le.mpr ⟨by linarith, not_lt.mp h⟩)

/-- A column that is fixed at the start is fixed in the problem. -/
theorem start_fixed (hT : Tame P A L) {c : Nat} (hc : c < P.nCols) (h : startUp P L.sol c ≤ startLo P L.sol c) :
    P.colUpper c ≤ P.colLower c ∧ startUp P L.sol c = P.colUpper c := by
  have hl := hT.lower c hc
  have hu := hT.upper c hc
  unfold startUp startLo reasonable at h
  unfold startUp reasonable
  by_cases h1 : colType P c = 2 ∧ L.sol c < 10 ^ 10 ∧ 10 ^ 12 < min (P.colUpper c) (10 ^ 29)
  · rw [if_pos h1] at h
    exfalso
    split at h
    · norm_num at h
    · have : max (P.colLower c) (-10 ^ 29) ≤ 10 ^ 10 := max_le hl (by norm_num)
      have h := le_trans h this
      norm_num at h
  · rw [if_neg h1] at h ⊢
    have hmin : -10 ^ 10 ≤ min (P.colUpper c) (10 ^ 29) := le_min hu (by norm_num)
    split at h
    · exfalso
      have := le_trans hmin h
      norm_num at this
    · have hmax : max (P.colLower c) (-10 ^ 29) = P.colLower c := by
        refine max_eq_left ?_
        by_contra hh
        rw [max_eq_right (not_le.mp hh).le] at h
        have := le_trans hmin h
        norm_num at this
      rw [hmax] at h
      have hmm : min (P.colUpper c) (10 ^ 29) = P.colUpper c := by
        refine min_eq_left ?_
        by_contra hh
        rw [min_eq_right (not_le.mp hh).le] at h
        have := le_trans h hl
        norm_num at this
      rw [hmm] at h ⊢
      exact ⟨h, rfl⟩

theorem fixedSum_le (hT : Tame P A L) : ∀ v : SVec, (∀ p ∈ v, p.1 < P.nCols) →
    |fixedSum (startLo P L.sol) (startUp P L.sol) v| ≤
      (v.map fun p => if P.colUpper p.1 ≤ P.colLower p.1 then |P.colUpper p.1 * p.2| else 0).sum
  | [], _ => by simp [fixedSum]
  | p :: v, h => by
    have ih := fixedSum_le hT v fun q hq => h q (List.mem_cons_of_mem _ hq)
    have hp := h p List.mem_cons_self
    unfold fixedSum at ih ⊢
    rw [List.map_cons, List.sum_cons]
    by_cases hf : startUp P L.sol p.1 ≤ startLo P L.sol p.1
    · obtain ⟨h1, h2⟩ := start_fixed hT hp hf
      rw [List.filter_cons_of_pos (by simpa using hf), List.map_cons, List.sum_cons, if_pos h1, h2]
      exact le_trans (abs_add_le _ _) (by linarith)
    · rw [List.filter_cons_of_neg (by simpa using hf)]
      have : 0 ≤ if P.colUpper p.1 ≤ P.colLower p.1 then |P.colUpper p.1 * p.2| else 0 := by
        split
        · exact abs_nonneg _
        · exact le_rfl
      linarith

theorem obj_fixed (up lo obj : Nat → ℚ) {sg : ℚ} (hs : |sg| = 1) : ∀ l : List Nat,
    ((((l.filter fun c => decide (obj c ≠ 0)).map fun c => (c, sg * obj c)) : SVec).map
      fun p => if up p.1 ≤ lo p.1 then |up p.1 * p.2| else 0).sum ≤
        (l.map fun c => if up c ≤ lo c then |up c * obj c| else 0).sum
  | [] => by simp
  | c :: l => by
    have ih := obj_fixed up lo obj hs l
    have h0 : 0 ≤ if up c ≤ lo c then |up c * obj c| else 0 := by
      split
      · exact abs_nonneg _
      · exact le_rfl
    by_cases h : obj c ≠ 0
    · rw [List.filter_cons_of_pos (by simpa using h), List.map_cons, List.map_cons, List.sum_cons, List.map_cons,
        List.sum_cons, abs_mul, abs_mul sg, hs, one_mul, ← abs_mul]
      linarith
    · rw [List.filter_cons_of_neg (by simpa using h), List.map_cons, List.sum_cons]; linarith

theorem activities_set (hD : Data P A L) (hT : Tame P A L) : activitiesSet (workRows P A L) = true := by
  unfold activitiesSet
  rw [List.all_eq_true]
  intro r hr
  rw [decide_eq_true_eq]
  obtain ⟨q, hq, rfl⟩ := List.mem_map.mp hr
  have key : |fixedSum (startLo P L.sol) (startUp P L.sol) q.coefs| ≤ 5 * 10 ^ 19 →
      (-5 * 10 ^ 19 < q.lb ∨ q.ub < 5 * 10 ^ 19) →
      -10 ^ 20 < (prepRow (startLo P L.sol) (startUp P L.sol) q).lb ∨
        (prepRow (startLo P L.sol) (startUp P L.sol) q).ub < 10 ^ 20 := by
    intro hf hb
    obtain ⟨f1, f2⟩ := abs_le.mp hf
    rcases hb with hb | hb
    · left
      show -10 ^ 20 < if -10 ^ 20 < q.lb then _ else q.lb
      rw [if_pos (by linarith)]
      linarith
    · right
      show (if q.ub < 10 ^ 20 then _ else q.ub) < 10 ^ 20
      rw [if_pos (by linarith)]
      linarith
  have hcols := kept_cols hD.wf hq
  rcases List.mem_append.mp hq with hq | hq
  · obtain ⟨hm, hk⟩ := List.mem_filter.mp hq
    refine key (le_trans (fixedSum_le hT q.coefs hcols) (hT.fixed q hm)) ?_
    rcases hT.rows q hm with h | h
    · exfalso
      simp only [Bool.not_eq_true', Bool.or_eq_false_iff, freeRow, decide_eq_false_iff_not] at hk
      exact hk.2 h
    · exact h
  · have hm := List.mem_of_mem_filter hq
    unfold objRows at hm
    split at hm
    · rename_i huse
      obtain rfl := List.mem_singleton.mp hm
      unfold useObj at huse
      rw [decide_eq_true_eq] at huse
      have hsg : |L.sense| = 1 := by rcases hD.sense with h | h <;> rw [h] <;> norm_num
      refine key (le_trans (fixedSum_le hT _ hcols) ?_) (Or.inr ?_)
      · rw [objRow_coefs hD]
        refine le_trans (obj_fixed P.colUpper P.colLower L.obj hsg _) ?_
        rw [list_range_sum]; exact hT.objFixed
      · show cutoff P A L + L.offset < _
        obtain ⟨o1, o2⟩ := hT.objLimit huse.2
        have hc := huse.1
        rw [cutoff_eq, if_pos huse.2.le] at hc ⊢
        rcases hl : L.limit with _ | l
        · rw [hl, Option.getD_none] at hc
          have := o1 hl
          rcases hT.hasLimit with h1 | ⟨-, h2⟩
          · rw [h1] at hc; linarith
          · rw [hl] at h2; cases h2
        · rw [hl, Option.getD_some] at hc
          rw [Option.getD_some]
          rcases o2 l hl with h | h
          · linarith
          · exact h
    · cases hm

theorem integral_ok {lo up : Nat → ℚ} (h : ∀ c < P.nCols, P.isInt c = true → IsInteger (lo c) ∧ IsInteger (up c)) :
    integralOk P lo up = true := by
  unfold integralOk
  rw [List.all_eq_true]
  intro c hc
  rcases hi : P.isInt c with _ | _
  · rfl
  · obtain ⟨⟨a, ha⟩, ⟨b, hb⟩⟩ := h c (List.mem_range.mp hc) hi
    have f : ∀ z : ℤ, ⌊(z : ℚ) + 1 / 2⌋ = z := by
      intro z
      rw [Int.floor_eq_iff]
      constructor <;> norm_num
    rw [ha, hb, f, f]
    simp

theorem guts_total (hD : Data P A L) (hT : Tame P A L) (dup : List RowCut → RowCut → Bool) (look : Nat → List Nat) :
    ∃ o, guts P A L dup look = .ok o := by
  unfold guts
  rw [if_pos (cutoff_ok hD hT)]
  split
  · exact ⟨_, rfl⟩
  · have hti := tighten_int (work_cols (A := A) (L := L) hD.wf) (start_int hD L.sol)
    change ∃ o, afterTighten P A L dup look (workRows P A L) _ _
      (tighten (workRows P A L) P.isInt (startLo P L.sol) (startUp P L.sol)) = _
    generalize tighten (workRows P A L) P.isInt (startLo P L.sol) (startUp P L.sol) = t at hti ⊢
    unfold afterTighten
    split
    · exact ⟨_, rfl⟩
    · rw [if_pos (integral_ok hti), if_pos (activities_set hD hT)]
      split <;> exact ⟨_, rfl⟩

end Cgl.Probing
