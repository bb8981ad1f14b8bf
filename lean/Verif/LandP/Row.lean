import Verif.LandP.Spec
import Mathlib.Algebra.BigOperators.Group.Finset.Piecewise
import Mathlib.Data.List.Nodup

/-!
# Rows of the tableau: what `row_k_` says about feasible points
-/

namespace Cgl.LandP

/-- Value of a column, or of the slack `0 - activity`, at a point. -/
def varVal (P : Prob) (x : Nat → ℚ) (v : Nat) : ℚ := if v < P.nCols then x v else - P.activity x (v - P.nCols)

/-- Distance of a nonbasic variable from the bound its status names. -/
def shift (P : Prob) (stat : Nat → Nat) (x : Nat → ℚ) (v : Nat) : ℚ :=
  if v < P.nCols then if stat v = 2 then P.colUpper v - x v else x v - P.colLower v
  else if stat v = 2 then P.activity x (v - P.nCols) - (P.row (v - P.nCols)).lb
  else (P.row (v - P.nCols)).ub - P.activity x (v - P.nCols)

theorem raw_sum {P : Prob} (hwf : P.WF) (ρ : SVec) (hρ : ∀ p ∈ ρ, p.1 < P.rows.length) (x : Nat → ℚ) :
    ∑ v ∈ Finset.range (P.nCols + P.rows.length), raw P ρ v * varVal P x v = 0 := by
  rw [Finset.sum_range_add]
  have e1 : ∑ v ∈ Finset.range P.nCols, raw P ρ v * varVal P x v =
      ∑ j ∈ Finset.range P.nCols, tabEntry P ρ j * x j := by
    refine Finset.sum_congr rfl fun v hv => ?_
    unfold raw varVal
    rw [if_pos (Finset.mem_range.mp hv), if_pos (Finset.mem_range.mp hv)]
  have e2 : ∑ i ∈ Finset.range P.rows.length, raw P ρ (P.nCols + i) * varVal P x (P.nCols + i) =
      - ∑ i ∈ Finset.range P.rows.length, denseAt ρ i * P.activity x i := by
    rw [← Finset.sum_neg_distrib]
    refine Finset.sum_congr rfl fun i _ => ?_
    unfold raw varVal
    rw [if_neg (by omega), if_neg (by omega), Nat.add_sub_cancel_left]; ring
  rw [e1, e2, tab_sum hwf ρ hρ, sum_dense ρ P.rows.length hρ (P.activity x)]
  ring

/-- What the state of the simplex keeps throughout: the nonbasic variables are those without status "basic", once
each, and the solver reports a good basis. -/
structure SimOK (P : Prob) (s : Sim) : Prop where
  nodup : s.nonBasics.Nodup
  mem : ∀ v, v ∈ s.nonBasics ↔ v < P.nCols + P.rows.length ∧ s.stat v ≠ 1
  good : GoodBasis P s.stat s.view

theorem start_ok {P : Prob} {stat : Nat → Nat} {v : View} (h : GoodBasis P stat v) :
    SimOK P ⟨startNonBasics P stat, stat, v⟩ where
  nodup := List.Nodup.filter _ List.nodup_range
  mem := by
    intro w
    unfold startNonBasics
    simp [List.mem_filter]
  good := h

theorem basics_getD {P : Prob} {stat : Nat → Nat} {v : View} (h : GoodBasis P stat v) {k : Nat}
    (hk : k < P.rows.length) : v.basics.getD k 0 ∈ v.basics := by
  rw [List.getD_eq_getElem?_getD, List.getElem?_eq_getElem (by rw [h.size]; exact hk)]
  exact List.getElem_mem _

theorem col_status {P : Prob} {s : Sim} (h : statusOk P s = true) {v : Nat} (hv : v ∈ s.nonBasics)
    (hn : v < P.nCols) : s.stat v = 2 ∨ s.stat v = 3 := by
  unfold statusOk at h
  have := List.all_eq_true.1 h v hv
  simpa [hn] using this

theorem slack_status {P : Prob} {s : Sim} (hs : SimOK P s) {v : Nat} (hv : v ∈ s.nonBasics)
    (hn : ¬ v < P.nCols) : s.stat v = 2 ∨ s.stat v = 3 := by
  obtain ⟨h1, h2⟩ := (hs.mem v).1 hv
  have := hs.good.rowBound (v - P.nCols) (by omega)
  rw [show P.nCols + (v - P.nCols) = v by omega] at this
  rcases this with h | h
  · exact absurd h h2
  · exact h

theorem any_status {P : Prob} {s : Sim} (hs : SimOK P s) (h : statusOk P s = true) {v : Nat} (hv : v ∈ s.nonBasics) :
    s.stat v = 2 ∨ s.stat v = 3 := by
  by_cases hn : v < P.nCols
  · exact col_status h hv hn
  · exact slack_status hs hv hn

/-- How far a nonbasic variable is from its bound, read off the solution of the solver. -/
theorem shift_eq {P : Prob} {s : Sim} (hs : SimOK P s) (h : statusOk P s = true) (x : Nat → ℚ) {v : Nat}
    (hv : v ∈ s.nonBasics) :
    shift P s.stat x v = if s.stat v = 2 then varVal P s.view.xlp v - varVal P x v
      else varVal P x v - varVal P s.view.xlp v := by
  obtain ⟨h1, h2⟩ := (hs.mem v).1 hv
  unfold shift varVal
  by_cases hn : v < P.nCols
  · simp only [if_pos hn]
    rcases col_status h hv hn with h | h
    · rw [if_pos h, if_pos h, (hs.good.upper v hn h).1]
    · rw [if_neg (by omega), if_neg (by omega), (hs.good.lower v hn h).1]
  · simp only [if_neg hn]
    have e : P.nCols + (v - P.nCols) = v := by omega
    rcases slack_status hs hv hn with h | h
    · have := (hs.good.rowLower (v - P.nCols) (by omega) (by rw [e]; exact h)).1
      rw [if_pos h, if_pos h, this]; ring
    · have := (hs.good.rowUpper (v - P.nCols) (by omega) (by rw [e]; exact h)).1
      rw [if_neg (by omega), if_neg (by omega), this]; ring

theorem sum_nonBasics {P : Prob} {s : Sim} (hs : SimOK P s) (f : Nat → ℚ) :
    (s.nonBasics.map f).sum = ∑ v ∈ Finset.range (P.nCols + P.rows.length), if v ∈ s.nonBasics then f v else 0 := by
  rw [← List.sum_toFinset f hs.nodup, ← Finset.sum_filter]
  refine Finset.sum_congr ?_ fun _ _ => rfl
  ext v
  simp only [List.mem_toFinset, Finset.mem_filter, Finset.mem_range]
  exact ⟨fun h => ⟨((hs.mem v).1 h).1, h⟩, fun h => h.2⟩

/-- A pulled row as an equation: the basic variable differs from its value in the solution by the combination of the
distances of the nonbasic variables. -/
theorem pull_eq {P : Prob} (hwf : P.WF) {s : Sim} (hs : SimOK P s) {num : Nat} (hnum : num < P.rows.length)
    {r : TabRow} (h : pull P s num = .ok r) (x : Nat → ℚ) :
    (s.nonBasics.map fun v => r.coef v * shift P s.stat x v).sum =
      varVal P s.view.xlp (s.view.basics.getD num 0) - varVal P x (s.view.basics.getD num 0) := by
  unfold pull at h
  by_cases hst : statusOk P s = true
  · rw [if_pos hst] at h
    simp only [Except.ok.injEq] at h
    subst h
    set b := s.view.basics.getD num 0 with hb
    have hbm : b ∈ s.view.basics := basics_getD hs.good hnum
    have hbr := hs.good.range b hbm
    have hb1 : s.stat b = 1 := (hs.good.basic b hbr).2 hbm
    have hbn : b ∉ s.nonBasics := fun h => ((hs.mem b).1 h).2 hb1
    set ρ := s.view.binv num with hρ
    have e1 : (s.nonBasics.map fun v => (if v = b then 0 else if v ∈ s.nonBasics ∧ s.stat v = 2 then - raw P ρ v
        else raw P ρ v) * shift P s.stat x v) =
        s.nonBasics.map fun v => raw P ρ v * varVal P x v - raw P ρ v * varVal P s.view.xlp v := by
      refine List.map_congr_left fun v hv => ?_
      rw [if_neg (fun e : v = b => hbn (e ▸ hv)), shift_eq hs hst x hv]
      by_cases h2 : s.stat v = 2
      · rw [if_pos ⟨hv, h2⟩, if_pos h2]; ring
      · rw [if_neg (fun h => h2 h.2), if_neg h2]; ring
    change (s.nonBasics.map fun v => (if v = b then 0 else if v ∈ s.nonBasics ∧ s.stat v = 2 then - raw P ρ v
        else raw P ρ v) * shift P s.stat x v).sum = _
    rw [e1, sum_nonBasics hs]
    have e2 : ∀ v ∈ Finset.range (P.nCols + P.rows.length),
        (if v ∈ s.nonBasics then raw P ρ v * varVal P x v - raw P ρ v * varVal P s.view.xlp v else 0) =
        (raw P ρ v * varVal P x v - raw P ρ v * varVal P s.view.xlp v) -
          (if v = b then varVal P x b - varVal P s.view.xlp b else 0) := by
      intro v hv
      rw [Finset.mem_range] at hv
      by_cases hvb : v = b
      · rw [hvb, if_neg hbn, if_pos rfl, hs.good.one num hnum]; ring
      · rw [if_neg hvb]
        by_cases hvn : v ∈ s.nonBasics
        · rw [if_pos hvn]; ring
        · rw [if_neg hvn]
          have h1 : s.stat v = 1 := by
            by_contra hne
            exact hvn ((hs.mem v).2 ⟨hv, hne⟩)
          rw [hs.good.zero num hnum v ((hs.good.basic v hv).1 h1) hvb]; ring
    rw [Finset.sum_congr rfl e2, Finset.sum_sub_distrib, Finset.sum_sub_distrib,
      raw_sum hwf ρ (hs.good.multipliers num hnum), raw_sum hwf ρ (hs.good.multipliers num hnum),
      Finset.sum_ite_eq', if_pos (Finset.mem_range.mpr hbr)]
    ring
  · rw [if_neg hst] at h; exact absurd h (by simp)

theorem pull_rhs {P : Prob} {s : Sim} {num : Nat} {r : TabRow} (h : pull P s num = .ok r)
    (hb : s.view.basics.getD num 0 < P.nCols) : r.rhs = s.view.xlp (s.view.basics.getD num 0) := by
  unfold pull at h
  by_cases hst : statusOk P s = true
  · rw [if_pos hst] at h
    simp only [Except.ok.injEq] at h
    subst h
    exact if_pos hb
  · rw [if_neg hst] at h; exact absurd h (by simp)

theorem pull_num {P : Prob} {s : Sim} {num : Nat} {r : TabRow} (h : pull P s num = .ok r) : r.num = num := by
  unfold pull at h
  by_cases hst : statusOk P s = true
  · rw [if_pos hst] at h
    simp only [Except.ok.injEq] at h
    subst h; rfl
  · rw [if_neg hst] at h; exact absurd h (by simp)

theorem pull_status {P : Prob} {s : Sim} {num : Nat} {r : TabRow} (h : pull P s num = .ok r) :
    statusOk P s = true := by
  unfold pull at h
  by_cases hst : statusOk P s = true
  · exact hst
  · rw [if_neg hst] at h; exact absurd h (by simp)

theorem isInteger_add {a b : ℚ} (ha : IsInteger a) (hb : IsInteger b) : IsInteger (a + b) := by
  obtain ⟨m, rfl⟩ := ha; obtain ⟨n, rfl⟩ := hb; exact ⟨m + n, by push_cast; rfl⟩
theorem isInteger_sub {a b : ℚ} (ha : IsInteger a) (hb : IsInteger b) : IsInteger (a - b) := by
  obtain ⟨m, rfl⟩ := ha; obtain ⟨n, rfl⟩ := hb; exact ⟨m - n, by push_cast; rfl⟩
theorem isInteger_mul {a b : ℚ} (ha : IsInteger a) (hb : IsInteger b) : IsInteger (a * b) := by
  obtain ⟨m, rfl⟩ := ha; obtain ⟨n, rfl⟩ := hb; exact ⟨m * n, by push_cast; rfl⟩

/-- The row is a consequence of integrality: its right-hand side is a fraction, and at every feasible point the
right-hand side minus the combination of the distances is an integer. -/
structure RowOK (P : Prob) (s : Sim) (r : TabRow) : Prop where
  nonneg : 0 ≤ r.rhs
  lt_one : r.rhs < 1
  int : ∀ x, P.Feasible x → IsInteger (r.rhs - (s.nonBasics.map fun v => r.coef v * shift P s.stat x v).sum)

theorem frac_ok {P : Prob} (hwf : P.WF) {s : Sim} (hs : SimOK P s) {num : Nat} (hnum : num < P.rows.length)
    (hb : s.view.basics.getD num 0 < P.nCols) (hi : P.isInt (s.view.basics.getD num 0) = true)
    {r : TabRow} (h : pull P s num = .ok r) : RowOK P s r.frac where
  nonneg := frac_nonneg _
  lt_one := frac_lt_one _
  int := by
    intro x hx
    change IsInteger (r.rhs - ⌊r.rhs⌋ - (s.nonBasics.map fun v => r.coef v * shift P s.stat x v).sum)
    rw [pull_eq hwf hs hnum h x, pull_rhs h hb]
    unfold varVal
    rw [if_pos hb, if_pos hb]
    have := hx.int _ hb hi
    obtain ⟨z, hz⟩ := this
    exact ⟨z - ⌊s.view.xlp (s.view.basics.getD num 0)⌋, by rw [hz]; push_cast; ring⟩

/-! ### Distances at feasible points -/

theorem shift_nonneg {P : Prob} {s : Sim} (hs : SimOK P s) (h : statusOk P s = true) {x : Nat → ℚ}
    (hx : P.Feasible x) {v : Nat} (hv : v ∈ s.nonBasics) : 0 ≤ shift P s.stat x v := by
  obtain ⟨h1, h2⟩ := (hs.mem v).1 hv
  unfold shift
  by_cases hn : v < P.nCols
  · rw [if_pos hn]
    rcases col_status h hv hn with h | h
    · rw [if_pos h]; have := hx.upper v hn (hs.good.upper v hn h).2; linarith
    · rw [if_neg (by omega)]; have := hx.lower v hn (hs.good.lower v hn h).2; linarith
  · rw [if_neg hn]
    have e : P.nCols + (v - P.nCols) = v := by omega
    have hr := hx.rows _ (Prob.row_mem (show v - P.nCols < P.rows.length by omega))
    rcases slack_status hs hv hn with h | h
    · rw [if_pos h]
      have := hr.1 (hs.good.rowLower (v - P.nCols) (by omega) (by rw [e]; exact h)).2
      unfold Prob.activity; linarith
    · rw [if_neg (by omega)]
      have := hr.2 (hs.good.rowUpper (v - P.nCols) (by omega) (by rw [e]; exact h)).2
      unfold Prob.activity; linarith

theorem dot_integer (v : SVec) (x : Nat → ℚ) (h : ∀ p ∈ v, IsInteger p.2 ∧ IsInteger (x p.1)) :
    IsInteger (SVec.dot v x) := by
  induction v with
  | nil => exact ⟨0, by simp⟩
  | cons p v ih =>
    rw [SVec.dot_cons]
    exact isInteger_add (isInteger_mul (h p List.mem_cons_self).1 (h p List.mem_cons_self).2)
      (ih fun q hq => h q (List.mem_cons_of_mem _ hq))

theorem shift_integer {P : Prob} (hwf : P.WF) (hd : ExactData P) {s : Sim} (hs : SimOK P s)
    (h : statusOk P s = true) {x : Nat → ℚ} (hx : P.Feasible x) {v : Nat} (hv : v ∈ s.nonBasics)
    (hi : intVar P v = true) : IsInteger (shift P s.stat x v) := by
  obtain ⟨h1, h2⟩ := (hs.mem v).1 hv
  unfold intVar at hi
  unfold shift
  by_cases hn : v < P.nCols
  · rw [if_pos hn] at hi ⊢
    have hxi := hx.int v hn hi
    rcases col_status h hv hn with h | h
    · rw [if_pos h]; exact isInteger_sub (hd.intUpper v hn hi (hs.good.upper v hn h).2) hxi
    · rw [if_neg (by omega)]; exact isInteger_sub hxi (hd.intLower v hn hi (hs.good.lower v hn h).2)
  · rw [if_neg hn] at hi ⊢
    have e : P.nCols + (v - P.nCols) = v := by omega
    have hir : v - P.nCols < P.rows.length := by omega
    have hrm := Prob.row_mem hir
    unfold intSlack at hi
    simp only [Bool.and_eq_true, Bool.or_eq_true, decide_eq_true_eq, List.all_eq_true] at hi
    obtain ⟨⟨hlb, hub⟩, hall⟩ := hi
    have hact : IsInteger (P.activity x (v - P.nCols)) := by
      unfold Prob.activity
      refine dot_integer _ _ fun p hp => ?_
      have hc := hwf.cols _ hrm p hp
      exact ⟨hd.coef _ hrm p hp (hall p hp).2, hx.int _ hc (hall p hp).1⟩
    rcases slack_status hs hv hn with h | h
    · rw [if_pos h]
      have hf := (hs.good.rowLower (v - P.nCols) hir (by rw [e]; exact h)).2
      have hz := hd.lbSize _ hrm hf
      rcases hlb with hlb | hlb
      · exact absurd hlb (not_le.mpr hz)
      · exact isInteger_sub hact (hd.lb _ hrm hlb)
    · rw [if_neg (by omega)]
      have hf := (hs.good.rowUpper (v - P.nCols) hir (by rw [e]; exact h)).2
      have hz := hd.ubSize _ hrm hf
      rcases hub with hub | hub
      · exact absurd hub (not_le.mpr hz)
      · exact isInteger_sub (hd.ub _ hrm hub) hact

theorem modularizedCoef_int (a b : ℚ) : ∃ z : ℤ, modularizedCoef a b = a - z := by
  unfold modularizedCoef
  split
  · exact ⟨⌊a⌋, rfl⟩
  · exact ⟨⌊a⌋ + 1, by push_cast; ring⟩

theorem modularize_ok {P : Prob} (hwf : P.WF) (hd : ExactData P) {s : Sim} (hs : SimOK P s)
    (h : statusOk P s = true) {r : TabRow} (hr : RowOK P s r) : RowOK P s (r.modularize P) where
  nonneg := hr.nonneg
  lt_one := hr.lt_one
  int := by
    intro x hx
    have h0 := hr.int x hx
    have key : ∀ l : List Nat, (∀ v ∈ l, v ∈ s.nonBasics) →
        IsInteger ((l.map fun v => r.coef v * shift P s.stat x v).sum -
          (l.map fun v => (r.modularize P).coef v * shift P s.stat x v).sum) := by
      intro l
      induction l with
      | nil => intro _; exact ⟨0, by simp⟩
      | cons v l ih =>
        intro hl
        have ih' := ih fun w hw => hl w (List.mem_cons_of_mem _ hw)
        have hv := hl v List.mem_cons_self
        rw [List.map_cons, List.map_cons, List.sum_cons, List.sum_cons]
        have hvv : IsInteger (r.coef v * shift P s.stat x v - (r.modularize P).coef v * shift P s.stat x v) := by
          unfold TabRow.modularize
          dsimp only
          by_cases hc : (r.listed v && intVar P v) = true
          · rw [if_pos hc]
            obtain ⟨z, hz⟩ := modularizedCoef_int (r.coef v) r.rhs
            rw [hz]
            have := shift_integer hwf hd hs h hx hv (Bool.and_eq_true _ _ ▸ hc).2
            rw [show r.coef v * shift P s.stat x v - (r.coef v - z) * shift P s.stat x v =
              (z : ℚ) * shift P s.stat x v by ring]
            exact isInteger_mul ⟨z, rfl⟩ this
          · rw [if_neg hc]; exact ⟨0, by simp⟩
        have := isInteger_add hvv ih'
        rwa [show r.coef v * shift P s.stat x v + (l.map fun v => r.coef v * shift P s.stat x v).sum -
            ((r.modularize P).coef v * shift P s.stat x v +
              (l.map fun v => (r.modularize P).coef v * shift P s.stat x v).sum) =
            r.coef v * shift P s.stat x v - (r.modularize P).coef v * shift P s.stat x v +
              ((l.map fun v => r.coef v * shift P s.stat x v).sum -
                (l.map fun v => (r.modularize P).coef v * shift P s.stat x v).sum) by ring]
    have := isInteger_add h0 (key s.nonBasics fun _ h => h)
    rw [show (r.modularize P).rhs = r.rhs from rfl]
    rwa [show r.rhs - (s.nonBasics.map fun v => r.coef v * shift P s.stat x v).sum +
        ((s.nonBasics.map fun v => r.coef v * shift P s.stat x v).sum -
          (s.nonBasics.map fun v => (r.modularize P).coef v * shift P s.stat x v).sum) =
        r.rhs - (s.nonBasics.map fun v => (r.modularize P).coef v * shift P s.stat x v).sum by ring] at this

end Cgl.LandP
