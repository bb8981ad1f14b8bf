import Verif.Vub.Spec
import Verif.DomCols.Move

/-! # What the analysis of these rows does to the problem -/

namespace Cgl.Vub

theorem big_lt : (10 : ℚ) ^ 20 < dblMax := by decide +kernel

theorem value_update (n : Nat) (cost x : Nat → ℚ) (j : Nat) (t : ℚ) (hj : j < n) :
    value n cost (Function.update x j t) = value n cost x + cost j * (t - x j) := DomCols.value_update n cost x j t hj

/-- What is known about a row that is read. -/
structure Reads (P : Prob) (r : Row) (v : Pair) : Prop where
  one : colLength P v.j1 = 1
  cont : P.isInt v.j1 = false
  int : P.isInt v.j2 = true
  ne : v.j1 ≠ v.j2
  len : r.coefs.length = 2
  mem1 : ∃ a, (v.j1, a) ∈ r.coefs ∧ (a = v.v1 ∨ a = -v.v1)
  mem2 : ∃ a, (v.j2, a) ∈ r.coefs
  kind : (r.lb < -10 ^ 20 ∧ r.ub < 10 ^ 20 ∧ v.upper = r.ub ∧ ∀ x, r.coefs.dot x = v.v1 * x v.j1 + v.v2 * x v.j2) ∨
    (¬ r.lb < -10 ^ 20 ∧ 10 ^ 20 < r.ub ∧ v.upper = -r.lb ∧ ∀ x, r.coefs.dot x = -(v.v1 * x v.j1 + v.v2 * x v.j2))

theorem pick_spec {P : Prob} {c1 c2 : Nat} {v1 v2 u : ℚ} {v : Pair} (h : pick P c1 v1 c2 v2 u = some v) :
    colLength P v.j1 = 1 ∧ P.isInt v.j1 = false ∧ P.isInt v.j2 = true ∧ v.upper = u ∧
    ((v.j1 = c1 ∧ v.v1 = v1 ∧ v.j2 = c2 ∧ v.v2 = v2) ∨ (v.j1 = c2 ∧ v.v1 = v2 ∧ v.j2 = c1 ∧ v.v2 = v1)) := by
  unfold pick at h
  split at h
  · split at h
    · simp at h
    · split at h
      · simp only [Option.some.injEq] at h
        subst h
        simp_all
      · simp at h
  · split at h
    · split at h
      · simp at h
      · split at h
        · simp only [Option.some.injEq] at h
          subst h
          simp_all
        · simp at h
    · simp at h

theorem read_spec {P : Prob} {r : Row} {v : Pair} (hn : (r.coefs.map Prod.fst).Nodup) (h : read P r = some v) :
    Reads P r v := by
  unfold read at h
  split at h
  · rename_i p q hc
    have hne : p.1 ≠ q.1 := by rw [hc] at hn; simpa using hn
    have hdot : ∀ x, r.coefs.dot x = p.2 * x p.1 + q.2 * x q.1 := by
      intro x; rw [hc]; simp [SVec.dot]
    split at h
    · rename_i h1
      split at h
      · rename_i h2
        obtain ⟨a, b, c, d, e⟩ := pick_spec h
        rcases e with ⟨e1, e2, e3, e4⟩ | ⟨e1, e2, e3, e4⟩
        · refine ⟨a, b, c, by rw [e1, e3]; exact hne, by rw [hc]; rfl, ⟨p.2, by rw [hc, e1]; simp, Or.inl e2.symm⟩,
            ⟨q.2, by rw [hc, e3]; simp⟩, Or.inl ⟨h1, h2, d, fun x => ?_⟩⟩
          rw [hdot, e1, e2, e3, e4]
        · refine ⟨a, b, c, by rw [e1, e3]; exact hne.symm, by rw [hc]; rfl, ⟨q.2, by rw [hc, e1]; simp, Or.inl e2.symm⟩,
            ⟨p.2, by rw [hc, e3]; simp⟩, Or.inl ⟨h1, h2, d, fun x => ?_⟩⟩
          rw [hdot, e1, e2, e3, e4]; ring
      · simp at h
    · rename_i h1
      split at h
      · rename_i h2
        obtain ⟨a, b, c, d, e⟩ := pick_spec h
        rcases e with ⟨e1, e2, e3, e4⟩ | ⟨e1, e2, e3, e4⟩
        · refine ⟨a, b, c, by rw [e1, e3]; exact hne, by rw [hc]; rfl, ⟨p.2, by rw [hc, e1]; simp, Or.inr (by rw [e2]; ring)⟩,
            ⟨q.2, by rw [hc, e3]; simp⟩, Or.inr ⟨h1, h2, d, fun x => ?_⟩⟩
          rw [hdot, e1, e2, e3, e4]; ring
        · refine ⟨a, b, c, by rw [e1, e3]; exact hne.symm, by rw [hc]; rfl,
            ⟨q.2, by rw [hc, e1]; simp, Or.inr (by rw [e2]; ring)⟩, ⟨p.2, by rw [hc, e3]; simp⟩,
            Or.inr ⟨h1, h2, d, fun x => ?_⟩⟩
          rw [hdot, e1, e2, e3, e4]; ring
      · simp at h
  · simp at h

/-- A column of length one is in no other row. -/
theorem alone {l : List Row} {j : Nat} (h : l.countP (fun r => (r.coefs.map Prod.fst).contains j) = 1) {i k : Nat} {r s : Row}
    (hi : l[i]? = some r) (hk : l[k]? = some s) (hj : j ∈ r.coefs.map Prod.fst) (hne : k ≠ i) : j ∉ s.coefs.map Prod.fst := by
  intro hs
  have aux : ∀ (l : List Row) (i k : Nat) (r s : Row), l[i]? = some r → l[k]? = some s → i < k →
      j ∈ r.coefs.map Prod.fst → j ∈ s.coefs.map Prod.fst →
      2 ≤ l.countP (fun r => (r.coefs.map Prod.fst).contains j) := by
    intro l
    induction l with
    | nil => intro i k r s h1; simp at h1
    | cons a l ih =>
      intro i k r s h1 h2 hik hr hs
      obtain ⟨k, rfl⟩ : ∃ m, k = m + 1 := ⟨k - 1, by omega⟩
      rw [List.getElem?_cons_succ] at h2
      rw [List.countP_cons]
      cases i with
      | zero =>
        rw [List.getElem?_cons_zero, Option.some.injEq] at h1
        subst h1
        have : 1 ≤ l.countP (fun r => (r.coefs.map Prod.fst).contains j) :=
          List.one_le_countP_iff.mpr ⟨s, List.mem_of_getElem? h2, by rw [List.contains_iff_mem]; exact hs⟩
        rw [if_pos (by rw [List.contains_iff_mem]; exact hr)]
        omega
      | succ i =>
        rw [List.getElem?_cons_succ] at h1
        have := ih i k r s h1 h2 (by omega) hr hs
        omega
  rcases Nat.lt_or_gt_of_ne hne with hlt | hlt
  · have := aux l k i s r hk hi hlt hs hj; omega
  · have := aux l i k r s hi hk hlt hj hs; omega

/-- What is kept from row to row: rows from `k` on are as assumed. -/
structure Ready (P : Prob) (k : Nat) : Prop where
  wf : P.WF
  inf : P.inf = dblMax
  colUpper : ∀ j < P.nCols, 10 ^ 20 < P.colUpper j → dblMax ≤ P.colUpper j
  rows : ∀ i, k ≤ i → ∀ r, P.rows[i]? = some r →
    (r.lb < -10 ^ 20 → r.lb ≤ -dblMax) ∧ (10 ^ 20 < r.ub → dblMax ≤ r.ub) ∧ RowOk P r

theorem equate_coefs (r : Row) : (equate r).coefs = r.coefs := by unfold equate; split <;> rfl

theorem mem_set {l : List Row} {i : Nat} {r s : Row} (h : s ∈ l.set i (equate r)) : s ∈ l ∨ s = equate r := by
  rcases List.mem_or_eq_of_mem_set h with h | h
  · exact Or.inl h
  · exact Or.inr h

theorem wf_set {P : Prob} (h : P.WF) {i : Nat} {r : Row} (hr : P.rows[i]? = some r) :
    ({ P with rows := P.rows.set i (equate r) } : Prob).WF := by
  have hm := List.mem_of_getElem? hr
  refine ⟨?_, ?_⟩
  · intro s hs p hp
    rcases mem_set hs with h1 | rfl
    · exact h.cols s h1 p hp
    · rw [equate_coefs] at hp; exact h.cols r hm p hp
  · intro s hs
    rcases mem_set hs with h1 | rfl
    · exact h.nodup s h1
    · rw [equate_coefs]; exact h.nodup r hm

theorem step_ready (cost : Nat → ℚ) (dir : ℚ) {P : Prob} {k : Nat} (h : Ready P k) : Ready (step cost dir P k) (k + 1) := by
  have base : Ready P (k + 1) := ⟨h.wf, h.inf, h.colUpper, fun i hi => h.rows i (by omega)⟩
  unfold step
  split
  · exact base
  · rename_i r hr
    split
    · exact base
    · rename_i v hv
      have hrd := read_spec (h.wf.nodup r (List.mem_of_getElem? hr)) hv
      split
      · exact base
      · refine ⟨wf_set h.wf hr, h.inf, h.colUpper, ?_⟩
        intro i hi s hs
        dsimp only at hs
        rw [List.getElem?_set_ne (by omega)] at hs
        exact h.rows i (by omega) s hs
      · refine ⟨⟨h.wf.cols, h.wf.nodup⟩, h.inf, h.colUpper, ?_⟩
        intro i hi s hs
        dsimp only at hs
        obtain ⟨h1, h2, h3⟩ := h.rows i (by omega) s hs
        refine ⟨h1, h2, ?_⟩
        intro hl p hp
        have hne : p.1 ≠ v.j1 := by
          intro he
          obtain ⟨a, ha, -⟩ := hrd.mem1
          exact alone hrd.one hr hs (List.mem_map_of_mem (f := Prod.fst) ha) (by omega)
            (by rw [← he]; exact List.mem_map_of_mem hp)
        have := h3 hl p hp
        have hi : (decide (p.1 = v.j1) || P.isInt p.1) = P.isInt p.1 := by simp [hne]
        dsimp only
        rw [hi]
        exact this

/-- The smallest of the other column bounds the right hand side. -/
theorem rhs_ge {P : Prob} {v : Pair} {x : Nat → ℚ} (h1 : P.colLower v.j2 ≤ x v.j2) (h2 : x v.j2 ≤ P.colUpper v.j2) :
    v.upper - v.v2 * x v.j2 ≤ rhs P v := by
  unfold rhs
  split
  · rename_i h
    have := mul_le_mul_of_nonneg_left h1 h.le
    linarith
  · rename_i h
    have := mul_le_mul_of_nonpos_left h2 (not_lt.mp h)
    linarith

/-- One row: the point may change, the objective does not get worse. -/
theorem step_point (cost : Nat → ℚ) (dir : ℚ) {P : Prob} {k : Nat} (h : Ready P k) {x : Nat → ℚ} (hx : P.Feasible x) :
    ∃ y, (step cost dir P k).Feasible y ∧ dir * value P.nCols cost y ≤ dir * value P.nCols cost x := by
  unfold step
  split
  · exact ⟨x, hx, le_refl _⟩
  rename_i r hr
  split
  · exact ⟨x, hx, le_refl _⟩
  rename_i v hv
  have hm := List.mem_of_getElem? hr
  have hrd := read_spec (h.wf.nodup r hm) hv
  obtain ⟨hlow, hup, hok⟩ := h.rows k (le_refl _) r hr
  obtain ⟨a1, ha1, hav⟩ := hrd.mem1
  obtain ⟨a2, ha2⟩ := hrd.mem2
  have hj1 := h.wf.cols r hm _ ha1
  have hj2 := h.wf.cols r hm _ ha2
  dsimp only at hj1 hj2
  obtain ⟨hil, hiu, hfl, hfu⟩ := (hok hrd.len _ ha2).1 hrd.int
  have hcont := (hok hrd.len _ ha1).2 hrd.cont
  dsimp only at hil hiu hfl hfu hcont
  have hx2l := hx.lower _ hj2 (by rw [h.inf]; exact hfl)
  have hx2u := hx.upper _ hj2 (by rw [h.inf]; exact hfu)
  have hrhs := rhs_ge (P := P) (v := v) hx2l hx2u
  -- the row as an inequality
  have hrow : v.v1 * x v.j1 + v.v2 * x v.j2 ≤ v.upper := by
    have hs := hx.rows r hm
    rcases hrd.kind with ⟨k1, k2, k3, k4⟩ | ⟨k1, k2, k3, k4⟩
    · have := hs.2 (by rw [h.inf]; linarith [big_lt])
      rw [k4] at this; rw [k3]; exact this
    · have := hs.1 (by rw [h.inf]; linarith [big_lt, not_lt.mp k1])
      rw [k4] at this; rw [k3]; linarith
  -- other rows do not see the column
  have hother : ∀ i s t, P.rows[i]? = some s → i ≠ k → s.coefs.dot (Function.update x v.j1 t) = s.coefs.dot x := by
    intro i s t hs hi
    exact DomCols.dot_same (alone hrd.one hr hs (List.mem_map_of_mem (f := Prod.fst) ha1) hi)
  have hval : ∀ t, 0 < v.v1 ∧ cost v.j1 * dir < 0 → x v.j1 ≤ t →
      dir * value P.nCols cost (Function.update x v.j1 t) ≤ dir * value P.nCols cost x := by
    intro t hc ht
    rw [value_update _ _ _ _ _ hj1]
    have := mul_nonneg (neg_nonneg.mpr hc.2.le) (sub_nonneg.mpr ht)
    nlinarith
  have hlower : ∀ t, x v.j1 ≤ t → ∀ j < P.nCols, lbOk P.inf (P.colLower j) (Function.update x v.j1 t j) := by
    intro t ht j hj hl
    by_cases he : j = v.j1
    · rw [he] at hl; rw [he, Function.update_self]; exact le_trans (hx.lower _ hj1 hl) ht
    · rw [Function.update_of_ne he]; exact hx.lower j hj hl
  have hupper : ∀ t, (P.colUpper v.j1 < P.inf → t ≤ P.colUpper v.j1) →
      ∀ j < P.nCols, ubOk P.inf (P.colUpper j) (Function.update x v.j1 t j) := by
    intro t ht j hj hl
    by_cases he : j = v.j1
    · rw [he] at hl; rw [he, Function.update_self]; exact ht hl
    · rw [Function.update_of_ne he]; exact hx.upper j hj hl
  split
  · exact ⟨x, hx, le_refl _⟩
  · -- equation
    rename_i hact
    unfold act at hact
    split at hact
    swap
    · simp at hact
    rename_i hc
    split at hact
    swap
    · split at hact <;> simp at hact
    rename_i heq
    have hv1 := hc.1
    have hmul : v.v1 * ((v.upper - v.v2 * x v.j2) / v.v1) = v.upper - v.v2 * x v.j2 := mul_div_cancel₀ _ hv1.ne'
    have hge : x v.j1 ≤ (v.upper - v.v2 * x v.j2) / v.v1 := by
      rw [le_div_iff₀ hv1]; linarith
    refine ⟨Function.update x v.j1 ((v.upper - v.v2 * x v.j2) / v.v1), ⟨?_, hlower _ hge, hupper _ ?_, ?_⟩, hval _ hc hge⟩
    · intro s hs
      dsimp only at hs ⊢
      obtain ⟨i, hi⟩ := List.getElem?_of_mem hs
      by_cases hik : i = k
      · subst hik
        have hlen : i < P.rows.length := by
          by_contra hcon
          rw [List.getElem?_eq_none (by omega)] at hr; simp at hr
        rw [List.getElem?_set_self hlen, Option.some.injEq] at hi
        subst hi
        unfold Row.Sat
        rw [equate_coefs]
        unfold equate
        rcases hrd.kind with ⟨k1, k2, k3, k4⟩ | ⟨k1, k2, k3, k4⟩
        · rw [if_pos k1, k4, Function.update_self, Function.update_of_ne hrd.ne.symm, hmul, k3]
          exact ⟨fun _ => by dsimp only; linarith, fun _ => by dsimp only; linarith⟩
        · rw [if_neg k1, k4, Function.update_self, Function.update_of_ne hrd.ne.symm, hmul, k3]
          exact ⟨fun _ => by dsimp only; linarith, fun _ => by dsimp only; linarith⟩
      · rw [List.getElem?_set_ne (Ne.symm hik)] at hi
        unfold Row.Sat
        rw [hother i s _ hi hik]
        exact hx.rows s (List.mem_of_getElem? hi)
    · intro hfin
      rcases heq with hbig | hle
      · have := h.colUpper _ hj1 hbig
        rw [h.inf] at hfin; linarith
      · rw [div_le_iff₀ hv1]; linarith
    · intro j hj hji
      have he : j ≠ v.j1 := by rintro rfl; rw [hrd.cont] at hji; exact absurd hji (by decide)
      rw [Function.update_of_ne he]; exact hx.int j hj hji
  · -- integer
    rename_i hact
    unfold act at hact
    split at hact
    swap
    · simp at hact
    rename_i hc
    split at hact
    · simp at hact
    rename_i hneq
    split at hact
    swap
    · simp at hact
    rename_i hfloor
    rw [not_or] at hneq
    obtain ⟨hunit, huint⟩ := hcont.resolve_left hneq.1
    have hv1 : v.v1 = 1 := by
      rcases hav with rfl | rfl <;> rcases hunit with h1 | h1 <;> linarith [hc.1]
    have hufin : P.colUpper v.j1 < P.inf := by rw [h.inf]; linarith [big_lt, not_lt.mp hneq.1]
    have hxu := hx.upper _ hj1 hufin
    have hge : x v.j1 ≤ min (P.colUpper v.j1) (v.upper - v.v2 * x v.j2) := by
      refine le_min hxu ?_
      rw [hv1] at hrow; linarith
    refine ⟨Function.update x v.j1 (min (P.colUpper v.j1) (v.upper - v.v2 * x v.j2)),
      ⟨?_, hlower _ hge, hupper _ (fun _ => min_le_left _ _), ?_⟩, hval _ hc hge⟩
    · intro s hs
      dsimp only at hs ⊢
      obtain ⟨i, hi⟩ := List.getElem?_of_mem hs
      by_cases hik : i = k
      · subst hik
        rw [hr, Option.some.injEq] at hi
        subst hi
        have hmin := min_le_right (P.colUpper v.j1) (v.upper - v.v2 * x v.j2)
        have hs := hx.rows r hm
        unfold Row.Sat
        rcases hrd.kind with ⟨k1, k2, k3, k4⟩ | ⟨k1, k2, k3, k4⟩
        · rw [k4, Function.update_self, Function.update_of_ne hrd.ne.symm, hv1]
          refine ⟨fun hl => ?_, fun _ => by rw [k3] at hmin ⊢; linarith⟩
          rw [h.inf] at hl; linarith [hlow k1]
        · rw [k4, Function.update_self, Function.update_of_ne hrd.ne.symm, hv1]
          refine ⟨fun _ => by rw [k3] at hmin ⊢; linarith, fun hl => ?_⟩
          rw [h.inf] at hl; linarith [hup k2]
      · unfold Row.Sat
        rw [hother i s _ hi hik]
        exact hx.rows s (List.mem_of_getElem? hi)
    · intro j hj hji
      by_cases he : j = v.j1
      · rw [he, Function.update_self]
        obtain ⟨z2, hz2⟩ := hx.int _ hj2 hrd.int
        obtain ⟨zu, hzu⟩ := huint
        have hb : IsInteger (v.upper - v.v2 * x v.j2) := by
          obtain ⟨zl, hzl⟩ := hil
          obtain ⟨zw, hzw⟩ := hiu
          have e1 := hfloor.1
          have e2 := hfloor.2.1
          unfold rhs at e1
          split at e1
          · refine ⟨⌊v.upper - v.v2 * P.colLower v.j2⌋ + ⌊v.v2⌋ * zl - ⌊v.v2⌋ * z2, ?_⟩
            push_cast
            rw [← e1, ← e2, hz2, hzl]; ring
          · refine ⟨⌊v.upper - v.v2 * P.colUpper v.j2⌋ + ⌊v.v2⌋ * zw - ⌊v.v2⌋ * z2, ?_⟩
            push_cast
            rw [← e1, ← e2, hz2, hzw]; ring
        rcases min_choice (P.colUpper v.j1) (v.upper - v.v2 * x v.j2) with h1 | h1
        · rw [h1]; exact ⟨zu, hzu⟩
        · rw [h1]; exact hb
      · rw [Function.update_of_ne he]
        dsimp only at hji
        exact hx.int j hj (by simpa [he] using hji)

theorem step_cols (cost : Nat → ℚ) (dir : ℚ) (P : Prob) (i : Nat) :
    (step cost dir P i).nCols = P.nCols ∧ (step cost dir P i).rows.length = P.rows.length := by
  unfold step
  split
  · exact ⟨rfl, rfl⟩
  · split
    · exact ⟨rfl, rfl⟩
    · split
      · exact ⟨rfl, rfl⟩
      · exact ⟨rfl, by simp⟩
      · exact ⟨rfl, rfl⟩

theorem fold_point (cost : Nat → ℚ) (dir : ℚ) : ∀ (m k : Nat) (P : Prob) (x : Nat → ℚ), Ready P k → P.Feasible x →
    ∃ y, ((List.range' k m).foldl (step cost dir) P).Feasible y ∧ dir * value P.nCols cost y ≤ dir * value P.nCols cost x := by
  intro m
  induction m with
  | zero => intro k P x _ hx; exact ⟨x, hx, le_refl _⟩
  | succ m ih =>
    intro k P x h hx
    rw [List.range'_succ, List.foldl_cons]
    obtain ⟨y, hy, hle⟩ := step_point cost dir h hx
    obtain ⟨z, hz, hle'⟩ := ih (k + 1) _ y (step_ready cost dir h) hy
    rw [(step_cols cost dir P k).1] at hle'
    exact ⟨z, hz, le_trans hle' hle⟩

/-- **C140.** For each feasible point the problem after the analysis has one with an objective that is not worse (`dir` is 1 for
minimisation, -1 for maximisation), if in rows with two columns the integer columns have finite integer bounds and the continuous ones
with finite upper bounds have coefficients 1 or -1 and integer upper bounds.  (Missing: other rows, `not_bound`, `not_unit`.) -/
theorem vub_partial (cost : Nat → ℚ) (dir : ℚ) (P : Prob) (ht : Tidy P) (hok : ∀ r ∈ P.rows, RowOk P r) (x : Nat → ℚ)
    (hx : P.Feasible x) :
    ∃ y, (vubs cost dir P).Feasible y ∧ dir * value P.nCols cost y ≤ dir * value P.nCols cost x := by
  unfold vubs
  rw [List.range_eq_range']
  refine fold_point cost dir _ 0 P x ⟨ht.wf, ht.inf, ht.colUpper, ?_⟩ hx
  intro i _ r hr
  have hm := List.mem_of_getElem? hr
  exact ⟨ht.rowLower r hm, ht.rowUpper r hm, hok r hm⟩

theorem step_back (cost : Nat → ℚ) (dir : ℚ) {P : Prob} (hlu : ∀ r ∈ P.rows, r.lb ≤ r.ub) (k : Nat) :
    (∀ r ∈ (step cost dir P k).rows, r.lb ≤ r.ub) ∧ ∀ y, (step cost dir P k).Feasible y → P.Feasible y := by
  unfold step
  split
  · exact ⟨hlu, fun y h => h⟩
  rename_i r hr
  split
  · exact ⟨hlu, fun y h => h⟩
  rename_i v hv
  have hm := List.mem_of_getElem? hr
  have hle := hlu r hm
  split
  · exact ⟨hlu, fun y h => h⟩
  · constructor
    · intro s hs
      rcases mem_set hs with h1 | rfl
      · exact hlu s h1
      · unfold equate; split <;> exact le_refl _
    · intro y hy
      refine ⟨?_, hy.lower, hy.upper, hy.int⟩
      intro s hs
      obtain ⟨i, hi⟩ := List.getElem?_of_mem hs
      by_cases hik : i = k
      · subst hik
        rw [hr, Option.some.injEq] at hi
        subst hi
        have hlen : i < P.rows.length := by
          by_contra hcon
          rw [List.getElem?_eq_none (by omega)] at hr; simp at hr
        have hs := hy.rows (equate r) (List.mem_of_getElem? (List.getElem?_set_self hlen))
        unfold Row.Sat at hs
        rw [equate_coefs] at hs
        dsimp only at hs
        unfold equate at hs
        split at hs
        · refine ⟨fun hl => ?_, hs.2⟩
          exact le_trans hle (hs.1 (lt_of_lt_of_le hl hle))
        · refine ⟨hs.1, fun hl => ?_⟩
          exact le_trans (hs.2 (lt_of_le_of_lt hle hl)) hle
      · exact hy.rows s (List.mem_of_getElem? (i := i) (by dsimp only; rw [List.getElem?_set_ne (Ne.symm hik)]; exact hi))
  · refine ⟨hlu, fun y hy => ⟨hy.rows, hy.lower, hy.upper, ?_⟩⟩
    intro j hj hji
    exact hy.int j hj (by dsimp only; simp [hji])

/-- **C141.** If no row has its lower bound above its upper bound, each feasible point of the problem after the analysis is feasible
for the problem before. -/
theorem vub_feasible (cost : Nat → ℚ) (dir : ℚ) (P : Prob) (hlu : ∀ r ∈ P.rows, r.lb ≤ r.ub) (y : Nat → ℚ)
    (hy : (vubs cost dir P).Feasible y) : P.Feasible y := by
  have key : ∀ (l : List Nat) (P : Prob), (∀ r ∈ P.rows, r.lb ≤ r.ub) → (l.foldl (step cost dir) P).Feasible y → P.Feasible y := by
    intro l
    induction l with
    | nil => intro P _ h; exact h
    | cons k l ih =>
      intro P hP h
      obtain ⟨h1, h2⟩ := step_back cost dir hP k
      exact h2 y (ih _ h1 h)
  exact key _ P hlu hy

theorem step_only (cost : Nat → ℚ) (dir : ℚ) {P : Prob} (hn : ∀ r ∈ P.rows, (r.coefs.map Prod.fst).Nodup) (k : Nat) :
    (step cost dir P k).inf = P.inf ∧ (step cost dir P k).colLower = P.colLower ∧ (step cost dir P k).colUpper = P.colUpper ∧
    (step cost dir P k).rows.map Row.coefs = P.rows.map Row.coefs ∧
    (∀ j, P.isInt j = true → (step cost dir P k).isInt j = true) ∧
    ∀ j, (step cost dir P k).isInt j = true → P.isInt j = true ∨ cost j * dir < 0 ∧ colLength P j = 1 := by
  unfold step
  split
  · simp +contextual
  rename_i r hr
  split
  · simp +contextual
  rename_i v hv
  have hrd := read_spec (hn r (List.mem_of_getElem? hr)) hv
  split
  · simp +contextual
  · refine ⟨rfl, rfl, rfl, ?_, fun _ h => h, fun _ h => Or.inl h⟩
    rw [List.map_set, equate_coefs]
    refine List.ext_getElem? fun i => ?_
    by_cases hik : i = k
    · subst hik
      rw [List.getElem?_set_self', List.getElem?_map, hr]; rfl
    · rw [List.getElem?_set_ne (Ne.symm hik)]
  · rename_i hact
    refine ⟨rfl, rfl, rfl, rfl, fun j h => by dsimp only; simp [h], fun j h => ?_⟩
    dsimp only at h
    rw [Bool.or_eq_true, decide_eq_true_eq] at h
    rcases h with rfl | h
    · right
      unfold act at hact
      split at hact
      · rename_i hc; exact ⟨hc.2, hrd.one⟩
      · simp at hact
    · exact Or.inl h

theorem colLength_coefs {P Q : Prob} (h : P.rows.map Row.coefs = Q.rows.map Row.coefs) (j : Nat) : colLength P j = colLength Q j := by
  have : ∀ P : Prob, colLength P j = (P.rows.map Row.coefs).countP fun c => (c.map Prod.fst).contains j := by
    intro P; unfold colLength; rw [List.countP_map]; rfl
  rw [this, this, h]

/-- **C141.** Bounds and coefficients of columns stay, integer columns stay integer, and a column that becomes integer is in exactly one
row and has a cost that makes it grow. -/
theorem vub_only (cost : Nat → ℚ) (dir : ℚ) (P : Prob) (hn : ∀ r ∈ P.rows, (r.coefs.map Prod.fst).Nodup) :
    (vubs cost dir P).nCols = P.nCols ∧ (vubs cost dir P).colLower = P.colLower ∧ (vubs cost dir P).colUpper = P.colUpper ∧
    (vubs cost dir P).rows.map Row.coefs = P.rows.map Row.coefs ∧
    (∀ j, P.isInt j = true → (vubs cost dir P).isInt j = true) ∧
    ∀ j, (vubs cost dir P).isInt j = true → P.isInt j = true ∨
      cost j * dir < 0 ∧ (P.rows.countP fun r => (r.coefs.map Prod.fst).contains j) = 1 := by
  have key : ∀ (l : List Nat) (Q : Prob), (∀ r ∈ Q.rows, (r.coefs.map Prod.fst).Nodup) →
      (l.foldl (step cost dir) Q).nCols = Q.nCols ∧ (l.foldl (step cost dir) Q).colLower = Q.colLower ∧
      (l.foldl (step cost dir) Q).colUpper = Q.colUpper ∧
      (l.foldl (step cost dir) Q).rows.map Row.coefs = Q.rows.map Row.coefs ∧
      (∀ j, Q.isInt j = true → (l.foldl (step cost dir) Q).isInt j = true) ∧
      ∀ j, (l.foldl (step cost dir) Q).isInt j = true → Q.isInt j = true ∨ cost j * dir < 0 ∧ colLength Q j = 1 := by
    intro l
    induction l with
    | nil => intro Q _; exact ⟨rfl, rfl, rfl, rfl, fun _ h => h, fun _ h => Or.inl h⟩
    | cons k l ih =>
      intro Q hQ
      rw [List.foldl_cons]
      obtain ⟨-, s2, s3, s4, s5, s6⟩ := step_only cost dir hQ k
      have hQ' : ∀ r ∈ (step cost dir Q k).rows, (r.coefs.map Prod.fst).Nodup := by
        intro r hr
        have : r.coefs ∈ Q.rows.map Row.coefs := by rw [← s4]; exact List.mem_map_of_mem hr
        obtain ⟨r', hr', he⟩ := List.mem_map.mp this
        rw [← he]; exact hQ r' hr'
      obtain ⟨t1, t2, t3, t4, t5, t6⟩ := ih _ hQ'
      refine ⟨t1.trans (step_cols cost dir Q k).1, t2.trans s2, t3.trans s3, t4.trans s4, fun j h => t5 j (s5 j h), fun j h => ?_⟩
      rcases t6 j h with h1 | h1
      · exact s6 j h1
      · exact Or.inr ⟨h1.1, by rw [← colLength_coefs s4 j]; exact h1.2⟩
  exact key _ P hn

end Cgl.Vub
