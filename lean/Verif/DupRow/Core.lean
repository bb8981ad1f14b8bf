import Verif.DupRow.Model
import Mathlib.Tactic.Linarith
import Mathlib.Tactic.Ring
import Mathlib.Tactic.FieldSimp
import Mathlib.Tactic.Positivity
import Mathlib.Algebra.Order.Field.Basic
import Mathlib.Data.List.Nodup

/-!
# Facts about the comparison of two rows
-/

namespace Cgl.DupRow

/-! ### Assignments -/

theorem mem_bits_cons {n : Nat} {b : ℚ} {l : List ℚ} : b :: l ∈ bits (n + 1) ↔ (b = 0 ∨ b = 1) ∧ l ∈ bits n := by
  simp only [bits, List.mem_flatMap]
  constructor
  · rintro ⟨a, ha, h⟩
    simp only [List.mem_cons, List.cons.injEq, List.not_mem_nil, or_false] at h
    rcases h with ⟨h1, rfl⟩ | ⟨h1, rfl⟩
    · exact ⟨Or.inl h1, ha⟩
    · exact ⟨Or.inr h1, ha⟩
  · rintro ⟨h | h, ha⟩
    · exact ⟨l, ha, by simp [h]⟩
    · exact ⟨l, ha, by simp [h]⟩

theorem mem_bits {l : List ℚ} : ∀ {n : Nat}, l ∈ bits n ↔ l.length = n ∧ ∀ b ∈ l, b = 0 ∨ b = 1 := by
  induction l with
  | nil =>
    intro n
    cases n with
    | zero => simp [bits]
    | succ n =>
      simp only [bits, List.mem_flatMap, List.mem_cons, List.not_mem_nil, or_false, List.length_nil]
      constructor
      · rintro ⟨a, -, h | h⟩ <;> cases h
      · rintro ⟨h, -⟩; cases h
  | cons b l ih =>
    intro n
    cases n with
    | zero => simp [bits]
    | succ n =>
      rw [mem_bits_cons, ih]
      simp only [List.length_cons, List.mem_cons, forall_eq_or_imp, Nat.add_right_cancel_iff]
      tauto

/-- The values of the columns of a row at a point, counted from the current lower bounds. -/
def vals (y : Nat → ℚ) (v : SVec) : List ℚ := v.map fun p => y p.1

theorem lin_dot (y : Nat → ℚ) (v : SVec) : lin (v.map Prod.snd) (vals y v) = v.dot y := by
  induction v with
  | nil => rfl
  | cons p v ih =>
    simp only [List.map_cons, vals, lin, SVec.dot_cons]
    rw [← ih]; rfl

theorem vals_mem_bits {y : Nat → ℚ} {v : SVec} (h : ∀ p ∈ v, y p.1 = 0 ∨ y p.1 = 1) : vals y v ∈ bits v.length := by
  rw [mem_bits]
  refine ⟨by simp [vals], fun b hb => ?_⟩
  obtain ⟨p, hp, rfl⟩ := List.mem_map.mp hb
  exact h p hp

theorem vals_congr {y z : Nat → ℚ} {v : SVec} (h : ∀ p ∈ v, y p.1 = z p.1) : vals y v = vals z v :=
  List.map_congr_left h

theorem vals_cols {y : Nat → ℚ} {v w : SVec} (h : v.map Prod.fst = w.map Prod.fst) : vals y v = vals y w := by
  have : ∀ u : SVec, vals y u = (u.map Prod.fst).map y := fun u => by rw [List.map_map]; rfl
  rw [this, this, h]

theorem tol_pos (q : ℚ) : 0 < tol q := lt_of_lt_of_le (by norm_num) (le_max_left _ _)

theorem allowed_iff {e : List ℚ} {q : ℚ} {eqn : Bool} {a : List ℚ} :
    allowed e q eqn a = true ↔ lin e a < q + tol q ∧ loRhs eqn q - tol q < lin e a := by
  simp [allowed]

/-- A value that satisfies the row is allowed. -/
theorem allowed_of {e : List ℚ} {q : ℚ} {eqn : Bool} {a : List ℚ} (h1 : lin e a ≤ q) (h2 : eqn = true → lin e a = q)
    (h3 : -10 ^ 30 ≤ lin e a) : allowed e q eqn a = true := by
  rw [allowed_iff]
  have ht := tol_pos q
  refine ⟨by linarith, ?_⟩
  unfold loRhs
  split
  · rename_i h; rw [h2 h]; linarith
  · linarith

/-! ### The verdict -/

theorem verdict_feasible {n : Nat} {a0 a1 : List ℚ → Bool} {a : List ℚ} (ha : a ∈ bits n) (h0 : a0 a = true)
    (h1 : a1 a = true) : (verdict n a0 a1).feasible = true := by
  simp only [verdict, List.any_eq_true]
  exact ⟨a, ha, by simp [h0, h1]⟩

theorem fixedAt_spec {both : List ℚ → Bool} {n j : Nat} {a : List ℚ} (ha : a ∈ bits n) (hb : both a = true)
    (hj : j < n) {v : ℚ} (h : fixedAt both n j = some v) : a[j]? = some v := by
  obtain ⟨hlen, h01⟩ := mem_bits.mp ha
  have hja : a[j]? = some a[j] := List.getElem?_eq_getElem (by omega)
  have hm := h01 _ (List.getElem_mem (l := a) (n := j) (by omega))
  unfold fixedAt at h
  split at h
  · rename_i hz
    obtain rfl := Option.some.inj h
    rw [hja]
    rcases hm with h' | h'
    · exfalso
      simp only [Bool.not_eq_true', List.any_eq_false] at hz
      apply hz a ha
      simp [hb, hja, h']
    · rw [h']
  · split at h
    · rename_i hz
      obtain rfl := Option.some.inj h
      rw [hja]
      rcases hm with h' | h'
      · rw [h']
      · exfalso
        simp only [Bool.not_eq_true', List.any_eq_false] at hz
        apply hz a ha
        simp [hb, hja, h']
    · cases h

theorem fixed_spec {n : Nat} {a0 a1 : List ℚ → Bool} {a : List ℚ} (ha : a ∈ bits n) (h0 : a0 a = true)
    (h1 : a1 a = true) {j : Nat} {v : ℚ} (h : (verdict n a0 a1).fixed[j]? = some (some v)) : a[j]? = some v := by
  simp only [verdict] at h
  split at h
  · rw [List.getElem?_map] at h
    rcases hr : (List.range n)[j]? with _ | k
    · rw [hr] at h; cases h
    · rw [hr] at h
      have hk := List.getElem?_eq_some_iff.mp hr
      obtain ⟨hj, hk⟩ := hk
      rw [List.getElem_range] at hk
      subst hk
      simp only [Option.map_some, Option.some.injEq] at h
      exact fixedAt_spec ha (by simp [h0, h1]) (by simpa using hj) h
  · simp at h

/-! ### Shifting -/

theorem coefAt_cons (p : Nat × ℚ) (v : SVec) (c : Nat) :
    coefAt (p :: v) c = (if p.1 = c then p.2 else 0) + coefAt v c := by
  unfold coefAt
  rw [List.filter_cons]
  by_cases h : p.1 = c
  · simp [h]
  · simp [h]

theorem dot_shift (v : SVec) (x tl : Nat → ℚ) (c : Nat) (lo : ℚ) :
    v.dot (fun j => x j - Function.update tl c (tl c + lo) j) = v.dot (fun j => x j - tl j) - lo * coefAt v c := by
  induction v with
  | nil => simp [coefAt]
  | cons p v ih =>
    rw [SVec.dot_cons, SVec.dot_cons, ih, coefAt_cons]
    by_cases h : p.1 = c
    · rw [if_pos h, h, Function.update_self]; ring
    · rw [if_neg h, Function.update_of_ne h]; ring

/-! ### Cells -/

theorem cell_nonneg {bound el q value : ℚ} {eqn : Bool} (hb : 0 ≤ bound) (h : (cell bound el q eqn value).ok = true) :
    0 ≤ (cell bound el q eqn value).lo ∧ (cell bound el q eqn value).up ≤ bound := by
  have ht := tol_pos q
  simp only [cell] at h ⊢
  by_cases hg : 0 < bound * el
  · have hel : 0 < el := by
      by_contra hc
      have := mul_nonpos_of_nonneg_of_nonpos hb (not_lt.mp hc)
      linarith
    simp only [hg, if_true] at h ⊢
    refine ⟨?_, ?_⟩
    · split
      · rename_i h1; exact div_nonneg (by linarith) hel.le
      · exact le_refl _
    · split
      · rename_i h1
        have : 0 ≤ (value + bound * el - q) / el := div_nonneg (by linarith) hel.le
        linarith
      · exact le_refl _
  · simp only [hg, if_false, Bool.and_eq_true, decide_eq_true_eq] at h ⊢
    obtain ⟨h1, h2⟩ := h
    have hle : el ≤ 0 ∨ bound = 0 := by
      rcases le_or_gt el 0 with h' | h'
      · exact Or.inl h'
      · refine Or.inr (le_antisymm ?_ hb)
        by_contra hc
        exact hg (mul_pos (not_le.mp hc) h')
    refine ⟨?_, ?_⟩
    · split
      · rename_i h3
        rcases hle with h' | h'
        · exact div_nonneg_of_nonpos (by linarith) h'
        · rw [h', zero_mul] at h1; linarith
      · exact le_refl _
    · split
      · rename_i h3
        rcases hle with h' | h'
        · have : 0 ≤ (value + bound * el - loRhs eqn q) / el := div_nonneg_of_nonpos (by linarith) h'
          linarith
        · rw [h', zero_mul] at h3; linarith
      · exact le_refl _

theorem cell_sound {bound el q value y : ℚ} {eqn : Bool} (h0 : 0 ≤ y) (hy : y ≤ bound) (h1 : value + el * y ≤ q)
    (h2 : eqn = true → value + el * y = q) (h3 : -10 ^ 30 ≤ value) (h4 : -10 ^ 30 ≤ value + bound * el) :
    (cell bound el q eqn value).ok = true ∧ (cell bound el q eqn value).lo ≤ y ∧ y ≤ (cell bound el q eqn value).up := by
  have ht := tol_pos q
  have hb : 0 ≤ bound := le_trans h0 hy
  have hlo : ∀ w, loRhs eqn q - tol q > w → -10 ^ 30 ≤ w → eqn = true := by
    intro w hw1 hw2
    unfold loRhs at hw1
    split at hw1
    · assumption
    · linarith
  simp only [cell]
  by_cases hg : 0 < bound * el
  · have hel : 0 < el := by
      by_contra hc
      have := mul_nonpos_of_nonneg_of_nonpos hb (not_lt.mp hc)
      linarith
    have hey : el * y ≤ bound * el := by rw [mul_comm]; exact mul_le_mul_of_nonneg_right hy hel.le
    have hey0 : 0 ≤ el * y := mul_nonneg hel.le h0
    simp only [hg, if_true, Bool.and_eq_true, decide_eq_true_eq]
    refine ⟨⟨by linarith, ?_⟩, ?_, ?_⟩
    · unfold loRhs
      split
      · rename_i h; have := h2 h; linarith
      · linarith
    · split
      · rename_i h
        have he := hlo _ h h3
        have hq := h2 he
        rw [div_le_iff₀ hel]
        unfold loRhs
        rw [if_pos he]
        linarith
      · exact h0
    · split
      · rename_i h
        have : (value + bound * el - q) / el ≤ bound - y := by
          rw [div_le_iff₀ hel]; linarith
        linarith
      · exact hy
  · have hey0 : bound * el ≤ 0 := not_lt.mp hg
    have hey : bound * el ≤ el * y ∧ el * y ≤ 0 := by
      rcases le_or_gt el 0 with h' | h'
      · exact ⟨by rw [mul_comm]; exact mul_le_mul_of_nonpos_left hy h', mul_nonpos_of_nonpos_of_nonneg h' h0⟩
      · have : bound = 0 := le_antisymm (by
          by_contra hc
          exact hg (mul_pos (not_le.mp hc) h')) hb
        have : y = 0 := le_antisymm (by rw [← this]; exact hy) h0
        rw [this]; simp only [mul_zero, le_refl, and_true]; exact hey0
    simp only [hg, if_false, Bool.and_eq_true, decide_eq_true_eq]
    refine ⟨⟨by linarith, ?_⟩, ?_, ?_⟩
    · unfold loRhs
      split
      · rename_i h; have := h2 h; linarith
      · linarith
    · split
      · rename_i h
        have hel : el < 0 := by
          rcases lt_trichotomy el 0 with h' | h' | h'
          · exact h'
          · rw [h'] at h1; linarith
          · have : bound = 0 := le_antisymm (by
              by_contra hc
              exact hg (mul_pos (not_le.mp hc) h')) hb
            have : y = 0 := le_antisymm (by rw [← this]; exact hy) h0
            rw [this] at h1; linarith
        rw [div_le_iff_of_neg hel]; linarith
      · exact h0
    · split
      · rename_i h
        have he := hlo _ h h4
        have hq := h2 he
        have hel : el < 0 := by
          rcases lt_trichotomy el 0 with h' | h' | h'
          · exact h'
          · unfold loRhs at h; rw [if_pos he, h'] at h; rw [h'] at hq; linarith
          · have hb0 : bound = 0 := le_antisymm (by
              by_contra hc
              exact hg (mul_pos (not_le.mp hc) h')) hb
            have : y = 0 := le_antisymm (by rw [← hb0]; exact hy) h0
            unfold loRhs at h; rw [if_pos he, hb0] at h
            rw [this] at hq
            linarith
        have : (value + bound * el - loRhs eqn q) / el ≤ bound - y := by
          rw [div_le_iff_of_neg hel]
          unfold loRhs
          rw [if_pos he]
          linarith
        linarith
      · exact hy

/-! ### The new bounds of the other column -/

section
variable {both : List ℚ → Bool} {c0 c1 : List ℚ → Cell}

theorem newLo_le_start (b : ℚ) (l : List (List ℚ)) : newLo b both c0 c1 l ≤ b := by
  unfold newLo
  induction l generalizing b with
  | nil => exact le_refl _
  | cons a l ih =>
    rw [List.foldl_cons]
    split
    · exact le_trans (ih _) (min_le_left _ _)
    · exact ih _

theorem newLo_le {b : ℚ} {l : List (List ℚ)} {a : List ℚ} (ha : a ∈ l) (hb : both a = true) :
    newLo b both c0 c1 l ≤ max (c0 a).lo (c1 a).lo := by
  induction l generalizing b with
  | nil => cases ha
  | cons a' l ih =>
    rcases List.mem_cons.mp ha with rfl | ha
    · have : newLo b both c0 c1 (a :: l) = newLo (min b (max (c0 a).lo (c1 a).lo)) both c0 c1 l := by
        simp only [newLo, List.foldl_cons, hb, if_true]
      rw [this]
      exact le_trans (newLo_le_start _ _) (min_le_right _ _)
    · exact ih (b := if both a' then min b (max (c0 a').lo (c1 a').lo) else b) ha

theorem le_newLo {b m : ℚ} {l : List (List ℚ)} (hb : m ≤ b) (h : ∀ a ∈ l, both a = true → m ≤ max (c0 a).lo (c1 a).lo) :
    m ≤ newLo b both c0 c1 l := by
  unfold newLo
  induction l generalizing b with
  | nil => exact hb
  | cons a l ih =>
    rw [List.foldl_cons]
    apply ih
    · split
      · rename_i h'; exact le_min hb (h a List.mem_cons_self h')
      · exact hb
    · exact fun a' ha' => h a' (List.mem_cons_of_mem _ ha')

theorem foldUp_start_le (b : ℚ) (l : List (List ℚ)) :
    b ≤ l.foldl (fun q a => if both a then max q (min (c0 a).up (c1 a).up) else q) b := by
  induction l generalizing b with
  | nil => exact le_refl _
  | cons a l ih =>
    rw [List.foldl_cons]
    split
    · exact le_trans (le_max_left _ _) (ih _)
    · exact ih _

theorem le_newUp {l : List (List ℚ)} {a : List ℚ} (ha : a ∈ l) (hb : both a = true) :
    min (c0 a).up (c1 a).up ≤ newUp both c0 c1 l := by
  unfold newUp
  generalize (0 : ℚ) = b
  induction l generalizing b with
  | nil => cases ha
  | cons a' l ih =>
    rw [List.foldl_cons]
    rcases List.mem_cons.mp ha with rfl | ha
    · rw [if_pos hb]
      exact le_trans (le_max_right _ _) (foldUp_start_le _ _)
    · exact ih ha _

theorem newUp_le {m : ℚ} {l : List (List ℚ)} (hm : 0 ≤ m) (h : ∀ a ∈ l, both a = true → min (c0 a).up (c1 a).up ≤ m) :
    newUp both c0 c1 l ≤ m := by
  unfold newUp
  generalize (0 : ℚ) = b at hm
  induction l generalizing b with
  | nil => exact hm
  | cons a l ih =>
    rw [List.foldl_cons]
    apply ih
    · exact fun a' ha' => h a' (List.mem_cons_of_mem _ ha')
    · split
      · rename_i h'; exact max_le hm (h a List.mem_cons_self h')
      · exact hm

end

/-! ### Small rows -/

/-- What is known of a small row: its columns are distinct, in order, columns of the problem that are not fixed. -/
structure SmallOK (P : Prob) (r : SRow) : Prop where
  lt : ∀ p ∈ r.els, p.1 < P.nCols
  open_ : ∀ p ∈ r.els, unfixed P p.1 = true
  notFree : ∀ p ∈ r.els, freeBelow P p.1 = false
  sorted : (r.els.map Prod.fst).Pairwise (· < ·)
  one : (r.els.filter fun p => ! isBin P p.1).length ≤ 1

theorem SmallOK.nodup {P : Prob} {r : SRow} (h : SmallOK P r) : (r.els.map Prod.fst).Nodup :=
  h.sorted.imp fun h => Nat.ne_of_lt h

theorem sameCols_eq {P : Prob} {r0 r1 : SRow} (h0 : SmallOK P r0) (h1 : SmallOK P r1) (h : sameCols r0 r1 = true) :
    r1.els.map Prod.fst = r0.els.map Prod.fst := by
  unfold sameCols at h
  rw [Bool.and_eq_true, decide_eq_true_eq, decide_eq_true_eq] at h
  obtain ⟨hl, hf⟩ := h
  have hsub : ∀ p ∈ r1.els, p.1 ∈ r0.els.map Prod.fst := by
    have : r1.els.filter (fun p => (r0.els.map Prod.fst).contains p.1) = r1.els := by
      apply List.filter_sublist.eq_of_length
      rw [hf, hl]
    intro p hp
    rw [← this] at hp
    simpa using (List.mem_filter.mp hp).2
  have hperm : (r1.els.map Prod.fst).Perm (r0.els.map Prod.fst) := by
    refine (List.subperm_of_subset h1.nodup ?_).perm_of_length_le (by simp [hl])
    intro j hj
    obtain ⟨p, hp, rfl⟩ := List.mem_map.mp hj
    exact hsub p hp
  exact hperm.eq_of_pairwise (fun a b _ _ h1 h2 => by omega) h1.sorted h0.sorted

end Cgl.DupRow
