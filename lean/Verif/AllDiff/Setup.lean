import Verif.AllDiff.Exact
import Verif.AllDiff.Spec
import Mathlib.Data.Finset.Card
import Mathlib.Data.List.Perm.Subperm

/-! ### Numbering of the columns, and the bounds read -/

namespace Cgl.AllDiff

/-- The column the code takes listed column `c` for: it numbers the listed columns in increasing order, but reads
`originalWhich_`, the columns in the order listed, to get back. -/
def taken (sets : List (List Nat)) (c : Nat) : Nat := sets.flatten.getD (translate sets.flatten c) 0

/-- The mix-up of columns is harmless: it permutes the declared sets. -/
def Faithful (sets : List (List Nat)) : Prop :=
  (∀ s ∈ sets, ∃ s' ∈ sets, s'.Perm (s.map (taken sets))) ∧ ∀ s ∈ sets, ∃ s' ∈ sets, s.Perm (s'.map (taken sets))

instance (sets : List (List Nat)) : Decidable (Faithful sets) := by unfold Faithful; infer_instance

theorem translate_succ (cols : List Nat) (d : Nat) : translate cols (d + 1) = translate cols d + if d ∈ cols then 1 else 0 := by
  unfold translate
  rw [List.range_succ, List.filter_append, List.length_append]
  by_cases h : d ∈ cols <;> simp [h]

theorem translate_mono {cols : List Nat} {c d : Nat} (h : c ≤ d) : translate cols c ≤ translate cols d := by
  induction h with
  | refl => exact le_refl _
  | step _ ih => rw [translate_succ]; omega

theorem translate_lt {cols : List Nat} {c d : Nat} (hc : c ∈ cols) (h : c < d) : translate cols c < translate cols d := by
  have := translate_mono (cols := cols) (show c + 1 ≤ d from h)
  rw [translate_succ, if_pos hc] at this
  omega

theorem translate_inj {cols : List Nat} {c d : Nat} (hc : c ∈ cols) (hd : d ∈ cols) (h : translate cols c = translate cols d) : c = d := by
  rcases lt_trichotomy c d with h1 | h1 | h1
  · have := translate_lt hc h1; omega
  · exact h1
  · have := translate_lt hd h1; omega

theorem translate_surj (cols : List Nat) : ∀ (d i : Nat), i < translate cols d → ∃ c ∈ cols, translate cols c = i
  | 0, i, h => by simp [translate] at h
  | d + 1, i, h => by
    rw [translate_succ] at h
    by_cases hd : d ∈ cols
    · rw [if_pos hd] at h
      by_cases hi : i < translate cols d
      · exact translate_surj cols d i hi
      · exact ⟨d, hd, by omega⟩
    · rw [if_neg hd] at h
      exact translate_surj cols d i h

theorem le_foldl_max (l : List Nat) (a : Nat) : a ≤ l.foldl max a ∧ ∀ c ∈ l, c ≤ l.foldl max a := by
  induction l generalizing a with
  | nil => simp
  | cons x xs ih =>
    obtain ⟨h1, h2⟩ := ih (max a x)
    rw [List.foldl_cons]
    refine ⟨by omega, fun c hc => ?_⟩
    rcases List.mem_cons.mp hc with rfl | hc
    · omega
    · exact h2 c hc

theorem translate_lt_nDiff (sets : List (List Nat)) {c : Nat} (hc : c ∈ sets.flatten) : translate sets.flatten c < (ofSets sets).nDiff := by
  unfold ofSets
  exact translate_lt hc (by have := (le_foldl_max sets.flatten 0).2 c hc; omega)

theorem nDiff_le (sets : List (List Nat)) : (ofSets sets).nDiff ≤ sets.flatten.dedup.length := by
  unfold ofSets translate
  dsimp only
  refine List.Subperm.length_le (List.Nodup.subperm (List.Nodup.filter _ List.nodup_range) ?_)
  intro c hc
  rw [List.mem_filter] at hc
  rw [List.mem_dedup]
  simpa using hc.2

theorem mem_sets {sets : List (List Nat)} {t : List Nat} : t ∈ (ofSets sets).sets ↔ ∃ s ∈ sets, s.map (translate sets.flatten) = t := by
  simp [ofSets]

theorem mem_flat {sets : List (List Nat)} {s : List Nat} (hs : s ∈ sets) {c : Nat} (hc : c ∈ s) : c ∈ sets.flatten :=
  List.mem_flatten.mpr ⟨s, hs, hc⟩

theorem sets_lt (sets : List (List Nat)) : ∀ t ∈ (ofSets sets).sets, ∀ k ∈ t, k < (ofSets sets).nDiff := by
  intro t ht k hk
  obtain ⟨s, hs, rfl⟩ := mem_sets.mp ht
  rw [List.mem_map] at hk
  obtain ⟨c, hc, rfl⟩ := hk
  exact translate_lt_nDiff sets (mem_flat hs hc)

/-- Every dense variable is in a set. -/
theorem var_mem (sets : List (List Nat)) {i : Nat} (hi : i < (ofSets sets).nDiff) :
    ∃ s ∈ sets, ∃ c ∈ s, translate sets.flatten c = i := by
  obtain ⟨c, hc, he⟩ := translate_surj sets.flatten _ i hi
  obtain ⟨s, hs, hcs⟩ := List.mem_flatten.mp hc
  exact ⟨s, hs, c, hcs, he⟩

theorem orig_getD (sets : List (List Nat)) (c : Nat) : (ofSets sets).orig.getD (translate sets.flatten c) 0 = taken sets c := rfl

/-- With harmless mix-up, the column of a dense variable is listed. -/
theorem taken_mem {sets : List (List Nat)} (hf : Faithful sets) {s : List Nat} (hs : s ∈ sets) {c : Nat} (hc : c ∈ s) : taken sets c ∈ sets.flatten := by
  obtain ⟨s', hs', hp⟩ := hf.1 s hs
  exact mem_flat hs' (hp.mem_iff.mpr (List.mem_map_of_mem hc))

theorem taken_inj {sets : List (List Nat)} (hf : Faithful sets) {c d : Nat} (hc : c ∈ sets.flatten) (hd : d ∈ sets.flatten)
    (h : taken sets c = taken sets d) : c = d := by
  have hinj : Set.InjOn (taken sets) (sets.flatten.toFinset : Set Nat) := by
    refine Finset.injOn_of_surjOn_of_card_le (t := sets.flatten.toFinset) (taken sets) ?_ ?_ (le_refl _)
    · intro c hc
      simp only [List.coe_toFinset, Set.mem_setOf_eq] at hc ⊢
      obtain ⟨s, hs, hcs⟩ := List.mem_flatten.mp hc
      exact taken_mem hf hs hcs
    · intro c hc
      simp only [List.coe_toFinset, Set.mem_setOf_eq] at hc
      obtain ⟨s, hs, hcs⟩ := List.mem_flatten.mp hc
      obtain ⟨s', hs', hp⟩ := hf.2 s hs
      have := hp.mem_iff.mp hcs
      rw [List.mem_map] at this
      obtain ⟨d, hd, rfl⟩ := this
      exact ⟨d, by simp only [List.coe_toFinset, Set.mem_setOf_eq]; exact mem_flat hs' hd, rfl⟩
  exact hinj (by simpa using List.mem_flatten.mp hc) (by simpa using List.mem_flatten.mp hd) h

theorem orig_inj {sets : List (List Nat)} (hf : Faithful sets) {i j : Nat} (hi : i < (ofSets sets).nDiff) (hj : j < (ofSets sets).nDiff)
    (h : (ofSets sets).orig.getD i 0 = (ofSets sets).orig.getD j 0) : i = j := by
  obtain ⟨s, hs, c, hc, rfl⟩ := var_mem sets hi
  obtain ⟨s', hs', c', hc', rfl⟩ := var_mem sets hj
  rw [orig_getD, orig_getD] at h
  rw [taken_inj hf (mem_flat hs hc) (mem_flat hs' hc') h]

/-! #### Truncated bounds -/

theorem truncQ_le {q : ℚ} {z : ℤ} (h : q ≤ z) : truncQ q ≤ z := by
  unfold truncQ
  split
  · exact_mod_cast le_trans (Int.floor_le q) h
  · exact Int.ceil_le.mpr h

theorem le_truncQ {q : ℚ} {z : ℤ} (h : (z : ℚ) ≤ q) : z ≤ truncQ q := by
  unfold truncQ
  split
  · exact Int.le_floor.mpr h
  · exact_mod_cast le_trans h (Int.le_ceil q)

theorem truncQ_mono {p q : ℚ} (h : p ≤ q) : truncQ p ≤ truncQ q := by
  unfold truncQ
  split <;> split
  · exact Int.floor_mono h
  · exfalso; rename_i h1 h2; exact h2 (le_trans h1 h)
  · rename_i h1 h2
    have : ⌈p⌉ ≤ 0 := Int.ceil_le.mpr (by push_cast; linarith)
    have := Int.floor_nonneg.mpr h2
    omega
  · exact Int.ceil_mono h

theorem truncQ_int (z : ℤ) : truncQ (z : ℚ) = z := by
  unfold truncQ; split <;> simp

/-! #### The sets looked at -/

theorem widen_spec (lo up : Nat → Int) (s : List Nat) (r : Int × Int) :
    (widen lo up s r).1 ≤ r.1 ∧ r.2 ≤ (widen lo up s r).2 ∧ (∀ k ∈ s, (widen lo up s r).1 ≤ lo k ∧ up k ≤ (widen lo up s r).2) ∧
      ∀ a b : Int, a ≤ r.1 → r.2 ≤ b → (∀ k ∈ s, a ≤ lo k ∧ up k ≤ b) → a ≤ (widen lo up s r).1 ∧ (widen lo up s r).2 ≤ b := by
  unfold widen
  induction s generalizing r with
  | nil => exact ⟨le_refl _, le_refl _, by simp, fun a b h1 h2 _ => ⟨h1, h2⟩⟩
  | cons x xs ih =>
    obtain ⟨h1, h2, h3, h4⟩ := ih (min r.1 (lo x), max r.2 (up x))
    rw [List.foldl_cons]
    dsimp only at h1 h2
    refine ⟨by omega, by omega, fun k hk => ?_, fun a b ha hb hk => h4 a b ?_ ?_ fun k hk' => hk k (List.mem_cons_of_mem _ hk')⟩
    · rcases List.mem_cons.mp hk with rfl | hk
      · omega
      · exact h3 k hk
    · have := hk x (List.mem_cons_self ..); dsimp only; omega
    · have := hk x (List.mem_cons_self ..); dsimp only; omega

theorem look_all {lo up : Nat → Int} {nDiff : Nat} {a b : Int} (hab : a ≤ b) (hsmall : (b - a + 1) * nDiff ≤ 10 ^ 7) :
    ∀ (ss : List (List Nat)) (r q : Int × Int) (l : List (List Nat)), a ≤ r.1 → r.2 ≤ b → (∀ t ∈ ss, ∀ k ∈ t, a ≤ lo k ∧ up k ≤ b) →
      look lo up nDiff ss r = .ok (q, l) →
      l = ss ∧ a ≤ q.1 ∧ q.2 ≤ b ∧ q.1 ≤ r.1 ∧ r.2 ≤ q.2 ∧ ∀ t ∈ ss, ∀ k ∈ t, q.1 ≤ lo k ∧ up k ≤ q.2
  | [], r, q, l, ha, hb, _, h => by
    simp only [look, Except.ok.injEq, Prod.mk.injEq] at h
    obtain ⟨rfl, rfl⟩ := h
    exact ⟨rfl, ha, hb, le_refl _, le_refl _, by simp⟩
  | s :: ss, r, q, l, ha, hb, hin, h => by
    obtain ⟨w1, w2, w3, w4⟩ := widen_spec lo up s r
    obtain ⟨w5, w6⟩ := w4 a b ha hb (hin s (List.mem_cons_self ..))
    unfold look at h
    dsimp only at h
    generalize widen lo up s r = r' at *
    split at h
    · cases h
    · split at h
      · rename_i hc
        exfalso
        have : (r'.2 - r'.1 + 1) * (nDiff : Int) ≤ (b - a + 1) * nDiff := mul_le_mul_of_nonneg_right (by omega) (by omega)
        omega
      · cases hl : look lo up nDiff ss r' with
        | error e => rw [hl] at h; cases h
        | ok p =>
          obtain ⟨q', l'⟩ := p
          rw [hl] at h
          simp only [Except.ok.injEq, Prod.mk.injEq] at h
          obtain ⟨rfl, rfl⟩ := h
          obtain ⟨e1, e2, e3, e4, e5, e6⟩ := look_all hab hsmall ss r' q' l' w5 w6 (fun t ht => hin t (List.mem_cons_of_mem _ ht)) hl
          refine ⟨by rw [e1], e2, e3, by omega, by omega, fun t ht k hk => ?_⟩
          rcases List.mem_cons.mp ht with rfl | ht
          · have := w3 k hk; omega
          · exact e6 t ht k hk

/-- With nonempty sets and bounds in order the gap is always in range. -/
theorem look_ok {lo up : Nat → Int} {nDiff : Nat} {a b : Int} (hn : 0 < nDiff) (hab : a ≤ b) (hsmall : (b - a + 1) * nDiff ≤ 10 ^ 7) :
    ∀ (ss : List (List Nat)) (r : Int × Int), a ≤ r.1 → r.2 ≤ b → (∀ t ∈ ss, ∀ k ∈ t, a ≤ lo k ∧ up k ≤ b ∧ lo k ≤ up k) → (∀ t ∈ ss, t ≠ []) →
      ∃ q l, look lo up nDiff ss r = .ok (q, l)
  | [], r, _, _, _, _ => ⟨_, _, rfl⟩
  | s :: ss, r, ha, hb, hin, hne => by
    obtain ⟨w1, w2, w3, w4⟩ := widen_spec lo up s r
    obtain ⟨w5, w6⟩ := w4 a b ha hb fun k hk => ⟨(hin s (List.mem_cons_self ..) k hk).1, (hin s (List.mem_cons_self ..) k hk).2.1⟩
    obtain ⟨k, hk⟩ := List.exists_mem_of_ne_nil s (hne s (List.mem_cons_self ..))
    have hk1 := w3 k hk
    have hk2 := hin s (List.mem_cons_self ..) k hk
    have hg : (b - a + 1) * (1 : Int) ≤ (b - a + 1) * nDiff := mul_le_mul_of_nonneg_left (by omega) (by omega)
    have hmul : ((widen lo up s r).2 - (widen lo up s r).1 + 1) * (nDiff : Int) ≤ (b - a + 1) * nDiff :=
      mul_le_mul_of_nonneg_right (by omega) (by omega)
    unfold look
    dsimp only
    generalize widen lo up s r = r' at *
    have i1 : intMax = 2147483647 := rfl
    have i2 : intMin = -2147483648 := rfl
    rw [if_neg (by omega), if_neg (by omega)]
    obtain ⟨q, l, e⟩ := look_ok hn hab hsmall ss r' w5 w6 (fun t ht => hin t (List.mem_cons_of_mem _ ht)) fun t ht => hne t (List.mem_cons_of_mem _ ht)
    rw [e]
    exact ⟨_, _, rfl⟩

end Cgl.AllDiff
