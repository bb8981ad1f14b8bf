import Verif.DomCols.Spec
import Mathlib.Data.List.Perm.Subperm
import Mathlib.Data.List.Nodup
import Mathlib.Tactic.Tauto

/-! # What `choose` says -/

namespace Cgl.DomCols

/-- The first column is at least as good as the second one. -/
def Dom (I : Input) (a b : Nat) : Prop := I.cost a ≤ I.cost b ∧ ∀ i, val I.P a i ≤ val I.P b i

theorem Dom.trans {I : Input} {a b c : Nat} (h : Dom I a b) (k : Dom I b c) : Dom I a c :=
  ⟨le_trans h.1 k.1, fun i => le_trans (h.2 i) (k.2 i)⟩

theorem rowsOf_nodup (P : Prob) (j : Nat) : (rowsOf P j).Nodup := List.Nodup.filter _ List.nodup_range

theorem mem_rowsOf {P : Prob} {j i : Nat} : i ∈ rowsOf P j ↔ (entry P i j).isSome = true := by
  unfold rowsOf
  rw [List.mem_filter, List.mem_range]
  constructor
  · exact fun h => h.2
  · intro h
    refine ⟨?_, h⟩
    by_contra hc
    have : P.rows[i]? = none := List.getElem?_eq_none (by omega)
    unfold entry at h
    rw [this] at h
    simp at h

theorem val_zero {P : Prob} {j i : Nat} (h : i ∉ rowsOf P j) : val P j i = 0 := by
  rw [mem_rowsOf] at h
  have : entry P i j = none := by
    cases hc : entry P i j with
    | none => rfl
    | some v => rw [hc] at h; simp at h
  unfold val; rw [this]; simp

theorem mem_of_val {P : Prob} {j i : Nat} (h : val P j i ≠ 0) : i ∈ rowsOf P j := by
  by_contra hc; exact h (val_zero hc)

/-- What the loop over the elements finds. -/
theorem compare_spec (P : Prob) (c d : Nat) : ∀ (l : List Nat) (ch n p : ℤ) (ch' n' p' : ℤ),
    (ch = 0 ∨ ch = 1 ∨ ch = -1) → compare P c d l ch n p = (ch', n', p') → ch' ≠ 2 →
    (ch' = 0 ∨ ch' = 1 ∨ ch' = -1) ∧
    n' = n - (l.countP fun i => decide (val P c i < 0)) ∧ p' = p - (l.countP fun i => decide (0 < val P c i)) ∧
    (ch' ≠ -1 → ch ≠ -1 ∧ ∀ i ∈ l, val P c i ≤ val P d i) ∧
    (ch' ≠ 1 → ch ≠ 1 ∧ ∀ i ∈ l, val P d i ≤ val P c i) ∧
    (ch' = -1 → ch = -1 ∨ ∃ i ∈ l, val P d i < val P c i) := by
  intro l
  induction l with
  | nil =>
    intro ch n p ch' n' p' h0 he h2
    simp only [compare, Prod.mk.injEq] at he
    obtain ⟨rfl, rfl, rfl⟩ := he
    refine ⟨h0, by simp, by simp, fun h => ⟨h, by simp⟩, fun h => ⟨h, by simp⟩, fun h => Or.inl h⟩
  | cons i l ih =>
    intro ch n p ch' n' p' h0 he h2
    have fin : ∀ (k : ℤ), (k = 0 ∨ k = 1 ∨ k = -1) →
        compare P c d l k (if val P c i < 0 then n - 1 else n) (if 0 < val P c i then p - 1 else p) = (ch', n', p') →
        (k ≠ -1 → ch ≠ -1 ∧ val P c i ≤ val P d i) → (k ≠ 1 → ch ≠ 1 ∧ val P d i ≤ val P c i) →
        (k = -1 → ch = -1 ∨ val P d i < val P c i) →
        (ch' = 0 ∨ ch' = 1 ∨ ch' = -1) ∧
        n' = n - ((i :: l).countP fun i => decide (val P c i < 0)) ∧
        p' = p - ((i :: l).countP fun i => decide (0 < val P c i)) ∧
        (ch' ≠ -1 → ch ≠ -1 ∧ ∀ i' ∈ i :: l, val P c i' ≤ val P d i') ∧
        (ch' ≠ 1 → ch ≠ 1 ∧ ∀ i' ∈ i :: l, val P d i' ≤ val P c i') ∧
        (ch' = -1 → ch = -1 ∨ ∃ i' ∈ i :: l, val P d i' < val P c i') := by
      intro k hk he hA hB hC
      obtain ⟨a, b, e, g, h, m⟩ := ih k _ _ _ _ _ hk he h2
      refine ⟨a, ?_, ?_, ?_, ?_, ?_⟩
      · rw [b, List.countP_cons]; by_cases hv : val P c i < 0 <;> (simp [hv]; try ring)
      · rw [e, List.countP_cons]; by_cases hv : 0 < val P c i <;> (simp [hv]; try ring)
      · intro hc
        have g' := g hc
        have hA' := hA g'.1
        exact ⟨hA'.1, by intro i' hi; rcases List.mem_cons.mp hi with rfl | hi; exacts [hA'.2, g'.2 _ hi]⟩
      · intro hc
        have g' := h hc
        have hA' := hB g'.1
        exact ⟨hA'.1, by intro i' hi; rcases List.mem_cons.mp hi with rfl | hi; exacts [hA'.2, g'.2 _ hi]⟩
      · intro hc
        rcases m hc with hk' | ⟨i', hi, hv⟩
        · rcases hC hk' with h | h
          · exact Or.inl h
          · exact Or.inr ⟨i, List.mem_cons_self, h⟩
        · exact Or.inr ⟨i', List.mem_cons_of_mem _ hi, hv⟩
    unfold compare at he
    dsimp only at he
    by_cases h1 : val P d i < val P c i
    · rw [if_pos h1] at he
      rcases h0 with rfl | rfl | rfl
      · rw [if_pos rfl] at he
        exact fin (-1) (by simp) he (by simp) (fun _ => ⟨by decide, h1.le⟩) (fun _ => Or.inr h1)
      · rw [if_neg (by decide), if_pos (by decide)] at he
        simp only [Prod.mk.injEq] at he
        exact absurd he.1.symm h2
      · rw [if_neg (by decide), if_neg (by decide)] at he
        exact fin (-1) (by simp) he (by simp) (fun _ => ⟨by decide, h1.le⟩) (fun _ => Or.inl rfl)
    · rw [if_neg h1] at he
      by_cases h3 : val P c i < val P d i
      · rw [if_pos h3] at he
        rcases h0 with rfl | rfl | rfl
        · rw [if_pos rfl] at he
          exact fin 1 (by simp) he (fun _ => ⟨by decide, h3.le⟩) (by simp) (by simp)
        · rw [if_neg (by decide), if_neg (by decide)] at he
          exact fin 1 (by simp) he (fun _ => ⟨by decide, h3.le⟩) (by simp) (by simp)
        · rw [if_neg (by decide), if_pos (by decide)] at he
          simp only [Prod.mk.injEq] at he
          exact absurd he.1.symm h2
      · rw [if_neg h3] at he
        exact fin ch h0 he (fun h => ⟨h, not_lt.mp h1⟩) (fun h => ⟨h, not_lt.mp h3⟩) (fun h => Or.inl h)

/-- Two lists without repetition, one kind of rows: the numbers agree exactly if all are matched. -/
theorem matched {A B : List Nat} (q : Nat → Bool) (hA : A.Nodup) (hB : B.Nodup) (h : ∀ i, q i = true → i ∈ A) :
    A.countP q = B.countP q ↔ ∀ i, q i = true → i ∈ B := by
  have hsub : B.filter q ⊆ A.filter q := by
    intro i hi
    have := List.mem_filter.mp hi
    exact List.mem_filter.mpr ⟨h i this.2, this.2⟩
  have hsp : (B.filter q).Subperm (A.filter q) := (hB.filter _).subperm hsub
  rw [List.countP_eq_length_filter, List.countP_eq_length_filter]
  constructor
  · intro he i hi
    have hp := hsp.perm_of_length_le he.le
    exact (List.mem_filter.mp (hp.mem_iff.mpr (List.mem_filter.mpr ⟨h i hi, hi⟩))).1
  · intro hall
    refine le_antisymm ?_ hsp.length_le
    refine ((hA.filter _).subperm ?_).length_le
    intro i hi
    have := List.mem_filter.mp hi
    exact List.mem_filter.mpr ⟨hall i this.2, this.2⟩

/-- No stored element is 0. -/
theorem val_ne {P : Prob} (h : Tidy P) {j i : Nat} (hi : i ∈ rowsOf P j) : val P j i ≠ 0 := by
  rw [mem_rowsOf] at hi
  obtain ⟨v, hv⟩ := Option.isSome_iff_exists.mp hi
  have hv0 : v ≠ 0 := by
    unfold entry at hv
    cases hr : P.rows[i]? with
    | none => rw [hr] at hv; simp at hv
    | some r =>
      rw [hr] at hv
      dsimp only at hv
      obtain ⟨l1, l2, he, -⟩ := List.lookup_eq_some_iff.mp hv
      exact h.nonzero r (List.mem_of_getElem? hr) (j, v) (by rw [he]; simp)
  unfold val
  rw [hv]
  split <;> simp [hv0]

/-- 1 or 0: the first column is at least as good; -1: the second one is, and the first one is not. -/
theorem choose_spec (I : Input) (h : Tidy I.P) (c d : Nat) :
    ((choose I c d = 1 ∨ choose I c d = 0) → Dom I c d) ∧
    (choose I c d = -1 → Dom I d c ∧ ¬ Dom I c d) := by
  unfold choose
  generalize hr : compare I.P c d (rowsOf I.P d) (costSide I c d) (nNeg I.P c) (((rowsOf I.P c).length : ℤ) - nNeg I.P c) = r
  obtain ⟨ch', n', p'⟩ := r
  have h0 : costSide I c d = 0 ∨ costSide I c d = 1 ∨ costSide I c d = -1 := by
    unfold costSide; split
    · simp
    · split <;> simp
  have hcost1 : costSide I c d ≠ -1 → I.cost c ≤ I.cost d := by
    unfold costSide; split
    · intro _; linarith
    · split
      · simp
      · intro _; linarith
  have hcost2 : costSide I c d ≠ 1 → I.cost d ≤ I.cost c := by
    unfold costSide; split
    · simp
    · intro _; linarith
  have hcost3 : costSide I c d = -1 → I.cost d < I.cost c := by
    unfold costSide; split
    · intro h; exact absurd h (by decide)
    · split
      · intro _; assumption
      · intro h; exact absurd h (by decide)
  by_cases h2 : ch' = 2
  · subst h2
    unfold decideOn
    by_cases hnp : n' ≠ 0 ∧ p' ≠ 0 <;> simp [hnp]
  · obtain ⟨hc, hn, hp, hle, hge, hlt⟩ := compare_spec I.P c d _ _ _ _ _ _ _ h0 hr h2
    have hpos : (rowsOf I.P c).countP (fun i => decide (0 < val I.P c i)) + nNeg I.P c = (rowsOf I.P c).length := by
      unfold nNeg
      rw [List.length_eq_countP_add_countP (fun i => decide (0 < val I.P c i)) (l := rowsOf I.P c)]
      congr 1
      refine List.countP_congr ?_
      intro i hi
      have := val_ne h hi
      simp only [decide_eq_true_eq, not_lt]
      constructor
      · intro h; exact h.le
      · intro h; exact lt_of_le_of_ne h this
    have hn0 : n' = 0 ↔ ∀ i, val I.P c i < 0 → i ∈ rowsOf I.P d := by
      have := matched (fun i => decide (val I.P c i < 0)) (rowsOf_nodup I.P c) (rowsOf_nodup I.P d)
        (fun i hi => mem_of_val (by have := of_decide_eq_true hi; exact this.ne))
      simp only [decide_eq_true_eq] at this
      rw [← this, hn]
      unfold nNeg
      omega
    have hp0 : p' = 0 ↔ ∀ i, 0 < val I.P c i → i ∈ rowsOf I.P d := by
      have := matched (fun i => decide (0 < val I.P c i)) (rowsOf_nodup I.P c) (rowsOf_nodup I.P d)
        (fun i hi => mem_of_val (by have := of_decide_eq_true hi; exact this.ne'))
      simp only [decide_eq_true_eq] at this
      rw [← this, hp]
      omega
    have up : ch' ≠ -1 → p' = 0 → Dom I c d := by
      intro h1 hp
      refine ⟨hcost1 (hle h1).1, fun i => ?_⟩
      by_cases hi : i ∈ rowsOf I.P d
      · exact (hle h1).2 i hi
      · rw [val_zero hi]
        by_contra hv
        exact hi (hp0.mp hp i (not_le.mp hv))
    have down : ch' ≠ 1 → n' = 0 → Dom I d c := by
      intro h1 hp
      refine ⟨hcost2 (hge h1).1, fun i => ?_⟩
      by_cases hi : i ∈ rowsOf I.P d
      · exact (hge h1).2 i hi
      · rw [val_zero hi]
        by_contra hv
        exact hi (hn0.mp hp i (not_le.mp hv))
    have strict : ch' = -1 ∨ p' ≠ 0 → ¬ Dom I c d := by
      rintro (h1 | h1) hd
      · rcases hlt h1 with hk | ⟨i, -, hv⟩
        · linarith [hcost3 hk, hd.1]
        · linarith [hd.2 i]
      · apply h1
        rw [hp0]
        intro i hi
        by_contra hc
        have := hd.2 i
        rw [val_zero hc] at this
        linarith
    unfold decideOn
    clear hr h0 hcost1 hcost2 hcost3 h2 hn hp hle hge hlt hpos hn0 hp0 h
    by_cases hn' : n' = 0 <;> by_cases hp' : p' = 0 <;> rcases hc with rfl | rfl | rfl <;>
      simp_all

end Cgl.DomCols
