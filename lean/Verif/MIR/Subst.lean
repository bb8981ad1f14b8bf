import Verif.MIR.Aggr
import Mathlib.Algebra.Order.BigOperators.Group.List

/-!
# Bound substitution gives a valid mixed knapsack
-/

namespace Cgl.MIR

/-- The points the solver can represent: every coordinate is within the solver's infinity (which is `COIN_DBL_MAX` for the
usual solvers). -/
def Representable (P : Prob) (x : Nat → ℚ) : Prop := ∀ j < P.nCols, |x j| ≤ P.inf

theorem lower_le {P : Prob} {x : Nat → ℚ} (hf : P.Feasible x) (hr : Representable P x) {j : Nat} (hj : j < P.nCols) :
    P.colLower j ≤ x j := by
  by_cases h : -P.inf < P.colLower j
  · exact hf.lower j hj h
  · have := abs_le.1 (hr j hj); linarith

theorem le_upper {P : Prob} {x : Nat → ℚ} (hf : P.Feasible x) (hr : Representable P x) {j : Nat} (hj : j < P.nCols) :
    x j ≤ P.colUpper j := by
  by_cases h : P.colUpper j < P.inf
  · exact hf.upper j hj h
  · have := abs_le.1 (hr j hj); linarith

theorem lbAt_le {P : Prob} {pre : Pre} {x : Nat → ℚ} (hf : P.Feasible x) (hr : Representable P x) (hok : PreOk P pre x)
    {j : Nat} (hj : j < P.nCols) : lbAt P pre x j ≤ x j := by
  unfold lbAt
  split
  · rename_i yv h; exact (hok.vlb j yv.1 yv.2 h).2.2
  · exact lower_le hf hr hj

theorem le_ubAt {P : Prob} {pre : Pre} {x : Nat → ℚ} (hf : P.Feasible x) (hr : Representable P x) (hok : PreOk P pre x)
    {j : Nat} (hj : j < P.nCols) : x j ≤ ubAt P pre x j := by
  unfold ubAt
  split
  · rename_i yv h; exact (hok.vub j yv.1 yv.2 h).2.2
  · exact le_upper hf hr hj

/-- An entry of an aggregated row that the tolerance treatment cannot spoil: the column is fixed, or the coefficient is zero or
above 1e-6 in size (first generator), or is not exactly of size 1e-6 (second generator, which relaxes smaller ones). -/
def EntryClean (v2 : Bool) (P : Prob) (nCols : Nat) (p : Nat × ℚ) : Prop :=
  (p.1 < nCols ∧ P.colLower p.1 = P.colUpper p.1) ∨
    if v2 then |p.2| ≠ 1 / 10 ^ 6 else p.2 = 0 ∨ 1 / 10 ^ 6 < |p.2|

instance (v2 : Bool) (P : Prob) (n : Nat) (p : Nat × ℚ) : Decidable (EntryClean v2 P n p) := by
  unfold EntryClean; infer_instance

/-- Value at `x` of the part of `s` that an entry of `contVariablesInS` stands for. -/
def sVal (P : Prob) (pre : Pre) (crit : Nat) (xlp : Nat → ℚ) (row : SVec) (x y : Nat → ℚ) (p : Nat × ℚ) : ℚ :=
  if p.1 < pre.nCols then
    if isLowerSubst crit P.inf (at' row p.1) (xlp p.1) (lbAt P pre xlp p.1) (ubAt P pre xlp p.1) then
      -p.2 * (x p.1 - lbAt P pre x p.1)
    else -p.2 * (ubAt P pre x p.1 - x p.1)
  else -p.2 * y p.1

/-- State of the substitution loop at `x`: what has been collected, with the entries `rest` still to do. -/
structure MkInv (P : Prob) (pre : Pre) (crit : Nat) (xlp : Nat → ℚ) (row : SVec) (x y : Nat → ℚ) (m : Mk) (rest : SVec) :
    Prop where
  nodup : (keys m.knap).Nodup
  ints : ∀ j ∈ keys m.knap, j < P.nCols ∧ P.isInt j = true
  sNonneg : ∀ p ∈ m.contS, 0 ≤ sVal P pre crit xlp row x y p
  le : SVec.dot m.knap x + SVec.dot rest y ≤ m.rhs + (m.contS.map (sVal P pre crit xlp row x y)).sum

theorem substOne_inv {v2 : Bool} {P : Prob} {pre : Pre} {crit : Nat} {xlp : Nat → ℚ} {extra : List ℚ} {row : SVec}
    {x y : Nat → ℚ} {m m' : Mk} {p : Nat × ℚ} {rest : SVec} (hf : P.Feasible x) (hr : Representable P x)
    (hok : PreOk P pre x) (hrow : (keys row).Nodup) (hp : p ∈ row) (hcl : EntryClean v2 P pre.nCols p)
    (hyx : ∀ j < pre.nCols, y j = x j) (hy0 : ∀ j, pre.nCols ≤ j → 0 ≤ y j)
    (hinv : MkInv P pre crit xlp row x y m (p :: rest))
    (h : substOne v2 P pre crit xlp extra m p = .go m') : MkInv P pre crit xlp row x y m' rest := by
  obtain ⟨i1, i2, i3, i4⟩ := hinv
  rw [SVec.dot_cons] at i4
  have hat := at'_of_mem hrow hp
  have he := eps_pos
  unfold substOne at h
  simp only at h
  split at h
  · -- fixed column
    rename_i hfix
    have hj : p.1 < P.nCols := hok.nCols ▸ hfix.1
    have h1 := lower_le hf hr hj
    have h2 := le_upper hf hr hj
    have e : x p.1 = P.colLower p.1 := by rw [← hfix.2] at h2; linarith
    cases h
    exact ⟨i1, i2, i3, by simp only; rw [hyx _ hfix.1, e] at i4; linarith⟩
  rename_i hnf
  split at h
  · rename_i htiny
    split at h
    · split at h
      · rename_i hv hj
        cases h
        refine ⟨i1, i2, i3, ?_⟩
        simp only
        rw [hyx _ hj] at i4
        have h1 := lower_le hf hr (hok.nCols ▸ hj : p.1 < P.nCols)
        have h2 := le_upper hf hr (hok.nCols ▸ hj : p.1 < P.nCols)
        split
        · nlinarith
        · nlinarith
      · cases h
    · rename_i hv
      have hv' : v2 = false := by simpa using hv
      subst hv'
      have h0 : p.2 = 0 := by
        rcases hcl with hcl | hcl
        · exact absurd hcl hnf
        · simp only [Bool.false_eq_true, if_false] at hcl
          rcases hcl with hcl | hcl
          · exact hcl
          · unfold eps at htiny; linarith
      cases h
      exact ⟨i1, i2, i3, by rw [h0] at i4; linarith⟩
  rename_i hbig
  have hstrict : p.2 < -eps ∨ eps < p.2 := by
    rw [← abs_gt_iff]
    rcases hcl with hcl | hcl
    · exact absurd hcl hnf
    · split at hcl
      · exact lt_of_le_of_ne (not_lt.mp hbig) (Ne.symm hcl)
      · rcases hcl with hcl | hcl
        · rw [hcl] at hbig; simp at hbig; linarith
        · exact hcl
  split at h
  · -- integer column
    rename_i hint
    cases h
    refine ⟨nodup_addCoef i1 _ _, ?_, i3, ?_⟩
    · intro j hj
      rcases mem_keys_addCoef.1 hj with hj | rfl
      · exact i2 j hj
      · exact ⟨hok.nCols ▸ hint.1, hint.2⟩
    · simp only; rw [dot_addCoef i1, ← hyx _ hint.1]; linarith
  split at h
  · -- continuous column
    rename_i hj
    have hjP : p.1 < P.nCols := hok.nCols ▸ hj
    rw [hyx _ hj] at i4
    split at h
    · cases h
    split at h
    · -- lower bound substitution
      rename_i hsub
      have hlb := lbAt_le hf hr hok hjP
      -- after substitution, before the slack
      have hm1 : ∀ m1 : Mk, m1 = substVB m (pre.vlb p.1) p.2 (lbAt P pre xlp p.1) →
          (keys m1.knap).Nodup ∧ (∀ j ∈ keys m1.knap, j < P.nCols ∧ P.isInt j = true) ∧ m1.contS = m.contS ∧
          SVec.dot m1.knap x + p.2 * (x p.1 - lbAt P pre x p.1) + SVec.dot rest y ≤
            m1.rhs + (m.contS.map (sVal P pre crit xlp row x y)).sum := by
        intro m1 hm1
        cases hv : pre.vlb p.1 with
        | none =>
          rw [hv, substVB] at hm1
          subst hm1
          refine ⟨i1, i2, rfl, ?_⟩
          simp only
          have e1 : lbAt P pre xlp p.1 = P.colLower p.1 := by simp [lbAt, hv]
          have e2 : lbAt P pre x p.1 = P.colLower p.1 := by simp [lbAt, hv]
          rw [e1, e2]; linarith
        | some yv =>
          rw [hv, substVB] at hm1
          subst hm1
          have hyv := hok.vlb p.1 yv.1 yv.2 hv
          refine ⟨nodup_addCoef i1 _ _, ?_, rfl, ?_⟩
          · intro j hj'
            rcases mem_keys_addCoef.1 hj' with hj' | rfl
            · exact i2 j hj'
            · exact ⟨hyv.1, hyv.2.1⟩
          · simp only
            have e2 : lbAt P pre x p.1 = yv.2 * x yv.1 := by simp [lbAt, hv]
            rw [e2, dot_addCoef i1]; linarith
      generalize hgen : substVB m (pre.vlb p.1) p.2 (lbAt P pre xlp p.1) = m1 at h
      obtain ⟨k1, k2, k3, k4⟩ := hm1 m1 hgen.symm
      have hsv : sVal P pre crit xlp row x y (p.1, p.2) = -p.2 * (x p.1 - lbAt P pre x p.1) := by
        unfold sVal; simp only [hj, if_true, hat, hsub]
      split at h
      · cases h
        refine ⟨k1, k2, ?_, ?_⟩
        · intro q hq
          simp only [k3, List.mem_append, List.mem_singleton] at hq
          rcases hq with hq | rfl
          · exact i3 q hq
          · rw [hsv]; nlinarith
        · simp only [k3, List.map_append, List.map_cons, List.map_nil, List.sum_append, List.sum_cons, List.sum_nil, hsv]
          linarith
      · rename_i hneg
        cases h
        refine ⟨k1, k2, by rw [k3]; exact i3, ?_⟩
        rw [k3]
        have : 0 < p.2 := by rcases hstrict with g | g <;> linarith
        nlinarith
    · -- upper bound substitution
      rename_i hsub
      have hub := le_ubAt hf hr hok hjP
      have hm1 : ∀ m1 : Mk, m1 = substVB m (pre.vub p.1) p.2 (ubAt P pre xlp p.1) →
          (keys m1.knap).Nodup ∧ (∀ j ∈ keys m1.knap, j < P.nCols ∧ P.isInt j = true) ∧ m1.contS = m.contS ∧
          SVec.dot m1.knap x - p.2 * (ubAt P pre x p.1 - x p.1) + SVec.dot rest y ≤
            m1.rhs + (m.contS.map (sVal P pre crit xlp row x y)).sum := by
        intro m1 hm1
        cases hv : pre.vub p.1 with
        | none =>
          rw [hv, substVB] at hm1
          subst hm1
          refine ⟨i1, i2, rfl, ?_⟩
          simp only
          have e1 : ubAt P pre xlp p.1 = P.colUpper p.1 := by simp [ubAt, hv]
          have e2 : ubAt P pre x p.1 = P.colUpper p.1 := by simp [ubAt, hv]
          rw [e1, e2]; linarith
        | some yv =>
          rw [hv, substVB] at hm1
          subst hm1
          have hyv := hok.vub p.1 yv.1 yv.2 hv
          refine ⟨nodup_addCoef i1 _ _, ?_, rfl, ?_⟩
          · intro j hj'
            rcases mem_keys_addCoef.1 hj' with hj' | rfl
            · exact i2 j hj'
            · exact ⟨hyv.1, hyv.2.1⟩
          · simp only
            have e2 : ubAt P pre x p.1 = yv.2 * x yv.1 := by simp [ubAt, hv]
            rw [e2, dot_addCoef i1]; linarith
      generalize hgen : substVB m (pre.vub p.1) p.2 (ubAt P pre xlp p.1) = m1 at h
      obtain ⟨k1, k2, k3, k4⟩ := hm1 m1 hgen.symm
      have hsv : sVal P pre crit xlp row x y (p.1, -p.2) = p.2 * (ubAt P pre x p.1 - x p.1) := by
        unfold sVal; simp only [hj, if_true, hat, hsub, Bool.false_eq_true, if_false, neg_neg]
      split at h
      · cases h
        refine ⟨k1, k2, ?_, ?_⟩
        · intro q hq
          simp only [k3, List.mem_append, List.mem_singleton] at hq
          rcases hq with hq | rfl
          · exact i3 q hq
          · rw [hsv]; nlinarith
        · simp only [k3, List.map_append, List.map_cons, List.map_nil, List.sum_append, List.sum_cons, List.sum_nil, hsv]
          linarith
      · rename_i hneg
        cases h
        refine ⟨k1, k2, by rw [k3]; exact i3, ?_⟩
        rw [k3]
        have : p.2 < 0 := by rcases hstrict with g | g <;> linarith
        nlinarith
  · -- slack
    rename_i hj
    have hy := hy0 p.1 (not_lt.mp hj)
    have hsv : sVal P pre crit xlp row x y (p.1, p.2) = -p.2 * y p.1 := by unfold sVal; simp only [hj, if_false]
    split at h
    · cases h
      refine ⟨i1, i2, ?_, ?_⟩
      · intro q hq
        simp only [List.mem_append, List.mem_singleton] at hq
        rcases hq with hq | rfl
        · exact i3 q hq
        · rw [hsv]; nlinarith
      · simp only [List.map_append, List.map_cons, List.map_nil, List.sum_append, List.sum_cons, List.sum_nil, hsv]
        linarith
    · rename_i hneg
      cases h
      refine ⟨i1, i2, i3, ?_⟩
      have : 0 < p.2 := by rcases hstrict with g | g <;> linarith
      nlinarith

theorem substLoop_inv {v2 : Bool} {P : Prob} {pre : Pre} {crit : Nat} {xlp : Nat → ℚ} {extra : List ℚ} {row : SVec}
    {x y : Nat → ℚ} (hf : P.Feasible x) (hr : Representable P x)
    (hok : PreOk P pre x) (hrow : (keys row).Nodup) (hcl : ∀ p ∈ row, EntryClean v2 P pre.nCols p)
    (hyx : ∀ j < pre.nCols, y j = x j) (hy0 : ∀ j, pre.nCols ≤ j → 0 ≤ y j) : ∀ (rest : SVec) (m m' : Mk),
    (∀ p ∈ rest, p ∈ row) → MkInv P pre crit xlp row x y m rest →
    substLoop v2 P pre crit xlp extra rest m = .go m' → MkInv P pre crit xlp row x y m' []
  | [], m, m', _, hinv, h => by simp only [substLoop, Step.go.injEq] at h; exact h ▸ hinv
  | p :: ps, m, m', hsub, hinv, h => by
    unfold substLoop at h
    split at h
    · rename_i m1 h1
      exact substLoop_inv hf hr hok hrow hcl hyx hy0 ps m1 m' (fun q hq => hsub q (List.mem_cons_of_mem _ hq))
        (substOne_inv hf hr hok hrow (hsub p List.mem_cons_self) (hcl p (hsub p List.mem_cons_self)) hyx hy0 hinv h1) h
    · cases h
    · cases h

/-- No coefficient of a mixed knapsack is a nonzero number below 1e-6, except on columns that cannot be negative. -/
def KnapClean (P : Prob) (knap : SVec) : Prop :=
  ∀ p ∈ knap, p.2 = 0 ∨ 1 / 10 ^ 6 ≤ |p.2| ∨ -1 < P.colLower p.1

instance (P : Prob) (knap : SVec) : Decidable (KnapClean P knap) := by unfold KnapClean; infer_instance

/-- A mixed knapsack that holds at `x` with `S` the value of its continuous part. -/
structure KnapOk (P : Prob) (knap : SVec) (rhs : ℚ) (x : Nat → ℚ) (S : ℚ) : Prop where
  nodup : (keys knap).Nodup
  ints : ∀ j ∈ keys knap, j < P.nCols ∧ P.isInt j = true
  nonneg : ∀ p ∈ knap, p.2 = 0 ∨ 0 ≤ x p.1
  sNonneg : 0 ≤ S
  le : SVec.dot knap x ≤ rhs + S

theorem int_nonneg {v : ℚ} (h : IsInteger v) (h1 : -1 < v) : 0 ≤ v := by
  obtain ⟨z, rfl⟩ := h
  have : (-1 : ℤ) < z := by exact_mod_cast h1
  exact_mod_cast (by omega : (0 : ℤ) ≤ z)

theorem boundSubst_ok {v2 : Bool} {P : Prob} {pre : Pre} {crit : Nat} {xlp : Nat → ℚ} {extra : List ℚ} {row : SVec} {rhs : ℚ}
    {x y : Nat → ℚ} {m : Mk} (hf : P.Feasible x) (hr : Representable P x) (hok : PreOk P pre x) (hrow : (keys row).Nodup)
    (hcl : ∀ p ∈ row, EntryClean v2 P pre.nCols p) (hyx : ∀ j < pre.nCols, y j = x j)
    (hy0 : ∀ j, pre.nCols ≤ j → 0 ≤ y j) (heq : SVec.dot row y = rhs)
    (h : boundSubst v2 P pre crit xlp extra row rhs = some (some m)) (hk : KnapClean P m.knap) :
    KnapOk P m.knap m.rhs x (m.contS.map (sVal P pre crit xlp row x y)).sum := by
  unfold boundSubst at h
  split at h
  · cases h
  · simp at h
  · rename_i m' hm
    have hinv : MkInv P pre crit xlp row x y m' [] :=
      substLoop_inv hf hr hok hrow hcl hyx hy0 row ⟨[], rhs, 0, []⟩ m' (fun _ hp => hp)
        ⟨by simp, by simp, by simp, by simp [heq]⟩ hm
    split at h
    · simp at h
    split at h
    · simp at h
    split at h
    · simp at h
    split at h
    · simp at h
    rename_i hany
    simp only [Option.some.injEq] at h
    subst h
    refine ⟨hinv.nodup, hinv.ints, ?_, ?_, ?_⟩
    · intro p hp
      rcases hk p hp with h0 | h0 | h0
      · exact Or.inl h0
      · right
        have hj := hinv.ints p.1 (List.mem_map.2 ⟨p, hp, rfl⟩)
        have hlow : |P.colLower p.1| ≤ eps := by
          by_contra hc
          exact hany (List.any_eq_true.2 ⟨p, hp, by
            simp only [Bool.and_eq_true, decide_eq_true_eq]; exact ⟨by unfold eps; exact h0, not_le.mp hc⟩⟩)
        have h1 := lower_le hf hr hj.1
        have h2 := (abs_le.1 hlow).1
        exact int_nonneg (hf.int _ hj.1 hj.2) (by unfold eps at h2; linarith)
      · right
        have hj := hinv.ints p.1 (List.mem_map.2 ⟨p, hp, rfl⟩)
        have h1 := lower_le hf hr hj.1
        exact int_nonneg (hf.int _ hj.1 hj.2) (by linarith)
    · apply List.sum_nonneg
      intro q hq
      obtain ⟨p, hp, rfl⟩ := List.mem_map.1 hq
      exact hinv.sNonneg p hp
    · have := hinv.le
      simpa using this

end Cgl.MIR
