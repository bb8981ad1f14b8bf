import Verif.PostProc.Basic

/-!
# Undoing the passes of the presolve keeps the bounds
-/

namespace Cgl.PostProc

/-- The values of the integer columns round to integers inside their bounds. -/
def RoundsInside (S : Solver) : Prop :=
  ∀ j < S.prob.nCols, S.prob.isInt j = true →
    S.prob.colLower j ≤ roundHalf (S.sol j) ∧ roundHalf (S.sol j) ≤ S.prob.colUpper j

/-- The invariant of the loop over the columns of the model below. -/
structure BackInv (S0 S : Solver) : Prop where
  re : Rebound S0 S
  sub : ∀ j < S0.prob.nCols, S0.prob.colLower j ≤ S.prob.colLower j ∧ S.prob.colUpper j ≤ S0.prob.colUpper j
  int : ∀ j < S0.prob.nCols, S0.prob.isInt j = true →
    S.prob.colLower j = S0.prob.colLower j ∧ S.prob.colUpper j = S0.prob.colUpper j

theorem backColumn_inv (orig cols) (M S0 S : Solver) (i : Nat) (hi : i < M.prob.nCols)
    (hj : cols.getD i 0 < S0.prob.nCols) (hr : RoundsInside S0) (hM : Inside cols M S0) (h : BackInv S0 S) :
    BackInv S0 (backColumn none orig cols M S i) := by
  have hre := h.re.trans (rebound_backColumn none orig cols M S i)
  have hI : S.prob.isInt = S0.prob.isInt := h.re.isInt
  have hsol : S.sol = S0.sol := h.re.sol
  by_cases hb : S0.prob.isInt (cols.getD i 0) = true
  · -- an integer column stays as it is
    have hrr := hr _ hj hb
    have hint := h.int _ hj hb
    have : backColumn none orig cols M S i = S := by
      unfold backColumn
      dsimp only
      rw [if_neg (by rw [hI, hb]; decide), hsol, hint.1, hint.2, if_neg (not_lt.mpr hrr.1), if_neg (not_lt.mpr hrr.2)]
    rw [this]; exact h
  · have hb' : S0.prob.isInt (cols.getD i 0) = false := by simpa using hb
    by_cases hf : M.prob.colUpper i = M.prob.colLower i
    · by_cases hlt : S.prob.colLower (cols.getD i 0) < S.prob.colUpper (cols.getD i 0)
      · have hin := hM i hi hb'
        have hv : min (max (M.sol i) (M.prob.colLower i)) (M.prob.colUpper i) = M.prob.colLower i := by
          rw [hf]; exact min_eq_right (le_max_right ..)
        have he : backColumn none orig cols M S i =
            setUpper (setLower S (cols.getD i 0) (M.prob.colLower i)) (cols.getD i 0) (M.prob.colLower i) := by
          unfold backColumn
          dsimp only
          rw [if_pos (by rw [hI]; exact hb'), if_pos hf, if_pos hlt, hv]
        rw [he]
        rw [he] at hre
        refine ⟨hre, ?_, ?_⟩
        · intro j hjn
          by_cases hjj : j = cols.getD i 0
          · subst hjj
            exact ⟨by simpa using hin.1, by simpa using (hf ▸ hin.2)⟩
          · rw [setUpper_lower, setLower_ne _ _ _ hjj, setUpper_ne _ _ _ hjj, setLower_upper]
            exact h.sub j hjn
        · intro j hjn hji
          have hjj : j ≠ cols.getD i 0 := by
            rintro rfl; rw [hb'] at hji; cases hji
          rw [setUpper_lower, setLower_ne _ _ _ hjj, setUpper_ne _ _ _ hjj, setLower_upper]
          exact h.int j hjn hji
      · have he : backColumn none orig cols M S i = S := by
          unfold backColumn
          dsimp only
          rw [if_pos (by rw [hI]; exact hb'), if_pos hf, if_neg hlt]
        rw [he]; exact h
    · have he : backColumn none orig cols M S i = S := by
        unfold backColumn
        dsimp only
        rw [if_pos (by rw [hI]; exact hb'), if_neg hf]
      rw [he]; exact h

theorem backFold_inv (orig cols) (M S0 : Solver) (hj : ∀ i < M.prob.nCols, cols.getD i 0 < S0.prob.nCols)
    (hr : RoundsInside S0) (hM : Inside cols M S0) (l : List Nat) (hl : ∀ i ∈ l, i < M.prob.nCols) (S : Solver)
    (h : BackInv S0 S) : BackInv S0 (l.foldl (backColumn none orig cols M) S) := by
  induction l generalizing S with
  | nil => exact h
  | cons i l ih =>
    exact ih (fun i hi => hl i (List.mem_cons_of_mem _ hi)) _
      (backColumn_inv orig cols M S0 S i (hl i List.mem_cons_self) (hj i (hl i List.mem_cons_self)) hr hM h)

theorem SameInput.sub {S S' : Solver} (h : SameInput S S') : Sub S' S := by
  unfold Sub
  rw [h.1]
  exact ⟨rfl, rfl, fun _ _ => ⟨le_refl _, le_refl _⟩⟩

theorem roundsInside_postsolve {E : Env} (hE : PostsolveOk E) (k m) {B : Solver} (hB : HasIntegers B) :
    RoundsInside (E.postsolve k m B) := by
  obtain ⟨h1, h2⟩ := hE k m B
  intro j hj hi
  rw [h1.1] at hj hi ⊢
  obtain ⟨z, ha, hb, hc, hd⟩ := h2 j hj hi (hB j hj hi)
  rw [roundHalf_of hc hd]
  exact ⟨ha, hb⟩

theorem passFault_none {n sc orig P M B} (h : passFault n sc orig P M B = none) :
    ∀ i < M.prob.nCols, P.cols.getD i 0 < B.prob.nCols := by
  intro i hi
  unfold passFault at h
  split at h
  · cases h
  · rename_i hn
    by_contra hc
    exact hn (Or.inr (Or.inr ⟨i, hi, not_lt.mp hc⟩))

/-- One pass: the bounds below are only tightened, those of integer columns stay, and the values of the integer columns
round into them. -/
theorem unwindPass_ok {E : Env} (hE : PostsolveOk E) {n k orig P M B m b} (hB : HasIntegers B) (hM : Inside P.cols M B)
    (h : unwindPass E n k none orig P M B = .ok (m, b)) :
    Sub b B ∧ HasIntegers b ∧ RoundsInside b ∧
      ∃ lo up, SameInput { B with prob := { B.prob with colLower := lo, colUpper := up } } b := by
  unfold unwindPass at h
  split at h
  · cases h
  · rename_i hn
    have hc := passFault_none hn
    simp only [Except.ok.injEq, Prod.mk.injEq] at h
    obtain ⟨hm, hb⟩ := h
    rw [hm] at hb
    set S0 := E.postsolve k m B with hS0
    have hsame : SameInput B S0 := (hE k m B).1
    have hS : Sub S0 B := hsame.sub
    have hr : RoundsInside S0 := roundsInside_postsolve hE k m hB
    have hM0 : Inside P.cols M S0 := by
      intro i hi hb0; rw [hsame.1] at hb0 ⊢; exact hM i hi hb0
    have hinv : BackInv S0 b := by
      rw [← hb]
      exact backFold_inv orig P.cols M S0 (by rw [hsame.1]; exact hc) hr hM0 _ (fun i hi => List.mem_range.mp hi) S0
        ⟨Rebound.refl _, fun _ _ => ⟨le_refl _, le_refl _⟩, fun _ _ _ => ⟨rfl, rfl⟩⟩
    have hnb : b.prob.nCols = B.prob.nCols := hinv.re.nCols.trans hS.1
    have hib : b.prob.isInt = B.prob.isInt := hinv.re.isInt.trans hS.2.1
    refine ⟨⟨hnb, hib, ?_⟩, ?_, ?_, b.prob.colLower, b.prob.colUpper, ?_⟩
    · intro j hj
      have := hinv.sub j (hS.1 ▸ hnb ▸ hj)
      rw [hsame.1] at this
      exact this
    · intro j hj hi
      have := hinv.int j (hS.1 ▸ hnb ▸ hj) (by rw [← hinv.re.isInt]; exact hi)
      rw [this.1, this.2, hsame.1]
      exact hB j (hnb ▸ hj) (by rw [← hib]; exact hi)
    · intro j hj hi
      have h0 : j < S0.prob.nCols := hS.1 ▸ hnb ▸ hj
      have h1 : S0.prob.isInt j = true := by rw [← hinv.re.isInt]; exact hi
      have := hinv.int j h0 h1
      rw [this.1, this.2, hinv.re.sol]
      exact hr j h0 h1
    · have hre := hinv.re
      obtain ⟨s1, s2, s3, s4, s5, s6, s7⟩ := hsame
      unfold SameInput
      refine ⟨?_, ?_, ?_, ?_, ?_, ?_, ?_⟩
      · rw [hre]; dsimp only; rw [s1]
      · rw [hre]; exact s2
      · rw [hre]; exact s3
      · rw [hre]; exact s4
      · rw [hre]; exact s5
      · rw [hre]; exact s6
      · rw [hre]; exact s7

/-! ### The state after one turn -/

/-- The state after one turn. -/
def after (p : Pre) (k : Nat) (b : Solver) (del : Bool) (m : Solver) : Pre := setPass (setBelow p k b) k del m

theorem modify_ne {α} (l : List α) (f : α → α) {i j : Nat} (h : i ≠ j) : (l.modify i f)[j]? = l[j]? := by
  rw [List.getElem?_modify]
  simp [h]

theorem modify_self {α} (l : List α) (f : α → α) (i : Nat) : (l.modify i f)[i]? = l[i]?.map f := by
  rw [List.getElem?_modify]
  simp

theorem after_pass_lt (p : Pre) (k b del m) {i : Nat} (hi : i + 1 < k) : (after p k b del m).passes[i]? = p.passes[i]? := by
  unfold after setPass
  dsimp only
  rw [modify_ne _ _ (by omega)]
  cases k with
  | zero => omega
  | succ k =>
    simp only [setBelow]
    rw [modify_ne _ _ (by omega)]

theorem after_pass_pred (p : Pre) (k b del m) {P' : Pass} (h : (after p (k + 1) b del m).passes[k]? = some (some P')) :
    ∃ P, p.passes[k]? = some (some P) ∧ P' = { P with modified := b } := by
  unfold after setPass at h
  dsimp only at h
  rw [modify_ne _ _ (by omega)] at h
  simp only [setBelow] at h
  rw [modify_self, Option.map_eq_some_iff] at h
  obtain ⟨a, ha, hb⟩ := h
  cases a with
  | none => simp at hb
  | some P =>
    simp at hb
    exact ⟨P, ha, hb.symm⟩

theorem after_below (p : Pre) (k b del m) {i : Nat} (hi : i < k) : belowOf (after p k b del m) i = belowOf p i := by
  cases i with
  | zero =>
    cases k with
    | zero => omega
    | succ k => rfl
  | succ i =>
    simp only [belowOf, after_pass_lt p k b del m hi]

theorem after_below_self (p : Pre) (b del m) : (after p 0 b del m).start.getD (after p 0 b del m).original = b := by
  unfold after setPass setBelow
  cases hs : p.start <;> simp

theorem after_len (p : Pre) (k b del m) : (after p k b del m).passes.length = p.passes.length := by
  unfold after setPass
  dsimp only
  rw [List.length_modify]
  unfold setBelow
  cases k with
  | zero => cases hs : p.start <;> simp
  | succ k => simp

/-- What undoing a pass does not touch. -/
theorem after_rest (p : Pre) (k b del m) :
    (after p k b del m).numberSolvers = p.numberSolvers ∧ (after p k b del m).lots = p.lots ∧
    (after p k b del m).cuts = p.cuts ∧ ((after p k b del m).start = none ↔ p.start = none) ∧
    ((0 < k ∨ p.start ≠ none) → (after p k b del m).original = p.original) ∧
    (0 < k → (after p k b del m).start = p.start) := by
  unfold after setPass setBelow
  cases k with
  | zero => cases hs : p.start <;> simp
  | succ k => simp

theorem turn_ok {E n sc del k p M p' M'} (h : turn E n sc del k p M = .ok (p', M')) :
    ∃ P B m, p.passes[k]? = some (some P) ∧ belowOf p k = some B ∧
      unwindPass E n k sc (originalOf (p.passes.take (k + 1)) id) P M B = .ok (m, M') ∧ p' = after p k M' del m := by
  unfold turn at h
  split at h
  · cases h
  · cases h
  · rename_i P hP
    split at h
    · cases h
    · rename_i B hB
      split at h
      · cases h
      · rename_i m b hu
        simp only [Except.ok.injEq, Prod.mk.injEq] at h
        obtain ⟨h1, h2⟩ := h
        subst h2
        exact ⟨P, B, m, hP, hB, hu, h1.symm⟩

/-- What undoing all passes does. -/
theorem unwind_ok {E : Env} (hE : PostsolveOk E) {n del} (k : Nat) :
    ∀ {p M p' M'}, unwind E n none del (k + 1) p M = .ok (p', M') →
    (∀ i ≤ k, ∀ P, p.passes[i]? = some (some P) → ∀ B, belowOf p i = some B →
      Inside P.cols (if i = k then M else P.modified) B) →
    (∀ i ≤ k, ∀ B, belowOf p i = some B → HasIntegers B) →
    Sub M' (p.start.getD p.original) ∧ RoundsInside M' ∧ p'.start.getD p'.original = M' ∧
    p'.numberSolvers = p.numberSolvers ∧ p'.passes.length = p.passes.length ∧ (p'.start = none ↔ p.start = none) ∧
    (p.start ≠ none → p'.original = p.original) ∧
    ∃ lo up, SameInput { p.start.getD p.original with
      prob := { (p.start.getD p.original).prob with colLower := lo, colUpper := up } } M' := by
  induction k with
  | zero =>
    intro p M p' M' h hc hi
    unfold unwind at h
    split at h
    · cases h
    · rename_i p1 M1 ht
      unfold unwind at h
      simp only [Except.ok.injEq, Prod.mk.injEq] at h
      obtain ⟨rfl, rfl⟩ := h
      obtain ⟨P, B, m, hP, hB, hu, rfl⟩ := turn_ok ht
      have hin := hc 0 (le_refl _) P hP B hB
      rw [if_pos rfl] at hin
      obtain ⟨h1, h2, h3, h4⟩ := unwindPass_ok hE (hi 0 (le_refl _) B hB) hin hu
      have hBe : B = p.start.getD p.original := by
        unfold belowOf at hB; exact (Option.some.inj hB).symm
      subst hBe
      obtain ⟨r1, r2, r3, r4, r5, r6⟩ := after_rest p 0 M1 del m
      exact ⟨h1, h3, after_below_self p M1 del m, r1, after_len p 0 M1 del m, r4, fun h => r5 (Or.inr h), h4⟩
  | succ k ih =>
    intro p M p' M' h hc hi
    unfold unwind at h
    split at h
    · cases h
    · rename_i p1 M1 ht
      obtain ⟨P, B, m, hP, hB, hu, rfl⟩ := turn_ok ht
      have hin := hc (k + 1) (le_refl _) P hP B hB
      rw [if_pos rfl] at hin
      obtain ⟨h1, h2, h3, h4⟩ := unwindPass_ok hE (hi (k + 1) (le_refl _) B hB) hin hu
      obtain ⟨r1, r2, r3, r4, r5, r6⟩ := after_rest p (k + 1) M1 del m
      have hstart := r6 (Nat.succ_pos k)
      have horig := r5 (Or.inl (Nat.succ_pos k))
      have := ih h ?_ ?_
      · rw [hstart, horig, r1, after_len] at this
        exact this
      · intro i hik P' hP' B' hB'
        rw [after_below p (k + 1) M1 del m (by omega)] at hB'
        by_cases he : i = k
        · subst he
          rw [if_pos rfl]
          obtain ⟨P0, hP0, rfl⟩ := after_pass_pred p i M1 del m hP'
          have h0 := hc i (by omega) P0 hP0 B' hB'
          rw [if_neg (by omega)] at h0
          have hBe : B = P0.modified := by
            simp only [belowOf, hP0] at hB
            exact (Option.some.inj hB).symm
          exact h0.sub (hBe ▸ h1)
        · rw [if_neg he]
          rw [after_pass_lt p (k + 1) M1 del m (by omega)] at hP'
          have h0 := hc i (by omega) P' hP' B' hB'
          rw [if_neg (by omega)] at h0
          exact h0
      · intro i hik B' hB'
        rw [after_below p (k + 1) M1 del m (by omega)] at hB'
        exact hi i (by omega) B' hB'

end Cgl.PostProc
