import Verif.AllDiff.Props

/-! # `CglAllDifferent`: cases that meet the hypotheses, and cases where the full property fails -/

namespace Cgl.AllDiff

/-- A problem with given integer bounds and no rows. -/
def boxProb (lo up : List ℤ) : Prob :=
  { nCols := lo.length, inf := 10 ^ 30, colLower := fun j => (lo.getD j 0 : ℤ), colUpper := fun j => (up.getD j 0 : ℤ), isInt := fun _ => true, rows := [] }

/-- Two overlapping sets in an order the numbering does not mix up; three columns squeezed by the first set. -/
example : Faithful [[0, 1, 2, 3], [1, 2]] ∧ Small (boxProb [0, 0, 0, 0] [1, 1, 3, 3]) [[0, 1, 2, 3], [1, 2]] 0 3 := by decide +kernel
example : (generateCuts (ofSets [[0, 1, 2, 3], [1, 2]]) (boxProb [0, 0, 0, 0] [1, 1, 3, 3]) ⟨[], []⟩).toOption.map (fun o => (o.rows, o.cols)) =
    some ([], [⟨[(2, 2), (3, 2)], []⟩]) := by decide +kernel
/-- An assignment the user accepts there. -/
example : Assignment (boxProb [0, 0, 0, 0] [1, 1, 3, 3]) [[0, 1, 2, 3], [1, 2]] (fun j => [0, 1, 2, 3].getD j 0) :=
  ⟨by decide +kernel, by decide +kernel, by decide +kernel, by decide +kernel⟩
/-- A column order that is mixed up, harmlessly. -/
example : Faithful [[5, 2, 9]] ∧ taken [[5, 2, 9]] 5 = 2 := by decide +kernel
/-- Columns whose set cannot be satisfied: the infeasibility cut. -/
example : (generateCuts (ofSets [[0, 1, 2]]) (boxProb [0, 0, 0] [1, 1, 1]) ⟨[], []⟩).toOption.map (fun o => (o.rows.length, o.cols)) =
    some (1, []) := by decide +kernel

/-- The point violates some new cut. -/
def Violates (out : Cuts) (x : Nat → ℚ) : Prop := (∃ c ∈ out.rows, ¬ c.Sat x) ∨ ∃ c ∈ out.cols, ¬ c.Sat x

/-- The infeasibility cut holds nowhere. -/
theorem infeasible_cut_unsat (x : Nat → ℚ) : ¬ (RowCut.mk dblMax 0 []).Sat x := by
  rintro ⟨h, _⟩
  have := dblMax_pos
  have := h (by dsimp only; linarith)
  simp only [SVec.dot_nil] at this
  linarith

/-- **C19 fails** for overlapping sets in general: with sets {0,1} and {1,2}, column 1 fixed at 5 and the others between 0
and 9, the generator declares the problem infeasible. -/
theorem generateCuts_mixup_invalid : ∃ out, generateCuts (ofSets [[0, 1], [1, 2]]) (boxProb [0, 5, 0] [9, 5, 9]) ⟨[], []⟩ = .ok out ∧
    ∃ x, Assignment (boxProb [0, 5, 0] [9, 5, 9]) [[0, 1], [1, 2]] x ∧ Violates out x := by
  have key : (generateCuts (ofSets [[0, 1], [1, 2]]) (boxProb [0, 5, 0] [9, 5, 9]) ⟨[], []⟩).toOption.map Cuts.rows = some [⟨dblMax, 0, []⟩] := by
    decide +kernel
  cases hg : generateCuts (ofSets [[0, 1], [1, 2]]) (boxProb [0, 5, 0] [9, 5, 9]) ⟨[], []⟩ with
  | error e => rw [hg] at key; cases key
  | ok out =>
    rw [hg] at key
    simp only [Except.toOption, Option.map_some, Option.some.injEq] at key
    refine ⟨out, rfl, fun j => [1, 5, 1].getD j 0, ⟨by decide +kernel, by decide +kernel, by decide +kernel, by decide +kernel⟩, Or.inl ?_⟩
    exact ⟨_, by rw [key]; simp, infeasible_cut_unsat _⟩

/-- A variable not in the sets looked at, with a lower bound more than one below the smallest bound looked at, gets a wrong
lower bound (or the problem is declared infeasible). -/
theorem unlooked_invalid {o : Obj} {P : Prob} {out : Cuts} (h : generateCuts o P ⟨[], []⟩ = .ok out) {r : Int × Int} {l : List (List Nat)}
    (hl : look (loOf o P) (upOf o P) o.nDiff o.sets (intMax, -intMax) = .ok (r, l)) {i : Nat} (hi : i < o.nDiff)
    (hlow : loOf o P i < r.1 - 1) (x : Nat → ℚ) (hx : x (o.orig.getD i 0) = loOf o P i) : Violates out x := by
  obtain ⟨_, _, r', l', s, inf, hl', _, _, h1, h2⟩ := generateCuts_run h
  rw [hl] at hl'
  simp only [Except.ok.injEq, Prod.mk.injEq] at hl'
  obtain ⟨rfl, rfl⟩ := hl'
  cases inf with
  | true =>
    left
    rw [h1 rfl]
    exact ⟨_, by simp [insertIfNotDuplicate], infeasible_cut_unsat x⟩
  | false =>
    right
    obtain ⟨_, _, rfl⟩ := h2 rfl
    have hge : -1 ≤ firstLo (gapOf r) s.poss i := by
      unfold firstLo
      split <;> omega
    have hm : (o.orig.getD i 0, ((firstLo (gapOf r) s.poss i + r.1 : Int) : ℚ)) ∈ newLower (gapOf r) o.nDiff o.orig (loOf o P) r.1 s.poss := by
      unfold newLower
      rw [List.mem_map]
      exact ⟨i, List.mem_filter.mpr ⟨List.mem_range.mpr hi, by rw [decide_eq_true_eq]; omega⟩, rfl⟩
    unfold addCols
    rw [if_neg (by rintro ⟨he, _⟩; rw [he] at hm; cases hm)]
    refine ⟨_, List.mem_append_right _ (List.mem_singleton.mpr rfl), fun hs => ?_⟩
    have := hs.1 _ hm
    dsimp only at this
    rw [hx] at this
    have : firstLo (gapOf r) s.poss i + r.1 ≤ loOf o P i := by exact_mod_cast this
    omega

/-- Conditions under which a run returns. -/
theorem generateCuts_ok_of {o : Obj} {P : Prob} (cs : Cuts) {r : Int × Int} {l : List (List Nat)} (h0 : o.sets ≠ [])
    (hrd : (List.range o.nDiff).all (readable o P) = true)
    (hl : look (loOf o P) (upOf o P) o.nDiff o.sets (intMax, -intMax) = .ok (r, l)) (hsz : ¬ ((gapOf r * o.nDiff : Nat) : Int) > intMax)
    (hmem : (List.range o.nDiff).all (memOk (gapOf r) o.nDiff (loOf o P) (upOf o P) r.1) = true)
    (hlt : ∀ t ∈ l, t.length ≤ o.nDiff ∧ ∀ k ∈ t, k < o.nDiff) (hinj : ∀ i < o.nDiff, ∀ j < o.nDiff, o.orig.getD i 0 = o.orig.getD j 0 → i = j) :
    ∃ out, generateCuts o P cs = .ok out := by
  obtain ⟨⟨s, inf⟩, hp⟩ := passes_total (gapOf r) o.nDiff l hlt (passFuel (gapOf r) o.nDiff)
    (start (gapOf r) o.nDiff l (loOf o P) (upOf o P) r.1) false (by
      have h1 := ones_bound (gapOf r) o.nDiff (start (gapOf r) o.nDiff l (loOf o P) (upOf o P) r.1).poss
      have h2 := unfixed_bound o.nDiff (start (gapOf r) o.nDiff l (loOf o P) (upOf o P) r.1).fixed
      unfold passFuel
      omega)
  have hnodup : ∀ (p : Nat → Bool) (f : Nat → ℚ), ((((List.range o.nDiff).filter p).map fun i => (o.orig.getD i 0, f i)).map Prod.fst).Nodup := by
    intro p f
    rw [List.map_map, List.nodup_map_iff_inj_on (List.Nodup.filter _ List.nodup_range)]
    intro i hi j hj he
    rw [List.mem_filter, List.mem_range] at hi hj
    exact hinj i hi.1 j hj.1 he
  unfold generateCuts
  rw [if_neg h0, hrd, if_neg (by simp)]
  dsimp only
  rw [hl]
  dsimp only
  rw [if_neg hsz, hmem, if_neg (by simp), hp]
  cases inf with
  | true => exact ⟨_, rfl⟩
  | false =>
    dsimp only
    rw [if_neg (by rintro (h | h); exacts [h (hnodup _ _), h (hnodup _ _)])]
    split <;> exact ⟨_, rfl⟩

/-- Column 0 between 0 and ten million, column 1 at -5, each in its own set. -/
def largeProb : Prob := boxProb [0, -5] [10000000, -5]

theorem large_look : look (loOf (ofSets [[0], [1]]) largeProb) (upOf (ofSets [[0], [1]]) largeProb) (ofSets [[0], [1]]).nDiff
    (ofSets [[0], [1]]).sets (intMax, -intMax) = .ok ((0, 10000000), [[0]]) := by decide +kernel

/-- **C19 fails** for large ranges: the second set is not looked at, but its column gets a bound. -/
theorem generateCuts_large_invalid : ∃ out, generateCuts (ofSets [[0], [1]]) largeProb ⟨[], []⟩ = .ok out ∧
    ∃ x, Assignment largeProb [[0], [1]] x ∧ Violates out x := by
  have h1 : (ofSets [[0], [1]]).sets ≠ [] := by decide +kernel
  have h2 : (List.range (ofSets [[0], [1]]).nDiff).all (readable (ofSets [[0], [1]]) largeProb) = true := by decide +kernel
  have h3 : ¬ ((gapOf (0, 10000000) * (ofSets [[0], [1]]).nDiff : Nat) : Int) > intMax := by decide +kernel
  have h4 : (List.range (ofSets [[0], [1]]).nDiff).all (memOk (gapOf (0, 10000000)) (ofSets [[0], [1]]).nDiff (loOf (ofSets [[0], [1]]) largeProb)
      (upOf (ofSets [[0], [1]]) largeProb) 0) = true := by decide +kernel
  have h5 : ∀ t ∈ [[0]], t.length ≤ (ofSets [[0], [1]]).nDiff ∧ ∀ k ∈ t, k < (ofSets [[0], [1]]).nDiff := by decide +kernel
  have h6 : ∀ i < (ofSets [[0], [1]]).nDiff, ∀ j < (ofSets [[0], [1]]).nDiff,
    (ofSets [[0], [1]]).orig.getD i 0 = (ofSets [[0], [1]]).orig.getD j 0 → i = j := by decide +kernel
  obtain ⟨out, ho⟩ := generateCuts_ok_of ⟨[], []⟩ h1 h2 large_look h3 h4 h5 h6
  have h7 : 1 < (ofSets [[0], [1]]).nDiff := by decide +kernel
  have h8 : loOf (ofSets [[0], [1]]) largeProb 1 < (0 : Int) - 1 := by decide +kernel
  have h9 : (fun j => [0, -5].getD j 0 : Nat → ℚ) ((ofSets [[0], [1]]).orig.getD 1 0) = loOf (ofSets [[0], [1]]) largeProb 1 := by decide +kernel
  exact ⟨out, ho, fun j => [0, -5].getD j 0, ⟨by decide +kernel, by decide +kernel, by decide +kernel, by decide +kernel⟩,
    unlooked_invalid ho large_look h7 h8 _ h9⟩

/-- An object without sets (the default constructor): the null `start_` is read. -/
theorem generateCuts_default_faults (P : Prob) (cs : Cuts) : generateCuts ⟨[], [], 0⟩ P cs = .error .nullDeref := rfl

end Cgl.AllDiff
