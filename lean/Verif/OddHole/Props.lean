import Verif.OddHole.Total

/-!
# Properties of `CglOddHole` (C16, C17, C18, C35)
-/

namespace Cgl.OddHole

/-! ## C16, C17: validity -/

/-- The cuts `generateCuts` adds, split by the pass that adds them. -/
theorem generateCuts_split {o : Obj} {P : Prob} {lp dj check1 check2 : Nat → ℚ} {fuel : Nat} {cs out : List RowCut}
    (h : generateCuts o P lp dj check1 check2 fuel cs = .ok out) :
    ∀ c ∈ out, c ∈ cs ∨
      FromRows (P.rows.zip ((P.rows.zip (createRowList P (checkRow o P.rows.length))).map fun rs =>
        packedSuit P lp rs.1 rs.2)) true (cleanSol P lp) Obj.init c ∨
      FromRows (P.rows.zip ((P.rows.zip ((P.rows.zip (createRowList P (checkRow o P.rows.length))).map fun rs =>
        packedSuit P lp rs.1 rs.2)).map fun rs => coverSuit P lp rs.1 rs.2)) false (cleanSol P lp) Obj.init c := by
  unfold generateCuts at h
  dsimp only at h
  split at h
  · cases h
  · rename_i cs1 h1
    have k1 := pass_inv h1
    split at h
    · have k2 := pass_inv h
      intro c hc
      rcases k2 c hc with h2 | h2
      · rcases k1 c h2 with h3 | h3
        · exact Or.inl h3
        · exact Or.inr (Or.inl h3)
      · exact Or.inr (Or.inr h2)
    · cases h
      intro c hc
      rcases k1 c hc with h3 | h3
      · exact Or.inl h3
      · exact Or.inr (Or.inl h3)

/-- Columns with finite fixed values, so that "fixed" means what it says. -/
def FiniteFixed (P : Prob) : Prop := ∀ j < P.nCols, isFixed P j → |P.colLower j| < P.inf

instance (P : Prob) : Decidable (FiniteFixed P) := by unfold FiniteFixed; infer_instance

/-- **C17 (covering rows), restricted.** If every column fixed by its bounds is fixed at a natural number, every
covering cut (`sum >= rhs`) that `generateCuts` adds is satisfied by every feasible point: for all problems, LP
solutions, row lists, random numbers and step budgets. Missing from the full statement: problems with a column fixed
at a negative or fractional value, for which it is false (`generateCuts_cover_invalid`). -/
theorem generateCuts_cover_valid_partial (o : Obj) (P : Prob) (hwf : P.WF) (hinf : 2 ≤ P.inf) (hfin : FiniteFixed P)
    (hz : FixedNat P) (lp dj check1 check2 : Nat → ℚ) (fuel : Nat) (cs out : List RowCut)
    (h : generateCuts o P lp dj check1 check2 fuel cs = .ok out) :
    ∀ c ∈ out, c ∈ cs ∨ c.ub ≠ dblMax ∨ c.Valid P := by
  intro c hc
  rcases generateCuts_split h c hc with h1 | h1 | h1
  · exact Or.inl h1
  · by_cases hd : c.ub = dblMax
    · right; right
      intro x hx
      obtain ⟨rs, els, _, _, _, _, _, rfl, _, _⟩ := h1.ex
      simp only [mkCut, if_true] at hd ⊢
      refine ⟨fun h => absurd h (lt_irrefl _), fun h => ?_⟩
      simp only at h
      rw [hd] at h
      exact absurd h (lt_irrefl _)
    · exact Or.inr (Or.inl hd)
  · right; right
    intro x hx
    refine fromRows_sat h1 ?_ ?_
    · intro i hi rp hrp p hp
      obtain ⟨rp', e, g1, g2, g3⟩ := cover_chosen hi
      rw [hrp] at e
      simp only [Option.some.injEq] at e
      subst e
      exact (good_values hinf hfin hz hx (hwf.cols _ g2) g1 p hp).1
    · intro i hi rp hrp
      obtain ⟨rp', e, g1, g2, g3⟩ := cover_chosen hi
      rw [hrp] at e
      simp only [Option.some.injEq] at e
      subst e
      simp only [Bool.false_eq_true, if_false]
      exact good_cover hinf hfin hz hx g2 (hwf.cols _ g2) g1 g3

/-- **C16 and C17 together, restricted.** If every column fixed by its bounds is fixed at a natural number, and those
fixed at a nonzero one have no coefficient below one, every cut `generateCuts` adds, from packing rows (`sum <= 1`) or
from covering rows (`sum >= 1`), is satisfied by every feasible point: for all problems, LP solutions, row lists,
random numbers and step budgets. Missing from the full statement: problems with other fixed columns, for which it is
false (`generateCuts_fixed_invalid`). -/
theorem generateCuts_valid_partial (o : Obj) (P : Prob) (hwf : P.WF) (hinf : 2 ≤ P.inf) (hfin : FiniteFixed P)
    (hz : FixedNat P) (hzc : FixedCoefs P) (lp dj check1 check2 : Nat → ℚ) (fuel : Nat) (cs out : List RowCut)
    (h : generateCuts o P lp dj check1 check2 fuel cs = .ok out) : ∀ c ∈ out, c ∈ cs ∨ c.Valid P := by
  intro c hc
  rcases generateCuts_split h c hc with h1 | h1 | h1
  · exact Or.inl h1
  · right
    intro x hx
    refine fromRows_sat h1 ?_ ?_
    · intro i hi rp hrp p hp
      obtain ⟨rp', e, g1, g2, g3⟩ := packed_chosen hi
      rw [hrp] at e
      simp only [Option.some.injEq] at e
      subst e
      exact (good_values hinf hfin hz hx (hwf.cols _ g2) g1 p hp).1
    · intro i hi rp hrp
      obtain ⟨rp', e, g1, g2, g3⟩ := packed_chosen hi
      rw [hrp] at e
      simp only [Option.some.injEq] at e
      subst e
      simp only [if_true]
      exact good_packing hinf hfin hz hzc hx g2 (hwf.cols _ g2) g1 g3
  · right
    intro x hx
    refine fromRows_sat h1 ?_ ?_
    · intro i hi rp hrp p hp
      obtain ⟨rp', e, g1, g2, g3⟩ := cover_chosen hi
      rw [hrp] at e
      simp only [Option.some.injEq] at e
      subst e
      exact (good_values hinf hfin hz hx (hwf.cols _ g2) g1 p hp).1
    · intro i hi rp hrp
      obtain ⟨rp', e, g1, g2, g3⟩ := cover_chosen hi
      rw [hrp] at e
      simp only [Option.some.injEq] at e
      subst e
      simp only [Bool.false_eq_true, if_false]
      exact good_cover hinf hfin hz hx g2 (hwf.cols _ g2) g1 g3

/-- A 5-cycle of packing rows. -/
def cyc5 : Prob := ⟨5, 1000000, fun _ => 0, fun _ => 1, fun _ => true,
  [⟨-1000000, 1, [(0, 1), (1, 1)]⟩, ⟨-1000000, 1, [(1, 1), (2, 1)]⟩, ⟨-1000000, 1, [(2, 1), (3, 1)]⟩,
   ⟨-1000000, 1, [(3, 1), (4, 1)]⟩, ⟨-1000000, 1, [(4, 1), (0, 1)]⟩]⟩

/-- A triangle of covering rows. -/
def cov3 : Prob := ⟨3, 1000000, fun _ => 0, fun _ => 1, fun _ => true,
  [⟨1, 1000000, [(0, 1), (1, 1)]⟩, ⟨1, 1000000, [(1, 1), (2, 1)]⟩, ⟨1, 1000000, [(2, 1), (0, 1)]⟩]⟩

/-- The rows of the cuts produced, for examples. -/
def rowsOf (r : Except Fault (List RowCut)) : Option (List (ℚ × SVec)) :=
  r.toOption.map fun l => l.map fun c => (c.ub, c.row)

/-- Non-vacuity of C16: the 5-cycle at 1/2 gives `x0+…+x4 <= 2`. -/
example : rowsOf (generateCuts Obj.init cyc5 (fun _ => 1/2) (fun _ => 0) (fun i => i + 1) (fun i => i + 1) 1000 [])
    = some [(2, [(4, 1), (0, 1), (3, 1), (2, 1), (1, 1)])] ∧ cyc5.WF ∧ FixedNat cyc5 ∧ FixedCoefs cyc5 ∧ FiniteFixed cyc5 ∧ 2 ≤ cyc5.inf ∧
    cyc5.Feasible (fun j => if j = 0 ∨ j = 2 then 1 else 0) := by decide +kernel

/-- Non-vacuity of C17: three covering rows at 1/2 give `x0+x1+x2 >= 2`. -/
example : (generateCuts Obj.init cov3 (fun _ => 1/2) (fun _ => 0) (fun i => i + 1) (fun i => i + 1) 1000 []).toOption.map
      (fun l => l.map fun c => (c.lb, c.row)) = some [(2, [(2, 1), (0, 1), (1, 1)])] ∧ cov3.WF ∧ FixedNat cov3 ∧ FixedCoefs cov3 ∧ FiniteFixed cov3 ∧
    cov3.Feasible (fun j => if j = 2 then 0 else 1) := by decide +kernel

/-- Three rows `a + b - f <= 0` with `f` fixed at one. -/
def fixed1 : Prob := ⟨4, 1000000, fun i => if i = 3 then 1 else 0, fun _ => 1, fun _ => true,
  [⟨-1000000, 0, [(0, 1), (1, 1), (3, -1)]⟩, ⟨-1000000, 0, [(2, 1), (1, 1), (3, -1)]⟩,
   ⟨-1000000, 0, [(0, 1), (2, 1), (3, -1)]⟩]⟩

/-- The full property is false of the code: with a column fixed at one, a feasible point is cut off. -/
theorem generateCuts_fixed_invalid : ∃ (P : Prob) (lp dj check : Nat → ℚ) (fuel : Nat) (out : List RowCut) (c : RowCut)
    (x : Nat → ℚ), P.WF ∧ 2 ≤ P.inf ∧ generateCuts Obj.init P lp dj check check fuel [] = .ok out ∧ c ∈ out ∧
      P.Feasible x ∧ ¬ c.Sat x := by
  refine ⟨fixed1, fun _ => 1/2, fun _ => 0, fun i => i + 1, 1000, [⟨-dblMax, 1, [(0, 1), (2, 1), (3, 1), (1, 1)]⟩],
    ⟨-dblMax, 1, [(0, 1), (2, 1), (3, 1), (1, 1)]⟩, fun j => if j = 0 ∨ j = 3 then 1 else 0, by decide +kernel,
    by decide +kernel, ?_, by simp, by decide +kernel, ?_⟩
  · have h : (generateCuts Obj.init fixed1 (fun _ => 1/2) (fun _ => 0) (fun i => i + 1) (fun i => i + 1) 1000 []).toOption
        = some [⟨-dblMax, 1, [(0, 1), (2, 1), (3, 1), (1, 1)]⟩] := by decide +kernel
    revert h
    generalize generateCuts Obj.init fixed1 (fun _ => 1/2) (fun _ => 0) (fun i => i + 1) (fun i => i + 1) 1000 [] = q
    intro h
    cases q with
    | error e => cases h
    | ok l => simpa [Except.toOption] using h
  · decide +kernel

/-- Non-vacuity with a column fixed at one: three rows `a + b + f >= 2`, `f = 1`, give `a + b + c + 2 f >= 2`. -/
def cov3f : Prob := ⟨4, 1000000, fun i => if i = 3 then 1 else 0, fun _ => 1, fun _ => true,
  [⟨2, 1000000, [(0, 1), (1, 1), (3, 1)]⟩, ⟨2, 1000000, [(1, 1), (2, 1), (3, 1)]⟩, ⟨2, 1000000, [(2, 1), (0, 1), (3, 1)]⟩]⟩

example : (generateCuts Obj.init cov3f (fun _ => 1/2) (fun _ => 0) (fun i => i + 1) (fun i => i + 1) 1000 []).toOption.map
      (fun l => l.map fun c => (c.lb, c.row)) = some [(2, [(2, 1), (0, 1), (3, 2), (1, 1)])] ∧ cov3f.WF ∧
    FixedNat cov3f ∧ FiniteFixed cov3f ∧ cov3f.Feasible (fun j => if j = 2 then 0 else 1) := by decide +kernel

/-- Three rows `a + b - 2 f >= 3` with `f` fixed at minus one. -/
def coverNeg : Prob := ⟨4, 1000000, fun i => if i = 3 then -1 else 0, fun i => if i = 3 then -1 else 1, fun _ => true,
  [⟨3, 1000000, [(0, 1), (1, 1), (3, -2)]⟩, ⟨3, 1000000, [(1, 1), (2, 1), (3, -2)]⟩, ⟨3, 1000000, [(2, 1), (0, 1), (3, -2)]⟩]⟩

/-- The full covering property is false of the code: with a column fixed at minus one every feasible point is cut
off. -/
theorem generateCuts_cover_invalid : ∃ (P : Prob) (lp dj check : Nat → ℚ) (fuel : Nat) (out : List RowCut) (c : RowCut)
    (x : Nat → ℚ), P.WF ∧ 2 ≤ P.inf ∧ (generateCuts Obj.init P lp dj check check fuel []).toOption = some out ∧ c ∈ out ∧
      c.ub = dblMax ∧ P.Feasible x ∧ ¬ c.Sat x :=
  ⟨coverNeg, fun _ => 1/2, fun _ => 0, fun i => i + 1, 1000, [⟨2, dblMax, [(2, 1), (0, 1), (3, 2), (1, 1)]⟩],
    ⟨2, dblMax, [(2, 1), (0, 1), (3, 2), (1, 1)]⟩, fun j => if j = 3 then -1 else 1, by decide +kernel, by decide +kernel,
    by decide +kernel, by simp, rfl, by decide +kernel, by decide +kernel⟩

/-! ## C18: limits -/

/-- **C18, first part, restricted.** Every cut added has at most 100 entries and is violated by at least 0.001 at the
LP solution after the generator's rounding of it. Missing from the full statement: the limits the user set with the
setters, which are ignored (`limits_ignored`). -/
theorem generateCuts_limits_partial (o : Obj) (P : Prob) (lp dj check1 check2 : Nat → ℚ) (fuel : Nat)
    (cs out : List RowCut) (h : generateCuts o P lp dj check1 check2 fuel cs = .ok out) :
    ∀ c ∈ out, c ∈ cs ∨ (c.row.length ≤ 100 ∧
      (c.row.dot (cleanSol P lp) ≥ c.ub + 1 / 1000 ∨ c.row.dot (cleanSol P lp) ≤ c.lb - 1 / 1000)) := by
  have hl : ∀ els : List (Nat × Nat), SVec.dot (els.map fun p => (p.1, (p.2 : ℚ))) (cleanSol P lp)
      = lhs (cleanSol P lp) els := by
    intro els
    unfold SVec.dot lhs
    rw [List.map_map]
    congr 1
    apply List.map_congr_left
    intro p _
    simp only [Function.comp_apply]; ring
  intro c hc
  rcases generateCuts_split h c hc with h1 | h1 | h1
  · exact Or.inl h1
  · right
    obtain ⟨rs, els, _, _, _, _, _, rfl, hv, hlen⟩ := h1.ex
    have := hlen (by decide)
    simp only [Obj.init, if_true] at this hv
    simp only [mkCut, if_true, List.length_map, hl]
    exact ⟨by omega, Or.inl (by linarith)⟩
  · right
    obtain ⟨rs, els, _, _, _, _, _, rfl, hv, hlen⟩ := h1.ex
    have := hlen (by decide)
    simp only [Obj.init, Bool.false_eq_true, if_false] at this hv
    simp only [mkCut, Bool.false_eq_true, if_false, List.length_map, hl]
    exact ⟨by omega, Or.inr (by linarith)⟩

/-- On a column that the rounding leaves alone the rounded value is the LP value: a free 0-1 column at 0, at 1 or
strictly inside, or any column at 0. -/
theorem cleanSol_eq (P : Prob) (lp : Nat → ℚ) (j : Nat)
    (h : (colType P j = 1 ∧ P.colUpper j - P.colLower j ≥ epsilon ∧
        (lp j = 0 ∨ lp j = 1 ∨ (epsilon ≤ lp j ∧ lp j ≤ 1 - epsilon))) ∨ lp j = 0) : cleanSol P lp j = lp j := by
  have he : (0:ℚ) < epsilon := by norm_num [epsilon]
  have he1 : epsilon < 1 / 2 := by norm_num [epsilon]
  unfold cleanSol onetol
  rcases h with ⟨h1, h2, h3⟩ | h0
  · rw [if_pos h1, if_neg (not_lt.mpr h2)]
    rcases h3 with h3 | h3 | ⟨h3, h4⟩
    · rw [h3, if_pos he]
    · rw [h3, if_neg (by linarith), if_pos (by linarith)]
    · rw [if_neg (not_lt.mpr h3), if_neg (not_lt.mpr h4)]
  · rw [h0]
    split <;> simp

/-- **C18, first part, at the LP solution itself**, when the rounding changes nothing: every column is a free 0-1 column
at 0, at 1 or between the tolerances, or is at 0. -/
theorem generateCuts_limits_exact_partial (o : Obj) (P : Prob) (lp dj check1 check2 : Nat → ℚ) (fuel : Nat)
    (cs out : List RowCut) (h : generateCuts o P lp dj check1 check2 fuel cs = .ok out)
    (hlp : ∀ j, (colType P j = 1 ∧ P.colUpper j - P.colLower j ≥ epsilon ∧
        (lp j = 0 ∨ lp j = 1 ∨ (epsilon ≤ lp j ∧ lp j ≤ 1 - epsilon))) ∨ lp j = 0) :
    ∀ c ∈ out, c ∈ cs ∨ (c.row.length ≤ 100 ∧
      (c.row.dot lp ≥ c.ub + 1 / 1000 ∨ c.row.dot lp ≤ c.lb - 1 / 1000)) := by
  have e : cleanSol P lp = lp := funext fun j => cleanSol_eq P lp j (hlp j)
  have := generateCuts_limits_partial o P lp dj check1 check2 fuel cs out h
  rwa [e] at this

/-- The limits of an object are in their documented ranges. -/
def InRange (o : Obj) : Prop :=
  1 / 10 ^ 8 < o.minimumViolation ∧ o.minimumViolation ≤ 1 / 2 ∧ 1 / 10 ^ 8 < o.minimumViolationPer ∧
    o.minimumViolationPer ≤ 1 / 4 ∧ 2 < o.maximumEntries

/-- Calls that change an object. -/
inductive Call
  | minViolation (v : ℚ) | minViolationPer (v : ℚ) | maxEntries (v : Int) | copyOf | assignOf (dst : Obj)
  | rowList (l : List Int)

/-- The call on the model. -/
def apply (o : Obj) : Call → Obj
  | .minViolation v => setMinimumViolation o v
  | .minViolationPer v => setMinimumViolationPer o v
  | .maxEntries v => setMaximumEntries o v
  | .copyOf => copy o
  | .assignOf d => assign d o
  | .rowList l => { o with suitableRows := some l }

/-- **C18, second part.** After any history of setter calls, copies and assignments the limits are in range, and each
setter either stores exactly the value given or, if that value is out of range, changes nothing. -/
theorem setters_in_range (calls : List Call) : InRange (calls.foldl apply Obj.init) := by
  have hstep : ∀ o, InRange o → ∀ c, InRange (apply o c) := by
    intro o ho c
    unfold InRange at ho ⊢
    cases c <;> simp only [apply]
    · unfold setMinimumViolation; split
      · rename_i h; exact ⟨h.1, h.2, ho.2.2⟩
      · exact ho
    · unfold setMinimumViolationPer; split
      · rename_i h; exact ⟨ho.1, ho.2.1, h.1, h.2, ho.2.2.2.2⟩
      · exact ho
    · unfold setMaximumEntries; split
      · rename_i h; exact ⟨ho.1, ho.2.1, ho.2.2.1, ho.2.2.2.1, h⟩
      · exact ho
    · exact ho
    · exact ho
    · exact ho
  have hall : ∀ (calls : List Call) (o : Obj), InRange o → InRange (calls.foldl apply o) := by
    intro calls
    induction calls with
    | nil => intro o h; exact h
    | cons c cs ih => intro o h; exact ih _ (hstep o h c)
  exact hall calls _ (by unfold InRange Obj.init; norm_num)

/-- What each setter does. -/
theorem setters_exact (o : Obj) (v : ℚ) (n : Int) :
    (setMinimumViolation o v = if 1 / 10 ^ 8 < v ∧ v ≤ 1 / 2 then { o with minimumViolation := v } else o) ∧
    (setMinimumViolationPer o v = if 1 / 10 ^ 8 < v ∧ v ≤ 1 / 4 then { o with minimumViolationPer := v } else o) ∧
    (setMaximumEntries o n = if 2 < n then { o with maximumEntries := n } else o) := ⟨rfl, rfl, rfl⟩

/-- The configured limits are ignored by the code: with the maximum number of entries set to 3, `generateCuts` returns
a cut with 5 entries (it runs a default-constructed helper object). -/
theorem limits_ignored : ∃ (P : Prob) (lp dj check : Nat → ℚ) (fuel : Nat) (out : List RowCut),
    (generateCuts (setMaximumEntries Obj.init 3) P lp dj check check fuel []).toOption = some out ∧
      (setMaximumEntries Obj.init 3).maximumEntries = 3 ∧ ∃ c ∈ out, c.row.length = 5 := by
  refine ⟨cyc5, fun _ => 1/2, fun _ => 0, fun i => i + 1, 1000,
    (generateCuts (setMaximumEntries Obj.init 3) cyc5 (fun _ => 1/2) (fun _ => 0) (fun i => i + 1) (fun i => i + 1)
      1000 []).toOption.get (by decide +kernel), by simp, by decide +kernel, by decide +kernel⟩

/-! ## C35: the call always ends, with all array accesses in range -/

theorem zip_map_length {α β γ : Type} (l : List α) (m : List β) (f : α × β → γ) (h : m.length = l.length) :
    ((l.zip m).map f).length = l.length := by rw [List.length_map, List.length_zip, h, Nat.min_self]

theorem checkRow_length (o : Obj) (n : Nat) : (checkRow o n).length = n := by
  unfold checkRow
  split
  · simp
  · rename_i l _
    rw [List.length_append, List.length_take, List.length_replicate]; omega

/-- **C35, restricted.** For every problem, LP solution and row list, the call ends within `4·nCols·10^82 + 2` search
steps per start column and all array accesses are in range, if there are at least as many rows as columns. Missing from
the full statement: fewer rows than columns, where the only possible fault is writing too many rows to `mrow`, which
does happen (`generateCuts_overflow`). -/
theorem generateCuts_total_partial (o : Obj) (P : Prob) (lp dj check1 check2 : Nat → ℚ) (fuel : Nat)
    (cs : List RowCut) (hfuel : 4 * P.nCols * 10 ^ 82 + 1 < fuel) :
    (∃ out, generateCuts o P lp dj check1 check2 fuel cs = .ok out) ∨
      (P.rows.length < P.nCols ∧ generateCuts o P lp dj check1 check2 fuel cs = .error .mrowOverflow) := by
  unfold generateCuts
  dsimp only
  have hlen0 : (createRowList P (checkRow o P.rows.length)).length = P.rows.length := by
    unfold createRowList; exact zip_map_length _ _ _ (checkRow_length _ _)
  have hlen1 := zip_map_length P.rows _ (fun rs => packedSuit P lp rs.1 rs.2) hlen0
  have hlen2 := zip_map_length P.rows _ (fun rs => coverSuit P lp rs.1 rs.2) hlen1
  rcases pass_total Obj.init P lp dj check1 fuel _ true cs hlen1 hfuel with ⟨cs1, h⟩ | ⟨h0, h⟩
  · rw [h]
    dsimp only
    split
    · exact pass_total Obj.init P lp dj check2 fuel _ false cs1 hlen2 hfuel
    · exact Or.inl ⟨_, rfl⟩
  · rw [h]
    exact Or.inr ⟨h0, rfl⟩

/-- One covering row with three columns. -/
def cov1 : Prob := ⟨3, 1000000, fun _ => 0, fun _ => 1, fun _ => true, [⟨1, 1000000, [(0, 1), (1, 1), (2, 1)]⟩]⟩

/-- The full property is false of the code: with one covering row and an LP solution of thirds, three row numbers are
written to an array allocated for one. -/
theorem generateCuts_overflow : ∃ (P : Prob) (lp dj check : Nat → ℚ) (fuel : Nat), P.WF ∧
    (∀ r ∈ P.rows, r.Sat P.inf lp) ∧ generateCuts Obj.init P lp dj check check fuel [] = .error .mrowOverflow := by
  refine ⟨cov1, fun _ => 1/3, fun _ => 0, fun i => i + 1, 1000, by decide +kernel, by decide +kernel, ?_⟩
  have h : (match generateCuts Obj.init cov1 (fun _ => 1/3) (fun _ => 0) (fun i => i + 1) (fun i => i + 1) 1000 [] with
    | .error e => decide (e = .mrowOverflow)
    | .ok _ => false) = true := by decide +kernel
  revert h
  generalize generateCuts Obj.init cov1 (fun _ => 1/3) (fun _ => 0) (fun i => i + 1) (fun i => i + 1) 1000 [] = q
  intro h
  cases q with
  | error e => simp only [decide_eq_true_eq] at h; rw [h]
  | ok l => cases h

/-! ## C36: copies behave like the original -/

/-- **C36, restricted.** A copy-constructed object returns the same cuts as its source if the source has no row list or
a non-empty one, and an assigned object does if the source has a row list. -/
theorem copies_same_partial (o d : Obj) (P : Prob) (lp dj check1 check2 : Nat → ℚ) (fuel : Nat) (cs : List RowCut) :
    (o.suitableRows ≠ some [] →
      generateCuts (copy o) P lp dj check1 check2 fuel cs = generateCuts o P lp dj check1 check2 fuel cs) ∧
    (o.suitableRows ≠ none →
      generateCuts (assign d o) P lp dj check1 check2 fuel cs = generateCuts o P lp dj check1 check2 fuel cs) := by
  obtain ⟨a, b, c, s⟩ := o
  constructor
  · intro h
    match s, h with
    | none, _ => rfl
    | some (x :: l), _ => rfl
    | some [], h => exact absurd rfl h
  · intro h
    match s, h with
    | none, h => exact absurd rfl h
    | some l, _ => rfl

/-- The full property is false of the code: an object assigned from a default-constructed one finds no cuts. -/
theorem assign_disables : ∃ (P : Prob) (lp dj check : Nat → ℚ) (fuel : Nat),
    rowsOf (generateCuts Obj.init P lp dj check check fuel []) ≠ some [] ∧
    rowsOf (generateCuts (assign Obj.init Obj.init) P lp dj check check fuel []) = some [] :=
  ⟨cyc5, fun _ => 1/2, fun _ => 0, fun i => i + 1, 1000, by decide +kernel, by decide +kernel⟩

end Cgl.OddHole
