import Verif.MIR.Props

/-!
# Concrete cases for the mixed integer rounding theorems

The hypotheses of the theorems of `Props` are met by problems on which cuts are generated; and each proviso is needed: the
code gives invalid cuts, or undefined behaviour, on the problems below.
-/

namespace Cgl.MIR.Witness

open Cgl Cgl.MIR

/-- A square root, from above, with 40 steps of bisection. -/
def bis : Nat → ℚ → ℚ → ℚ → ℚ
  | 0, _, _, hi => hi
  | n + 1, q, lo, hi =>
    let m := (lo + hi) / 2
    if m * m < q then bis n q m hi else bis n q lo m

/-- Parameters: `MAXAGGR_` = `k`, `MULTIPLY_` true, criterion 1. -/
def par (k : Nat) : Par := ⟨k, true, 1, fun q => bis 40 q 0 (max q 1), fun l => l.insertionSort fun a b => a.2 ≤ b.2⟩

theorem sorter_ok (k : Nat) : SorterOk (par k) := fun l => List.perm_insertionSort _ l

/-- The solver's infinity. -/
def M : ℚ := 10 ^ 60

/-- Column 0 integer in [0, 5], columns 1 and 2 continuous in [0, 10]. -/
def mk (rows : List Row) : Prob := ⟨3, M, fun _ => 0, fun j => if j = 0 then 5 else 10, fun j => j == 0, rows⟩

/-- A new object of the second kind with `MAXAGGR_` = `k`. -/
def new2 (k : Int) : Obj2 := ⟨Obj.init (par 1) (-1), k⟩

/-- The root node, first pass. -/
def root : Info := ⟨false, 0, 0⟩

/-- The cuts of one call on a new object of the first kind. -/
def cuts1 (k : Nat) (P : Prob) (act xlp : Nat → ℚ) : Option (List RowCut) :=
  (generateCuts (Obj.init (par k) (-1)) P act xlp []).map Prod.snd

/-- The cuts of one call on a new object of the second kind. -/
def cuts2 (k : Int) (P : Prob) (act xlp : Nat → ℚ) : Option (List RowCut) :=
  (generateCuts2 false (new2 k) P root act xlp []).map Prod.snd

/-! ### The hypotheses can be met -/

/-- x0 + x1 ≥ 3/2 and 2 x1 + x2 ≤ 4. -/
def good : Prob := mk [⟨3 / 2, M, [(0, 1), (1, 1)]⟩, ⟨-M, 4, [(1, 2), (2, 1)]⟩]
/-- An LP solution of `good`. -/
def goodX : Nat → ℚ := fun j => if j = 0 then 14 / 10 else if j = 1 then 1 / 10 else 1
/-- Row activities of `good` at `goodX`. -/
def goodA : Nat → ℚ := fun i => if i = 0 then 3 / 2 else 12 / 10

theorem good_clean : CleanData good := by
  refine ⟨⟨?_, ?_⟩, ?_, ?_, ?_⟩
  · decide +kernel
  · decide +kernel
  · decide +kernel
  · intro j hj h
    right
    have : j = 0 := by simpa [good, mk] using h
    subst this; exact ⟨5, by simp [good, mk]⟩
  · decide +kernel

/-- A run with two rows aggregated is clean and gives the cut x0 + 2 x1 ≥ 2. -/
example : CleanRun false (par 2) good (preprocess false good goodA) good.rows goodA goodX := by decide +kernel
example : CleanRun true (par 2) good (preprocess true good goodA) good.rows goodA goodX := by decide +kernel
example : (aggsFrom false (par 2) good (preprocess false good goodA) good.rows goodA goodX 0).length = 2 := by decide +kernel
example : cuts1 2 good goodA goodX = some [⟨-M, -2, [(0, -1), (1, -2)]⟩] := by decide +kernel
example : cuts2 2 good goodA goodX = some [⟨-M, -2, [(0, -1), (1, -2)]⟩] := by decide +kernel
example : good.Feasible (fun j => if j = 0 then 2 else 0) := by
  refine ⟨by decide +kernel, by decide +kernel, by decide +kernel, ?_⟩
  intro j hj h
  have : j = 0 := by simpa [good, mk] using h
  subst this; exact ⟨2, by simp⟩
example : Representable good (fun j => if j = 0 then 2 else 0) := by
  intro j _; unfold good mk M; simp only; split <;> norm_num

/-- The hypotheses of the histories theorem: a second call with other column bounds and another row. -/
example : Later good { good with colUpper := fun _ => 7, rows := good.rows ++ [⟨-M, 3, [(0, 1)]⟩] } :=
  ⟨rfl, rfl, fun _ _ => rfl, ⟨_, rfl⟩⟩

/-! ### Each proviso is needed -/

/-- A feasible, representable point of `P` that violates a cut of `cs`. -/
def Broken (P : Prob) (cs : List RowCut) : Prop := ∃ x, P.Feasible x ∧ Representable P x ∧ ∃ c ∈ cs, ¬ c.SatIn P.inf x

/-- Columns of `mk`: a point is feasible if it satisfies the rows and the bounds and its first coordinate is an integer. -/
theorem feas {rows : List Row} {a b : ℚ} (z : ℤ) (h0 : 0 ≤ z ∧ z ≤ 5) (ha : 0 ≤ a ∧ a ≤ 10) (hb : 0 ≤ b ∧ b ≤ 10)
    (hr : ∀ r ∈ rows, r.Sat M fun j => if j = 0 then (z : ℚ) else if j = 1 then a else b) :
    (mk rows).Feasible (fun j => if j = 0 then (z : ℚ) else if j = 1 then a else b) ∧
    Representable (mk rows) (fun j => if j = 0 then (z : ℚ) else if j = 1 then a else b) := by
  have hz1 : (0 : ℚ) ≤ z := by exact_mod_cast h0.1
  have hz2 : (z : ℚ) ≤ 5 := by exact_mod_cast h0.2
  refine ⟨⟨hr, ?_, ?_, ?_⟩, ?_⟩
  · intro j _ _; simp only [mk]; split
    · exact hz1
    · split
      · exact ha.1
      · exact hb.1
  · intro j _ _; simp only [mk]; split
    · exact hz2
    · split
      · exact ha.2
      · exact hb.2
  · intro j _ h
    have : j = 0 := by simpa [mk] using h
    subst this; exact ⟨z, by simp⟩
  · intro j _; simp only [mk, M]; split
    · rw [abs_of_nonneg hz1]; exact hz2.trans (by norm_num)
    · split
      · rw [abs_of_nonneg ha.1]; exact ha.2.trans (by norm_num)
      · rw [abs_of_nonneg hb.1]; exact hb.2.trans (by norm_num)

/-- x0 + x1 ≥ 3/2 and 2000000 x1 + x2 ≤ 4000000: no small number in the data. -/
def steep : Prob := mk [⟨3 / 2, M, [(0, 1), (1, 1)]⟩, ⟨-M, 4 * 10 ^ 6, [(1, 2 * 10 ^ 6), (2, 1)]⟩]

/-- **C23 is false of the first generator**: aggregating the two rows of `steep` gives coefficients 5e-7, which are dropped; the
cut x1 ≥ 2 is not satisfied by x0 = 2, x1 = x2 = 0. -/
theorem first_invalid : ∃ cs, cuts1 2 steep (fun _ => 3 / 2) goodX = some cs ∧ Broken steep cs := by
  refine ⟨[⟨-M, -2, [(0, -1), (1, -2)]⟩, ⟨-M, -4, [(1, -2)]⟩], by decide +kernel, ?_⟩
  obtain ⟨h1, h2⟩ := feas (rows := steep.rows) (a := 0) (b := 0) 2 (by decide) (by norm_num) (by norm_num) (by decide +kernel)
  exact ⟨_, h1, h2, ⟨-M, -4, [(1, -2)]⟩, by simp, by decide +kernel⟩

/-- ... and its rows are clean. -/
example : RowsClean steep.rows := by decide +kernel

/-- **C43 is false of the second generator**: on the same rows it reads the bounds of a column that does not exist. -/
theorem second_reads_outside : cuts2 2 steep (fun _ => 3 / 2) goodX = none := by decide +kernel

/-- A coefficient of exactly -1e-6: x0/100 - x1/10^6 ≥ -5/1000. -/
def edge : Prob := ⟨2, M, fun _ => 0, fun j => if j = 0 then 1 else 10 ^ 6, fun j => j == 0,
  [⟨-5 / 1000, M, [(0, 1 / 100), (1, -1 / 10 ^ 6)]⟩]⟩

theorem edge_feasible : edge.Feasible (fun j => if j = 0 then 0 else 5000) ∧
    Representable edge (fun j => if j = 0 then 0 else 5000) := by
  refine ⟨⟨by decide +kernel, by decide +kernel, by decide +kernel, ?_⟩, ?_⟩
  · intro j _ h
    have : j = 0 := by simpa [edge] using h
    subst this; exact ⟨0, by simp⟩
  · intro j _; simp only [edge, M]; split <;> norm_num

/-- **C23 is false of both generators**: a coefficient of exactly 1e-6 is neither kept nor relaxed. -/
theorem both_invalid : ∃ cs, cuts1 1 edge (fun _ => -5 / 1000) (fun j => if j = 0 then 1 / 10 else 6000) = some cs ∧
    cuts2 1 edge (fun _ => -5 / 1000) (fun j => if j = 0 then 1 / 10 else 6000) = some cs ∧ Broken edge cs :=
  ⟨[⟨-M, 0, [(1, 1 / 5000)]⟩], by decide +kernel, by decide +kernel, _, edge_feasible.1, edge_feasible.2,
    ⟨-M, 0, [(1, 1 / 5000)]⟩, by simp, by decide +kernel⟩

/-- An integer column with upper bound 3/2: x0 + x1 ≥ 12/10. -/
def frac : Prob := ⟨2, M, fun _ => 0, fun j => if j = 0 then 3 / 2 else 10, fun j => j == 0, [⟨12 / 10, M, [(0, 1), (1, 1)]⟩]⟩

theorem frac_feasible : frac.Feasible (fun j => if j = 0 then 1 else 2 / 10) ∧
    Representable frac (fun j => if j = 0 then 1 else 2 / 10) := by
  refine ⟨⟨by decide +kernel, by decide +kernel, by decide +kernel, ?_⟩, ?_⟩
  · intro j _ h
    have : j = 0 := by simpa [frac] using h
    subst this; exact ⟨1, by simp⟩
  · intro j _; simp only [frac, M]; split <;> norm_num

/-- **C23 is false of both generators**: an integer column is complemented with a fractional bound. -/
theorem fractional_upper_invalid : ∃ cs, cuts1 1 frac (fun _ => 14 / 10) (fun j => if j = 0 then 14 / 10 else 0) = some cs ∧
    cuts2 1 frac (fun _ => 14 / 10) (fun j => if j = 0 then 14 / 10 else 0) = some cs ∧ Broken frac cs :=
  ⟨[⟨-M, -7 / 2, [(0, -7 / 3), (1, -10 / 3)]⟩], by decide +kernel, by decide +kernel, _, frac_feasible.1, frac_feasible.2,
    ⟨-M, -7 / 2, [(0, -7 / 3), (1, -10 / 3)]⟩, by simp, by decide +kernel⟩

/-- **C43 is false of copies of objects of the second kind**: after a call, a copy reads row types that were never written. -/
theorem copy_reads_unwritten : ∃ o cs, generateCuts2 false (new2 2) good root goodA goodX [] = some (o, cs) ∧
    generateCuts2 false o good root goodA goodX [] ≠ none ∧
    generateCuts2 false (copy2 o) good root goodA goodX [] = none := by
  have h1 : (generateCuts2 false (new2 2) good root goodA goodX []).isSome = true := by decide +kernel
  obtain ⟨⟨o, cs⟩, ho⟩ := Option.isSome_iff_exists.1 h1
  have h2 : (match generateCuts2 false (new2 2) good root goodA goodX [] with
    | some r => (generateCuts2 false r.1 good root goodA goodX []).isSome
    | none => false) = true := by decide +kernel
  have h3 : (match generateCuts2 false (new2 2) good root goodA goodX [] with
    | some r => (generateCuts2 false (copy2 r.1) good root goodA goodX []).isNone
    | none => false) = true := by decide +kernel
  rw [ho] at h2 h3
  refine ⟨o, cs, ho, ?_, ?_⟩
  · intro h; simp only at h2; rw [h] at h2; cases h2
  · simpa using h3

/-- -x0 + x1 ≥ -1/2. -/
def flip : Prob := mk [⟨-1 / 2, M, [(0, -1), (1, 1)]⟩]

/-- **C23 is false of the second generator compiled with `CBC_HAS_CLP`**: rows without upper bound are negated but the recorded
senses and right-hand sides are those before. -/
theorem clp_invalid : ∃ o cs, generateCuts2 true (new2 1) flip root (fun _ => 95 / 10)
      (fun j => if j = 0 then 4 / 10 else 99 / 10) [] = some (o, cs) ∧ Broken flip cs := by
  have h : (generateCuts2 true (new2 1) flip root (fun _ => 95 / 10) (fun j => if j = 0 then 4 / 10 else 99 / 10) []).map
      Prod.snd = some [⟨-M, 10, [(0, -1), (1, 2)]⟩] := by decide +kernel
  obtain ⟨⟨o, cs⟩, h1, h2⟩ := Option.map_eq_some_iff.1 h
  simp only at h2
  subst h2
  obtain ⟨g1, g2⟩ := feas (rows := flip.rows) (a := 10) (b := 0) 0 (by decide) (by norm_num) (by norm_num) (by decide +kernel)
  exact ⟨o, _, h1, _, g1, g2, ⟨-M, 10, [(0, -1), (1, 2)]⟩, by simp, by decide +kernel⟩

/-- The row of `good` with another right-hand side. -/
def changed : Prob := mk [⟨1 / 2, M, [(0, 1), (1, 1)]⟩, ⟨-M, 4, [(1, 2), (2, 1)]⟩]

/-- **C42 is false when rows change**: a second call after the right-hand side of a row has been lowered uses the old one. -/
theorem stale_invalid : ∃ r1 r2, history (Obj.init (par 1) (-1)) [⟨good, goodA, goodX, []⟩,
    ⟨changed, fun _ => 1 / 2, fun j => if j = 0 then 4 / 10 else if j = 1 then 1 / 10 else 1, []⟩] = some [r1, r2] ∧
    Broken changed r2 := by
  refine ⟨[⟨-M, -2, [(0, -1), (1, -2)]⟩], [⟨-M, -2, [(0, -1), (1, -2)]⟩], by decide +kernel, ?_⟩
  obtain ⟨h1, h2⟩ := feas (rows := changed.rows) (a := 0) (b := 0) 1 (by decide) (by norm_num) (by norm_num) (by decide +kernel)
  exact ⟨_, h1, h2, ⟨-M, -2, [(0, -1), (1, -2)]⟩, by simp, by decide +kernel⟩

end Cgl.MIR.Witness
