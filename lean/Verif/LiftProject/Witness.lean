import Verif.LiftProject.Props

/-!
# CglLiftAndProject: cases that meet the hypotheses, and defects
-/

namespace Cgl.LiftProject

/-- The computation succeeds and its result passes the test. -/
def okAnd {α : Type} (r : Except Fault α) (f : α → Bool) : Bool :=
  match r with
  | .ok a => f a
  | .error _ => false

theorem okAnd_spec {α : Type} {r : Except Fault α} {f : α → Bool} (h : okAnd r f = true) :
    ∃ a, r = .ok a ∧ f a = true := by
  rcases r with e | a
  · cases h
  · exact ⟨a, rfl, h⟩

/-- The fault of a computation. -/
def faultOf {α : Type} (r : Except Fault α) : Option Fault :=
  match r with
  | .ok _ => none
  | .error e => some e

theorem faultOf_spec {α : Type} {r : Except Fault α} {e : Fault} (h : faultOf r = some e) : r = .error e := by
  rcases r with e' | a
  · simp only [faultOf, Option.some.injEq] at h; rw [h]
  · cases h

instance (I : Input) : Decidable (NoGaps I) := by unfold NoGaps; infer_instance
instance (P : Prob) : Decidable (Canonical P) := by unfold Canonical; infer_instance
instance (I : Input) : Decidable (FractionalBinary I) := by unfold FractionalBinary; infer_instance

instance (P : Prob) : Decidable (Documented P) :=
  decidable_of_iff ((∀ r ∈ P.rows, -P.inf < r.lb ∧ P.inf ≤ r.ub) ∧
    (∀ j < P.nCols, colType P j = 1 → ∃ r ∈ P.rows, r.lb = 0 ∧ r.coefs = [(j, 1)]) ∧
    ∀ j < P.nCols, colType P j = 1 → ∃ r ∈ P.rows, r.lb = -1 ∧ r.coefs = [(j, -1)])
    ⟨fun ⟨h1, h2, h3⟩ => ⟨h1, h2, h3⟩, fun h => ⟨h.1, h.2, h.3⟩⟩

instance (L : Lp) (w : Nat → ℚ) : Decidable (L.Feasible w) :=
  decidable_of_iff ((∀ r < L.rhs.length, L.row w r = L.rhs.getD r 0) ∧ ∀ c < L.nonneg, 0 ≤ w c)
    ⟨fun h => ⟨h.1, h.2⟩, fun h => ⟨h.1, h.2⟩⟩

/-- `∞` of the examples. -/
def big : ℚ := 10^30

/-- A solver that can solve one problem. -/
def only (L : Lp) (w : Nat → ℚ) : Solver := fun L' => if L' = L then some w else none

theorem only_right {L : Lp} {w : Nat → ℚ} (h : L.Feasible w) (hopt : ∀ w', L.Feasible w' → L.value w ≤ L.value w') :
    Right (only L w) := by
  intro L' w' h'
  unfold only at h'
  split at h'
  · rename_i e
    obtain rfl := Option.some.inj h'
    subst e
    exact ⟨h, hopt⟩
  · exact absurd h' (by simp)

/-! ### A cut from a binary column -/

/-- `2x + y ≥ 2`, `-2x + y ≥ 0`, with `x` in `[0, 1]`, `y ≥ 0` and one more binary column; `x` is binary or not. -/
def probA (int : Bool) : Prob :=
  ⟨3, big, fun _ => 0, fun j => if j = 1 then big else 1, fun j => if j = 0 then int else decide (j = 2),
    [⟨2, big, [(0, 2), (1, 1)]⟩, ⟨0, big, [(0, -2), (1, 1)]⟩]⟩

/-- `x = 1/2`, `y = 1`. -/
def inputA (int : Bool) : Input := ⟨probA int, fun i => 2 * i, fun j => if j = 0 then 1/2 else if j = 1 then 1 else 0⟩

/-- `u = (1/2, 0)`, `v = (0, 1/2)`, `v_0 = 1`, `u_0 = -1`. -/
def wA : Nat → ℚ := fun c => if c = 0 then 1/2 else if c = 3 then 1/2 else if c = 4 then 1 else if c = 5 then -1 else 0

/-- Solves the cone problem of `x`. -/
def solveA (int : Bool) : Solver := only (cone (inputA int) 1 (coneCols (inputA int)) 0) wA

theorem solveA_right (int : Bool) : Right (solveA int) := by
  have hwf : (inputA int).P.WF := by cases int <;> decide +kernel
  refine only_right (by cases int <;> decide +kernel) fun w' hw' => ?_
  have hm := multipliers_of hwf (show 0 < (inputA int).n by cases int <;> decide) hw'
  have e0 := hm.balance 0 (by cases int <;> decide)
  have e1 := hm.balance 1 (by cases int <;> decide)
  have eu := hm.ub
  have ev := hm.vb
  have v0 := hm.v 0 (by cases int <;> decide)
  simp only [show (inputA int).m = 2 from rfl] at e0 e1 eu ev v0
  have c00 : ((inputA int).P.row 0).coef 0 = 2 := by cases int <;> decide +kernel
  have c01 : ((inputA int).P.row 0).coef 1 = 1 := by cases int <;> decide +kernel
  have c10 : ((inputA int).P.row 1).coef 0 = -2 := by cases int <;> decide +kernel
  have c11 : ((inputA int).P.row 1).coef 1 = 1 := by cases int <;> decide +kernel
  have b0 : ((inputA int).P.row 0).lb = 2 := by cases int <;> decide +kernel
  have b1 : ((inputA int).P.row 1).lb = 0 := by cases int <;> decide +kernel
  simp only [Finset.sum_range_succ, Finset.sum_range_zero, c00, c01, c10, c11, b0, b1] at e0 e1 eu ev
  norm_num at e0 e1 eu ev v0
  have hv : ∀ w : Nat → ℚ, (cone (inputA int) 1 (coneCols (inputA int)) 0).value w = 2 * w 0 + 0 * w 1 + 1/2 * w 5 := by
    intro w
    have ho : (cone (inputA int) 1 (coneCols (inputA int)) 0).obj = [2, 0, 0, 0, 0, 1/2] := by
      cases int <;> decide +kernel
    unfold Lp.value
    rw [ho, list_range_sum]
    simp [Finset.sum_range_succ]
  rw [hv, hv]
  have a0 : wA 0 = 1/2 := rfl
  have a5 : wA 5 = -1 := rfl
  rw [a0, a5]
  linarith

/-- The hypotheses of the theorems are met by a call that generates a cut, which cuts off the LP solution. -/
theorem valid_case : (inputA true).P.WF ∧ 1 < (inputA true).P.inf ∧ Right (solveA true) ∧ NoGaps (inputA true) ∧
    Canonical (inputA true).P ∧ FractionalBinary (inputA true) ∧ 0 < (inputA true).m ∧ (inputA true).m < (inputA true).n ∧
    ∃ cs, generateCuts Obj.new (inputA true) (solveA true) [] = .ok cs ∧ ∃ c ∈ cs, ¬ c.SatIn big (inputA true).x := by
  refine ⟨by decide +kernel, by decide +kernel, solveA_right true, by decide +kernel, by decide +kernel,
    by decide +kernel, by decide, by decide, ?_⟩
  obtain ⟨cs, h1, h2⟩ := okAnd_spec (r := generateCuts Obj.new (inputA true) (solveA true) [])
    (f := fun cs => cs.any fun c => decide (¬ c.SatIn big (inputA true).x)) (by decide +kernel)
  obtain ⟨c, hc, h⟩ := List.any_eq_true.1 h2
  exact ⟨cs, h1, c, hc, by simpa using h⟩

/-- C76 fails: the type that is asked for is not that of the column, so cuts are also made from continuous columns.
Here the cut excludes `x = 1/2`, `y = 1`, which is feasible. -/
theorem continuous_invalid : ¬ ∀ (o : Obj) (I : Input) (solve : Solver) (cs cs' : List RowCut) (c : RowCut), I.P.WF →
    1 < I.P.inf → Right solve → NoGaps I → Canonical I.P → generateCuts o I solve cs = .ok cs' → c ∈ cs' → c ∉ cs →
    c.ValidIn I.P := by
  intro hall
  obtain ⟨cs, h1, h2⟩ := okAnd_spec (r := generateCuts Obj.new (inputA false) (solveA false) [])
    (f := fun cs => cs.any fun c => decide (¬ c.SatIn big (inputA false).x)) (by decide +kernel)
  obtain ⟨c, hc, h⟩ := List.any_eq_true.1 h2
  have := hall Obj.new (inputA false) (solveA false) [] cs c (by decide +kernel) (by decide +kernel) (solveA_right false)
    (by decide +kernel) (by decide +kernel) h1 hc (by simp) (inputA false).x (by decide +kernel)
  simp only [decide_eq_true_eq] at h
  exact h this

/-! ### A cut that cuts off nothing -/

/-- `x ≥ 1` with two binary columns; the LP solution is `(1, 1/2)`. -/
def inputB : Input :=
  ⟨⟨2, big, fun _ => 0, fun _ => 1, fun _ => true, [⟨1, big, [(0, 1)]⟩]⟩, fun i => i, fun j => if j = 0 then 1 else 1/2⟩

/-- `u = v = 1`. -/
def wB : Nat → ℚ := fun c => if c < 2 then 1 else 0

/-- Solves the cone problem of the second column. -/
def solveB : Solver := only (cone inputB 1 (coneCols inputB) 1) wB

theorem solveB_right : Right solveB := by
  have hwf : inputB.P.WF := by decide +kernel
  refine only_right (by decide +kernel) fun w' hw' => ?_
  have hm := multipliers_of hwf (show 1 < inputB.n by decide) hw'
  have e0 := hm.balance 0 (by decide)
  have e1 := hm.balance 1 (by decide)
  have eu := hm.ub
  have ev := hm.vb
  simp only [show inputB.m = 1 from rfl] at e0 e1 eu ev
  have c00 : (inputB.P.row 0).coef 0 = 1 := by decide +kernel
  have c01 : (inputB.P.row 0).coef 1 = 0 := by decide +kernel
  have b0 : (inputB.P.row 0).lb = 1 := by decide +kernel
  simp only [Finset.sum_range_succ, Finset.sum_range_zero, c00, c01, b0] at e0 e1 eu ev
  norm_num at e0 e1 eu ev
  have hv : ∀ w : Nat → ℚ, (cone inputB 1 (coneCols inputB) 1).value w = 1 * w 0 + 1/2 * w 3 := by
    intro w
    have ho : (cone inputB 1 (coneCols inputB) 1).obj = [1, 0, 0, 1/2] := by decide +kernel
    unfold Lp.value
    rw [ho, list_range_sum]
    simp [Finset.sum_range_succ]
  rw [hv, hv]
  have a0 : wB 0 = 1 := rfl
  have a3 : wB 3 = 0 := rfl
  rw [a0, a3]
  linarith

/-- C78 fails: the test that the cut is violated is not compiled, and here it is not. -/
theorem not_violated : inputB.P.WF ∧ Right solveB ∧ NoGaps inputB ∧ Canonical inputB.P ∧ FractionalBinary inputB ∧
    ∃ cs, generateCuts Obj.new inputB solveB [] = .ok cs ∧ ∃ c ∈ cs, c.SatIn big inputB.x := by
  refine ⟨by decide +kernel, solveB_right, by decide +kernel, by decide +kernel, by decide +kernel, ?_⟩
  obtain ⟨cs, h1, h2⟩ := okAnd_spec (r := generateCuts Obj.new inputB solveB [])
    (f := fun cs => cs.any fun c => decide (c.SatIn big inputB.x)) (by decide +kernel)
  obtain ⟨c, hc, h⟩ := List.any_eq_true.1 h2
  exact ⟨cs, h1, c, hc, by simpa using h⟩

/-! ### Calls that fail -/

/-- The documented form of a problem with two binary columns. -/
def inputC : Input :=
  ⟨⟨2, big, fun _ => 0, fun _ => 1, fun _ => true,
    [⟨0, big, [(0, 1)]⟩, ⟨0, big, [(1, 1)]⟩, ⟨-1, big, [(0, -1)]⟩, ⟨-1, big, [(1, -1)]⟩]⟩, fun i => i, fun _ => 1/2⟩

/-- The hypotheses of `documented_fails` are met. -/
theorem documented_case : NoGaps inputC ∧ Documented inputC.P ∧ 0 < inputC.n ∧ inputC.n ≤ 2 * (binaries inputC.P).length :=
  ⟨by decide +kernel, by decide +kernel, by decide, by decide +kernel⟩

/-- With a gap in the matrix, elements that were never written become part of the cone problem. -/
theorem gap_uninitialised : ∃ I : Input, I.P.WF ∧ (∀ i < I.m, I.starts i + (I.P.row i).coefs.length ≤ I.starts (i+1)) ∧
    I.m < I.n ∧ generateCuts Obj.new I (fun _ => none) [] = .error .uninitialised :=
  ⟨⟨⟨3, big, fun _ => 0, fun _ => 1, fun _ => true, [⟨1, big, [(0, 1)]⟩, ⟨1, big, [(1, 1)]⟩]⟩,
    fun i => if i = 0 then 0 else i + 1, fun _ => 1/2⟩,
    by decide +kernel, by decide +kernel, by decide, faultOf_spec (by decide +kernel)⟩

/-- With no rows an array is read at position -1. -/
theorem no_rows_fails (o : Obj) {I : Input} (solve : Solver) (cs : List RowCut) (h : I.m = 0) :
    generateCuts o I solve cs = .error .outside := by
  unfold generateCuts base
  rw [if_pos h]

/-- A reachable object with the other normalization. -/
theorem reachable_case : ∃ o : Obj, Reachable o ∧ o.beta = -1 :=
  ⟨⟨-1, 1/10^8, 1 - 1/10^8⟩, Reachable.setBeta (b := -1) Reachable.new rfl, rfl⟩

end Cgl.LiftProject
