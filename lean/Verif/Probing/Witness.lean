import Verif.Probing.Props

/-!
# `CglProbing`: concrete cases

The hypotheses of the theorems can be met, and the full statements fail where the theorems are partial.
-/

namespace Cgl.Probing

/-- Result of a computation that must come through, tested. -/
def okAnd {α : Type} (r : Except Fault α) (f : α → Bool) : Bool :=
  match r with
  | .ok a => f a
  | .error _ => false

theorem okAnd_spec {α : Type} {r : Except Fault α} {f : α → Bool} (h : okAnd r f = true) :
    ∃ a, r = .ok a ∧ f a = true := by
  rcases r with e | a
  · cases h
  · exact ⟨a, rfl, h⟩

/-- The fault of a computation. -/
def faultOf {α : Type} (r : Except Fault α) : Option Fault :=
  match r with
  | .ok _ => none
  | .error e => some e

theorem faultOf_spec {α : Type} {r : Except Fault α} {e : Fault} (h : faultOf r = some e) : r = .error e := by
  rcases r with e' | a
  · simp only [faultOf, Option.some.injEq] at h; rw [h]
  · cases h

/-- A problem with 0-1 columns. -/
def binProb (n : Nat) (rows : List Row) : Prob where
  nCols := n
  inf := 10 ^ 30
  colLower := fun _ => 0
  colUpper := fun _ => 1
  isInt := fun _ => true
  rows := rows

/-- A "less or equal" row. -/
def le (v : SVec) (q : ℚ) : Row := ⟨-10 ^ 30, q, v⟩
/-- A "greater or equal" row. -/
def ge (v : SVec) (q : ℚ) : Row := ⟨q, 10 ^ 30, v⟩

/-- Settings of a call at the root. -/
def root (rowCuts usingObjective : ℤ) : Params := ⟨rowCuts, usingObjective, 1000, 10000, 100, 100, 3, 3, false, 0⟩
/-- Settings of a call in the tree. -/
def tree (rowCuts : ℤ) : Params := ⟨rowCuts, 0, 1000, 10000, 100, 100, 3, 3, true, 0⟩

/-- A vector from a list. -/
def vec (l : List ℚ) (c : Nat) : ℚ := l.getD c 0

/-- A solution without objective. -/
def at' (sol : List ℚ) : Lp := ⟨vec sol, fun _ => 0, fun _ => 0, 0, 1, 0, none⟩

/-- Nothing is taken for a duplicate. -/
def noDup (_ : List RowCut) (_ : RowCut) : Bool := false
/-- The columns in order. -/
def inOrder (P : Prob) (_ : Nat) : List Nat := List.range P.nCols

/-- A call with no cuts so far. -/
def call (P : Prob) (A : Params) (L : Lp) : Except Fault Cuts := generateCuts P A L noDup (inOrder P) ⟨[], []⟩

/-- Is the call exact? -/
def exactCall (P : Prob) (A : Params) (L : Lp) : Bool := okAnd (guts P A L noDup (inOrder P)) Out.exact

theorem exactCall_spec {P : Prob} {A : Params} {L : Lp} (h : exactCall P A L = true) : ExactRun P A L noDup (inOrder P) := by
  intro o ho
  obtain ⟨o', h1, h2⟩ := okAnd_spec h
  rw [ho] at h1
  cases h1
  exact h2

/-- Does the call append exactly these cuts? -/
def gives (P : Prob) (A : Params) (L : Lp) (rows : List RowCut) (cols : List ColCut) : Bool :=
  okAnd (call P A L) fun c => decide (c = ⟨rows, cols⟩)

theorem gives_spec {P : Prob} {A : Params} {L : Lp} {rows : List RowCut} {cols : List ColCut}
    (h : gives P A L rows cols = true) : call P A L = .ok ⟨rows, cols⟩ := by
  obtain ⟨c, h1, h2⟩ := okAnd_spec h
  rw [h1, of_decide_eq_true h2]

/-! ### The hypotheses can be met -/

/-- `x0 ≤ x1`, `x0 + x1 ≤ 1`. -/
def pFix : Prob := binProb 2 [le [(0, 1), (1, -1)] 0, le [(0, 1), (1, 1)] 1]

/-- `x0 = 1` is found impossible; the point (0, 1) is one of those the theorems speak of. -/
theorem fix_meets : Data pFix (root 1 0) (at' [1 / 2, 1 / 2]) ∧ Tame pFix (root 1 0) (at' [1 / 2, 1 / 2]) ∧
    (∀ c < pFix.nCols, pFix.isInt c = true) ∧ (root 1 0).rowCutsNow / 2 % 2 = 0 ∧
    Reach pFix (root 1 0) (at' [1 / 2, 1 / 2]) (vec [0, 1]) ∧
    call pFix (root 1 0) (at' [1 / 2, 1 / 2]) = .ok ⟨[], [⟨[], [(0, 0)]⟩]⟩ :=
  ⟨by decide +kernel, by decide +kernel, by decide +kernel, by decide +kernel, by decide +kernel,
    gives_spec (by decide +kernel)⟩

/-- `x1 + x2 ≤ 2 x0`. -/
def pDis : Prob := binProb 3 [le [(0, -2), (1, 1), (2, 1)] 0]

/-- Disaggregated rows and recorded implications. -/
theorem disaggregate_meets : Data pDis (root 1 0) (at' [1 / 2, 1, 0]) ∧ Tame pDis (root 1 0) (at' [1 / 2, 1, 0]) ∧
    Reach pDis (root 1 0) (at' [1 / 2, 1, 0]) (vec [1, 1, 1]) ∧
    call pDis (root 1 0) (at' [1 / 2, 1, 0]) =
      .ok ⟨[⟨0, dblMax, [(0, 1), (1, -1)]⟩, ⟨-dblMax, 0, [(0, -1), (1, 1)]⟩], []⟩ ∧
    ∃ o, guts pDis (root 1 0) (at' [1 / 2, 1, 0]) noDup (inOrder pDis) = .ok o ∧
      o.fixes = [⟨0, false, 1, true⟩, ⟨0, false, 2, true⟩, ⟨1, true, 0, false⟩, ⟨2, true, 0, false⟩] := by
  refine ⟨by decide +kernel, by decide +kernel, by decide +kernel, gives_spec (by decide +kernel), ?_⟩
  obtain ⟨o, h1, h2⟩ := okAnd_spec (r := guts pDis (root 1 0) (at' [1 / 2, 1, 0]) noDup (inOrder pDis))
    (f := fun o => decide (o.fixes = [⟨0, false, 1, true⟩, ⟨0, false, 2, true⟩, ⟨1, true, 0, false⟩, ⟨2, true, 0, false⟩]))
    (by decide +kernel)
  exact ⟨o, h1, of_decide_eq_true h2⟩

/-- `x0 + x1 = 1`, `x0 = x1`. -/
def pNone : Prob := binProb 2 [⟨1, 1, [(0, 1), (1, 1)]⟩, ⟨0, 0, [(0, 1), (1, -1)]⟩]

/-- Infeasibility is found. -/
theorem infeasible_meets : Data pNone (root 1 0) (at' [1 / 2, 1 / 2]) ∧ Tame pNone (root 1 0) (at' [1 / 2, 1 / 2]) ∧
    call pNone (root 1 0) (at' [1 / 2, 1 / 2]) = .ok ⟨[infeasibleCut], []⟩ :=
  ⟨by decide +kernel, by decide +kernel, gives_spec (by decide +kernel)⟩

/-- `min -x0`, `x0 + x1 ≤ 1`, value at most -1/2. -/
def pCost : Prob := binProb 2 [le [(0, 1), (1, 1)] 1]
/-- Its optimal solution. -/
def lCost : Lp := ⟨vec [1, 0], vec [0, 1], vec [-1, 0], 0, 1, -1, some (-1 / 2)⟩

/-- `x1 = 1` is found too expensive. -/
theorem cost_meets : Data pCost (root 1 0) lCost ∧ Tame pCost (root 1 0) lCost ∧ Optimal pCost lCost ∧
    Reach pCost (root 1 0) lCost (vec [1, 0]) ∧ call pCost (root 1 0) lCost = .ok ⟨[], [⟨[], [(1, 0)]⟩]⟩ := by
  refine ⟨by decide +kernel, by decide +kernel, ⟨by decide +kernel, fun _ => -1, by decide +kernel, by decide +kernel⟩,
    by decide +kernel, gives_spec (by decide +kernel)⟩

/-- `y ≤ 1 + 9 x`, `x + y ≤ 2`, `y` continuous. -/
def pStr (e : ℚ) : Prob where
  nCols := 2
  inf := 10 ^ 30
  colLower := fun _ => 0
  colUpper := vec [1, 2]
  isInt := fun c => decide (c = 0)
  rows := [le [(0, -9), (1, 1)] 1, le [(0, 1 - e), (1, 1)] 2]

/-- A strengthened row: `y ≤ 1`, found in two passes (`noDup` lets both in).  There is a continuous column and the call is exact. -/
theorem strengthen_meets : Data (pStr 0) (root 3 0) (at' [1 / 2, 13 / 10]) ∧ Tame (pStr 0) (root 3 0) (at' [1 / 2, 13 / 10]) ∧
    ExactRun (pStr 0) (root 3 0) (at' [1 / 2, 13 / 10]) noDup (inOrder (pStr 0)) ∧
    Reach (pStr 0) (root 3 0) (at' [1 / 2, 13 / 10]) (vec [1, 1]) ∧
    call (pStr 0) (root 3 0) (at' [1 / 2, 13 / 10]) = .ok ⟨[⟨-dblMax, 1, [(1, 1)]⟩, ⟨-dblMax, 1, [(1, 1)]⟩], []⟩ :=
  ⟨by decide +kernel, by decide +kernel, exactCall_spec (by decide +kernel), by decide +kernel,
    gives_spec (by decide +kernel)⟩

/-! ### The full statements fail -/

/-- A coefficient of 1.0e-12 or less is left out of a strengthened row: a feasible point is cut off. -/
theorem dropped_coefficient : ∃ c, call (pStr (1 / 10 ^ 12)) (root 3 0) (at' [1 / 2, 13 / 10]) = .ok ⟨[c, c], []⟩ ∧
    Reach (pStr (1 / 10 ^ 12)) (root 3 0) (at' [1 / 2, 13 / 10]) (vec [1, 1 + 1 / 10 ^ 12]) ∧
    ¬ c.Sat (vec [1, 1 + 1 / 10 ^ 12]) :=
  ⟨⟨-dblMax, 1, [(1, 1)]⟩, gives_spec (by decide +kernel), by decide +kernel, by decide +kernel⟩

/-- `x0 ≤ x1`, `x0 + x1 ≤ 1`, `y ≥ 10 - 10 x0 - 5.0e-8`, `z ≥ 1.0e8 (y - 10) + 4`, `y` continuous. -/
def pSnap : Prob where
  nCols := 4
  inf := 10 ^ 30
  colLower := fun _ => 0
  colUpper := vec [1, 1, 10, 10]
  isInt := fun c => decide (c ≠ 2)
  rows := [le [(0, 1), (1, -1)] 0, le [(0, 1), (1, 1)] 1, ge [(0, 10), (2, 1)] (10 - 5 / 10 ^ 8),
    ge [(2, -10 ^ 8), (3, 1)] (-10 ^ 9 + 4)]

/-- A new lower bound of a continuous column within 1.1e-7 of its upper bound is moved to the upper bound: a feasible
point is cut off. -/
theorem snapped_bound : ∃ r k, call pSnap (root 1 0) (at' [1 / 2, 1 / 2, 5, 0]) = .ok ⟨[r], [k]⟩ ∧
    Reach pSnap (root 1 0) (at' [1 / 2, 1 / 2, 5, 0]) (vec [0, 0, 10 - 5 / 10 ^ 8, 0]) ∧
    ¬ r.Sat (vec [0, 0, 10 - 5 / 10 ^ 8, 0]) ∧ ¬ k.Sat (vec [0, 0, 10 - 5 / 10 ^ 8, 0]) :=
  ⟨⟨4, dblMax, [(0, 4), (3, 1)]⟩, ⟨[(3, 4)], [(0, 0)]⟩, gives_spec (by decide +kernel), by decide +kernel,
    by decide +kernel, by decide +kernel⟩

/-- `0 ≤ x1 - x0 ≤ 2`. -/
def pSingle : Prob := binProb 2 [⟨0, 2, [(0, -1), (1, 1)]⟩]
/-- `min -x1`. -/
def lSingle : Lp := ⟨vec [1 / 2, 1], vec [0, -1], vec [0, -1], 0, 1, -1, none⟩

/-- Columns that occur in one row only are moved to the side with the better cost, and the bound is used as a column
cut: feasible points are cut off that are not beyond the objective limit (there is none). -/
theorem cost_moved : ∃ k, call pSingle (root 3 0) lSingle = .ok ⟨[], [k]⟩ ∧ Optimal pSingle lSingle ∧
    Reach pSingle (root 3 0) lSingle (vec [0, 0]) ∧ ¬ k.Sat (vec [0, 0]) :=
  ⟨⟨[(1, 1)], []⟩, gives_spec (by decide +kernel),
    ⟨by decide +kernel, fun _ => 0, by decide +kernel, by decide +kernel⟩, by decide +kernel, by decide +kernel⟩

/-- `x ≥ 0`, `x ≤ 1.0e13`, integer. -/
def pFar : Prob := { binProb 1 [ge [(0, 1)] 0] with colUpper := fun _ => 10 ^ 13 }

/-- An integer column with a bound beyond 1.0e12 gets a bound of 12345678900, as a column cut. -/
theorem far_column : call pFar (root 1 0) (at' [1]) = .ok ⟨[], [⟨[], [(0, 12345678900)]⟩]⟩ ∧
    pFar.Feasible (vec [20000000000]) :=
  ⟨gives_spec (by decide +kernel), by decide +kernel⟩

/-- A row whose bounds are exactly -1.0e20 and 1.0e20 is neither free nor used: its activities are read without having
been set. -/
theorem unset_activities : call (binProb 2 [⟨-10 ^ 20, 10 ^ 20, [(0, 1), (1, 1)]⟩]) (root 1 0) (at' [1 / 2, 1 / 2]) =
    .error .uninit :=
  faultOf_spec (by decide +kernel)

/-- An integer column with a fractional bound: an assertion fails. -/
theorem fractional_bound :
    call { binProb 2 [le [(0, 1), (1, 1)] 3] with colUpper := fun _ => 3 / 2 } (root 1 0) (at' [1 / 2, 1 / 2]) =
      .error .assertion :=
  faultOf_spec (by decide +kernel)

/-- Maximising without a limit: an assertion fails if infinity is more than 1.0e30 ... -/
theorem maximise_fails : call { pFix with inf := 10 ^ 31 } (root 1 0) { at' [1 / 2, 1 / 2] with sense := -1 } =
    .error .assertion :=
  faultOf_spec (by decide +kernel)

/-- ... and every problem is found infeasible if infinity is 1.0e30. -/
theorem maximise_infeasible : call pFix (root 1 0) { at' [1 / 2, 1 / 2] with sense := -1 } = .ok ⟨[infeasibleCut], []⟩ ∧
    pFix.Feasible (vec [0, 1]) :=
  ⟨gives_spec (by decide +kernel), by decide +kernel⟩

/-- `max x + 1` (offset -1), value at least 0. -/
def lOffset : Lp := ⟨vec [1], vec [1], vec [1], -1, -1, 2, some 0⟩
/-- `0 ≤ x ≤ 1` as a row. -/
def pOffset : Prob := binProb 1 [⟨0, 1, [(0, 1)]⟩]

/-- Maximising with a negative offset and the objective as a row: the offset has the wrong sign and points that are not
beyond the limit are cut off. -/
theorem wrong_offset : call pOffset (root 1 1) lOffset = .ok ⟨[], [⟨[(0, 1)], []⟩]⟩ ∧ Optimal pOffset lOffset ∧
    Reach pOffset (root 1 1) lOffset (vec [0]) :=
  ⟨gives_spec (by decide +kernel), ⟨by decide +kernel, fun _ => 0, by decide +kernel, by decide +kernel⟩, by decide +kernel⟩

/-- More cuts than the limit: none is inserted (two are found and inserted at the root: `disaggregate_meets`). -/
theorem over_limit : call pDis (tree 1) (at' [1 / 2, 1, 0]) = .ok ⟨[], []⟩ :=
  gives_spec (by decide +kernel)

/-- Strengthened rows only (`setRowCuts(2)`): none is found (one is with 3: `strengthen_meets`). -/
theorem strengthen_only : call (pStr 0) (root 2 0) (at' [1 / 2, 13 / 10]) = .ok ⟨[], []⟩ :=
  gives_spec (by decide +kernel)

end Cgl.Probing
