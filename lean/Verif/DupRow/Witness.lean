import Verif.DupRow.Returns

/-!
# `CglDuplicateRow`: concrete cases

The hypotheses of the theorems can be met, and the full statements fail where the theorems are partial.
-/

namespace Cgl.DupRow

/-- Result of a computation that must come through, tested. -/
def okAnd {α : Type} (r : Except Fault α) (f : α → Bool) : Bool :=
  match r with
  | .ok a => f a
  | .error _ => false

theorem okAnd_spec {α : Type} {r : Except Fault α} {f : α → Bool} (h : okAnd r f = true) :
    ∃ a, r = .ok a ∧ f a = true := by
  rcases r with e | a
  · cases h
  · exact ⟨a, rfl, h⟩

/-- The fault of a computation. -/
def faultOf {α : Type} (r : Except Fault α) : Option Fault :=
  match r with
  | .ok _ => none
  | .error e => some e

theorem faultOf_spec {α : Type} {r : Except Fault α} {e : Fault} (h : faultOf r = some e) : r = .error e := by
  rcases r with e' | a
  · simp only [faultOf, Option.some.injEq] at h; rw [h]
  · cases h

/-- A problem with 0-1 columns. -/
def binProb (n : Nat) (rows : List Row) : Prob where
  nCols := n
  inf := 10 ^ 30
  colLower := fun _ => 0
  colUpper := fun _ => 1
  isInt := fun _ => true
  rows := rows

/-- Coefficients 1. -/
def ones (l : List Nat) : SVec := l.map fun j => (j, 1)
/-- A "less or equal" row. -/
def le (v : SVec) (q : ℚ) : Row := ⟨-10 ^ 30, q, v⟩
/-- An equality. -/
def eqr (v : SVec) (q : ℚ) : Row := ⟨q, q, v⟩

/-- The object of a user who sets a mode and refreshes. -/
def ready (m : Nat) (P : Prob) : Obj := ⟨P.nCols, P.rows.map Row.coefs, P.rows.map fun _ => -1, m⟩

/-- It is. -/
theorem ready_spec (m : Nat) (P : Prob) (h : P.rows.all (refreshCasts P) = true) : (Obj.new.setMode m).refresh P = .ok (ready m P) := by
  unfold Obj.refresh
  rw [if_pos h]
  rfl

/-- The coefficients of the rows that are left. -/
def rowsLeft (m : Nat) (P : Prob) : Except Fault (List (ℚ × ℚ × SVec)) :=
  match outDuplicates (ready m P) P with
  | .error f => .error f
  | .ok (_, P') => .ok (P'.rows.map fun r => (r.lb, r.ub, r.coefs))

/-! ### Mode 4: a pair of equal rows, and a pair that fixes two columns -/

/-- Two equal rows, a pair that fixes columns 4 and 5, and a longer row. -/
def four : Prob := binProb 6 [le (ones [0, 1]) 1, le (ones [2, 3]) 1, le (ones [0, 1]) 1, le (ones [4, 5]) 1,
  eqr [(4, 1), (5, -1)] 1, le (ones [0, 1, 2, 3]) 2]

theorem four_tame : four.WF ∧ Tame4 four ∧ Exact4 four ∧ Loaded (ready 4 four) four ∧ (∃ x, four.Feasible x) ∧
    (Obj.new.setMode 4).refresh four = .ok (ready 4 four) :=
  ⟨⟨by decide +kernel, by decide +kernel⟩, by decide +kernel, by decide +kernel, by decide +kernel,
    ⟨fun j => if j = 4 ∨ j = 0 then 1 else 0, by decide +kernel⟩, ready_spec _ _ (by decide +kernel)⟩

/-- One of the equal rows goes, and the columns are fixed. -/
theorem four_works : rowsLeft 4 four = .ok [(-10 ^ 30, 1, ones [0, 1]), (-10 ^ 30, 1, ones [2, 3]), (-10 ^ 30, 1, ones [4, 5]),
      (1, 1, [(4, 1), (5, -1)]), (-10 ^ 30, 2, ones [0, 1, 2, 3])] ∧
    (generate (ready 4 four) four false ⟨[], []⟩).map Prod.snd = .ok ⟨[⟨[(4, 1)], [(5, 0)]⟩], []⟩ :=
  ⟨by decide +kernel, by decide +kernel⟩

/-- The same with a column that is not integer: bounds come out. -/
def mixed : Prob where
  nCols := 2
  inf := 10 ^ 30
  colLower := fun _ => 0
  colUpper := fun j => if j = 1 then 10 else 1
  isInt := fun j => j = 0
  rows := [le [(0, 2), (1, 1)] 7, le [(0, 1), (1, 2)] 12]

theorem mixed_tame : mixed.WF ∧ Tame4 mixed ∧ Loaded (ready 4 mixed) mixed ∧ (∃ x, mixed.Feasible x) ∧
    (generate (ready 4 mixed) mixed false ⟨[], []⟩).map Prod.snd = .ok ⟨[⟨[], [(1, 6)]⟩], []⟩ :=
  ⟨⟨by decide +kernel, by decide +kernel⟩, by decide +kernel, by decide +kernel,
    ⟨fun _ => 0, by decide +kernel⟩, by decide +kernel⟩

/-! ### Mode 8: a subset that goes, a duplicate that goes, and a fixing -/

/-- Cliques. -/
def eight : Prob := binProb 10 [le (ones [0, 1, 2]) 1, eqr (ones [0, 2]) 1, le (ones [3, 4]) 1, le (ones [3, 4]) 1,
  le (ones [5, 6, 7]) 1, le (ones [5, 7]) 1, eqr (ones [8, 9]) 1]

theorem eight_tame : eight.WF ∧ Tame8 eight ∧ (∃ x, eight.Feasible x) ∧ (Obj.new.setMode 8).refresh eight = .ok (ready 8 eight) :=
  ⟨⟨by decide +kernel, by decide +kernel⟩, by decide +kernel,
    ⟨fun j => if j = 0 ∨ j = 8 then 1 else 0, by decide +kernel⟩, ready_spec _ _ (by decide +kernel)⟩

theorem eight_works : rowsLeft 8 eight = .ok [(-10 ^ 30, 1, ones [0, 1, 2]), (1, 1, ones [0, 2]), (-10 ^ 30, 1, ones [3, 4]),
      (-10 ^ 30, 1, ones [5, 6, 7]), (1, 1, ones [8, 9])] ∧
    (generate (ready 8 eight) eight false ⟨[], []⟩).map Prod.snd = .ok ⟨[⟨[], [(1, 0)]⟩], []⟩ :=
  ⟨by decide +kernel, by decide +kernel⟩

/-- The hypotheses under which calls come back are met too. -/
theorem returns_case : NoTwins four ∧ (∀ j < four.nCols, ¬ (four.colLower j < -10 ^ 20 ∧ four.colUpper j ≤ -10 ^ 20)) ∧
    SmallBounds eight ∧ (∀ r ∈ eight.rows, (intMin : ℚ) ≤ r.ub ∧ r.lb ≤ (intMax : ℚ)) :=
  ⟨by decide +kernel, by decide +kernel, by decide +kernel, by decide +kernel⟩

/-! ### A history with a copy -/

theorem history_case : History 10 (eight.rows.map Row.coefs) (ready 8 eight) :=
  .first rfl rfl (ready_spec 8 eight (by decide +kernel))

/-! ### Where the full statements fail -/

/-- The problem that is left has a point the problem does not have. -/
def gains (o : Obj) (P : Prob) (x : Nat → ℚ) : Bool :=
  okAnd (outDuplicates o P) fun r => decide (r.2.Feasible x) && ! decide (P.Feasible x)

theorem gains_spec {o : Obj} {P : Prob} {x : Nat → ℚ} (h : gains o P x = true) :
    ∃ o' P', outDuplicates o P = .ok (o', P') ∧ P'.Feasible x ∧ ¬ P.Feasible x := by
  obtain ⟨⟨o', P'⟩, h1, h2⟩ := okAnd_spec h
  simp only [Bool.and_eq_true, Bool.not_eq_true', decide_eq_true_eq, decide_eq_false_iff_not] at h2
  exact ⟨o', P', h1, h2.1, h2.2⟩

/-- A column cut that comes out does not hold at a feasible point. -/
def cutsOff (o : Obj) (P : Prob) (x : Nat → ℚ) : Bool :=
  okAnd (generate o P false ⟨[], []⟩) fun r => decide (P.Feasible x) &&
    r.2.cols.any fun c => ! (decide (∀ p ∈ c.lbs, p.2 ≤ x p.1) && decide (∀ p ∈ c.ubs, x p.1 ≤ p.2))

theorem cutsOff_spec {o : Obj} {P : Prob} {x : Nat → ℚ} (h : cutsOff o P x = true) :
    ∃ o' cs, generate o P false ⟨[], []⟩ = .ok (o', cs) ∧ ∃ c ∈ cs.cols, ¬ c.Valid P := by
  obtain ⟨⟨o', cs⟩, h1, h2⟩ := okAnd_spec h
  simp only [Bool.and_eq_true, decide_eq_true_eq, List.any_eq_true, Bool.not_eq_true', Bool.and_eq_false_iff,
    decide_eq_false_iff_not] at h2
  obtain ⟨hx, c, hc, h3⟩ := h2
  refine ⟨o', cs, h1, c, hc, fun hv => ?_⟩
  rcases h3 with h3 | h3
  · exact h3 (hv x hx).1
  · exact h3 (hv x hx).2

/-- Mode 8: of an inequality and an equality with the same columns the equality goes. -/
theorem equality_lost : ∃ P : Prob, P.WF ∧ ∃ o, (Obj.new.setMode 8).refresh P = .ok o ∧
    ∃ o' P' x, outDuplicates o P = .ok (o', P') ∧ P'.Feasible x ∧ ¬ P.Feasible x := by
  refine ⟨binProb 2 [le (ones [0, 1]) 1, eqr (ones [0, 1]) 1], ⟨by decide +kernel, by decide +kernel⟩, _,
    ready_spec 8 _ (by decide +kernel), ?_⟩
  obtain ⟨o', P', h⟩ := gains_spec (x := fun _ => 0)
    (by decide +kernel : gains (ready 8 (binProb 2 [le (ones [0, 1]) 1, eqr (ones [0, 1]) 1])) (binProb 2 [le (ones [0, 1]) 1, eqr (ones [0, 1]) 1]) _ = true)
  exact ⟨o', P', _, h⟩

/-- Cliques, one of which sticks out of a longer one beyond its last column. -/
def sticky (r : Row) : Prob := binProb 9 [le (ones [1, 2, 3, 5]) 1, le (ones [7, 8]) 1, r]

/-- Mode 8: a clique that sticks out of a longer one is taken for a subset, and goes. -/
theorem no_subset_goes : ∃ P : Prob, P.WF ∧ ∃ o, (Obj.new.setMode 8).refresh P = .ok o ∧
    ∃ o' P' x, outDuplicates o P = .ok (o', P') ∧ P'.Feasible x ∧ ¬ P.Feasible x := by
  refine ⟨sticky (le (ones [1, 5, 7]) 1), ⟨by decide +kernel, by decide +kernel⟩, _, ready_spec 8 _ (by decide +kernel), ?_⟩
  obtain ⟨o', P', h⟩ := gains_spec (x := fun j => if j = 1 ∨ j = 7 then 1 else 0)
    (by decide +kernel : gains (ready 8 (sticky (le (ones [1, 5, 7]) 1))) (sticky (le (ones [1, 5, 7]) 1)) _ = true)
  exact ⟨o', P', _, h⟩

/-- Mode 8: if it is an equality, columns are fixed that can be one. -/
theorem no_subset_fixes : ∃ P : Prob, P.WF ∧ ∃ o, (Obj.new.setMode 8).refresh P = .ok o ∧
    ∃ o' cs, generate o P false ⟨[], []⟩ = .ok (o', cs) ∧ ∃ c ∈ cs.cols, ¬ c.Valid P :=
  ⟨sticky (eqr (ones [1, 5, 7]) 1), ⟨by decide +kernel, by decide +kernel⟩, _, ready_spec 8 _ (by decide +kernel),
    cutsOff_spec (x := fun j => if j = 2 ∨ j = 7 then 1 else 0) (by decide +kernel)⟩

/-- Columns between 0 and 1 that are not integer, and a row whose lower bound is 1/2. -/
def halves : Prob := { binProb 5 [le (ones [0, 1, 2]) 1, ⟨1 / 2, 1, ones [0, 2]⟩, le (ones [3, 4]) 1] with
  isInt := fun _ => false }

/-- Mode 8: such a row is taken for an equality. -/
theorem half_is_not_one : ∃ P : Prob, P.WF ∧ ∃ o, (Obj.new.setMode 8).refresh P = .ok o ∧
    ∃ o' cs, generate o P false ⟨[], []⟩ = .ok (o', cs) ∧ ∃ c ∈ cs.cols, ¬ c.Valid P :=
  ⟨halves, ⟨by decide +kernel, by decide +kernel⟩, _, ready_spec 8 _ (by decide +kernel),
    cutsOff_spec (x := fun j => if j = 0 ∨ j = 1 then 1 / 2 else 0) (by decide +kernel)⟩

/-- Three rows, two of them equal. -/
def staleProb : Prob := binProb 4 [le (ones [1, 2, 3]) 2, le (ones [0, 1]) 1, le (ones [0, 1]) 1]

/-- Mode 4: a second call on the object reads the flags of the first by the wrong rows; a row goes that no other implies.
The problem is pure 0-1, `Tame4` and `Exact4`: only "fresh" is missing. -/
theorem second_call : ∃ P : Prob, P.WF ∧ Tame4 P ∧ Exact4 P ∧ (∃ x, P.Feasible x) ∧ ∃ o, (Obj.new.setMode 4).refresh P = .ok o ∧
    ∃ o1 cs, generate o P false ⟨[], []⟩ = .ok (o1, cs) ∧
    ∃ o' P' x, outDuplicates o1 P = .ok (o', P') ∧ P'.Feasible x ∧ ¬ P.Feasible x := by
  refine ⟨staleProb, ⟨by decide +kernel, by decide +kernel⟩, by decide +kernel, by decide +kernel,
    ⟨fun _ => 0, by decide +kernel⟩, _, ready_spec 4 _ (by decide +kernel), ?_⟩
  obtain ⟨⟨o1, cs⟩, h1, h2⟩ := okAnd_spec (r := generate (ready 4 staleProb) staleProb false ⟨[], []⟩)
    (f := fun r => gains r.1 staleProb fun j => if j = 0 then 0 else 1) (by decide +kernel)
  obtain ⟨o', P', h⟩ := gains_spec h2
  exact ⟨o1, cs, h1, o', P', _, h⟩

/-- Rows that differ by less than the tolerance from rows that always hold. -/
def nearProb : Prob := binProb 2 [le (ones [0, 1]) 2, le [(0, 1 + 4 / 10 ^ 6), (1, 1)] 2]

/-- Mode 4: a row that excludes a point by less than `1e-5` goes. -/
theorem near_row_lost : ∃ P : Prob, P.WF ∧ Tame4 P ∧ ∃ o, (Obj.new.setMode 4).refresh P = .ok o ∧
    ∃ o' P' x, outDuplicates o P = .ok (o', P') ∧ P'.Feasible x ∧ ¬ P.Feasible x := by
  refine ⟨nearProb, ⟨by decide +kernel, by decide +kernel⟩, by decide +kernel, _, ready_spec 4 _ (by decide +kernel), ?_⟩
  obtain ⟨o', P', h⟩ := gains_spec (x := fun _ => 1) (by decide +kernel : gains (ready 4 nearProb) nearProb _ = true)
  exact ⟨o', P', _, h⟩

/-- A row with a finite lower bound and the upper bound `1e20`. -/
def hugeProb : Prob := binProb 2 [⟨1, 10 ^ 20, ones [0, 1]⟩, le (ones [0, 1]) 2]

/-- Mode 4: the lower bound is not looked at, and the row goes. -/
theorem huge_upper : ∃ P : Prob, P.WF ∧ Tame4 P ∧ ∃ o, (Obj.new.setMode 4).refresh P = .ok o ∧
    ∃ o' P' x, outDuplicates o P = .ok (o', P') ∧ P'.Feasible x ∧ ¬ P.Feasible x := by
  refine ⟨hugeProb, ⟨by decide +kernel, by decide +kernel⟩, by decide +kernel, _, ready_spec 4 _ (by decide +kernel), ?_⟩
  obtain ⟨o', P', h⟩ := gains_spec (x := fun _ => 0) (by decide +kernel : gains (ready 4 hugeProb) hugeProb _ = true)
  exact ⟨o', P', _, h⟩

/-- The problem with a column that is not integer. -/
def twoCols (rows : List Row) : Prob where
  nCols := 2
  inf := 10 ^ 30
  colLower := fun _ => 0
  colUpper := fun j => if j = 1 then 10 else 1
  isInt := fun j => j = 0
  rows := rows

/-- Mode 4: a bound of a column that is not integer is rounded to an integer within `1e-8`, which excludes points; so
"to `1e-8`" in `generate4_valid_partial` is needed. -/
theorem snapped : ∃ P : Prob, P.WF ∧ Tame4 P ∧ ∃ o, (Obj.new.setMode 4).refresh P = .ok o ∧
    ∃ o' cs, generate o P false ⟨[], []⟩ = .ok (o', cs) ∧ ∃ c ∈ cs.cols, ¬ c.Valid P :=
  ⟨twoCols [le [(0, 1), (1, 1)] (3 + 5 / 10 ^ 9), le [(0, 2), (1, 1)] (3 + 5 / 10 ^ 9)],
    ⟨by decide +kernel, by decide +kernel⟩, by decide +kernel, _, ready_spec 4 _ (by decide +kernel),
    cutsOff_spec (x := fun j => if j = 1 then 3 + 5 / 10 ^ 9 else 0) (by decide +kernel)⟩

/-- Two rows that are the same up to a factor, with a negative coefficient. -/
def slipRows : List Row := [le [(0, -10), (1, 1)] 0, le [(0, -20), (1, 2)] 0]

/-- Mode 4: the loop that counts the wrong variable reads right-hand sides that are not there. -/
theorem slip_faults : ∃ P : Prob, P.WF ∧ ∃ o, (Obj.new.setMode 4).refresh P = .ok o ∧ generate o P false ⟨[], []⟩ = .error .memory :=
  ⟨twoCols slipRows, ⟨by decide +kernel, by decide +kernel⟩, _, ready_spec 4 _ (by decide +kernel), faultOf_spec (by decide +kernel)⟩

/-- Ten more rows on other columns. -/
def slipProb : Prob where
  nCols := 22
  inf := 10 ^ 30
  colLower := fun _ => 0
  colUpper := fun j => if j % 2 = 1 then 10 else 1
  isInt := fun j => j % 2 = 0
  rows := slipRows ++ (List.range 10).map fun k => le [(2 * k + 2, 1), (2 * k + 3, 1)] 5

/-- Mode 4: with more rows it marks one that has nothing to do with the two, and that row goes. -/
theorem slip_row_lost : ∃ P : Prob, P.WF ∧ ∃ o, (Obj.new.setMode 4).refresh P = .ok o ∧
    ∃ o' P' x, outDuplicates o P = .ok (o', P') ∧ P'.Feasible x ∧ ¬ P.Feasible x := by
  refine ⟨slipProb, ⟨by decide +kernel, by decide +kernel⟩, _, ready_spec 4 _ (by decide +kernel), ?_⟩
  obtain ⟨o', P', h⟩ := gains_spec (x := fun j => if j = 21 then 6 else 0)
    (by decide +kernel : gains (ready 4 slipProb) slipProb _ = true)
  exact ⟨o', P', _, h⟩

/-- Mode 4: two rows with a single 0-1 column, and none with more: `assert (nInt == 3)` fails. -/
theorem singletons_fail : ∃ P : Prob, P.WF ∧ Tame4 P ∧ ∃ o, (Obj.new.setMode 4).refresh P = .ok o ∧
    generate o P false ⟨[], []⟩ = .error .assertion :=
  ⟨binProb 1 [le (ones [0]) 1, le (ones [0]) 0], ⟨by decide +kernel, by decide +kernel⟩, by decide +kernel, _,
    ready_spec 4 _ (by decide +kernel), faultOf_spec (by decide +kernel)⟩

/-- Mode 8: the last clique of the problem, of which another sticks out: the search reads past the array. -/
theorem past_the_end : ∃ P : Prob, P.WF ∧ ∃ o, (Obj.new.setMode 8).refresh P = .ok o ∧
    generate o P false ⟨[], []⟩ = .error .memory :=
  ⟨binProb 9 [le (ones [1, 5, 7]) 1, le (ones [1, 2, 3, 5]) 1], ⟨by decide +kernel, by decide +kernel⟩, _,
    ready_spec 8 _ (by decide +kernel), faultOf_spec (by decide +kernel)⟩

/-- Mode 4: a column with both bounds below `-1e20` ends the program. -/
theorem low_column_aborts : ∃ P : Prob, P.WF ∧ ∃ o, (Obj.new.setMode 4).refresh P = .ok o ∧
    generate o P false ⟨[], []⟩ = .error .aborted :=
  ⟨{ binProb 2 [le (ones [0, 1]) 1] with
      colLower := fun _ => -10 ^ 30
      colUpper := fun _ => -10 ^ 20 },
    ⟨by decide +kernel, by decide +kernel⟩, _, ready_spec 4 _ (by decide +kernel), faultOf_spec (by decide +kernel)⟩

/-- `refreshSolver`: an upper bound below the smallest `int` is converted. -/
theorem refresh_cast : ∃ P : Prob, P.WF ∧ Obj.new.refresh P = .error .cast :=
  ⟨binProb 1 [le [(0, -1)] (-10 ^ 10)], ⟨by decide +kernel, by decide +kernel⟩, faultOf_spec (by decide +kernel)⟩

/-- Mode 8: so is a lower bound above the largest `int`. -/
theorem lower_cast : ∃ P : Prob, P.WF ∧ ∃ o, (Obj.new.setMode 8).refresh P = .ok o ∧
    generate o P false ⟨[], []⟩ = .error .cast :=
  ⟨binProb 1 [⟨10 ^ 10, 10 ^ 30, [(0, 10 ^ 11)]⟩], ⟨by decide +kernel, by decide +kernel⟩, _,
    ready_spec 8 _ (by decide +kernel), faultOf_spec (by decide +kernel)⟩

/-- `outDuplicates` on an object that was never refreshed reads through a null pointer. -/
theorem never_refreshed : outDuplicates Obj.new (binProb 1 [le (ones [0]) 1]) = .error .memory :=
  faultOf_spec (by decide +kernel)

/-- Mode 12 is mode 4, and mode 16 fails an assertion. -/
theorem other_modes (P : Prob) (o : Obj) (cs : Cuts) :
    (o.mode = 12 → (generate o P false cs).map Prod.snd = (cuts4 o P).map cs.add) ∧
    (o.mode = 16 → generate o P false cs = .error .assertion) := by
  constructor
  · intro h
    unfold generate
    rw [h]
    simp only [Bool.false_eq_true, if_false]
    norm_num
    rcases cuts4 o P with f | u <;> rfl
  · intro h
    unfold generate
    rw [h]
    rfl

end Cgl.DupRow
