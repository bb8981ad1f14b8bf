import Verif.Spec

/-!
# Cuts from the original problem of `CglGomory` and `CglTwomir`

Around the search for cuts in the original problem: its objective is changed by the prices of the rows that it does not have, and put back
afterwards, and cuts that do not cut off the point of the problem given are taken out.  The code is the same in both:
`/repo/src/CglGomory/CglGomory.cpp:127-199, 256-263, 289-320`, `/repo/src/CglTwomir/CglTwomir.cpp:158-230, 271-278, 490-522`.  Rows with
integral coefficients that are added for type 2 (146-174) are in the model those that are not in the list of rows with prices.
-/

namespace Cgl.Useless

/-- `obj[iColumn] -= value*rowElements[k]` over one row, CglGomory.cpp:183-187. -/
def priceRow (p : ℚ) (row : SVec) (obj : Nat → ℚ) : Nat → ℚ :=
  row.foldl (fun o e => fun j => if j = e.1 then o j - p * e.2 else o j) obj

/-- All rows that are not copied, with their prices, :179-199. -/
def price (rows : List (ℚ × SVec)) (obj : Nat → ℚ) : Nat → ℚ := rows.foldl (fun o r => priceRow r.1 r.2 o) obj

/-- A cut is taken out, :300-316: its `sum` is made zero. -/
def useless (x : Nat → ℚ) (c : RowCut) : Bool :=
  let sum := c.row.dot x
  let sum := if c.ub + 1 / 10 ^ 7 < sum then sum - c.ub else if sum < c.lb - 1 / 10 ^ 7 then c.lb - sum else 0
  decide (sum = 0)

/-- The loop from the last cut to the first new one, :298-320; the number is that of cuts still to be looked at. -/
def sweep (x : Nat → ℚ) (before : Nat) : Nat → List RowCut → List RowCut
  | 0, cs => cs
  | d + 1, cs => sweep x before d (match cs[before + d]? with
    | some c => if useless x c = true then cs.eraseIdx (before + d) else cs
    | none => cs)

/-- What is left behind: the objective of the original problem and the cuts. -/
structure Result where
  obj : Nat → ℚ
  cuts : List RowCut

/-- A call in which the original problem is used.  `find` is the search for cuts with the objective given (the original problem is solved
with it) and whether Clp solved it; it stands for the real problem if Clp did not, :256-263.  In that case the saved objective is freed
and not put back. -/
def call (rows : List (ℚ × SVec)) (find : (Nat → ℚ) → Bool × List RowCut) (x : Nat → ℚ) (obj : Nat → ℚ) (cs : List RowCut) : Result :=
  let changed := price rows obj
  let (solved, new) := find changed
  let all := cs ++ new
  if solved = true then ⟨obj, sweep x cs.length (all.length - cs.length) all⟩ else ⟨changed, all⟩

/-! ### Proofs -/

theorem useless_iff (x : Nat → ℚ) (c : RowCut) :
    useless x c = true ↔ ¬ (c.ub + 1 / 10 ^ 7 < c.row.dot x ∨ c.row.dot x < c.lb - 1 / 10 ^ 7) := by
  unfold useless
  simp only [decide_eq_true_eq]
  split
  · rename_i h
    constructor
    · intro e; exfalso; linarith [show (0 : ℚ) < 1 / 10 ^ 7 by norm_num]
    · intro e; exact absurd (Or.inl h) e
  · split
    · rename_i h
      constructor
      · intro e; exfalso; linarith [show (0 : ℚ) < 1 / 10 ^ 7 by norm_num]
      · intro e; exact absurd (Or.inr h) e
    · rename_i h k
      exact ⟨fun _ e => e.elim h k, fun _ => rfl⟩

theorem sweep_eq (x : Nat → ℚ) (pre : List RowCut) : ∀ (d : Nat) (l tail : List RowCut), l.length = d →
    sweep x pre.length d (pre ++ l ++ tail) = pre ++ l.filter (fun c => !useless x c) ++ tail := by
  intro d
  induction d with
  | zero =>
    intro l tail hl
    rw [List.length_eq_zero_iff.mp hl]
    rfl
  | succ d ih =>
    intro l tail hl
    obtain ⟨l', c, rfl⟩ : ∃ l' c, l = l' ++ [c] := by
      refine ⟨l.dropLast, l.getLast (by intro e; rw [e] at hl; cases hl), (List.dropLast_append_getLast _).symm⟩
    have hl' : l'.length = d := by simpa using hl
    have hk : pre.length + d = (pre ++ l').length := by rw [List.length_append, hl']
    have e : pre ++ (l' ++ [c]) ++ tail = (pre ++ l') ++ (c :: tail) := by simp
    unfold sweep
    rw [e, hk, List.getElem?_append_right (le_refl _), Nat.sub_self]
    simp only [List.getElem?_cons_zero]
    by_cases h : useless x c = true
    · rw [if_pos h, List.eraseIdx_append_of_length_le (le_refl _), Nat.sub_self, List.eraseIdx_cons_zero, ih l' tail hl']
      simp [h]
    · rw [if_neg h]
      have := ih l' (c :: tail) hl'
      rw [this]
      simp [h]

/-- **C152** if Clp solves the original problem: its objective is as before, and exactly the new cuts are kept that the point violates by
more than 1e-7, in the same order.  The first part is false of the code otherwise. -/
theorem call_partial (rows : List (ℚ × SVec)) (find : (Nat → ℚ) → Bool × List RowCut) (x obj : Nat → ℚ) (cs : List RowCut)
    (h : (find (price rows obj)).1 = true) :
    (call rows find x obj cs).obj = obj ∧ ∃ kept, (call rows find x obj cs).cuts = cs ++ kept ∧ kept.Sublist (find (price rows obj)).2 ∧
      ∀ c, c ∈ kept ↔ c ∈ (find (price rows obj)).2 ∧ (c.ub + 1 / 10 ^ 7 < c.row.dot x ∨ c.row.dot x < c.lb - 1 / 10 ^ 7) := by
  unfold call
  simp only [h, if_true]
  refine ⟨trivial, (find (price rows obj)).2.filter (fun c => !useless x c), ?_, List.filter_sublist, fun c => ?_⟩
  · have := sweep_eq x cs (find (price rows obj)).2.length _ [] rfl
    simp only [List.append_nil] at this
    rw [List.length_append, Nat.add_sub_cancel_left, this]
  · rw [List.mem_filter]
    refine and_congr_right fun _ => ?_
    have := useless_iff x c
    cases hu : useless x c with
    | true => simp only [Bool.not_true, Bool.false_eq_true, false_iff]; exact this.mp hu
    | false =>
      simp only [Bool.not_false, true_iff]
      by_contra hn
      rw [this.mpr hn] at hu
      cases hu

/-- No earlier cut is lost, whatever Clp does, and no cut is made up. -/
theorem call_cuts (rows : List (ℚ × SVec)) (find : (Nat → ℚ) → Bool × List RowCut) (x obj : Nat → ℚ) (cs : List RowCut) :
    ∃ kept, (call rows find x obj cs).cuts = cs ++ kept ∧ kept.Sublist (find (price rows obj)).2 := by
  by_cases h : (find (price rows obj)).1 = true
  · obtain ⟨-, k, a, b, -⟩ := call_partial rows find x obj cs h
    exact ⟨k, a, b⟩
  · refine ⟨(find (price rows obj)).2, ?_, List.Sublist.refl _⟩
    unfold call
    simp only [h]
    rfl

theorem priceRow_eq (p : ℚ) : ∀ (row : SVec) (obj : Nat → ℚ) (j : Nat),
    priceRow p row obj j = obj j - p * (row.map fun e => if e.1 = j then e.2 else 0).sum := by
  intro row
  induction row with
  | nil => intro obj j; simp [priceRow]
  | cons e row ih =>
    intro obj j
    have := ih (fun j => if j = e.1 then obj j - p * e.2 else obj j) j
    unfold priceRow at this ⊢
    rw [List.foldl_cons, this, List.map_cons, List.sum_cons]
    by_cases h : e.1 = j
    · rw [if_pos h, if_pos h.symm]; ring
    · rw [if_neg h, if_neg (Ne.symm h)]; ring

/-- **C152.** The objective that the original problem is solved with: the prices of the rows times their coefficients are taken off. -/
theorem price_eq : ∀ (rows : List (ℚ × SVec)) (obj : Nat → ℚ) (j : Nat),
    price rows obj j = obj j - (rows.map fun r => r.1 * (r.2.map fun e => if e.1 = j then e.2 else 0).sum).sum := by
  intro rows
  induction rows with
  | nil => intro obj j; simp [price]
  | cons r rows ih =>
    intro obj j
    have := ih (priceRow r.1 r.2 obj) j
    unfold price at this ⊢
    rw [List.foldl_cons, this, priceRow_eq, List.map_cons, List.sum_cons]
    ring

/-! ### Cases -/

/-- Three cuts are found if column 0 costs 1 after the change; one of them is no use. -/
def search (o : Nat → ℚ) : Bool × List RowCut :=
  if o 0 = 1 then (true, [⟨-dblMax, 0, [(0, 1)]⟩, ⟨-dblMax, 5, [(1, 1)]⟩, ⟨2, dblMax, [(0, 1), (1, 1)]⟩]) else (false, [⟨0, 0, [(1, 1)]⟩])

theorem call_meets : (search (price [(2, [(0, 1), (1, 3)]), (-1, [(1, 1)])] (fun _ => 3))).1 = true ∧
    price [(2, [(0, 1), (1, 3)]), (-1, [(1, 1)])] (fun _ => 3) 1 = -2 ∧
    ((call [(2, [(0, 1), (1, 3)]), (-1, [(1, 1)])] search (fun _ => 1 / 2) (fun _ => 3) [⟨7, 8, []⟩]).cuts.map fun c => (c.lb, c.ub, c.row)) =
      [(7, 8, []), (-dblMax, 0, [(0, 1)]), (2, dblMax, [(0, 1), (1, 1)])] := by
  decide +kernel

/-- If Clp does not solve the original problem, the changed objective stays. -/
theorem not_restored : (call [(1, [(0, 1)])] search (fun _ => 0) (fun _ => 3) []).obj 0 = 2 := by decide +kernel

end Cgl.Useless
