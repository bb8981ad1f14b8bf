import Verif.Clique.Props

/-!
# A `CglClique` object over its life

The only setting that `generateCuts` changes is `petol`: the tolerance of the solver is put there if the user set none, and -1 is put
back at the end of the function (CglClique.cpp:93-96, 155-156), but not if it returns early (123-127).
-/

namespace Cgl.Clique

/-- What a call of `generateCuts` is given. -/
structure Call where
  primalTol : ℚ
  info : Info
  P : Prob
  x : Nat → ℚ
  cs : List RowCut

/-- The early return: too many rows, or fewer than two or too many columns, CglClique.cpp:123. -/
def early (o : Obj) (c : Call) : Bool :=
  let s := selection o (if o.petol ≠ -1 then o.petol else c.primalTol) c.primalTol c.info c.P c.x
  decide (s.2.length > 100000 ∨ s.1.length < 2 ∨ s.1.length > 10000)

/-- The object after a call, CglClique.cpp:93-96, 123-127, 155-156. -/
def after (o : Obj) (c : Call) : Obj :=
  if o.petol ≠ -1 then o else if early o c = true then { o with petol := c.primalTol } else o

/-- The object after several calls. -/
def afterAll (o : Obj) (l : List Call) : Obj := l.foldl after o

/-- What a call returns. -/
def answer (o : Obj) (c : Call) : Option (List RowCut) := generateCuts o c.primalTol c.info c.P c.x c.cs

theorem after_cases (o : Obj) (c : Call) : after o c = o ∨ (o.petol = -1 ∧ early o c = true ∧ after o c = { o with petol := c.primalTol }) := by
  unfold after
  split
  · exact Or.inl rfl
  · rename_i h
    split
    · rename_i h2; exact Or.inr ⟨not_not.mp h, h2, rfl⟩
    · exact Or.inl rfl

/-- **C148** if the user has set the tolerance: any calls before, on any problems, make no difference. -/
theorem alike_set (o : Obj) (h : o.petol ≠ -1) (l : List Call) (c : Call) : answer (afterAll o l) c = answer o c := by
  have : afterAll o l = o := by
    unfold afterAll
    induction l with
    | nil => rfl
    | cons a l ih => rw [List.foldl_cons, show after o a = o by unfold after; rw [if_pos h]]; exact ih
  rw [this]

/-- **C148** if no call before ended early.  Without this it is false of the code: `not_alike`. -/
theorem alike_partial (o : Obj) (l : List Call) (h : ∀ a ∈ l, early o a = false) (c : Call) : answer (afterAll o l) c = answer o c := by
  have : afterAll o l = o := by
    unfold afterAll
    induction l with
    | nil => rfl
    | cons a l ih =>
      have ha : after o a = o := by
        rcases after_cases o a with e | ⟨_, e, _⟩
        · exact e
        · rw [h a List.mem_cons_self] at e; exact absurd e (by decide)
      rw [List.foldl_cons, ha]
      exact ih fun b hb => h b (List.mem_cons_of_mem _ hb)
  rw [this]

theorem answer_tol (o : Obj) (h : o.petol = -1) (c : Call) : answer { o with petol := c.primalTol } c = answer o c := by
  unfold answer generateCuts selection
  by_cases ht : c.primalTol = -1
  · simp [ht, h]
  · simp [ht, h]

/-- **C148** if all solvers have the same primal tolerance: any calls before, on any problems, make no difference. -/
theorem alike_same (o : Obj) (l : List Call) (c : Call) (h : ∀ a ∈ l, a.primalTol = c.primalTol) :
    answer (afterAll o l) c = answer o c := by
  have key : ∀ (l : List Call), (∀ a ∈ l, a.primalTol = c.primalTol) → ∀ q : Obj, (q = o ∨ (o.petol = -1 ∧ q = { o with petol := c.primalTol })) →
      (afterAll q l = o ∨ (o.petol = -1 ∧ afterAll q l = { o with petol := c.primalTol })) := by
    intro l
    induction l with
    | nil => intro _ q hq; exact hq
    | cons a l ih =>
      intro hl q hq
      refine ih (fun b hb => hl b (List.mem_cons_of_mem _ hb)) (after q a) ?_
      rcases after_cases q a with e | ⟨e1, _, e3⟩
      · rw [e]; exact hq
      · right
        rw [e3, hl a List.mem_cons_self]
        rcases hq with rfl | ⟨h1, rfl⟩
        · exact ⟨e1, rfl⟩
        · exact ⟨h1, rfl⟩
  rcases key l h o (Or.inl rfl) with e | ⟨h1, e⟩
  · rw [e]
  · rw [e]; exact answer_tol o h1 c

/-- Other settings never change. -/
theorem settings_stay (o : Obj) (l : List Call) : ∃ t, afterAll o l = { o with petol := t } := by
  have key : ∀ (l : List Call) (q : Obj), (∃ t, q = { o with petol := t }) → ∃ t, afterAll q l = { o with petol := t } := by
    intro l
    induction l with
    | nil => intro q hq; exact hq
    | cons a l ih =>
      intro q hq
      refine ih (after q a) ?_
      rcases after_cases q a with e | ⟨_, _, e⟩
      · rw [e]; exact hq
      · obtain ⟨t, rfl⟩ := hq
        exact ⟨_, e⟩
  exact key l o ⟨o.petol, rfl⟩

/-! ### Cases -/

/-- Three columns, two of them at most one in each row. -/
def three : Prob :=
  { nCols := 3, inf := dblMax, colLower := fun _ => 0, colUpper := fun _ => 1, isInt := fun _ => true,
    rows := [⟨-dblMax, 1, [(0, 1), (1, 1)]⟩, ⟨-dblMax, 1, [(1, 1), (2, 1)]⟩, ⟨-dblMax, 1, [(0, 1), (2, 1)]⟩] }

/-- A call with three equal values. -/
def threeCall (tol v : ℚ) : Call := ⟨tol, {}, three, fun _ => v, []⟩

/-- The hypotheses of `alike_partial` are met by calls that give cuts. -/
theorem alike_meets : early {} (threeCall (1 / 10 ^ 7) (1 / 2)) = false ∧ answer {} (threeCall (1 / 10 ^ 7) (1 / 2)) ≠ some [] ∧
    early {} (threeCall (1 / 10 ^ 7) 0) = true := by
  refine ⟨by decide +kernel, ?_, by decide +kernel⟩
  intro h
  have : (answer {} (threeCall (1 / 10 ^ 7) (1 / 2))).map List.length = some 0 := by rw [h]; rfl
  exact absurd this (by decide +kernel)

/-- A call with a solver of tolerance 1/10 that returns early, and then one with a solver of tolerance 1e-7: a violated clique is not
found, but a new object finds it. -/
theorem not_alike : early {} (threeCall (1 / 10) 0) = true ∧
    (answer (afterAll {} [threeCall (1 / 10) 0]) (threeCall (1 / 10 ^ 7) (35 / 100))).map List.length = some 0 ∧
    (answer {} (threeCall (1 / 10 ^ 7) (35 / 100))).map List.length ≠ some 0 := by
  refine ⟨by decide +kernel, by decide +kernel, by decide +kernel⟩

end Cgl.Clique
