import Verif.Clique.Props

/-!
# `CglFakeClique`

`/repo/src/CglClique/CglClique.cpp:807-934`: rows of the real solver that the point violates become cuts, and cliques are looked for in
another problem with the bounds of the real one.  The cuts of the `CglProbing` object (927-929) and cutoffs are not modelled.
-/

namespace Cgl.Clique

/-! ### Cuts -/

/-- A row becomes a cut, :916; the tolerance is 1e-3. -/
def violated (x : Nat → ℚ) (r : Row) : Bool :=
  decide (r.coefs.dot x < r.lb - 1 / 1000 ∨ r.ub + 1 / 1000 < r.coefs.dot x)

/-- The loop over rows, :902-925. -/
def scan (x : Nat → ℚ) (rows : List Row) (cs : List RowCut) : List RowCut :=
  rows.foldl (fun cs r => if violated x r = true then insertIfNotDuplicate cs ⟨r.lb, r.ub, r.coefs⟩ else cs) cs

/-- The fake problem with the bounds of the real one, :874-877. -/
def withBounds (si fake : Prob) : Prob := { fake with colLower := si.colLower, colUpper := si.colUpper }

/-- `generateCuts`, :868-934, without probing.  `tol` is the primal tolerance of the fake solver, or of the real one if there is no fake
one.  `x` is the point of the real solver and `z` what the fake one reports afterwards: the same (876), but with Clp the reduced costs,
which are copied over the point (889-890). -/
def fakeCuts (o : Obj) (tol : ℚ) (info : Info) (si : Prob) (fake : Option Prob) (x z : Nat → ℚ) (cs : List RowCut) : Option (List RowCut) :=
  match fake with
  | none => generateCuts o tol info si x cs
  | some f => generateCuts o tol info (withBounds si f) z (scan x si.rows cs)

theorem scan_mem (x : Nat → ℚ) : ∀ (rows : List Row) (cs : List RowCut) (c : RowCut),
    c ∈ scan x rows cs ↔ c ∈ cs ∨ ∃ r ∈ rows, violated x r = true ∧ c = ⟨r.lb, r.ub, r.coefs⟩ := by
  intro rows
  induction rows with
  | nil => intro cs c; simp [scan]
  | cons r rows ih =>
    intro cs c
    have := ih (if violated x r = true then insertIfNotDuplicate cs ⟨r.lb, r.ub, r.coefs⟩ else cs) c
    unfold scan at this ⊢
    rw [List.foldl_cons, this]
    split
    · rename_i h
      rw [mem_insertIfNotDuplicate]
      constructor
      · rintro ((a | a) | ⟨q, hq, a⟩)
        · exact Or.inl a
        · exact Or.inr ⟨r, List.mem_cons_self, h, a⟩
        · exact Or.inr ⟨q, List.mem_cons_of_mem _ hq, a⟩
      · rintro (a | ⟨q, hq, a⟩)
        · exact Or.inl (Or.inl a)
        · rcases List.mem_cons.mp hq with rfl | hq
          · exact Or.inl (Or.inr a.2)
          · exact Or.inr ⟨q, hq, a⟩
    · rename_i h
      constructor
      · rintro (a | ⟨q, hq, a⟩)
        · exact Or.inl a
        · exact Or.inr ⟨q, List.mem_cons_of_mem _ hq, a⟩
      · rintro (a | ⟨q, hq, a⟩)
        · exact Or.inl a
        · rcases List.mem_cons.mp hq with rfl | hq
          · exact absurd a.1 h
          · exact Or.inr ⟨q, hq, a⟩

/-- **C149** without the cuts of the probing object: every cut holds for all points that are feasible for both problems, if the fake one has
the bounds of the real one. -/
theorem fake_valid_partial (o : Obj) (tol : ℚ) (info : Info) (si fake : Prob) (x z : Nat → ℚ) (cs out : List RowCut) (both : Prob)
    (hb : both = { fake with colLower := si.colLower, colUpper := si.colUpper }) (hle : si.inf ≤ dblMax) (hP : both.WF)
    (hinf : 1 < fake.inf) (hpack : o.setPacking = true → SetPacking both)
    (hlow : o.setPacking = false → NonnegLower both) (h : fakeCuts o tol info si (some fake) x z cs = some out)
    (c : RowCut) (hc : c ∈ out) (y : Nat → ℚ) (hy : si.Feasible y) (hz : both.Feasible y) :
    c ∈ cs ∨ c.SatIn si.inf y := by
  subst hb
  rcases generateCuts_valid o tol info _ z _ out hP hinf hpack hlow h c hc with a | a
  · rcases (scan_mem x si.rows cs c).mp a with b | ⟨r, hr, _, rfl⟩
    · exact Or.inl b
    · exact Or.inr (hy.rows r hr)
  · obtain ⟨hl, hu⟩ := a y hz
    exact Or.inr ⟨fun k => hl (lt_of_le_of_lt (neg_le_neg hle) k), fun k => hu (lt_of_lt_of_le k hle)⟩

/-- **C149.** No cut is lost, and every row of the real problem that the point violates by more than 1e-3 is among the cuts. -/
theorem fake_rows (o : Obj) (tol : ℚ) (info : Info) (si fake : Prob) (x z : Nat → ℚ) (cs out : List RowCut)
    (h : fakeCuts o tol info si (some fake) x z cs = some out) :
    (∀ c ∈ cs, c ∈ out) ∧ ∀ r ∈ si.rows, (r.coefs.dot x < r.lb - 1 / 1000 ∨ r.ub + 1 / 1000 < r.coefs.dot x) →
      (⟨r.lb, r.ub, r.coefs⟩ : RowCut) ∈ out := by
  have hp := (generateCuts_form o tol info _ z _ out h).1.subset
  refine ⟨fun c hc => hp ((scan_mem x si.rows cs c).mpr (Or.inl hc)), fun r hr hv => hp ((scan_mem x si.rows cs _).mpr (Or.inr ⟨r, hr, ?_, rfl⟩))⟩
  unfold violated; exact decide_eq_true hv

/-! ### Life -/

/-- Whether `fakeSolver_` and `probing_` are not `NULL`. -/
structure Fake where
  solver : Bool
  probing : Bool
deriving DecidableEq, Repr

/-- What a user may do with an object; `copy` goes on with the copy. -/
inductive FakeOp where
  | copy
  | assignSolver (given : Bool)
deriving DecidableEq, Repr

/-- The constructor, :807-821. -/
def fakeNew (given : Bool) : Fake := ⟨given, given⟩

/-- One call, :823-834 and :852-863; `none` if a `NULL` pointer is followed (`*rhs.probing_`, or `refreshSolver(NULL)`,
CglProbing.cpp:10631-10639). -/
def fakeStep (f : Fake) : FakeOp → Option Fake
  | .copy => if f.solver = true then (if f.probing = true then some ⟨true, true⟩ else none) else some ⟨false, false⟩
  | .assignSolver g => if f.probing = true ∧ g = false then none else some ⟨g, f.probing⟩

/-- Several calls. -/
def fakeRun : List FakeOp → Fake → Option Fake
  | [], f => some f
  | op :: l, f => (fakeStep f op).bind (fakeRun l)

/-- **C150** for objects that are made with a solver and are never given `NULL`.  It is false of the code otherwise. -/
theorem fake_life_partial (l : List FakeOp) (h : ∀ op ∈ l, op ≠ .assignSolver false) : fakeRun l (fakeNew true) = some ⟨true, true⟩ := by
  unfold fakeNew
  induction l with
  | nil => rfl
  | cons op l ih =>
    have hs : fakeStep ⟨true, true⟩ op = some ⟨true, true⟩ := by
      cases op with
      | copy => rfl
      | assignSolver g =>
        cases g
        · exact absurd rfl (h _ List.mem_cons_self)
        · rfl
    unfold fakeRun
    rw [hs]
    exact ih fun q hq => h q (List.mem_cons_of_mem _ hq)

/-- **C150** for objects without a solver that are copied only, or are given none. -/
theorem fake_none_partial (l : List FakeOp) (h : ∀ op ∈ l, op ≠ .assignSolver true) : fakeRun l (fakeNew false) = some ⟨false, false⟩ := by
  unfold fakeNew
  induction l with
  | nil => rfl
  | cons op l ih =>
    have hs : fakeStep ⟨false, false⟩ op = some ⟨false, false⟩ := by
      cases op with
      | copy => rfl
      | assignSolver g =>
        cases g
        · rfl
        · exact absurd rfl (h _ List.mem_cons_self)
    unfold fakeRun
    rw [hs]
    exact ih fun q hq => h q (List.mem_cons_of_mem _ hq)

/-- An object without a solver that is given one later cannot be copied. -/
theorem fake_late : fakeRun [.assignSolver true, .copy] (fakeNew false) = none := by decide

/-- The solver cannot be taken away. -/
theorem fake_away : fakeRun [.copy, .assignSolver false] (fakeNew true) = none := by decide

/-! ### A case -/

/-- A real problem with one row, and a fake one with three. -/
def real : Prob :=
  { nCols := 3, inf := dblMax, colLower := fun _ => 0, colUpper := fun _ => 1, isInt := fun _ => true,
    rows := [⟨-dblMax, 1, [(0, 2), (1, 1)]⟩, ⟨0, 2, [(2, 1)]⟩] }

/-- Pairs of columns. -/
def pairs : Prob :=
  { nCols := 3, inf := dblMax, colLower := fun _ => 0, colUpper := fun _ => 7, isInt := fun _ => true,
    rows := [⟨-dblMax, 1, [(0, 1), (1, 1)]⟩, ⟨-dblMax, 1, [(1, 1), (2, 1)]⟩, ⟨-dblMax, 1, [(0, 1), (2, 1)]⟩] }

/-- The hypotheses are met, a row of the real problem and a clique of the fake one become cuts, and there is a feasible point. -/
theorem fake_meets : real.inf ≤ dblMax ∧ (withBounds real pairs).WF ∧ 1 < pairs.inf ∧ NonnegLower (withBounds real pairs) ∧
    (fakeCuts { justOriginalRows := true } (1 / 10 ^ 7) {} real (some pairs) (fun _ => 1 / 2) (fun _ => 1 / 2) []).map (·.map fun c => (c.ub, c.row)) =
      some [(1, [(0, 2), (1, 1)]), (1, [(0, 1), (1, 1), (2, 1)])] ∧
    real.Feasible (fun j => if j = 2 then 1 else 0) ∧ (withBounds real pairs).Feasible (fun j => if j = 2 then 1 else 0) := by
  refine ⟨le_refl _, by decide +kernel, by decide +kernel, by decide +kernel, by decide +kernel, by decide +kernel, by decide +kernel⟩

/-- With the reduced costs in place of the point the clique is missed. -/
theorem not_point : (fakeCuts { justOriginalRows := true } (1 / 10 ^ 7) {} real (some pairs) (fun _ => 1 / 2) (fun _ => 0) []).map
    (·.map fun c => (c.ub, c.row)) = some [(1, [(0, 2), (1, 1)])] := by decide +kernel

end Cgl.Clique
