import Verif.Probing.Limits

/-!
# Properties of `CglProbing`

The points the theorems speak of (`Reach`) are feasible for the problem, not beyond the objective limit, and have numbers
below 1.0e20 (integer columns below 12345678900: beyond that the code puts a bound of its own,
`Verif/Probing/Witness.lean`).  `Reach` also asks that the reduced costs bound the objective of the point, which is so for
every feasible point if the solution is optimal (`probing_dualBound`).

The theorems named `…_partial` speak of the calls in which no step rests on a tolerance or on the cost of other points
(`ExactRun`); the others of problems in which all columns are integer and rows are not strengthened (`rowCuts` without 2;
the default), of which every call is of this kind.  Missing for the full statement: calls with continuous columns whose
new bounds are within a tolerance of the other bound, and rows strengthened with columns moved for their cost; the
statement is false of some of them (`Verif/Probing/Witness.lean`).
-/

namespace Cgl.Probing

variable {P : Prob} {A : Params} {L : Lp}

/-- If the solution is optimal for the relaxation, its reduced costs bound the objective of every feasible point. -/
theorem probing_dualBound (hw : P.WF) (ho : Optimal P L) {x : Nat → ℚ} (hx : P.Feasible x) : DualBound P L x :=
  dualBound_optimal hw ho hx

/-- A call does not fail if the numbers are tame. -/
theorem probing_total (hD : Data P A L) (hT : Tame P A L) (dup : List RowCut → RowCut → Bool) (look : Nat → List Nat)
    (cs : Cuts) :
    (∃ cs', generateCuts P A L dup look cs = .ok cs') ∧
    ∃ r, generateCutsAndModify P A L dup look cs = .ok r := by
  obtain ⟨o, ho⟩ := guts_total hD hT dup look
  unfold generateCuts generateCutsAndModify
  rw [ho]
  exact ⟨⟨_, rfl⟩, ⟨_, rfl⟩⟩

theorem insert_ok {o : Out} {cs : Cuts} (ho : ∀ x, Reach P A L x → OutOk P x o) : ∃ rows cols,
    (o.insert cs).rows = cs.rows ++ rows ∧ (o.insert cs).cols = cs.cols ++ cols ∧
    ∀ x, Reach P A L x → (∀ c ∈ rows, c.Sat x) ∧ ∀ c ∈ cols, c.Sat x := by
  refine ⟨o.cuts ++ if o.infeas then [infeasibleCut] else [], o.cols, ?_, rfl, ?_⟩
  · unfold Out.insert; rw [List.append_assoc]
  · intro x hx
    have h := ho x hx
    refine ⟨?_, h.cols⟩
    rw [if_neg (by rw [h.infeas]; decide), List.append_nil]
    exact h.cuts

/-- `generateCuts` only appends, and what it appends holds at every point the problem is about: column cuts from
`tighten`, from one way that is infeasible and from both ways; disaggregated, strengthened and big-M rows; and the cut
that says that there is no such point. -/
theorem probing_cuts_valid_partial (hD : Data P A L) {dup : List RowCut → RowCut → Bool} {look : Nat → List Nat}
    (hE : ExactRun P A L dup look) {cs cs' : Cuts} (h : generateCuts P A L dup look cs = .ok cs') : ∃ rows cols,
      cs'.rows = cs.rows ++ rows ∧ cs'.cols = cs.cols ++ cols ∧
      ∀ x, Reach P A L x → (∀ c ∈ rows, c.Sat x) ∧ ∀ c ∈ cols, c.Sat x := by
  unfold generateCuts at h
  rcases ho : guts P A L dup look with f | o
  · rw [ho] at h; cases h
  · rw [ho] at h
    cases h
    exact insert_ok fun x hx => guts_ok hD hx ho (hE o ho)

/-- The same for problems with integer columns only, rows not strengthened. -/
theorem probing_cuts_valid (hD : Data P A L) (hI : ∀ c < P.nCols, P.isInt c = true) (hb : A.rowCutsNow / 2 % 2 = 0)
    {dup : List RowCut → RowCut → Bool} {look : Nat → List Nat} {cs cs' : Cuts}
    (h : generateCuts P A L dup look cs = .ok cs') : ∃ rows cols,
      cs'.rows = cs.rows ++ rows ∧ cs'.cols = cs.cols ++ cols ∧
      ∀ x, Reach P A L x → (∀ c ∈ rows, c.Sat x) ∧ ∀ c ∈ cols, c.Sat x :=
  probing_cuts_valid_partial hD (fun _ ho => guts_exact hD hI hb ho) h

/-- `generateCutsAndModify`: the same, and the bounds `tightLower()`, `tightUpper()` hold at every such point; if it
returns a number other than 0, there is none. -/
theorem probing_tight_valid_partial (hD : Data P A L) {dup : List RowCut → RowCut → Bool} {look : Nat → List Nat}
    (hE : ExactRun P A L dup look) {cs cs' : Cuts} {infeasible : Bool} {tightLower tightUpper : Nat → ℚ}
    (h : generateCutsAndModify P A L dup look cs = .ok (cs', infeasible, tightLower, tightUpper)) :
    (∃ rows cols, cs'.rows = cs.rows ++ rows ∧ cs'.cols = cs.cols ++ cols ∧
      ∀ x, Reach P A L x → (∀ c ∈ rows, c.Sat x) ∧ ∀ c ∈ cols, c.Sat x) ∧
    (∀ x, Reach P A L x → ∀ c < P.nCols, tightLower c ≤ x c ∧ x c ≤ tightUpper c) ∧
    (infeasible = true → ∀ x, ¬ Reach P A L x) := by
  unfold generateCutsAndModify at h
  rcases ho : guts P A L dup look with f | o
  · rw [ho] at h; cases h
  · rw [ho] at h
    simp only [Except.ok.injEq, Prod.mk.injEq] at h
    obtain ⟨rfl, rfl, rfl, rfl⟩ := h
    have hok := fun x hx => guts_ok hD (x := x) hx ho (hE o ho)
    refine ⟨insert_ok hok, fun x hx => (hok x hx).box, fun hi x hx => ?_⟩
    rw [(hok x hx).infeas] at hi
    cases hi

/-- The same for problems with integer columns only, rows not strengthened. -/
theorem probing_tight_valid (hD : Data P A L) (hI : ∀ c < P.nCols, P.isInt c = true) (hb : A.rowCutsNow / 2 % 2 = 0)
    {dup : List RowCut → RowCut → Bool} {look : Nat → List Nat} {cs cs' : Cuts} {infeasible : Bool}
    {tightLower tightUpper : Nat → ℚ}
    (h : generateCutsAndModify P A L dup look cs = .ok (cs', infeasible, tightLower, tightUpper)) :
    (∃ rows cols, cs'.rows = cs.rows ++ rows ∧ cs'.cols = cs.cols ++ cols ∧
      ∀ x, Reach P A L x → (∀ c ∈ rows, c.Sat x) ∧ ∀ c ∈ cols, c.Sat x) ∧
    (∀ x, Reach P A L x → ∀ c < P.nCols, tightLower c ≤ x c ∧ x c ≤ tightUpper c) ∧
    (infeasible = true → ∀ x, ¬ Reach P A L x) :=
  probing_tight_valid_partial hD (fun _ ho => guts_exact hD hI hb ho) h

/-- The implications a call records in the `CglTreeInfo` hold at every such point. -/
theorem probing_implications_partial (hD : Data P A L) {dup : List RowCut → RowCut → Bool} {look : Nat → List Nat}
    (hE : ExactRun P A L dup look) {o : Out} (h : guts P A L dup look = .ok o) :
    ∀ x, Reach P A L x → ∀ f ∈ o.fixes, f.Holds P x :=
  fun _ hx => (guts_ok hD hx h (hE o h)).fixes

/-- The same for problems with integer columns only, rows not strengthened. -/
theorem probing_implications (hD : Data P A L) (hI : ∀ c < P.nCols, P.isInt c = true) (hb : A.rowCutsNow / 2 % 2 = 0)
    {dup : List RowCut → RowCut → Bool} {look : Nat → List Nat} {o : Out} (h : guts P A L dup look = .ok o) :
    ∀ x, Reach P A L x → ∀ f ∈ o.fixes, f.Holds P x :=
  probing_implications_partial hD (fun _ ho => guts_exact hD hI hb ho) h

/-- If the cut that says that there is no feasible point is appended, there is no such point. -/
theorem probing_infeasible_partial (hD : Data P A L) {dup : List RowCut → RowCut → Bool} {look : Nat → List Nat}
    (hE : ExactRun P A L dup look) {cs cs' : Cuts} (h : generateCuts P A L dup look cs = .ok cs')
    (hi : infeasibleCut ∈ cs'.rows.drop cs.rows.length) : ∀ x, ¬ Reach P A L x := by
  intro x hx
  obtain ⟨rows, cols, h1, -, h3⟩ := probing_cuts_valid_partial hD hE h
  rw [h1, List.drop_left] at hi
  have := ((h3 x hx).1 _ hi).1 (by have := dblMax_pos; show -dblMax < dblMax; linarith)
  have h2 : dblMax ≤ 0 := this
  linarith [dblMax_pos]

/-- The same for problems with integer columns only, rows not strengthened. -/
theorem probing_infeasible (hD : Data P A L) (hI : ∀ c < P.nCols, P.isInt c = true) (hb : A.rowCutsNow / 2 % 2 = 0)
    {dup : List RowCut → RowCut → Bool} {look : Nat → List Nat} {cs cs' : Cuts}
    (h : generateCuts P A L dup look cs = .ok cs') (hi : infeasibleCut ∈ cs'.rows.drop cs.rows.length) :
    ∀ x, ¬ Reach P A L x :=
  probing_infeasible_partial hD (fun _ ho => guts_exact hD hI hb ho) h hi

/-- Whatever the data, a call only appends to the cuts it is given. -/
theorem probing_extends {dup : List RowCut → RowCut → Bool} {look : Nat → List Nat} {cs cs' : Cuts}
    (h : generateCuts P A L dup look cs = .ok cs') : cs.rows <+: cs'.rows ∧ cs.cols <+: cs'.cols := by
  unfold generateCuts at h
  rcases ho : guts P A L dup look with f | o
  · rw [ho] at h; cases h
  · rw [ho] at h
    cases h
    unfold Out.insert
    rw [List.append_assoc]
    exact ⟨List.prefix_append _ _, List.prefix_append _ _⟩

/-- At most one third of the number of rows as many row cuts are appended in the tree, 100 times as many in the first
pass at the root, 10 times as many in later passes; besides the cut that says that there is no feasible point. -/
theorem probing_cut_limit {dup : List RowCut → RowCut → Bool} {look : Nat → List Nat} {cs cs' : Cuts}
    (h : generateCuts P A L dup look cs = .ok cs') : cs'.rows.length ≤ cs.rows.length + 1 +
      (if A.inTree then P.rows.length / 3 else if A.pass = 0 then P.rows.length * 100 else P.rows.length * 10) := by
  unfold generateCuts at h
  rcases ho : guts P A L dup look with f | o
  · rw [ho] at h; cases h
  · rw [ho] at h
    cases h
    have h1 := guts_limit ho
    have h2 : (if o.infeas = true then [infeasibleCut] else []).length ≤ 1 := by split <;> simp
    unfold Out.insert
    rw [List.length_append, List.length_append]
    generalize (if o.infeas = true then [infeasibleCut] else []).length = k at h2 ⊢
    unfold cutLimit at h1
    split
    · rw [if_pos (by assumption)] at h1; omega
    · rw [if_neg (by assumption)] at h1
      split
      · rw [if_pos (by assumption)] at h1; omega
      · rw [if_neg (by assumption)] at h1; omega

/-- With `setRowCuts(0)` no row cut is appended but the one that says that there is no feasible point. -/
theorem probing_columns_only (hr : A.rowCuts = 0) {dup : List RowCut → RowCut → Bool} {look : Nat → List Nat} {cs cs' : Cuts}
    (h : generateCuts P A L dup look cs = .ok cs') : cs'.rows = cs.rows ∨ cs'.rows = cs.rows ++ [infeasibleCut] := by
  unfold generateCuts at h
  rcases ho : guts P A L dup look with f | o
  · rw [ho] at h; cases h
  · rw [ho] at h
    cases h
    have h1 := guts_columns_only (by unfold Params.rowCutsNow; rw [hr]; rfl) ho
    unfold Out.insert
    rw [h1, List.append_nil]
    split
    · exact Or.inr rfl
    · left; simp

end Cgl.Probing
