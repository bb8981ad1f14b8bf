import Verif.DupRow.Exact8

/-!
# Claims about `CglDuplicateRow`

The two modes that do something look at rows with at most three open columns (mode 4) and at clique rows (mode 8).
`generate` is `generateCuts`, `outDuplicates` removes rows and tightens bounds in the solver.
-/

namespace Cgl.DupRow

instance (P : Prob) : Decidable (Exact4 P) :=
  decidable_of_iff ((∀ j < P.nCols, P.isInt j = true ∧ IsInteger (P.colLower j) ∧ IsInteger (P.colUpper j)) ∧
      (∀ j < P.nCols, P.colUpper j ≤ P.colLower j + 1) ∧ (∀ r ∈ P.rows, ∀ p ∈ r.coefs, IsInteger p.2) ∧
      (∀ r ∈ P.rows, IsInteger r.lb ∧ IsInteger r.ub) ∧ (∀ r ∈ P.rows, r.ub ≠ 10 ^ 20) ∧
      ∀ r ∈ P.rows, DupRow.size P (openEls P r.coefs) ≤ 10 ^ 9 ∧ |r.coefs.dot P.colLower| ≤ 10 ^ 19)
    ⟨fun h => ⟨h.1, h.2.1, h.2.2.1, h.2.2.2.1, h.2.2.2.2.1, h.2.2.2.2.2⟩,
      fun h => ⟨h.int, h.bin, h.coefs, h.bounds, h.big, h.size⟩⟩

/-! ### Helpers -/

theorem generate_cases {o o' : Obj} {P : Prob} {inTree : Bool} {cs cs' : Cuts} (h : generate o P inTree cs = .ok (o', cs')) :
    (o' = o ∧ cs' = cs) ∨ (inTree = false ∧ o.mode % 4 = 0 ∧ ∃ u, o' = { o with dup := u.dup } ∧ cs' = cs.add u ∧
      ((o.mode / 4 % 2 = 1 ∧ cuts4 o P = .ok u) ∨ (o.mode / 4 % 2 ≠ 1 ∧ o.mode / 8 % 2 = 1 ∧ cuts8 o P = .ok u))) := by
  unfold generate at h
  split at h
  · obtain ⟨rfl, rfl⟩ := Prod.mk.inj (Except.ok.inj h); exact Or.inl ⟨rfl, rfl⟩
  · rename_i hin
    split at h
    · obtain ⟨rfl, rfl⟩ := Prod.mk.inj (Except.ok.inj h); exact Or.inl ⟨rfl, rfl⟩
    · rename_i hm
      right
      refine ⟨by simpa using hin, by simpa using hm, ?_⟩
      split at h
      · cases h
      · rename_i u hu
        obtain ⟨rfl, rfl⟩ := Prod.mk.inj (Except.ok.inj h)
        refine ⟨u, rfl, rfl, ?_⟩
        split at hu
        · rename_i h1; exact Or.inl ⟨h1, hu⟩
        · rename_i h1
          split at hu
          · rename_i h2; exact Or.inr ⟨h1, h2, hu⟩
          · cases hu

theorem generate_of_mode4 {o o' : Obj} {P : Prob} {cs cs' : Cuts} (hm : o.mode % 4 = 0) (h4 : o.mode / 4 % 2 = 1)
    (h : generate o P false cs = .ok (o', cs')) : ∃ u, cuts4 o P = .ok u ∧ o' = { o with dup := u.dup } ∧ cs' = cs.add u := by
  unfold generate at h
  rw [if_neg (by simp), if_neg (by simpa using hm), if_pos h4] at h
  split at h
  · cases h
  · rename_i u hu
    obtain ⟨rfl, rfl⟩ := Prod.mk.inj (Except.ok.inj h)
    exact ⟨u, hu, rfl, rfl⟩

theorem generate_of_mode8 {o o' : Obj} {P : Prob} {cs cs' : Cuts} (hm : o.mode % 4 = 0) (h4 : o.mode / 4 % 2 ≠ 1)
    (h : generate o P false cs = .ok (o', cs')) : ∃ u, cuts8 o P = .ok u ∧ o' = { o with dup := u.dup } ∧ cs' = cs.add u := by
  unfold generate at h
  rw [if_neg (by simp), if_neg (by simpa using hm), if_neg h4] at h
  split at h
  · cases h
  · rename_i u hu
    split at hu
    · obtain ⟨rfl, rfl⟩ := Prod.mk.inj (Except.ok.inj h)
      exact ⟨u, hu, rfl, rfl⟩
    · cases hu

theorem mem_add_cols {cs : Cuts} {u : Out} {c : ColCut} (h : c ∈ (cs.add u).cols) : c ∈ cs.cols ∨ c = ⟨u.lbs, u.ubs⟩ := by
  have h : c ∈ (if u.lbs = [] ∧ u.ubs = [] then cs.cols else cs.cols ++ [⟨u.lbs, u.ubs⟩]) := h
  split at h
  · exact Or.inl h
  · simpa using h

theorem add_rows {cs : Cuts} {u : Out} (h : u.infeas = false) : (cs.add u).rows = cs.rows := by
  show (if u.infeas = true then _ else _) = _
  rw [h]; rfl

theorem finalBounds_between {P : Prob} {s : St} {j : Nat} :
    (∀ q, (finalBounds P s j).1 = some q → P.colLower j < q) ∧ ∀ q, (finalBounds P s j).2.1 = some q → q < P.colUpper j := by
  have t : (0 : ℚ) < 1 / 10 ^ 7 := by norm_num
  constructor
  · intro q hq
    unfold finalBounds at hq
    dsimp only at hq
    split at hq
    · rename_i hlt
      obtain rfl := Option.some.inj hq
      split
      · exact lt_of_lt_of_le (by linarith) (Int.le_ceil _)
      · linarith
    · cases hq
  · intro q hq
    unfold finalBounds at hq
    dsimp only at hq
    split at hq
    · rename_i hlt
      obtain rfl := Option.some.inj hq
      split
      · exact lt_of_le_of_lt (Int.floor_le _) (by linarith)
      · linarith
    · cases hq

/-- The bounds found in mode 4 are those of columns of the problem, and not infinite. -/
theorem cuts4_finite {o : Obj} {P : Prob} (hl : Loaded o P) (ht : Tame4 P) {u : Out} (hc : cuts4 o P = .ok u) :
    (∀ p ∈ u.lbs, p.1 < P.nCols ∧ -P.inf < p.2) ∧ ∀ p ∈ u.ubs, p.1 < P.nCols ∧ p.2 < P.inf := by
  unfold cuts4 at hc
  split at hc
  · cases hc
  · split at hc
    · cases hc
    · rename_i hab
      have ha : NoAbort P := by
        intro j hj
        rw [Bool.not_eq_true, List.any_eq_false] at hab
        simpa using hab j (by rw [hl.cols]; exact List.mem_range.mpr hj)
      dsimp only at hc
      split at hc
      · cases hc
      · rename_i s hs
        obtain rfl := Except.ok.inj hc
        have hcol : ∀ j ∈ touched P o.nCols s, j < P.nCols ∧ -10 ^ 20 ≤ P.colLower j := by
          intro j hj
          obtain ⟨h1, h2⟩ := List.mem_filter.mp hj
          have h1 := List.mem_range.mp h1
          rw [hl.cols] at h1
          simp only [Bool.and_eq_true, Bool.not_eq_true'] at h2
          exact ⟨h1, lower_ge ha h1 h2.1.2⟩
        have hinf := ht.inf
        constructor
        · intro p hp
          obtain ⟨j, hj, h1⟩ := List.mem_filterMap.mp hp
          obtain ⟨q, hq, rfl⟩ := Option.map_eq_some_iff.mp h1
          have := finalBounds_between.1 q hq
          exact ⟨(hcol j hj).1, by have := (hcol j hj).2; dsimp only; linarith⟩
        · intro p hp
          obtain ⟨j, hj, h1⟩ := List.mem_filterMap.mp hp
          obtain ⟨q, hq, rfl⟩ := Option.map_eq_some_iff.mp h1
          have := finalBounds_between.2 q hq
          exact ⟨(hcol j hj).1, by have := (ht.bounded j (hcol j hj).1 (hcol j hj).2).1; dsimp only; linarith⟩

theorem cuts8_finite {o : Obj} {P : Prob} (ht : Tame8 P) {u : Out} (hc : cuts8 o P = .ok u) :
    (∀ p ∈ u.lbs, p.1 < P.nCols ∧ -P.inf < p.2) ∧ ∀ p ∈ u.ubs, p.1 < P.nCols ∧ p.2 < P.inf := by
  unfold cuts8 at hc
  split at hc
  · cases hc
  · split at hc
    · cases hc
    · split at hc
      · cases hc
      · split at hc
        · cases hc
        · obtain rfl := Except.ok.inj hc
          refine ⟨fun p hp => (by cases hp), fun p hp => ?_⟩
          obtain ⟨j, hj, rfl⟩ := List.mem_map.mp hp
          exact ⟨List.mem_range.mp (List.mem_filter.mp hj).1, by have := ht.inf; dsimp only; linarith⟩

theorem cuts4_length {o : Obj} {P : Prob} {u : Out} (hc : cuts4 o P = .ok u) : u.dup.length = o.mat.length := by
  unfold cuts4 at hc
  split at hc
  · cases hc
  · split at hc
    · cases hc
    · dsimp only at hc
      split at hc
      · cases hc
      · obtain rfl := Except.ok.inj hc
        show (moveFlags _ _ _).length = _
        unfold moveFlags
        rw [foldl_set_length, List.length_replicate]

theorem cuts8_length {o : Obj} {P : Prob} {u : Out} (hc : cuts8 o P = .ok u) : u.dup.length = P.rows.length := by
  unfold cuts8 at hc
  split at hc
  · cases hc
  · split at hc
    · cases hc
    · split at hc
      · cases hc
      · split at hc
        · cases hc
        · obtain rfl := Except.ok.inj hc
          show (flags8 _ _ _).length = _
          unfold flags8
          rw [foldl_set_length, List.length_replicate]

/-! ### Loading -/

/-- After `refreshSolver` the object belongs to every problem with that matrix, whatever bounds it has then. -/
theorem refresh_loads {o o' : Obj} {P P' : Prob} (h : o.refresh P = .ok o') (hc : P'.nCols = P.nCols)
    (hm : P'.rows.map Row.coefs = P.rows.map Row.coefs) :
    Loaded o' P' ∧ (∀ d ∈ o'.dup, d = -1) ∧ o'.mode = o.mode := by
  unfold Obj.refresh at h
  split at h
  · obtain rfl := Except.ok.inj h
    refine ⟨⟨hc.symm, hm.symm⟩, ?_, rfl⟩
    intro d hd
    obtain ⟨r, -, rfl⟩ := List.mem_map.mp hd
    rfl
  · cases h

/-! ### C30: mode 4 -/

/-- Mode 4: bounds that `generateCuts` reports hold at every feasible point (to `1e-8` on columns that are not integer),
and infeasibility is reported only if there is none.  Partial: for problems that are `Tame4`. -/
theorem generate4_valid_partial {o o' : Obj} {P : Prob} {cs cs' : Cuts} (hl : Loaded o P) (hwf : P.WF) (ht : Tame4 P)
    (hm : o.mode % 4 = 0) (h4 : o.mode / 4 % 2 = 1) (h : generate o P false cs = .ok (o', cs')) {x : Nat → ℚ}
    (hx : P.Feasible x) : (∀ c ∈ cs'.cols, c ∈ cs.cols ∨ ColCut.Almost P c x) ∧ cs'.rows = cs.rows := by
  obtain ⟨u, hu, -, rfl⟩ := generate_of_mode4 hm h4 h
  obtain ⟨h1, h2⟩ := cuts4_sound hl hwf ht hu hx
  refine ⟨fun c hc => ?_, add_rows h2⟩
  rcases mem_add_cols hc with hc | rfl
  · exact Or.inl hc
  · exact Or.inr h1

/-- With integer columns only, they hold exactly. -/
theorem generate4_integer_partial {o o' : Obj} {P : Prob} {cs cs' : Cuts} (hl : Loaded o P) (hwf : P.WF) (ht : Tame4 P)
    (hint : ∀ j < P.nCols, P.isInt j = true) (hm : o.mode % 4 = 0) (h4 : o.mode / 4 % 2 = 1)
    (h : generate o P false cs = .ok (o', cs')) : ∀ c ∈ cs'.cols, c ∈ cs.cols ∨ c.Valid P := by
  obtain ⟨u, hu, -, rfl⟩ := generate_of_mode4 hm h4 h
  intro c hc
  rcases mem_add_cols hc with hc | rfl
  · exact Or.inl hc
  · right
    intro x hx
    obtain ⟨⟨h1, h2⟩, -⟩ := cuts4_sound hl hwf ht hu hx
    obtain ⟨f1, f2⟩ := cuts4_finite hl ht hu
    exact ⟨fun p hp => (h1 p hp).2 (hint _ (f1 p hp).1), fun p hp => (h2 p hp).2 (hint _ (f2 p hp).1)⟩

/-- Mode 4: the problem that `outDuplicates` leaves still has every feasible point.  Partial: integer columns only,
`Tame4`. -/
theorem outDuplicates4_keeps_partial {o o' : Obj} {P P' : Prob} (hl : Loaded o P) (hwf : P.WF) (ht : Tame4 P)
    (hint : ∀ j < P.nCols, P.isInt j = true) (hm : o.mode % 4 = 0) (h4 : o.mode / 4 % 2 = 1)
    (h : outDuplicates o P = .ok (o', P')) {x : Nat → ℚ} (hx : P.Feasible x) : P'.Feasible x := by
  have h0 := h
  unfold outDuplicates at h0
  split at h0
  · cases h0
  · rename_i o1 cs hg
    obtain ⟨u, hu, rfl, rfl⟩ := generate_of_mode4 hm h4 hg
    have ho : o' = { o with dup := u.dup } := by
      split at h0
      · cases h0
      · exact (Prod.mk.inj (Except.ok.inj h0)).1.symm
    subst ho
    obtain ⟨f1, f2⟩ := cuts4_finite hl ht hu
    obtain ⟨⟨h1, h2⟩, -⟩ := cuts4_sound hl hwf ht hu hx
    rw [outDuplicates_feasible h hg f1 f2]
    exact ⟨⟨fun w hw => hx.rows w (mem_of_kept hw), hx.lower, hx.upper, hx.int⟩,
      fun p hp => (h1 p hp).2 (hint _ (f1 p hp).1), fun p hp => (h2 p hp).2 (hint _ (f2 p hp).1)⟩

/-- Mode 4 on a fresh object: `outDuplicates` does not change the set of feasible points.  Partial: pure 0-1 problems
with integral data (`Exact4`) that are feasible. -/
theorem outDuplicates4_exact_partial {o o' : Obj} {P P' : Prob} (hl : Loaded o P) (hwf : P.WF) (ht : Tame4 P)
    (he : Exact4 P) (hfresh : ∀ d ∈ o.dup, d = -1) (hm : o.mode % 4 = 0) (h4 : o.mode / 4 % 2 = 1)
    (h : outDuplicates o P = .ok (o', P')) (hf : ∃ x0, P.Feasible x0) (x : Nat → ℚ) : P'.Feasible x ↔ P.Feasible x := by
  refine ⟨fun hx => ?_, outDuplicates4_keeps_partial hl hwf ht (fun j hj => (he.int j hj).1) hm h4 h⟩
  have h0 := h
  unfold outDuplicates at h0
  split at h0
  · cases h0
  · rename_i o1 cs hg
    obtain ⟨u, hu, rfl, rfl⟩ := generate_of_mode4 hm h4 hg
    have ho : o' = { o with dup := u.dup } := by
      split at h0
      · cases h0
      · exact (Prod.mk.inj (Except.ok.inj h0)).1.symm
    subst ho
    obtain ⟨f1, f2⟩ := cuts4_finite hl ht hu
    rw [outDuplicates_feasible h hg f1 f2] at hx
    obtain ⟨x0, hx0⟩ := hf
    exact cuts4_exact hl hwf ht he hfresh hu hx0 x hx.1 hx.2

/-! ### C30: mode 8 -/

/-- Mode 8: the fixings that `generateCuts` reports hold at every feasible point, and infeasibility is reported only if
there is none.  Partial: for problems that are `Tame8`. -/
theorem generate8_valid_partial {o o' : Obj} {P : Prob} {cs cs' : Cuts} (hwf : P.WF) (ht : Tame8 P)
    (hm : o.mode % 4 = 0) (h4 : o.mode / 4 % 2 ≠ 1) (h : generate o P false cs = .ok (o', cs')) :
    (∀ c ∈ cs'.cols, c ∈ cs.cols ∨ c.Valid P) ∧ ((∃ x, P.Feasible x) → cs'.rows = cs.rows) := by
  obtain ⟨u, hu, -, rfl⟩ := generate_of_mode8 hm h4 h
  refine ⟨fun c hc => ?_, fun ⟨x, hx⟩ => add_rows ((cuts8_sound hwf ht hu).1 hx).2⟩
  rcases mem_add_cols hc with hc | rfl
  · exact Or.inl hc
  · exact Or.inr fun x hx => ((cuts8_sound hwf ht hu).1 hx).1

/-- Mode 8: `outDuplicates` does not change the set of feasible points.  Partial: for problems that are `Tame8`. -/
theorem outDuplicates8_exact_partial {o o' : Obj} {P P' : Prob} (hwf : P.WF) (ht : Tame8 P)
    (hm : o.mode % 4 = 0) (h4 : o.mode / 4 % 2 ≠ 1) (h : outDuplicates o P = .ok (o', P')) (x : Nat → ℚ) :
    P'.Feasible x ↔ P.Feasible x := by
  have h0 := h
  unfold outDuplicates at h0
  split at h0
  · cases h0
  · rename_i o1 cs hg
    obtain ⟨u, hu, rfl, rfl⟩ := generate_of_mode8 hm h4 hg
    have ho : o' = { o with dup := u.dup } := by
      split at h0
      · cases h0
      · exact (Prod.mk.inj (Except.ok.inj h0)).1.symm
    subst ho
    obtain ⟨f1, f2⟩ := cuts8_finite ht hu
    rw [outDuplicates_feasible h hg f1 f2]
    refine ⟨fun hx => (cuts8_sound hwf ht hu).2 hx.1, fun hx => ⟨⟨fun w hw => hx.rows w (mem_of_kept hw), hx.lower, hx.upper, hx.int⟩, ?_⟩⟩
    exact ((cuts8_sound hwf ht hu).1 hx).1

/-! ### What every call does, whatever the problem -/

/-- In the tree, and in modes that are not multiples of four (3 is the default), `generateCuts` does nothing. -/
theorem generate_nothing {o : Obj} {P : Prob} {inTree : Bool} {cs : Cuts} (h : inTree = true ∨ o.mode % 4 ≠ 0) :
    generate o P inTree cs = .ok (o, cs) := by
  unfold generate
  rcases h with h | h
  · rw [if_pos h]
  · split
    · rfl
    · rfl

/-- An object as constructed does nothing in `generateCuts`. -/
theorem default_generates_nothing (P : Prob) (inTree : Bool) (cs : Cuts) : generate Obj.new P inTree cs = .ok (Obj.new, cs) :=
  generate_nothing (Or.inr (by decide))

theorem insertIfNotDuplicate_prefix (l : List RowCut) (c : RowCut) : l <+: insertIfNotDuplicate l c := by
  unfold insertIfNotDuplicate
  split
  · exact List.prefix_rfl
  · exact List.prefix_append _ _

/-- Cuts that are there stay; at most one column cut and one row cut are added. -/
theorem generate_extends {o o' : Obj} {P : Prob} {inTree : Bool} {cs cs' : Cuts} (h : generate o P inTree cs = .ok (o', cs')) :
    cs.cols <+: cs'.cols ∧ cs'.cols.length ≤ cs.cols.length + 1 ∧ cs.rows <+: cs'.rows ∧
    cs'.rows.length ≤ cs.rows.length + 1 := by
  rcases generate_cases h with ⟨-, rfl⟩ | ⟨-, -, u, -, rfl, -⟩
  · exact ⟨List.prefix_rfl, Nat.le_succ _, List.prefix_rfl, Nat.le_succ _⟩
  · have hc : (cs.add u).cols = if u.lbs = [] ∧ u.ubs = [] then cs.cols else cs.cols ++ [⟨u.lbs, u.ubs⟩] := rfl
    have hr : (cs.add u).rows = if u.infeas then insertIfNotDuplicate cs.rows badCut else cs.rows := rfl
    rw [hc, hr]
    refine ⟨?_, ?_, ?_, ?_⟩
    · split
      · exact List.prefix_rfl
      · exact List.prefix_append _ _
    · split
      · exact Nat.le_succ _
      · simp
    · split
      · exact insertIfNotDuplicate_prefix _ _
      · exact List.prefix_rfl
    · split
      · unfold insertIfNotDuplicate
        split
        · exact Nat.le_succ _
        · simp
      · exact Nat.le_succ _

/-- The row cut, if one is added, is one no point satisfies. -/
theorem generate_signal {o o' : Obj} {P : Prob} {inTree : Bool} {cs cs' : Cuts} (h : generate o P inTree cs = .ok (o', cs'))
    {c : RowCut} (hc : c ∈ cs'.rows) (hn : c ∉ cs.rows) (x : Nat → ℚ) : ¬ c.Sat x := by
  rcases generate_cases h with ⟨-, rfl⟩ | ⟨-, -, u, -, rfl, -⟩
  · exact absurd hc hn
  · have hr : (cs.add u).rows = if u.infeas then insertIfNotDuplicate cs.rows badCut else cs.rows := rfl
    rw [hr] at hc
    split at hc
    · rw [mem_insertIfNotDuplicate] at hc
      obtain rfl := hc.resolve_left hn
      intro hs
      have := hs.1 (by have := dblMax_pos; show -dblMax < dblMax; linarith)
      have h0 : SVec.dot badCut.row x = 0 := rfl
      rw [h0] at this
      exact absurd this (not_le.2 dblMax_pos)
    · exact absurd hc hn

theorem raiseLower_mono (l : SVec) (P : Prob) : (raiseLower P l).nCols = P.nCols ∧ (raiseLower P l).inf = P.inf ∧
    (raiseLower P l).isInt = P.isInt ∧ (raiseLower P l).rows = P.rows ∧ (raiseLower P l).colUpper = P.colUpper ∧
    ∀ j, P.colLower j ≤ (raiseLower P l).colLower j := by
  induction l generalizing P with
  | nil => exact ⟨rfl, rfl, rfl, rfl, rfl, fun _ => le_refl _⟩
  | cons p l ih =>
    unfold raiseLower
    split
    · rename_i hlt
      obtain ⟨a, b, c, d, e, f⟩ := ih { P with colLower := Function.update P.colLower p.1 p.2 }
      refine ⟨a, b, c, d, e, fun j => le_trans ?_ (f j)⟩
      show _ ≤ Function.update P.colLower p.1 p.2 j
      by_cases hj : j = p.1
      · subst hj; rw [Function.update_self]; exact le_of_lt hlt
      · rw [Function.update_of_ne hj]
    · exact ih P

theorem dropUpper_mono (l : SVec) (P : Prob) : (dropUpper P l).nCols = P.nCols ∧ (dropUpper P l).inf = P.inf ∧
    (dropUpper P l).isInt = P.isInt ∧ (dropUpper P l).rows = P.rows ∧ (dropUpper P l).colLower = P.colLower ∧
    ∀ j, (dropUpper P l).colUpper j ≤ P.colUpper j := by
  induction l generalizing P with
  | nil => exact ⟨rfl, rfl, rfl, rfl, rfl, fun _ => le_refl _⟩
  | cons p l ih =>
    unfold dropUpper
    split
    · rename_i hlt
      obtain ⟨a, b, c, d, e, f⟩ := ih { P with colUpper := Function.update P.colUpper p.1 p.2 }
      refine ⟨a, b, c, d, e, fun j => le_trans (f j) ?_⟩
      show Function.update P.colUpper p.1 p.2 j ≤ _
      by_cases hj : j = p.1
      · subst hj; rw [Function.update_self]; exact le_of_lt hlt
      · rw [Function.update_of_ne hj]
    · exact ih P

/-- Whatever the problem and the mode: `outDuplicates` removes rows and tightens bounds, and does nothing else. -/
theorem outDuplicates_only_removes {o o' : Obj} {P P' : Prob} (h : outDuplicates o P = .ok (o', P')) :
    P'.nCols = P.nCols ∧ P'.inf = P.inf ∧ P'.isInt = P.isInt ∧ P'.rows.Sublist P.rows ∧
    (∀ j, P.colLower j ≤ P'.colLower j) ∧ ∀ j, P'.colUpper j ≤ P.colUpper j := by
  unfold outDuplicates at h
  split at h
  · cases h
  · rename_i o1 cs hg
    split at h
    · cases h
    · rename_i hlen
      obtain ⟨-, rfl⟩ := Prod.mk.inj (Except.ok.inj h)
      have hsub : (((P.rows.zip o1.dup).filter fun p => ! decide (p.2 = -2 ∨ 0 ≤ p.2)).map Prod.fst).Sublist P.rows := by
        have h1 : ((P.rows.zip o1.dup).map Prod.fst) = P.rows := by
          rw [List.map_fst_zip]; omega
        exact (List.filter_sublist.map Prod.fst).trans (by rw [h1])
      have key : ∀ (l : List ColCut) (Q : Prob), (Q.nCols = P.nCols ∧ Q.inf = P.inf ∧ Q.isInt = P.isInt ∧
          Q.rows.Sublist P.rows ∧ (∀ j, P.colLower j ≤ Q.colLower j) ∧ ∀ j, Q.colUpper j ≤ P.colUpper j) →
          ((l.foldl (fun P c => dropUpper (raiseLower P c.lbs) c.ubs) Q).nCols = P.nCols ∧
          (l.foldl (fun P c => dropUpper (raiseLower P c.lbs) c.ubs) Q).inf = P.inf ∧
          (l.foldl (fun P c => dropUpper (raiseLower P c.lbs) c.ubs) Q).isInt = P.isInt ∧
          (l.foldl (fun P c => dropUpper (raiseLower P c.lbs) c.ubs) Q).rows.Sublist P.rows ∧
          (∀ j, P.colLower j ≤ (l.foldl (fun P c => dropUpper (raiseLower P c.lbs) c.ubs) Q).colLower j) ∧
          ∀ j, (l.foldl (fun P c => dropUpper (raiseLower P c.lbs) c.ubs) Q).colUpper j ≤ P.colUpper j) := by
        intro l
        induction l with
        | nil => intro Q hQ; exact hQ
        | cons c l ih =>
          intro Q hQ
          obtain ⟨q1, q2, q3, q4, q5, q6⟩ := hQ
          refine ih _ ?_
          obtain ⟨a1, a2, a3, a4, a5, a6⟩ := raiseLower_mono c.lbs Q
          obtain ⟨b1, b2, b3, b4, b5, b6⟩ := dropUpper_mono c.ubs (raiseLower Q c.lbs)
          refine ⟨by rw [b1, a1, q1], by rw [b2, a2, q2], by rw [b3, a3, q3], by rw [b4, a4]; exact q4, ?_, ?_⟩
          · intro j; rw [b5]; exact le_trans (q5 j) (a6 j)
          · intro j; exact le_trans (b6 j) (by rw [a5]; exact q6 j)
      exact key cs.cols _ ⟨rfl, rfl, rfl, hsub, fun _ => le_refl _, fun _ => le_refl _⟩

/-- On an object just refreshed from the problem, in a mode that is no multiple of four, `outDuplicates` does nothing. -/
theorem outDuplicates_nothing {o o1 : Obj} {P : Prob} (h : o.refresh P = .ok o1) (hm : o.mode % 4 ≠ 0) :
    outDuplicates o1 P = .ok (o1, P) := by
  unfold Obj.refresh at h
  split at h
  · obtain rfl := Except.ok.inj h
    have hg := fun P cs => generate_nothing (o := { nCols := P.nCols, mat := List.map Row.coefs P.rows, dup := P.rows.map fun _ => -1, mode := o.mode })
      (P := P) (inTree := false) (cs := cs) (Or.inr hm)
    unfold outDuplicates
    rw [hg]
    dsimp only
    rw [if_neg (by simp)]
    have e : ((P.rows.zip (P.rows.map fun _ => (-1 : ℤ))).filter fun p => ! decide (p.2 = -2 ∨ 0 ≤ p.2)).map Prod.fst = P.rows := by
      rw [List.filter_eq_self.mpr, List.map_fst_zip (by simp)]
      intro p hp
      obtain ⟨r, -, h2⟩ := List.mem_map.mp (List.of_mem_zip hp).2
      rw [← h2]; decide
    simp only [e, List.foldl_nil]
  · cases h

/-! ### Copies and histories -/

/-- What a user can do with an object, for solvers with one and the same matrix. -/
inductive Step (n : Nat) (mat : List SVec) : Obj → Obj → Prop
  | refresh {o o' : Obj} {P : Prob} (hc : P.nCols = n) (hm : P.rows.map Row.coefs = mat) (h : o.refresh P = .ok o') :
      Step n mat o o'
  | mode (o : Obj) (m : Nat) : Step n mat o (o.setMode m)
  | generate {o o' : Obj} {P : Prob} {inTree : Bool} {cs cs' : Cuts} (hc : P.nCols = n) (hm : P.rows.map Row.coefs = mat)
      (h : generate o P inTree cs = .ok (o', cs')) : Step n mat o o'
  | out {o o' : Obj} {P P' : Prob} (hc : P.nCols = n) (hm : P.rows.map Row.coefs = mat)
      (h : outDuplicates o P = .ok (o', P')) : Step n mat o o'
  | copy {o o' : Obj} (h : o.copy = .ok o') : Step n mat o o'

/-- The objects after a `refreshSolver` and any such calls. -/
inductive History (n : Nat) (mat : List SVec) : Obj → Prop
  | first {o o' : Obj} {P : Prob} (hc : P.nCols = n) (hm : P.rows.map Row.coefs = mat) (h : o.refresh P = .ok o') :
      History n mat o'
  | step {o o' : Obj} (h : History n mat o) (hs : Step n mat o o') : History n mat o'

theorem generate_object {o o' : Obj} {P : Prob} {inTree : Bool} {cs cs' : Cuts} (hd : o.dup.length = o.mat.length)
    (hm : o.mat.length = P.rows.length) (h : generate o P inTree cs = .ok (o', cs')) :
    o'.nCols = o.nCols ∧ o'.mat = o.mat ∧ o'.mode = o.mode ∧ o'.dup.length = o.mat.length := by
  rcases generate_cases h with ⟨rfl, -⟩ | ⟨-, -, u, rfl, -, ⟨-, hu⟩ | ⟨-, -, hu⟩⟩
  · exact ⟨rfl, rfl, rfl, hd⟩
  · exact ⟨rfl, rfl, rfl, cuts4_length hu⟩
  · exact ⟨rfl, rfl, rfl, by rw [hm]; exact cuts8_length hu⟩

theorem outDuplicates_object {o o' : Obj} {P P' : Prob} (h : outDuplicates o P = .ok (o', P')) :
    ∃ cs, generate o P false ⟨[], []⟩ = .ok (o', cs) := by
  unfold outDuplicates at h
  split at h
  · cases h
  · rename_i o1 cs hg
    split at h
    · cases h
    · obtain ⟨rfl, -⟩ := Prod.mk.inj (Except.ok.inj h)
      exact ⟨cs, hg⟩

/-- In any history the object keeps the matrix and one flag for each row. -/
theorem history_loaded {n : Nat} {mat : List SVec} {o : Obj} (h : History n mat o) :
    o.nCols = n ∧ o.mat = mat ∧ o.dup.length = mat.length := by
  have hre : ∀ {o o' : Obj} {P : Prob}, P.nCols = n → P.rows.map Row.coefs = mat → o.refresh P = .ok o' →
      o'.nCols = n ∧ o'.mat = mat ∧ o'.dup.length = mat.length := by
    intro o o' P hc hm h
    unfold Obj.refresh at h
    split at h
    · obtain rfl := Except.ok.inj h
      exact ⟨hc, hm, by rw [← hm]; simp⟩
    · cases h
  induction h with
  | first hc hm h => exact hre hc hm h
  | step _ hs ih =>
    obtain ⟨h1, h2, h3⟩ := ih
    cases hs with
    | refresh hc hm h => exact hre hc hm h
    | mode m => exact ⟨h1, h2, h3⟩
    | generate hc hm h =>
      obtain ⟨a, b, -, d⟩ := generate_object (by rw [h3, h2]) (by rw [h2, ← hm, List.length_map]) h
      exact ⟨by rw [a, h1], by rw [b, h2], by rw [d, h2]⟩
    | out hc hm h =>
      obtain ⟨cs, h⟩ := outDuplicates_object h
      obtain ⟨a, b, -, d⟩ := generate_object (by rw [h3, h2]) (by rw [h2, ← hm, List.length_map]) h
      exact ⟨by rw [a, h1], by rw [b, h2], by rw [d, h2]⟩
    | copy h =>
      unfold Obj.copy at h
      split at h
      · cases h
      · obtain rfl := Except.ok.inj h
        exact ⟨h1, h2, by rw [h2]; simp [h3]⟩

/-- A copy made in any such history is the same object. -/
theorem history_copy {n : Nat} {mat : List SVec} {o : Obj} (h : History n mat o) : o.copy = .ok o := by
  obtain ⟨-, h2, h3⟩ := history_loaded h
  unfold Obj.copy
  rw [if_neg (by rw [h2]; omega), List.take_of_length_le (by rw [h2]; omega)]

/-- Bounds that mode 4 reports are valid in every history, with the bounds the solver has at the time of the call. -/
theorem history_generate4_partial {n : Nat} {mat : List SVec} {o o' : Obj} (hh : History n mat o) {P : Prob}
    (hc : P.nCols = n) (hm : P.rows.map Row.coefs = mat) (hwf : P.WF) (ht : Tame4 P) {cs cs' : Cuts}
    (h0 : o.mode % 4 = 0) (h4 : o.mode / 4 % 2 = 1) (h : generate o P false cs = .ok (o', cs')) {x : Nat → ℚ}
    (hx : P.Feasible x) : (∀ c ∈ cs'.cols, c ∈ cs.cols ∨ ColCut.Almost P c x) ∧ cs'.rows = cs.rows := by
  obtain ⟨h1, h2, -⟩ := history_loaded hh
  exact generate4_valid_partial ⟨by rw [h1, hc], by rw [h2, hm]⟩ hwf ht h0 h4 h hx

end Cgl.DupRow
