import Verif.PostProc.Final

/-!
# The properties of `postProcess`
-/

namespace Cgl.PostProc

/-- The reduced model once it has been asked for a solution (CglPreProcess.cpp:5614-5622). -/
def asked (E : Env) (modelIn : Solver) : Solver :=
  if modelIn.optimal then { modelIn with cutoff := 10 ^ 50 } else E.solve .resolve { modelIn with cutoff := 10 ^ 50 }

/-- The two ways through `postProcess`. -/
theorem post_cases {E p modelIn del r} (h : postProcess E p modelIn del = .ok r) :
    ((asked E modelIn).optimal = true ∧ ∃ sc M2 p2 u S,
      incoming p (asked E modelIn) = .ok (sc, M2) ∧
      unwind E p.original.prob.nCols sc del (levels p) { p with numberSolvers := levels p } (addCuts p.cuts M2) =
        .ok (p2, u) ∧
      backToOriginal u p2.original = .ok S ∧
      finish E sc del modelIn.objValue p.original.hintPresolve p.original.hintDual { p2 with original := S } M2 (some u) =
        .ok r) ∨
    ((asked E modelIn).optimal = false ∧
      finish E none del modelIn.objValue p.original.hintPresolve p.original.hintDual
        { p with original := (List.range p.original.prob.nCols).foldl lowerColumn p.original } (asked E modelIn) none =
        .ok r) := by
  have ha : (if ({ modelIn with cutoff := 10 ^ 50 } : Solver).optimal then ({ modelIn with cutoff := 10 ^ 50 } : Solver)
      else E.solve .resolve { modelIn with cutoff := 10 ^ 50 }) = asked E modelIn := rfl
  unfold postProcess at h
  dsimp only at h
  dsimp only at ha
  rw [ha] at h
  split at h
  · rename_i ho
    refine Or.inl ⟨ho, ?_⟩
    split at h
    · cases h
    · rename_i sc M2 hin
      split at h
      · cases h
      · rename_i p2 u hu
        split at h
        · cases h
        · rename_i S hS
          exact ⟨sc, M2, p2, u, S, hin, hu, hS, h⟩
  · rename_i ho
    exact Or.inr ⟨by simpa using ho, h⟩

/-- The user's model after the passes are undone: still the user's rows, and bounds inside the user's. -/
theorem unwound_original {E : Env} (hE : PostsolveOk E) {p modelIn M2 p2 u n del} (hL : Linked p modelIn)
    (h0 : levels p ≠ 0) (hM : Sub M2 modelIn)
    (hu : unwind E n none del (levels p) { p with numberSolvers := levels p } (addCuts p.cuts M2) = .ok (p2, u)) :
    Sub u (p.start.getD p.original) ∧ RoundsInside u ∧ Sub p2.original p.original ∧
      p2.original.prob.rows = p.original.prob.rows ∧ p2.original.prob.inf = p.original.prob.inf ∧
      p2.numberSolvers = levels p ∧ p2.passes.length = p.passes.length ∧
      (p2.original.obj = p.original.obj ∧ p2.original.sense = p.original.sense ∧ p2.original.tol = p.original.tol) := by
  obtain ⟨k, hk⟩ := Nat.exists_eq_succ_of_ne_zero h0
  rw [hk] at hu
  have hMc : Sub (addCuts p.cuts M2) modelIn := hM
  have := unwind_ok hE k hu ?_ ?_
  · obtain ⟨a1, a2, a3, a4, a5, a6, a7, lo, up, a8⟩ := this
    dsimp only at a1 a4 a5 a6 a7 a8
    refine ⟨a1, a2, ?_⟩
    cases hs : p.start with
    | none =>
      have hn : p2.start = none := a6.mpr hs
      rw [hn] at a3
      dsimp only [Option.getD_none] at a3
      rw [hs] at a1 a8
      dsimp only [Option.getD_none] at a1 a8
      rw [a3]
      refine ⟨a1, ?_, ?_, a4.trans hk.symm, a5, a8.2.1, a8.2.2.1, a8.2.2.2.2.1⟩
      · rw [a8.1]
      · rw [a8.1]
    | some s =>
      have := a7 (by rw [hs]; exact Option.some_ne_none s)
      rw [this]
      exact ⟨Sub.refl _, rfl, rfl, a4.trans hk.symm, a5, rfl, rfl, rfl⟩
  · intro i hi P hP B hB
    have hB' : belowOf p i = some B := by
      rw [← hB]; cases i <;> rfl
    have h1 := hL.chain i (by omega) P hP B hB'
    unfold above at h1
    by_cases he : i = k
    · rw [if_pos he]
      rw [if_pos (by omega)] at h1
      exact h1.sub hMc
    · rw [if_neg he]
      rw [if_neg (by omega)] at h1
      exact h1
  · intro i hi B hB
    have hB' : belowOf p i = some B := by
      rw [← hB]; cases i <;> rfl
    exact hL.ints i (by omega) B hB'

theorem sub_asked {E : Env} (hE : Honest E) (modelIn : Solver) : Sub (asked E modelIn) modelIn := by
  unfold asked
  split
  · exact Sub.refl _
  · have := (hE .resolve { modelIn with cutoff := 10 ^ 50 }).1.sub
    exact this

/-- **C106.** The reduced model comes with a solution, the passes are undone, the values of the integer columns are near
integers, and the user's model ends up proven optimal: then its solution is a feasible point of the user's mixed-integer
problem, with the bounds the user gave. -/
theorem postProcess_feasible {E : Env} (hE : Honest E) (hP : PostsolveOk E) {p : Pre} {modelIn : Solver} {del : Bool}
    {r : Result} {u : Solver} (hL : Linked p modelIn) (h0 : p.numberSolvers ≠ 0) (hlots : p.lots = none)
    (hr : postProcess E p modelIn del = .ok r) (hu : r.unwound = some u)
    (hnear : NearIntegral p.original.prob u.sol) (hopt : r.pre.original.optimal = true) :
    p.original.prob.Feasible r.pre.original.sol := by
  have hlev : levels p ≠ 0 := by unfold levels; split <;> omega
  rcases post_cases hr with ⟨-, sc, M2, p2, u', S, hin, hun, hS, hf⟩ | ⟨-, hf⟩
  swap
  · have := (finish_ok hf).2.2.1
    rw [hu] at this; cases this
  have hu' : u' = u := by
    have := (finish_ok hf).2.2.1
    rw [hu] at this; exact (Option.some.inj this).symm
  subst hu'
  have hsc : sc = none ∧ M2 = asked E modelIn := by
    unfold incoming at hin
    rw [hlots] at hin
    simp only [Except.ok.injEq, Prod.mk.injEq] at hin
    exact ⟨hin.1.symm, hin.2.symm⟩
  obtain ⟨rfl, rfl⟩ := hsc
  obtain ⟨b1, b2, b3, b4, b5, -⟩ := unwound_original hP hL hlev (sub_asked hE modelIn) hun
  have hn2 : p2.original.prob.nCols = p.original.prob.nCols := b3.1
  have hk : ∀ j < p2.original.prob.nCols, p2.original.prob.isInt j = true →
      u'.prob.isInt j = true ∧ near (u'.sol j) := by
    intro j hj hi
    rw [b3.2.1] at hi
    rw [hn2] at hj
    obtain ⟨z, hz, -⟩ := hnear j hj hi
    refine ⟨?_, near_of hz⟩
    rw [b1.2.1]; exact hL.keep j hj hi
  obtain ⟨hle, rfl⟩ := backToOriginal_near hS hk
  have hre := rebound_fold _ (rebound_fixColumn u') (List.range p2.original.prob.nCols) p2.original
  obtain ⟨hlp, -⟩ := finish_honest hE hf hopt
  dsimp only [lastColumns] at hlp
  have hbnd : ∀ j < p.original.prob.nCols, p.original.prob.colLower j ≤ ((List.range p2.original.prob.nCols).foldl
      (fixColumn u') p2.original).prob.colLower j ∧ ((List.range p2.original.prob.nCols).foldl
      (fixColumn u') p2.original).prob.colUpper j ≤ p.original.prob.colUpper j := by
    intro j hj
    have hj2 : j < p2.original.prob.nCols := by rw [hn2]; exact hj
    have hju : j < u'.prob.nCols := lt_of_lt_of_le hj2 hle
    have s1 := b3.2.2 j hj2
    have s2 := b1.2.2 j hju
    have s3 := hL.bounds j hj
    exact fixFold_inside b2 hle hj2 s1.1 s1.2 (s3.1.trans s2.1) (s2.2.trans s3.2)
  refine ⟨?_, ?_, ?_, ?_⟩
  · intro row hrow
    have := hlp.rows row (by rw [hre.rows, b4]; exact hrow)
    rwa [hre.inf, b5] at this
  · intro j hj
    have := hlp.lower j (by rw [hre.nCols, hn2]; exact hj)
    rw [hre.inf, b5] at this
    exact lbOk_mono (hbnd j hj).1 this
  · intro j hj
    have := hlp.upper j (by rw [hre.nCols, hn2]; exact hj)
    rw [hre.inf, b5] at this
    exact ubOk_mono (hbnd j hj).2 this
  · intro j hj hi
    have hj2 : j < p2.original.prob.nCols := by rw [hn2]; exact hj
    obtain ⟨z, hz, z1, z2⟩ := hnear j hj hi
    have hui : u'.prob.isInt j = true := (hk j hj2 (by rw [b3.2.1]; exact hi)).1
    have hrr := b2 j (lt_of_lt_of_le hj2 hle) hui
    rw [roundHalf_near hz] at hrr
    obtain ⟨c1, c2⟩ := fixColumn_int (S := p2.original) hui hz hrr.1 hrr.2
    obtain ⟨e1, e2⟩ := (local_fixColumn u').range _ p2.original j hj2
    have l1 := hlp.lower j (by rw [hre.nCols]; exact hj2)
    have l2 := hlp.upper j (by rw [hre.nCols]; exact hj2)
    rw [e1, c1, hre.inf, b5] at l1
    rw [e2, c2, hre.inf, b5] at l2
    exact ⟨z, le_antisymm (l2 z2) (l1 z1)⟩

/-! ### What undoing the passes never touches -/

/-- `postsolve` only writes the solution and the status of the model below. -/
def PostsolveFrame (E : Env) : Prop := ∀ k m b, SameInput b (E.postsolve k m b)

theorem PostsolveOk.frame {E : Env} (h : PostsolveOk E) : PostsolveFrame E := fun k m b => (h k m b).1

/-- Only bounds, solution, objective value and status differ. -/
def SameRows (S S' : Solver) : Prop :=
  S'.prob.nCols = S.prob.nCols ∧ S'.prob.inf = S.prob.inf ∧ S'.prob.isInt = S.prob.isInt ∧ S'.prob.rows = S.prob.rows ∧
    S'.obj = S.obj ∧ S'.sense = S.sense ∧ S'.cutoff = S.cutoff ∧ S'.tol = S.tol ∧
    S'.hintPresolve = S.hintPresolve ∧ S'.hintDual = S.hintDual

theorem SameRows.refl (S : Solver) : SameRows S S := ⟨rfl, rfl, rfl, rfl, rfl, rfl, rfl, rfl, rfl, rfl⟩

theorem SameRows.trans {A B C : Solver} (h : SameRows A B) (g : SameRows B C) : SameRows A C := by
  obtain ⟨h1, h2, h3, h4, h5, h6, h7, h8, h9, h10⟩ := h
  obtain ⟨g1, g2, g3, g4, g5, g6, g7, g8, g9, g10⟩ := g
  exact ⟨g1.trans h1, g2.trans h2, g3.trans h3, g4.trans h4, g5.trans h5, g6.trans h6, g7.trans h7, g8.trans h8,
    g9.trans h9, g10.trans h10⟩

theorem Rebound.sameRows {A B : Solver} (h : Rebound A B) : SameRows A B := by
  unfold SameRows
  rw [h]
  exact SameRows.refl A

theorem SameInput.sameRows {A B : Solver} (h : SameInput A B) : SameRows A B := by
  obtain ⟨h1, h2, h3, h4, h5, h6, h7⟩ := h
  unfold SameRows
  rw [h1]
  exact ⟨rfl, rfl, rfl, rfl, h2, h3, h4, h5, h6, h7⟩

theorem unwindPass_frame {E : Env} (hE : PostsolveFrame E) {n k sc orig P M B m b}
    (h : unwindPass E n k sc orig P M B = .ok (m, b)) : SameRows B b := by
  unfold unwindPass at h
  split at h
  · cases h
  · simp only [Except.ok.injEq, Prod.mk.injEq] at h
    rw [← h.2]
    exact (hE _ _ _).sameRows.trans (rebound_fold _ (rebound_backColumn _ _ _ _) _ _).sameRows

/-- Undoing the passes leaves the rows and the objective of the user's model alone, and the whole of it when the start
model is another object. -/
theorem unwind_frame {E : Env} (hE : PostsolveFrame E) {n sc del} (k : Nat) :
    ∀ {p M p' M'}, unwind E n sc del k p M = .ok (p', M') →
    SameRows p.original p'.original ∧ (p.start ≠ none → p'.original = p.original) ∧ (p'.start = none ↔ p.start = none) ∧
    (p.start = none → p'.original = M' ∨ p'.original = p.original) ∧
    p'.numberSolvers = p.numberSolvers ∧ p'.passes.length = p.passes.length ∧ p'.lots = p.lots := by
  induction k with
  | zero =>
    intro p M p' M' h
    unfold unwind at h
    simp only [Except.ok.injEq, Prod.mk.injEq] at h
    obtain ⟨rfl, rfl⟩ := h
    exact ⟨SameRows.refl _, fun _ => rfl, Iff.rfl, fun _ => Or.inr rfl, rfl, rfl, rfl⟩
  | succ k ih =>
    intro p M p' M' h
    unfold unwind at h
    split at h
    · cases h
    · rename_i p1 M1 ht
      obtain ⟨P, B, m, hP, hB, hu, rfl⟩ := turn_ok ht
      obtain ⟨i1, i2, i3, i4, i5, i6, i7⟩ := ih h
      obtain ⟨r1, r2, r3, r4, r5, r6⟩ := after_rest p k M1 del m
      refine ⟨?_, ?_, i3.trans r4, ?_, i5.trans r1, i6.trans (after_len ..), i7.trans r2⟩
      · refine SameRows.trans ?_ i1
        by_cases hc : 0 < k ∨ p.start ≠ none
        · rw [r5 hc]; exact SameRows.refl _
        · have hk : k = 0 := by
            by_contra h0; exact hc (Or.inl (by omega))
          have hs : p.start = none := by
            by_contra h0; exact hc (Or.inr h0)
          subst hk
          have h2 := after_below_self p M1 del m
          rw [r4.mpr hs] at h2
          dsimp only [Option.getD_none] at h2
          rw [h2]
          have h3 : B = p.original := by
            simp only [belowOf, hs, Option.getD_none, Option.some.injEq] at hB
            exact hB.symm
          rw [← h3]
          exact unwindPass_frame hE hu
      · intro hs
        rw [i2 (fun hc => hs (r4.mp hc)), r5 (Or.inr hs)]
      · intro hs
        rcases i4 (r4.mpr hs) with h1 | h1
        · exact Or.inl h1
        · by_cases hk : 0 < k
          · rw [r5 (Or.inl hk)] at h1; exact Or.inr h1
          · have hk : k = 0 := by omega
            subst hk
            unfold unwind at h
            simp only [Except.ok.injEq, Prod.mk.injEq] at h
            left
            have h2 := after_below_self p M1 del m
            rw [r4.mpr hs] at h2
            dsimp only [Option.getD_none] at h2
            rw [h1, h2]; exact h.2

theorem SameRows.cost {A B : Solver} (h : SameRows A B) (x : Nat → ℚ) : cost B x = cost A x := by
  obtain ⟨h1, h2, h3, h4, h5, h6, -⟩ := h
  unfold PostProc.cost
  rw [h1, h5, h6]

theorem backToOriginal_none {M S S' : Solver} (h : backToOriginal M S = .ok S')
    (hk : ∀ j < S.prob.nCols, M.prob.isInt j = true → near (M.sol j)) :
    S' = (List.range S.prob.nCols).foldl (fixColumn M) S := by
  unfold backToOriginal at h
  split at h
  · cases h
  · dsimp only at h
    rw [if_pos] at h
    · exact (Except.ok.inj h).symm
    · unfold numberBad
      rw [List.length_eq_zero_iff, List.filter_eq_nil_iff]
      intro j hj hc
      simp only [Bool.and_eq_true, Bool.not_eq_true', decide_eq_false_iff_not] at hc
      exact hc.2 (hk j (List.mem_range.mp hj) hc.1)

/-- **C107.** The answer is at least as good as every point `y` of the user's linear relaxation that agrees with the
solution of the model unwound at its integer columns and lies within its bounds: fixing the columns does not cut it off. -/
theorem postProcess_no_worse {E : Env} (hE : Honest E) (hP : PostsolveFrame E) {p : Pre} {modelIn : Solver} {del : Bool}
    {r : Result} {u : Solver} (hlots : p.lots = none)
    (hr : postProcess E p modelIn del = .ok r) (hu : r.unwound = some u) (hopt : r.pre.original.optimal = true)
    (y : Nat → ℚ) (hy : LpFeasible p.original.prob y)
    (hint : ∀ j < p.original.prob.nCols, u.prob.isInt j = true → IsInteger (y j) ∧ |u.sol j - y j| < 1 / 1000)
    (hbnd : ∀ j < p.original.prob.nCols, u.prob.colLower j ≤ y j ∧ y j ≤ u.prob.colUpper j) :
    cost p.original r.pre.original.sol ≤ cost p.original y := by
  rcases post_cases hr with ⟨-, sc, M2, p2, u', S, hin, hun, hS, hf⟩ | ⟨-, hf⟩
  swap
  · have := (finish_ok hf).2.2.1
    rw [hu] at this; cases this
  have hu' : u' = u := by
    have := (finish_ok hf).2.2.1
    rw [hu] at this; exact (Option.some.inj this).symm
  subst hu'
  have hsc : sc = none := by
    unfold incoming at hin
    rw [hlots] at hin
    simp only [Except.ok.injEq, Prod.mk.injEq] at hin
    exact hin.1.symm
  subst hsc
  obtain ⟨f1, f2, f3, f4, -⟩ := unwind_frame hP (levels p) hun
  dsimp only at f1 f2 f4
  have hn2 : p2.original.prob.nCols = p.original.prob.nCols := f1.1
  have hSe := backToOriginal_none hS (fun j hj hi => by
    obtain ⟨⟨z, hz⟩, h2⟩ := hint j (hn2 ▸ hj) hi
    rw [hz] at h2
    exact near_of h2)
  obtain ⟨-, hmin⟩ := finish_honest hE hf hopt
  dsimp only [lastColumns] at hmin
  have hre : Rebound p2.original S := by
    rw [hSe]; exact rebound_fold _ (rebound_fixColumn u') _ _
  have hrow := f1.trans hre.sameRows
  have hb2 : ∀ j < p.original.prob.nCols, lbOk p.original.prob.inf (p2.original.prob.colLower j) (y j) ∧
      ubOk p.original.prob.inf (p2.original.prob.colUpper j) (y j) := by
    intro j hj
    have hcase : p2.original = u' ∨ p2.original = p.original := by
      by_cases hs : p.start = none
      · exact f4 hs
      · exact Or.inr (f2 hs)
    rcases hcase with h | h
    · rw [h]; exact ⟨fun _ => (hbnd j hj).1, fun _ => (hbnd j hj).2⟩
    · rw [h]; exact ⟨hy.lower j hj, hy.upper j hj⟩
  have hfin : ∀ j < p.original.prob.nCols, lbOk p.original.prob.inf (S.prob.colLower j) (y j) ∧
      ubOk p.original.prob.inf (S.prob.colUpper j) (y j) := by
    intro j hj
    obtain ⟨e1, e2⟩ := (local_fixColumn u').range _ p2.original j (hn2.symm ▸ hj)
    rw [hSe, e1, e2]
    rcases fixColumn_at u' p2.original j with h | ⟨hi, -, ha, hb⟩ | ⟨ha, hb, hc⟩
    · rw [h.1, h.2]; exact hb2 j hj
    · obtain ⟨⟨z, hz⟩, h2⟩ := hint j hj hi
      have hbj := hbnd j hj
      rw [hz] at h2 hbj
      rw [roundHalf_near h2, min_eq_left hbj.2, max_eq_left hbj.1] at ha hb
      rw [ha, hb, hz]
      exact ⟨fun _ => le_refl _, fun _ => le_refl _⟩
    · rw [ha, hb]
      have hbj := hbnd j hj
      exact ⟨fun _ => hbj.1, fun _ => hc ▸ hbj.2⟩
  have := hmin y ⟨?_, ?_, ?_⟩
  · rw [hrow.cost, hrow.cost] at this
    exact this
  · intro row hro
    rw [hrow.2.2.2.1] at hro
    rw [hrow.2.1]
    exact hy.rows row hro
  · intro j hj
    rw [hrow.1] at hj
    rw [hrow.2.1]
    exact (hfin j hj).1
  · intro j hj
    rw [hrow.1] at hj
    rw [hrow.2.1]
    exact (hfin j hj).2

end Cgl.PostProc
