import Verif.PostProc.Leftover

/-!
# Reduced models without a solution, parameters, deleted passes, semi-continuous columns
-/

namespace Cgl.PostProc

/-! ### A reduced model without a solution -/

/-- **C109.** The reduced model has no solution, also after it is solved again: every integer column of the user's model is
fixed at its lower bound.  If the user's model is then proven optimal its solution satisfies the rows and the bounds, and
has the lower bound for every integer column whose lower bound is finite. -/
theorem unsolved_lower {E : Env} (hE : Honest E) {p : Pre} {modelIn : Solver} {del : Bool} {r : Result}
    (hr : postProcess E p modelIn del = .ok r) (hu : r.unwound = none)
    (hb : ∀ j < p.original.prob.nCols, p.original.prob.colLower j ≤ p.original.prob.colUpper j)
    (hopt : r.pre.original.optimal = true) :
    LpFeasible p.original.prob r.pre.original.sol ∧
    ∀ j < p.original.prob.nCols, p.original.prob.isInt j = true → -p.original.prob.inf < p.original.prob.colLower j →
      p.original.prob.colLower j < p.original.prob.inf → r.pre.original.sol j = p.original.prob.colLower j := by
  rcases post_cases hr with ⟨-, sc, M2, p2, u', S, hin, hun, hS, hf⟩ | ⟨-, hf⟩
  · have := (finish_ok hf).2.2.1
    rw [hu] at this; cases this
  · obtain ⟨hlp, -⟩ := finish_honest hE hf hopt
    dsimp only [lastColumns] at hlp
    have hre := rebound_fold _ rebound_lowerColumn (List.range p.original.prob.nCols) p.original
    have hat : ∀ j < p.original.prob.nCols,
        ((List.range p.original.prob.nCols).foldl lowerColumn p.original).prob.colLower j = p.original.prob.colLower j ∧
        ((List.range p.original.prob.nCols).foldl lowerColumn p.original).prob.colUpper j =
          if p.original.prob.isInt j = true then p.original.prob.colLower j else p.original.prob.colUpper j := by
      intro j hj
      obtain ⟨e1, e2⟩ := local_lowerColumn.range _ p.original j hj
      rw [e1, e2]
      unfold lowerColumn
      split
      · simp
      · exact ⟨rfl, rfl⟩
    refine ⟨⟨?_, ?_, ?_⟩, ?_⟩
    · intro row hrow
      have := hlp.rows row (by rw [hre.rows]; exact hrow)
      rwa [hre.inf] at this
    · intro j hj
      have := hlp.lower j (by rw [hre.nCols]; exact hj)
      rwa [hre.inf, (hat j hj).1] at this
    · intro j hj
      have := hlp.upper j (by rw [hre.nCols]; exact hj)
      rw [hre.inf, (hat j hj).2] at this
      refine ubOk_mono ?_ this
      split
      · exact hb j hj
      · exact le_refl _
    · intro j hj hi h1 h2
      have l1 := hlp.lower j (by rw [hre.nCols]; exact hj)
      have l2 := hlp.upper j (by rw [hre.nCols]; exact hj)
      rw [hre.inf, (hat j hj).1] at l1
      rw [hre.inf, (hat j hj).2, if_pos hi] at l2
      exact le_antisymm (l2 h2) (l1 h1)

/-- The branch is taken exactly when the reduced model is not proven optimal once it has been asked. -/
theorem unsolved_iff {E : Env} {p : Pre} {modelIn : Solver} {del : Bool} {r : Result}
    (hr : postProcess E p modelIn del = .ok r) :
    r.unwound = none ↔ modelIn.optimal = false ∧
      (E.solve .resolve { modelIn with cutoff := 10 ^ 50 }).optimal = false := by
  have ha : (asked E modelIn).optimal = false ↔ modelIn.optimal = false ∧
      (E.solve .resolve { modelIn with cutoff := 10 ^ 50 }).optimal = false := by
    unfold asked
    cases h : modelIn.optimal <;> simp
  rw [← ha]
  rcases post_cases hr with ⟨ho, sc, M2, p2, u', S, hin, hun, hS, hf⟩ | ⟨ho, hf⟩
  · rw [(finish_ok hf).2.2.1, ho]; simp
  · rw [(finish_ok hf).2.2.1, ho]; simp

/-! ### Parameters and messages -/

/-- **C110.** The hints of the user's model are what they were. -/
theorem hints_restored {E : Env} {p : Pre} {modelIn : Solver} {del : Bool} {r : Result}
    (hr : postProcess E p modelIn del = .ok r) :
    r.pre.original.hintPresolve = p.original.hintPresolve ∧ r.pre.original.hintDual = p.original.hintDual := by
  rcases post_cases hr with ⟨-, sc, M2, p2, u', S, hin, hun, hS, hf⟩ | ⟨-, hf⟩
  all_goals
    rw [(finish_ok hf).1]
    exact ⟨rfl, rfl⟩

/-- **C110.** The message for "infeasible" is sent exactly when the user's model is not proven optimal at the end. -/
theorem message_infeasible {E : Env} {p : Pre} {modelIn : Solver} {del : Bool} {r : Result}
    (hr : postProcess E p modelIn del = .ok r) :
    r.message = some .infeasible ↔ r.pre.original.optimal = false := by
  rcases post_cases hr with ⟨-, sc, M2, p2, u', S, hin, hun, hS, hf⟩ | ⟨-, hf⟩
  all_goals exact (finish_ok hf).2.2.2.2.2.1

theorem asked_cutoff {E : Env} (hE : Honest E) (modelIn : Solver) : (asked E modelIn).cutoff = 10 ^ 50 := by
  unfold asked
  split
  · rfl
  · exact (hE .resolve { modelIn with cutoff := 10 ^ 50 }).1.2.2.2.1

theorem rebound_incoming {p : Pre} {M M2 : Solver} {sc} (h : incoming p M = .ok (sc, M2)) : Rebound M M2 := by
  unfold incoming at h
  split at h
  · simp only [Except.ok.injEq, Prod.mk.injEq] at h
    rw [h.2]; exact Rebound.refl _
  · split at h
    · cases h
    · split at h
      · cases h
      · rename_i f hf M' hM'
        simp only [Except.ok.injEq, Prod.mk.injEq] at h
        rw [← h.2]
        unfold scIncoming at hM'
        split at hM'
        · cases hM'
        · split at hM'
          · cases hM'
          · rw [← Except.ok.inj hM']
            exact rebound_fold _ (rebound_scColumn _ _ _) _ _

/-- **C110.** The cutoff of the reduced model that is passed in is lost: it is `1e50` afterwards. -/
theorem cutoff_lost {E : Env} (hE : Honest E) {p : Pre} {modelIn : Solver} {del : Bool} {r : Result}
    (hr : postProcess E p modelIn del = .ok r) : r.modelIn.cutoff = 10 ^ 50 := by
  rcases post_cases hr with ⟨-, sc, M2, p2, u', S, hin, hun, hS, hf⟩ | ⟨-, hf⟩
  · rw [(finish_ok hf).2.1, rebound_incoming hin]
    exact asked_cutoff hE modelIn
  · rw [(finish_ok hf).2.1]
    exact asked_cutoff hE modelIn

/-! ### Deleted passes -/

theorem after_pass_self (p : Pre) (k b m) {P : Pass} (h : p.passes[k]? = some (some P)) :
    (after p k b true m).passes[k]? = some none := by
  unfold after setPass
  dsimp only
  rw [modify_self]
  have : (setBelow p k b).passes[k]? = some (some P) := by
    unfold setBelow
    cases k with
    | zero => cases hs : p.start <;> exact h
    | succ k => rw [modify_ne _ _ (by omega)]; exact h
  rw [this]
  rfl

theorem after_pass_gt (p : Pre) (k b del m) {i : Nat} (hi : k < i) : (after p k b del m).passes[i]? = p.passes[i]? := by
  unfold after setPass
  dsimp only
  rw [modify_ne _ _ (by omega)]
  unfold setBelow
  cases k with
  | zero => cases hs : p.start <;> rfl
  | succ k => exact modify_ne _ _ (by omega)

theorem unwind_deleted {E n sc} (k : Nat) : ∀ {p M p' M'}, unwind E n sc true k p M = .ok (p', M') →
    (∀ i < k, p'.passes[i]? = some none) ∧ ∀ i, k ≤ i → p'.passes[i]? = p.passes[i]? := by
  induction k with
  | zero =>
    intro p M p' M' h
    unfold unwind at h
    simp only [Except.ok.injEq, Prod.mk.injEq] at h
    rw [h.1]
    exact ⟨fun i hi => by omega, fun _ _ => rfl⟩
  | succ k ih =>
    intro p M p' M' h
    unfold unwind at h
    split at h
    · cases h
    · rename_i p1 M1 ht
      obtain ⟨P, B, m, hP, hB, hu, rfl⟩ := turn_ok ht
      obtain ⟨i1, i2⟩ := ih h
      constructor
      · intro i hi
        by_cases he : i = k
        · subst he
          rw [i2 i (le_refl _)]
          exact after_pass_self p i M1 m hP
        · exact i1 i (by omega)
      · intro i hi
        rw [i2 i (by omega), after_pass_gt p k M1 true m (by omega)]

/-- Passes that are gone at the end of the loop are gone at the end. -/
theorem finish_passes {E sc del so hp hd p mi u r} (h : finish E sc del so hp hd p mi u = .ok r) {i : Nat}
    (hi : p.passes[i]? = some none) : r.pre.passes[i]? = some none := by
  unfold finish at h
  dsimp only at h
  split at h
  · split at h
    · split at h
      · cases h
      · simp only [Except.ok.injEq] at h
        subst h
        dsimp only
        rw [List.getElem?_mapIdx, hi]
        simp
    · simp only [Except.ok.injEq] at h
      subst h
      exact hi
  · split at h
    all_goals
      simp only [Except.ok.injEq] at h
      subst h
      exact hi

/-- **C110.** After a call that deletes the passes of the presolve (`deleteStuff`), a further call with a solved reduced
model uses a null pointer. -/
theorem twice_null {E : Env} {p : Pre} {modelIn modelIn' : Solver} {del : Bool} {r : Result}
    (hE : PostsolveFrame E) (h0 : p.numberSolvers ≠ 0) (hlots : p.lots = none)
    (hr : postProcess E p modelIn true = .ok r) (hu : r.unwound ≠ none) (hopt : modelIn'.optimal = true) :
    postProcess E r.pre modelIn' del = .error .null := by
  rcases post_cases hr with ⟨-, sc, M2, p2, u', S, hin, hun, hS, hf⟩ | ⟨-, hf⟩
  swap
  · exact absurd (finish_ok hf).2.2.1 hu
  have hlev : levels p ≠ 0 ∧ levels p ≠ 99 := by unfold levels; split <;> omega
  obtain ⟨k, hk⟩ := Nat.exists_eq_succ_of_ne_zero hlev.1
  have hdel := (unwind_deleted _ hun).1 k (by omega)
  have hpass : r.pre.passes[k]? = some none := finish_passes hf hdel
  have hns : r.pre.numberSolvers = levels p := by
    rw [(finish_ok hf).2.2.2.2.1]
    exact (unwind_frame hE _ hun).2.2.2.2.1
  have hlots' : r.pre.lots = none := by
    rw [(finish_ok hf).2.2.2.2.2.2]
    exact (unwind_frame hE _ hun).2.2.2.2.2.2.trans hlots
  unfold postProcess
  dsimp only
  rw [if_pos hopt]
  rw [if_pos hopt]
  have hin' : incoming r.pre { modelIn' with cutoff := 10 ^ 50 } = .ok (none, { modelIn' with cutoff := 10 ^ 50 }) := by
    unfold incoming; rw [hlots']
  rw [hin']
  dsimp only
  rw [hns, if_neg hlev.2, hk]
  unfold unwind turn
  dsimp only
  rw [hpass]

/-- **C110.** After a simple presolve (99 passes asked for, which allocates one) a reduced model without a solution, a user's
model that is not proven optimal at the end and `deleteStuff` make the deleting loop run over 99 entries of arrays that have
one. -/
theorem simple_unsolved_outside {E : Env} {p : Pre} {modelIn : Solver} (h99 : p.numberSolvers = 99)
    (hlen : p.passes.length = 1) (h1 : modelIn.optimal = false)
    (h2 : (E.solve .resolve { modelIn with cutoff := 10 ^ 50 }).optimal = false)
    (h3 : ∀ S, (E.solve .final S).optimal = false) : postProcess E p modelIn true = .error .outside := by
  unfold postProcess
  dsimp only
  have h1' : ¬ modelIn.optimal = true := by simp [h1]
  rw [if_neg h1', if_neg (by rw [h2]; decide)]
  unfold finish
  dsimp only
  rw [if_pos (h3 _), if_pos rfl, if_pos (by rw [h99, hlen]; decide)]

/-! ### Semi-continuous columns -/

theorem scFrom_at {lots : List (Nat × ℚ)} {n : Nat} {f : ScBound} (h : scFrom lots n = .ok f) {j : Nat} {low : ℚ}
    (hj : (j, low) ∈ lots) (hsame : ∀ l ∈ lots, l.1 = j → l.2 = low) (hlow : low ≠ -dblMax) : f j = some low := by
  unfold scFrom at h
  split at h
  · cases h
  · rw [← Except.ok.inj h]
    have key : ∀ (l : List (Nat × ℚ)) (g : ScBound), (∀ q ∈ l, q.1 = j → q.2 = low) →
        (g j = some low ∨ (j, low) ∈ l) →
        (l.foldl (fun f l => Function.update f l.1 (lowOf l.2)) g) j = some low := by
      intro l
      induction l with
      | nil =>
        intro g _ hg
        rcases hg with h | h
        · exact h
        · cases h
      | cons q l ih =>
        intro g hs hg
        apply ih _ (fun q' hq' => hs q' (List.mem_cons_of_mem _ hq'))
        by_cases hqj : q.1 = j
        · left
          dsimp only
          rw [hqj, Function.update_self, hs q List.mem_cons_self hqj]
          unfold lowOf
          rw [if_neg hlow]
        · dsimp only
          rw [Function.update_of_ne (Ne.symm hqj)]
          rcases hg with h | h
          · exact Or.inl h
          · right
            rcases List.mem_cons.mp h with h | h
            · exact absurd (by rw [← h]) hqj
            · exact h
    exact key lots _ hsame (Or.inr hj)

/-- **C111.** After a call with a solved reduced model, a semi-continuous column of the user's model is fixed or has its
`low` as lower bound, so that the solution is the fixed value or at least `low`. -/
theorem sc_fixed_or_low {E : Env} (hE : Honest E) {p : Pre} {modelIn : Solver} {del : Bool} {r : Result}
    {lots : List (Nat × ℚ)} (hlots : p.lots = some lots) (hP : PostsolveFrame E)
    (hr : postProcess E p modelIn del = .ok r) (hu : r.unwound ≠ none) {j : Nat} {low : ℚ}
    (hj : (j, low) ∈ lots) (hsame : ∀ l ∈ lots, l.1 = j → l.2 = low) (hlow : low ≠ -dblMax) :
    (r.pre.original.prob.colLower j = r.pre.original.prob.colUpper j ∨ r.pre.original.prob.colLower j = low) ∧
    (r.pre.original.optimal = true → -p.original.prob.inf < r.pre.original.prob.colLower j →
      r.pre.original.prob.colUpper j < p.original.prob.inf →
      r.pre.original.sol j = r.pre.original.prob.colUpper j ∨ low ≤ r.pre.original.sol j) := by
  rcases post_cases hr with ⟨-, sc, M2, p2, u', S, hin, hun, hS, hf⟩ | ⟨-, hf⟩
  swap
  · exact absurd (finish_ok hf).2.2.1 hu
  -- the bound is known
  obtain ⟨f, rfl, hfj, hjn⟩ : ∃ f, sc = some f ∧ f j = some low ∧ j < p.original.prob.nCols := by
    unfold incoming at hin
    rw [hlots] at hin
    dsimp only at hin
    split at hin
    · cases hin
    · rename_i f hff
      split at hin
      · cases hin
      · simp only [Except.ok.injEq, Prod.mk.injEq] at hin
        refine ⟨f, hin.1.symm, scFrom_at hff hj hsame hlow, ?_⟩
        unfold scFrom at hff
        split at hff
        · cases hff
        · rename_i hn
          by_contra hc
          exact hn ⟨_, hj, not_lt.mp hc⟩
  -- the user's model before the last loop
  obtain ⟨f1, -⟩ := unwind_frame hP (levels p) hun
  dsimp only at f1
  have hSrow : SameRows p2.original S := by
    unfold backToOriginal at hS
    split at hS
    · cases hS
    · dsimp only at hS
      have hre := rebound_fold _ (rebound_fixColumn u') (List.range p2.original.prob.nCols) p2.original
      split at hS
      · rw [← Except.ok.inj hS]; exact hre.sameRows
      · split at hS
        · cases hS
        · rw [← Except.ok.inj hS]
          refine hre.sameRows.trans ?_
          have key : ∀ (l : List Nat) (t : ℚ) (s : Settle), Rebound s.S (l.foldl (settleColumn t) s).S := by
            intro l t
            induction l with
            | nil => exact fun s => Rebound.refl _
            | cons i l ih =>
              intro s
              refine Rebound.trans ?_ (ih _)
              unfold settleColumn
              split
              · split
                · exact Rebound.refl _
                · exact (rebound_setLower ..).trans (rebound_setUpper ..)
              · exact Rebound.refl _
          exact (key _ _ _).sameRows
  have hn : S.prob.nCols = p.original.prob.nCols := hSrow.1.trans f1.1
  have hi : S.prob.inf = p.original.prob.inf := hSrow.2.1.trans f1.2.1
  set T : Solver := { S with hintPresolve := ⟨true, 1⟩, hintDual := ⟨false, 1⟩ } with hT
  have hr1 : r.pre.original.prob = (lastColumns (some f) T).prob := by
    rw [(finish_ok hf).1]
    exact (hE .final (lastColumns (some f) T)).1.1
  have hbounds : r.pre.original.prob.colLower j = r.pre.original.prob.colUpper j ∨
      r.pre.original.prob.colLower j = low := by
    rw [hr1]
    unfold lastColumns
    dsimp only
    have hjT : j < T.prob.nCols := by rw [hT]; dsimp only; rw [hn]; exact hjn
    obtain ⟨e1, e2⟩ := (local_lastColumn f).range _ T j hjT
    rw [e1, e2]
    unfold lastColumn
    split
    · rename_i h; exact Or.inl h
    · rw [hfj]; exact Or.inr (by simp)
  refine ⟨hbounds, ?_⟩
  intro hopt hlo hup
  have hsol := (hE .final (lastColumns (some f) T)).2 (by
    have := (finish_ok hf).1
    rw [this] at hopt; exact hopt)
  have hsolr : r.pre.original.sol = (E.solve .final (lastColumns (some f) T)).sol := by
    rw [(finish_ok hf).1]
  have hre := rebound_lastColumns (some f) T
  have hjn' : j < (lastColumns (some f) T).prob.nCols := by
    rw [hre.nCols, hT]; dsimp only; rw [hn]; exact hjn
  have hinf : (lastColumns (some f) T).prob.inf = p.original.prob.inf := by
    rw [hre.inf, hT]; exact hi
  have l1 := hsol.1.lower j hjn'
  have l2 := hsol.1.upper j hjn'
  rw [hinf, ← hr1, ← hsolr] at l1 l2
  have l1 := l1 hlo
  have l2 := l2 hup
  rcases hbounds with h | h
  · left; rw [h] at l1; exact le_antisymm l2 l1
  · right; rw [h] at l1; exact l1

/-! ### The numbers of the columns in the user's model -/

theorem composeFold_ge (cols : List Nat) (f : Nat → Nat) (hc : ∀ i < cols.length, i ≤ cols.getD i 0) (n : Nat)
    (hn : n ≤ cols.length) (i : Nat) :
    composeOne cols n f i = if i < n then f (cols.getD i 0) else f i := by
  induction n with
  | zero => simp [composeOne]
  | succ n ih =>
    have ih := ih (by omega)
    have hstep : composeOne cols (n + 1) f =
        Function.update (composeOne cols n f) n (composeOne cols n f (cols.getD n 0)) := by
      unfold composeOne
      rw [List.range_succ, List.foldl_append]
      rfl
    rw [hstep]
    by_cases hi : i = n
    · subst hi
      rw [Function.update_self, if_pos (by omega)]
      have hge := hc i (by omega)
      have : ∀ k, i ≤ k → composeOne cols i f k = f k := by
        clear ih hstep hge
        intro k hk
        have : ∀ m ≤ i, composeOne cols m f k = f k := by
          intro m
          induction m with
          | zero => intro _; simp [composeOne]
          | succ m ihm =>
            intro hm
            have hs : composeOne cols (m + 1) f =
                Function.update (composeOne cols m f) m (composeOne cols m f (cols.getD m 0)) := by
              unfold composeOne
              rw [List.range_succ, List.foldl_append]
              rfl
            rw [hs, Function.update_of_ne (by omega)]
            exact ihm (by omega)
        exact this i (le_refl _)
      exact this _ hge
    · rw [Function.update_of_ne hi, ih]
      by_cases h : i < n
      · rw [if_pos h, if_pos (by omega)]
      · rw [if_neg h, if_neg (by omega)]

/-- The number in the user's model of column `i` above the passes: through all passes, last one first. -/
def throughAll : List Pass → Nat → Nat
  | [], i => i
  | P :: ps, i => P.cols.getD (throughAll ps i) 0

/-- **C111.** The array that is composed in place gives every column of the last pass its number in the user's model, if
each pass keeps the order of the columns (no column is numbered below its place) and its columns are columns of the pass
before. -/
theorem original_numbers (ps : List Pass) (hlen : ∀ P ∈ ps, P.cols.length = P.model.prob.nCols)
    (hge : ∀ P ∈ ps, ∀ i < P.cols.length, i ≤ P.cols.getD i 0)
    (hch : ∀ (k : Nat) (P Q : Pass), ps[k]? = some P → ps[k + 1]? = some Q → ∀ i < Q.cols.length, Q.cols.getD i 0 < P.cols.length)
    (P : Pass) (hlast : ps.getLast? = some P) (i : Nat) (hi : i < P.cols.length) :
    originalOf (ps.map some) id i = throughAll ps i := by
  have key : ∀ (ps : List Pass) (f : Nat → Nat), (∀ P ∈ ps, P.cols.length = P.model.prob.nCols) →
      (∀ P ∈ ps, ∀ i < P.cols.length, i ≤ P.cols.getD i 0) →
      (∀ (k : Nat) (P Q : Pass), ps[k]? = some P → ps[k + 1]? = some Q → ∀ i < Q.cols.length, Q.cols.getD i 0 < P.cols.length) →
      ∀ P, ps.getLast? = some P → ∀ i < P.cols.length,
      originalOf (ps.map some) f i = f (throughAll ps i) ∧
        ∀ Q, ps.head? = some Q → throughAll ps.tail i < Q.cols.length := by
    intro ps
    induction ps with
    | nil => intro f _ _ _ P hP; cases hP
    | cons Q ps ih =>
      intro f h1 h2 h3 P hP i hi
      have hQ1 := h1 Q List.mem_cons_self
      have hQ2 := h2 Q List.mem_cons_self
      have hcomp := fun i => composeFold_ge Q.cols f hQ2 Q.model.prob.nCols (le_of_eq hQ1.symm) i
      cases ps with
      | nil =>
        simp only [List.getLast?_singleton, Option.some.injEq] at hP
        subst hP
        refine ⟨?_, ?_⟩
        · simp only [List.map_cons, List.map_nil, originalOf, throughAll]
          rw [hcomp, if_pos (by omega)]
        · intro Q' hQ'
          simp only [List.head?_cons, Option.some.injEq] at hQ'
          subst hQ'
          exact hi
      | cons R ps =>
        have hl : (R :: ps).getLast? = some P := by
          rw [← hP]; simp [List.getLast?_cons]
        obtain ⟨a, b⟩ := ih (composeOne Q.cols Q.model.prob.nCols f)
          (fun P hP => h1 P (List.mem_cons_of_mem _ hP)) (fun P hP => h2 P (List.mem_cons_of_mem _ hP))
          (fun k P Q' hk hk' => h3 (k + 1) P Q' (by simpa using hk) (by simpa using hk')) P hl i hi
        have hR := b R rfl
        have hin : throughAll (R :: ps) i < Q.cols.length := by
          have := h3 0 Q R rfl rfl _ hR
          exact this
        refine ⟨?_, ?_⟩
        · rw [List.map_cons]
          simp only [originalOf]
          rw [a, hcomp, if_pos (by rw [← hQ1]; exact hin)]
          rfl
        · intro Q' hQ'
          simp only [List.head?_cons, Option.some.injEq] at hQ'
          subst hQ'
          exact hin
  exact (key ps id hlen hge hch P hlast i hi).1

end Cgl.PostProc
