import Verif.LandP.Total

/-!
# CglLandP: cases that meet the hypotheses, and defects
-/

namespace Cgl.LandP

/-- The computation succeeds and its result passes the test. -/
def okAnd {α : Type} (r : Except Fault α) (f : α → Bool) : Bool :=
  match r with
  | .ok a => f a
  | .error _ => false

theorem okAnd_spec {α : Type} {r : Except Fault α} {f : α → Bool} (h : okAnd r f = true) :
    ∃ a, r = .ok a ∧ f a = true := by
  rcases r with e | a
  · cases h
  · exact ⟨a, rfl, h⟩

/-- The fault of a computation. -/
def faultOf {α : Type} (r : Except Fault α) : Option Fault :=
  match r with
  | .ok _ => none
  | .error e => some e

theorem faultOf_spec {α : Type} {r : Except Fault α} {e : Fault} (h : faultOf r = some e) : r = .error e := by
  rcases r with e' | a
  · simp only [faultOf, Option.some.injEq] at h; rw [h]
  · cases h

set_option synthInstance.maxSize 1000 in
set_option synthInstance.maxHeartbeats 200000 in
instance (P : Prob) (stat : Nat → Nat) (v : View) : Decidable (GoodBasis P stat v) :=
  decidable_of_iff
    (((∀ i < P.rows.length, v.act i = P.activity v.xlp i) ∧
     (∀ j < P.nCols, stat j = 2 → v.xlp j = P.colUpper j ∧ P.colUpper j < P.inf) ∧
     (∀ j < P.nCols, stat j = 3 → v.xlp j = P.colLower j ∧ - P.inf < P.colLower j)) ∧
     ((∀ i < P.rows.length, stat (P.nCols + i) = 2 → P.activity v.xlp i = (P.row i).lb ∧ - P.inf < (P.row i).lb) ∧
     (∀ i < P.rows.length, stat (P.nCols + i) = 3 → P.activity v.xlp i = (P.row i).ub ∧ (P.row i).ub < P.inf) ∧
     (∀ i < P.rows.length, stat (P.nCols + i) = 1 ∨ stat (P.nCols + i) = 2 ∨ stat (P.nCols + i) = 3) ∧
     v.basics.length = P.rows.length) ∧ (v.basics.Nodup ∧
     (∀ w < P.nCols + P.rows.length, stat w = 1 ↔ w ∈ v.basics)) ∧
     ((∀ w ∈ v.basics, w < P.nCols + P.rows.length) ∧
     (∀ k < P.rows.length, ∀ p ∈ v.binv k, p.1 < P.rows.length) ∧
     (∀ k < P.rows.length, raw P (v.binv k) (v.basics.getD k 0) = 1) ∧
     (∀ k < P.rows.length, ∀ w ∈ v.basics, w ≠ v.basics.getD k 0 → raw P (v.binv k) w = 0)))
    ⟨fun ⟨⟨h1, h2, h3⟩, ⟨h4, h5, h6, h7⟩, ⟨h8, h9⟩, h10, h11, h12, h13⟩ => ⟨h1, h2, h3, h4, h5, h6, h7, h8, h9, h10, h11, h12, h13⟩,
     fun h => ⟨⟨h.1, h.2, h.3⟩, ⟨h.4, h.5, h.6, h.7⟩, ⟨h.8, h.9⟩, h.10, h.11, h.12, h.13⟩⟩

instance decGoodSteps (P : Prob) : ∀ (l : List Step) (s : Sim) (num : Nat), Decidable (GoodSteps P s num l)
  | [], _, _ => isTrue trivial
  | st :: l, s, num => by
    have := decGoodSteps P l (pivotSim s st) (newNum s st num)
    unfold GoodSteps
    infer_instance

instance (q : ℚ) : Decidable (IsInteger q) :=
  decidable_of_iff (q.den = 1) ⟨fun h => ⟨q.num, (Rat.den_eq_one_iff q).1 h |>.symm⟩,
    fun ⟨z, h⟩ => by rw [h]; rfl⟩

instance (P : Prob) : Decidable (ExactData P) :=
  decidable_of_iff
    (10^50 ≤ P.inf ∧
     (∀ j < P.nCols, P.isInt j = true → P.colUpper j < P.inf → IsInteger (P.colUpper j)) ∧
     (∀ j < P.nCols, P.isInt j = true → - P.inf < P.colLower j → IsInteger (P.colLower j)) ∧
     (∀ r ∈ P.rows, ∀ p ∈ r.coefs, intInfeas p.2 ≤ 1/10^15 → IsInteger p.2) ∧
     (∀ r ∈ P.rows, intInfeas r.lb ≤ 1/10^15 → IsInteger r.lb) ∧
     (∀ r ∈ P.rows, intInfeas r.ub ≤ 1/10^15 → IsInteger r.ub) ∧
     (∀ r ∈ P.rows, - P.inf < r.lb → -10^50 < r.lb) ∧
     (∀ r ∈ P.rows, r.ub < P.inf → r.ub < 10^50))
    ⟨fun ⟨h0, h1, h2, h3, h4, h5, h6, h7⟩ => ⟨h0, h1, h2, h3, h4, h5, h6, h7⟩,
     fun h => ⟨h.1, h.2, h.3, h.4, h.5, h.6, h.7, h.8⟩⟩

instance (P : Prob) : Decidable (NoRanges P) := by unfold NoRanges; infer_instance
instance (P : Prob) (x : Nat → ℚ) : Decidable (Modest P x) := by unfold Modest; infer_instance

/-- The contract with runs that do the same for every row can be checked. -/
theorem contract_of {st : State} {P : Prob} {env : Env} (h1 : GoodBasis (work st P env) env.stat env.view)
    (h2 : ∀ row < P.rows.length, GoodSteps (work st P env)
      ⟨startNonBasics (work st P env) env.stat, env.stat, env.view⟩ row (env.run row).steps)
    (h3 : st.prm.strengthen = true) : Contract st P env :=
  ⟨h1, h2, fun h => absurd h (by rw [h3]; simp)⟩

/-- A new generator with the given parameters. -/
def fresh (prm : Params) : State := ⟨prm, Validator.default, none⟩

/-- A run without pivots. -/
def noRun : Run := ⟨[], false, fun _ => true⟩

/-- `∞` of the example problems. -/
def big : ℚ := 10^60

/-! ### A cut without pivots: `2x ≤ 3`, `x` integer -/

/-- `2x ≤ 3`, `0 ≤ x ≤ 10`. -/
def probA : Prob := ⟨1, big, fun _ => 0, fun _ => 10, fun _ => true, [⟨-big, 3, [(0, 2)]⟩]⟩

/-- Its optimal basis, `x = 3/2`. -/
def viewA : View := ⟨[0], fun _ => [(0, 1/2)], fun _ => 3/2, fun _ => 3, fun _ _ => false⟩

/-- The call. -/
def envA : Env :=
  ⟨false, true, fun _ => 3, fun v => if v = 0 then 1 else 3, viewA, fun _ => noRun, fun _ => noRun, fun _ _ => false, 0⟩

/-- The hypotheses of `landp_valid` and `landp_valid_plain` are met by a call that generates a cut which cuts off the
current point. -/
theorem valid_case : probA.WF ∧ ExactData probA ∧ (fresh Params.default).numrows = none ∧
    Contract (fresh Params.default) probA envA ∧ (fresh Params.default).prm.generateExtraCuts = .none ∧
    (∃ q, generateCuts (fresh Params.default) probA envA [] = .ok q ∧ ∃ c ∈ q.1, c ∉ ([] : List RowCut) ∧
      c.row ≠ [] ∧ ¬ c.Sat viewA.xlp) ∧ probA.Feasible (fun _ => 1) ∧ Modest probA (fun _ => 1) := by
  refine ⟨by decide +kernel, by decide +kernel, rfl,
    contract_of (by decide +kernel) (by decide +kernel) rfl, rfl, ?_, by decide +kernel, by decide +kernel⟩
  obtain ⟨q, h1, h2⟩ := okAnd_spec (r := generateCuts (fresh Params.default) probA envA [])
    (f := fun q => q.1.any fun c => decide (c.row ≠ []) && decide (¬ c.Sat viewA.xlp)) (by decide +kernel)
  obtain ⟨c, hc, h⟩ := List.any_eq_true.1 h2
  simp only [Bool.and_eq_true, decide_eq_true_eq] at h
  exact ⟨q, h1, c, hc, by simp, h.1, h.2⟩

/-! ### A cut after a pivot -/

/-- `2x₀ ≤ 1` and `3x₁ - x₂ ≤ 0`, all in `[0, 1]`, `x₀` and `x₁` integer. -/
def probB : Prob := ⟨3, big, fun _ => 0, fun _ => 1, fun j => decide (j < 2),
  [⟨-big, 1, [(0, 2)]⟩, ⟨-big, 0, [(1, 3), (2, -1)]⟩]⟩

/-- `x = (1/2, 0, 1)`. -/
def viewB : View :=
  ⟨[0, 4], fun k => if k = 0 then [(0, 1/2)] else [(1, 1)],
    fun j => if j = 0 then 1/2 else if j = 1 then 0 else 1, fun i => if i = 0 then 1 else -1, fun _ _ => false⟩

/-- `x = (1/2, 1/3, 1)`. -/
def viewB' : View :=
  ⟨[0, 1], fun k => if k = 0 then [(0, 1/2)] else [(1, 1/3)],
    fun j => if j = 0 then 1/2 else if j = 1 then 1/3 else 1, fun i => if i = 0 then 1 else 0, fun _ _ => false⟩

/-- `x₁` enters the basis, the slack of the second row leaves. -/
def pivotB : Step := ⟨0, 1, false, true, viewB', false, true⟩

/-- The call. -/
def envB : Env :=
  ⟨false, true, fun i => if i = 0 then 1 else -1,
    fun v => if v = 0 then 1 else if v = 1 then 3 else if v = 2 then 2 else if v = 3 then 3 else 1, viewB,
    fun row => ⟨if row = 0 then [pivotB] else [], false, fun _ => true⟩, fun _ => noRun, fun _ _ => false, 0⟩

/-- The hypotheses are also met by a call with a pivot, and with extra cuts at the optimal basis. -/
theorem pivot_case : probB.WF ∧ ExactData probB ∧
    Contract (fresh { Params.default with generateExtraCuts := .atOptimalBasis }) probB envB ∧
    (∃ q, generateCuts (fresh { Params.default with generateExtraCuts := .atOptimalBasis }) probB envB [] = .ok q ∧
      2 ≤ q.1.length) ∧ probB.Feasible (fun _ => 0) ∧ Modest probB (fun _ => 0) := by
  refine ⟨by decide +kernel, by decide +kernel, contract_of (by decide +kernel) (by decide +kernel) rfl, ?_,
    by decide +kernel, by decide +kernel⟩
  obtain ⟨q, h1, h2⟩ := okAnd_spec
    (r := generateCuts (fresh { Params.default with generateExtraCuts := .atOptimalBasis }) probB envB [])
    (f := fun q => decide (2 ≤ q.1.length)) (by decide +kernel)
  exact ⟨q, h1, by simpa using h2⟩

instance (P : Prob) (v : View) : Decidable (NoTinyEntry P v) := by unfold NoTinyEntry; infer_instance

/-- The contract is also met when cuts are not strengthened. -/
theorem plain_case : Contract (fresh { Params.default with strengthen := false }) probB envB ∧
    ∃ q, generateCuts (fresh { Params.default with strengthen := false }) probB envB [] = .ok q ∧ 1 ≤ q.1.length := by
  refine ⟨⟨by decide +kernel, by decide +kernel, fun _ _ => ⟨by decide +kernel, by decide +kernel⟩⟩, ?_⟩
  obtain ⟨q, h1, h2⟩ := okAnd_spec
    (r := generateCuts (fresh { Params.default with strengthen := false }) probB envB [])
    (f := fun q => decide (1 ≤ q.1.length)) (by decide +kernel)
  exact ⟨q, h1, by simpa using h2⟩

instance (P : Prob) (B : ℚ) (stat : Nat → Nat) (v : View) : Decidable (Calm P B stat v) :=
  decidable_of_iff ((∀ j < P.nCols, stat j = 1 ∨ stat j = 2 ∨ stat j = 3) ∧ ∀ k < P.rows.length,
    ((List.range (P.nCols + P.rows.length)).map fun w => (1 + |raw P (v.binv k) w|) * B).sum ≤ 10^99)
    ⟨fun h => ⟨h.1, h.2⟩, fun h => ⟨h.1, h.2⟩⟩

instance decCalmSteps (P : Prob) (B : ℚ) : ∀ (l : List Step) (s : Sim), Decidable (CalmSteps P B s l)
  | [], _ => isTrue trivial
  | st :: l, s => by
    have := decCalmSteps P B l (pivotSim s st)
    unfold CalmSteps
    infer_instance

instance (P : Prob) (B : ℚ) : Decidable (Bounded P B) :=
  decidable_of_iff ((∀ j < P.nCols, P.colUpper j < P.inf → |P.colUpper j| ≤ B) ∧
    (∀ j < P.nCols, -P.inf < P.colLower j → |P.colLower j| ≤ B) ∧ (∀ r ∈ P.rows, r.ub < P.inf → |r.ub| ≤ B) ∧
    (∀ r ∈ P.rows, -P.inf < r.lb → |r.lb| ≤ B))
    ⟨fun ⟨h1, h2, h3, h4⟩ => ⟨h1, h2, h3, h4⟩, fun h => ⟨h.1, h.2, h.3, h.4⟩⟩

/-- The hypotheses of `landp_returns_partial` are met by the call with a pivot. -/
theorem returns_case : Bounded probB 1 ∧ Contract (fresh Params.default) probB envB ∧
    converts (fresh Params.default) probB = false ∧ envB.basis = true ∧ Params.default.strengthen = true ∧
    Params.default.generateExtraCuts = .none ∧ Params.default.pivotSelection ≠ .initialReducedCosts ∧
    Params.default.rhsWeightType ≠ .dynamic ∧
    (0 ≤ Validator.default.maxFillIn * probB.nCols ∧ Validator.default.maxFillIn * probB.nCols ≤ 2147483647) ∧
    Calm probB 1 envB.stat envB.view ∧
    ∀ row < probB.rows.length,
      CalmSteps probB 1 ⟨startNonBasics probB envB.stat, envB.stat, envB.view⟩ (envB.run row).steps :=
  ⟨by decide +kernel, contract_of (by decide +kernel) (by decide +kernel) rfl, by decide +kernel, rfl, rfl, rfl,
    by decide, by decide, by decide +kernel, by decide +kernel, by decide +kernel⟩

/-! ### Defects -/

/-- C33 fails for extra cuts made when a variable enters the basis: making the extra cut overwrites the row the search
works on.  Here the generated cut excludes `(0, 0, 1/2)`. -/
theorem entering_invalid :
    ¬ ∀ (st st' : State) (P : Prob) (env : Env) (cs cs' : List RowCut) (c : RowCut) (x : Nat → ℚ), P.WF → ExactData P →
      st.numrows = none → Contract st P env → generateCuts st P env cs = .ok (cs', st') → c ∈ cs' → c ∉ cs →
      (∀ p ∈ c.row, p.1 < P.nCols) → P.Feasible x → Modest P x → c.Sat x := by
  intro hall
  obtain ⟨q, h1, h2⟩ := okAnd_spec
    (r := generateCuts (fresh { Params.default with generateExtraCuts := .whenEnteringBasis }) probB envB [])
    (f := fun q => q.1.any fun c => c.row.all (fun p => decide (p.1 < probB.nCols)) &&
      decide (¬ c.Sat (fun j => if j = 2 then 1/2 else 0))) (by decide +kernel)
  obtain ⟨c, hc, h⟩ := List.any_eq_true.1 h2
  simp only [Bool.and_eq_true, decide_eq_true_eq, List.all_eq_true] at h
  exact h.2 (hall _ q.2 probB envB [] q.1 c _ (by decide +kernel) (by decide +kernel) rfl
    (contract_of (by decide +kernel) (by decide +kernel) rfl) h1 hc (by simp) h.1 (by decide +kernel) (by decide +kernel))

/-- `1 ≤ 2x ≤ 3`, `0 ≤ x ≤ 10`. -/
def probC : Prob := ⟨1, big, fun _ => 0, fun _ => 10, fun _ => true, [⟨1, 3, [(0, 2)]⟩]⟩

/-- `x = 1/2`. -/
def envC : Env :=
  ⟨false, true, fun _ => 1, fun v => if v = 0 then 1 else 2,
    ⟨[0], fun _ => [(0, 1/2)], fun _ => 1/2, fun _ => 1, fun _ _ => false⟩,
    fun _ => noRun, fun _ => noRun, fun _ _ => false, 0⟩

/-- C33 fails for ranged rows on later calls: only the first call of an object looks for them.  Here the first call was
on a problem with one row and no ranges, and the cut generated now, `x ≤ 0`, leaves nothing. -/
theorem ranged_later_invalid :
    ¬ ∀ (st st' : State) (P : Prob) (env : Env) (cs cs' : List RowCut) (c : RowCut) (x : Nat → ℚ), P.WF → ExactData P →
      Contract st P env → st.prm.generateExtraCuts = .none → generateCuts st P env cs = .ok (cs', st') → c ∈ cs' →
      c ∉ cs → P.Feasible x → Modest P x → c.Sat x := by
  intro hall
  obtain ⟨q, h1, h2⟩ := okAnd_spec (r := generateCuts ⟨Params.default, Validator.default, some 1⟩ probC envC [])
    (f := fun q => q.1.any fun c => decide (¬ c.Sat (fun _ => 1))) (by decide +kernel)
  obtain ⟨c, hc, h⟩ := List.any_eq_true.1 h2
  simp only [decide_eq_true_eq] at h
  exact h (hall _ q.2 probC envC [] q.1 c _ (by decide +kernel) (by decide +kernel)
    (contract_of (by decide +kernel) (by decide +kernel) rfl) rfl h1 hc (by simp) (by decide +kernel) (by decide +kernel))

/-- That generator exists: it is what the first call on `probA` leaves. -/
theorem ranged_later_reachable : ∃ cs st, generateCuts (fresh Params.default) probA envA [] = .ok (cs, st) ∧
    st.numrows = some 1 ∧ 0 ≤ st.prm.maximumCutLength := by
  obtain ⟨q, h1, h2⟩ := okAnd_spec (r := generateCuts (fresh Params.default) probA envA [])
    (f := fun q => decide (q.2.numrows = some 1) && decide (0 ≤ q.2.prm.maximumCutLength)) (by decide +kernel)
  simp only [Bool.and_eq_true, decide_eq_true_eq] at h2
  exact ⟨q.1, q.2, h1, h2.1, h2.2⟩

/-- `2x₀ + 2x₁ ≤ 4`, `0 ≤ x₀ ≤ 10`, `0 ≤ x₁ ≤ 3/2`, both integer. -/
def probD : Prob := ⟨2, big, fun _ => 0, fun j => if j = 0 then 10 else 3/2, fun _ => true, [⟨-big, 4, [(0, 2), (1, 2)]⟩]⟩

/-- `x = (1/2, 3/2)`. -/
def envD : Env :=
  ⟨false, true, fun _ => 4, fun v => if v = 0 then 1 else if v = 1 then 2 else 3,
    ⟨[0], fun _ => [(0, 1/2)], fun j => if j = 0 then 1/2 else 3/2, fun _ => 4, fun _ _ => false⟩,
    fun _ => noRun, fun _ => noRun, fun _ _ => false, 0⟩

/-- C33 fails for integer columns with fractional bounds: the distance from the bound is taken for an integer. -/
theorem fractional_bound_invalid :
    ¬ ∀ (st st' : State) (P : Prob) (env : Env) (cs cs' : List RowCut) (c : RowCut) (x : Nat → ℚ), P.WF → NoRanges P →
      Contract st P env → st.prm.generateExtraCuts = .none → generateCuts st P env cs = .ok (cs', st') → c ∈ cs' →
      c ∉ cs → P.Feasible x → Modest P x → c.Sat x := by
  intro hall
  obtain ⟨q, h1, h2⟩ := okAnd_spec (r := generateCuts (fresh Params.default) probD envD [])
    (f := fun q => q.1.any fun c => decide (¬ c.Sat (fun _ => 1))) (by decide +kernel)
  obtain ⟨c, hc, h⟩ := List.any_eq_true.1 h2
  simp only [decide_eq_true_eq] at h
  exact h (hall _ q.2 probD envD [] q.1 c _ (by decide +kernel) (by decide +kernel)
    (contract_of (by decide +kernel) (by decide +kernel) rfl) rfl h1 hc (by simp) (by decide +kernel) (by decide +kernel))

/-- Extra cuts at the optimal basis for a variable whose value is above 1: the fraction is compared with the value and
the assertion fails. -/
theorem extra_assertion :
    Contract (fresh { Params.default with generateExtraCuts := .atOptimalBasis }) probA envA ∧
    generateCuts (fresh { Params.default with generateExtraCuts := .atOptimalBasis }) probA envA [] =
      .error .assertion :=
  ⟨contract_of (by decide +kernel) (by decide +kernel) rfl, faultOf_spec (by decide +kernel)⟩

/-- Extra cuts of kind "all violated" read a member that is not set, or a null pointer: with pivots allowed and any
row, no call gets through. -/
theorem allMigs_fault {st : State} {P : Prob} {env : Env} {cs : List RowCut} (hm : st.prm.generateExtraCuts = .allViolatedMigs)
    (hn : st.numrows = none) (hb : env.basis = true)
    (hw : st.prm.normalization ≠ .weightRHS) (hr : P.rows ≠ []) (ht : 0 ≤ st.prm.timeLimit) (hp : 0 < st.prm.pivotLimit)
    (hq : 0 < st.prm.pivotLimitInTree) : generateCuts st P env cs = .error .uninitialised := by
  have hlim : (callPrm st P env).pivotLimit ≠ 0 := by
    change (if st.prm.timeLimit < 0 then 0
      else if env.inTree then min st.prm.pivotLimit st.prm.pivotLimitInTree else st.prm.pivotLimit) ≠ 0
    rw [if_neg (not_lt.2 ht)]
    split <;> omega
  have hlen : (work st P env).rows.length ≠ 0 := by
    rw [work_length]
    exact fun h => hr (List.length_eq_zero_iff.1 h)
  have hmf : migsFault (callPrm st P env) (work st P env) env.view = some .uninitialised := by
    unfold migsFault
    rw [if_pos hlim, if_neg hlen]
  unfold generateCuts
  rw [if_neg (by rw [hn]; simp), hb]
  simp only [Bool.not_true, Bool.false_eq_true, if_false]
  have : body st P env cs = .error .uninitialised := by
    unfold body
    dsimp only
    rw [if_neg (fun h => hw h.1), if_pos hm, hmf]
  rw [this]

/-- The normalization by a right-hand side weight that is "dynamic" throws. -/
theorem dynamic_throws {st : State} {P : Prob} {env : Env} {cs : List RowCut} (hn : st.numrows = none)
    (hb : env.basis = true) (h1 : st.prm.normalization = .weightRHS) (h2 : st.prm.rhsWeightType = .dynamic) :
    generateCuts st P env cs = .error .unimplemented := by
  unfold generateCuts
  rw [if_neg (by rw [hn]; simp), hb]
  simp only [Bool.not_true, Bool.false_eq_true, if_false]
  have : body st P env cs = .error .unimplemented := by
    unfold body
    dsimp only
    rw [if_pos ⟨h1, h2⟩]
  rw [this]

/-- The same call as `envA`, but the solver lists the entry of the slack in the tableau row. -/
def envE : Env := { envA with view := { viewA with listed := fun _ v => v == 1 } }

/-- C73 fails for the empty cut: when the row is too long for both attempts, the empty cut is added. -/
theorem empty_cut : ∃ st', generateCuts (fresh { Params.default with maximumCutLength := 0 }) probA envE [] =
    .ok ([⟨-dblMax, dblMax, []⟩], st') := by
  obtain ⟨q, h1, h2⟩ := okAnd_spec
    (r := generateCuts (fresh { Params.default with maximumCutLength := 0 }) probA envE [])
    (f := fun q => decide (q.1.length = 1) && q.1.all fun c => decide (c.row = [])) (by decide +kernel)
  simp only [Bool.and_eq_true, decide_eq_true_eq, List.all_eq_true] at h2
  obtain ⟨cs, st'⟩ := q
  dsimp only at h2
  obtain ⟨c, rfl⟩ := List.length_eq_one_iff.1 h2.1
  have hrow := h2.2 c (by simp)
  rcases landp_tests h1 (c := c) ⟨by simp, by simp⟩ with h | h
  · rw [h] at h1; exact ⟨st', h1⟩
  · exact absurd hrow h.nonempty

/-- `1/2 ≤ 3x ≤ 1`, `0 ≤ x ≤ 1`, and another column. -/
def probF : Prob := ⟨2, big, fun _ => 0, fun _ => 1, fun _ => true, [⟨1/2, 1, [(0, 3)]⟩]⟩

/-- `x = 1/3`; the problem that is pivoted in is `3x + y = 1`. -/
def envF : Env :=
  ⟨false, true, fun _ => 1, fun v => if v = 0 then 1 else if v ≤ 2 then 3 else 2,
    ⟨[0], fun _ => [(0, 1/3)], fun j => if j = 0 then 1/3 else 0, fun _ => 1, fun _ _ => false⟩,
    fun _ => noRun, fun _ => noRun, fun _ _ => false, 0⟩

/-- An extra cut can mention a column that the problem does not have. -/
theorem extra_column : Contract (fresh { Params.default with generateExtraCuts := .atOptimalBasis }) probF envF ∧
    ∃ q, generateCuts (fresh { Params.default with generateExtraCuts := .atOptimalBasis }) probF envF [] = .ok q ∧
      ∃ c ∈ q.1, ∃ p ∈ c.row, probF.nCols ≤ p.1 := by
  refine ⟨contract_of (by decide +kernel) (by decide +kernel) rfl, ?_⟩
  obtain ⟨q, h1, h2⟩ := okAnd_spec
    (r := generateCuts (fresh { Params.default with generateExtraCuts := .atOptimalBasis }) probF envF [])
    (f := fun q => q.1.any fun c => c.row.any fun p => decide (probF.nCols ≤ p.1)) (by decide +kernel)
  obtain ⟨c, hc, h⟩ := List.any_eq_true.1 h2
  obtain ⟨p, hp, h⟩ := List.any_eq_true.1 h
  exact ⟨q, h1, c, hc, p, hp, by simpa using h⟩

/-- The hypotheses of `landp_switched_off` are met by a call that succeeds. -/
theorem switched_off_case : (∃ r ∈ probF.rows, r.lb < r.ub ∧ -10^50 < r.lb ∧ r.ub < 10^50) ∧
    ∃ q, generateCuts (fresh Params.default) probF envF [] = .ok q := by
  refine ⟨by decide +kernel, ?_⟩
  obtain ⟨q, h1, _⟩ := okAnd_spec (r := generateCuts (fresh Params.default) probF envF []) (f := fun _ => true)
    (by decide +kernel)
  exact ⟨q, h1⟩

/-- The same pivot as in `envB`, after which the search finds no further row. -/
def envG : Env := { envB with run := fun row => ⟨if row = 0 then [pivotB] else [], true, fun _ => true⟩ }

/-- With the rule `initialReducedCosts` the search writes before the start of an array. -/
theorem initial_costs_write :
    Contract (fresh { Params.default with pivotSelection := .initialReducedCosts }) probB envG ∧
    generateCuts (fresh { Params.default with pivotSelection := .initialReducedCosts }) probB envG [] = .error .outside :=
  ⟨contract_of (by decide +kernel) (by decide +kernel) rfl, faultOf_spec (by decide +kernel)⟩

/-- C53 fails for assignment of the parameters. -/
theorem assign_differs : ¬ ∀ p q : Params, p.assign q = q := by
  intro h
  have := congrArg Params.degeneratePivotLimit (h Params.default Params.default)
  exact absurd this (by decide +kernel)

end Cgl.LandP
