import Verif.Rebuild.Rows
import Verif.Rebuild.Implied
import Verif.TreeInfo.Props

/-! # Using the answers of the generators keeps the solutions -/

namespace Cgl.Rebuild

open TreeInfo (Info implied sequence oneFixes bit)

/-! ## C118: the solutions stay -/

theorem step_same {constraints : Bool} {a : Answer} {s s' : St} {ok : Bool} (hN : Neat (free s.P a.dup)) (hS : Sound s.P a)
    (h : step constraints a s = .ok (s', ok)) :
    s'.P.inf = s.P.inf ∧ (ok = false → ∀ x, ¬ s.P.Feasible x) ∧ (ok = true → ∀ x, s'.P.Feasible x ↔ s.P.Feasible x) ∧
    (∀ c ∈ s'.two, c ∈ s.two ∨ c.ValidIn s.P) := by
  unfold step at h
  split at h
  · cases h
  · rename_i s1 ok1 hr
    obtain ⟨r1, r2, r3, r4, r5⟩ := rebuild_same (s := { s with two := s.two ++ if a.dupRow then a.rowCuts else [] }) hN hS hr
    dsimp only at r1 r2 r3 r4 r5
    have htwo : ∀ c ∈ s1.two, c ∈ s.two ∨ c.ValidIn s.P := by
      intro c hc
      rw [r2] at hc
      rcases List.mem_append.mp hc with hc | hc
      · exact Or.inl hc
      · right
        split at hc
        · exact hS.rowCuts c hc
        · cases hc
    split at h
    · rename_i hok1
      subst hok1
      split at h
      · cases h
      · rename_i two extra ok2 hi
        have h := Except.ok.inj h
        rw [Prod.mk.injEq] at h
        obtain ⟨rfl, rfl⟩ := h
        have r5 := r5 rfl
        have hinf : (10 : ℚ) ^ 20 ≤ s.P.inf := hN.inf
        have key : (∀ c ∈ two, c.ValidIn s.P) ∧ (∀ c ∈ extra, CutOk s1.P c) ∧ (ok2 = false → ∀ x, ¬ s.P.Feasible x) := by
          cases ht : a.table with
          | none =>
            rw [ht] at hi
            have hi := Except.ok.inj hi
            simp only [Prod.mk.injEq] at hi
            obtain ⟨rfl, rfl, rfl⟩ := hi
            exact ⟨fun c hc => (by cases hc), fun c hc => (by cases hc), fun h => (by cases h)⟩
          | some t =>
            rw [ht] at hi
            obtain ⟨t1, t2, t3⟩ := hS.table t ht
            obtain ⟨i1, i2, i3⟩ := implications_right t1 hi
            refine ⟨fun c hc x hx => ?_, fun c hc => ⟨fun x hx => ?_, fun p hp => ?_, fun p hp => ?_⟩, fun hf x hx => i3 hf x (t3 x hx)⟩
            · obtain ⟨a, b⟩ := i1 c hc x (t3 x hx)
              exact ⟨fun _ => a.ge, fun _ => b.le⟩
            · exact (i2 c hc).1 x (t3 x ((r5 x).mp hx))
            · obtain ⟨a, b⟩ := (i2 c hc).2.1 p hp
              rw [a, r1, r3]
              exact ⟨t2 _ b, by linarith⟩
            · obtain ⟨a, b⟩ := (i2 c hc).2.2 p hp
              rw [a, r1, r3]
              exact ⟨t2 _ b, by linarith⟩
        obtain ⟨k1, k2, k3⟩ := key
        have hcuts : ∀ c ∈ a.colCuts ++ extra, CutOk s1.P c := by
          intro c hc
          rcases List.mem_append.mp hc with hc | hc
          · obtain ⟨a, b, d⟩ := hS.colCuts c hc
            refine ⟨fun x hx => a x ((r5 x).mp hx), ?_, ?_⟩
            · rw [r1, r3]; exact b
            · rw [r1, r3]; exact d
          · exact k2 c hc
        obtain ⟨m1, m2⟩ := applyCuts_same (a.colCuts ++ extra) (s1.P, ok2)
          ⟨rfl, fun x => Iff.rfl, fun hf x hx => k3 hf x ((r5 x).mp hx)⟩ rfl hcuts
        refine ⟨m1.inf.trans r1, fun hf x hx => ?_, fun _ x => (m1.iff x).trans (r5 x), fun c hc => ?_⟩
        · rw [Bool.and_eq_false_iff] at hf
          rcases hf with hf | hf
          · exact m1.bad hf x ((r5 x).mpr hx)
          · exact hS.solved hf x hx
        · dsimp only at hc
          rcases List.mem_append.mp hc with hc | hc
          · rcases List.mem_append.mp hc with hc | hc
            · exact htwo c hc
            · right
              unfold equations at hc
              split at hc
              · exact hS.rowCuts c (List.mem_filter.mp hc).1
              · cases hc
          · exact Or.inr (k1 c hc)
    · rename_i hok1
      have h := Except.ok.inj h
      rw [Prod.mk.injEq] at h
      obtain ⟨rfl, rfl⟩ := h
      exact ⟨r1, fun _ => r4 (by simpa using hok1), fun h => (by cases h), htwo⟩

theorem steps_same {constraints : Bool} : ∀ (l : List Answer) (s s' : St) (ok : Bool), Sounds constraints l s →
    steps constraints l s = .ok (s', ok) →
    s'.P.inf = s.P.inf ∧ (ok = false → ∀ x, ¬ s.P.Feasible x) ∧ (ok = true → ∀ x, s'.P.Feasible x ↔ s.P.Feasible x) ∧
    (∀ c ∈ s'.two, c ∈ s.two ∨ c.ValidIn s.P) := by
  intro l
  induction l with
  | nil =>
    intro s s' ok _ h
    have h := Except.ok.inj h
    rw [Prod.mk.injEq] at h
    obtain ⟨rfl, rfl⟩ := h
    exact ⟨rfl, fun h => (by cases h), fun _ x => Iff.rfl, fun c hc => Or.inl hc⟩
  | cons a l ih =>
    intro s s' ok hS h
    obtain ⟨n, so, nx⟩ := hS
    rw [steps] at h
    cases hs : step constraints a s with
    | error e => rw [hs] at h; cases h
    | ok w =>
      obtain ⟨s1, ok1⟩ := w
      rw [hs] at h
      obtain ⟨t1, t2, t3, t4⟩ := step_same n so hs
      dsimp only at h
      split at h
      · rename_i hok1
        subst hok1
        obtain ⟨u1, u2, u3, u4⟩ := ih s1 s' ok (nx s1 hs) h
        have t3 := t3 rfl
        refine ⟨u1.trans t1, fun hf x hx => u2 hf x ((t3 x).mpr hx), fun hok x => (u3 hok x).trans (t3 x), fun c hc => ?_⟩
        rcases u4 c hc with hc | hc
        · exact t4 c hc
        · right
          intro x hx
          have := hc x ((t3 x).mpr hx)
          rwa [t1] at this
      · rename_i hok1
        have h := Except.ok.inj h
        rw [Prod.mk.injEq] at h
        obtain ⟨rfl, rfl⟩ := h
        exact ⟨t1, fun _ => t2 (by simpa using hok1), fun h => (by cases h), t4⟩

theorem finish_rows {s s' : St} (h : finish s = .ok s') :
    s'.P = { s.P with rows := s.P.rows ++ s.two.map fun c => ⟨c.lb, c.ub, c.row⟩ } := by
  unfold finish at h
  split at h
  · rename_i h0
    have h := Except.ok.inj h
    subst h
    rw [h0, List.map_nil, List.append_nil]
  · dsimp only at h
    split at h
    · rw [← Except.ok.inj h]
    · split at h
      · cases h
      · rw [← Except.ok.inj h]

/-- **The problem that the loops make has the same solutions**, and nothing is returned only if there are none. -/
theorem useAnswers_same {constraints : Bool} {l : List Answer} {P : Prob} {types : Option Types} {o : Option St}
    (hS : Sounds constraints l ⟨P, [], types⟩) (h : useAnswers constraints l P types = .ok o) :
    (∀ s, o = some s → ∀ x, s.P.Feasible x ↔ P.Feasible x) ∧ (o = none → ∀ x, ¬ P.Feasible x) := by
  unfold useAnswers at h
  split at h
  · cases h
  · rename_i s ok hs
    obtain ⟨u1, u2, u3, u4⟩ := steps_same l _ s ok hS hs
    split at h
    · cases h
    · rename_i s' hf
      split at h
      · rename_i hok
        have h := Except.ok.inj h
        subst h
        refine ⟨fun s'' e x => ?_, fun e => (by cases e)⟩
        cases e
        rw [← u3 hok x, finish_rows hf]
        constructor
        · intro hx
          exact ⟨fun r hr => hx.rows r (List.mem_append_left _ hr), hx.lower, hx.upper, hx.int⟩
        · intro hx
          refine ⟨fun r hr => ?_, hx.lower, hx.upper, hx.int⟩
          rcases List.mem_append.mp hr with hr | hr
          · exact hx.rows r hr
          · obtain ⟨c, hc, rfl⟩ := List.mem_map.mp hr
            rcases u4 c hc with hc | hc
            · cases hc
            · have := hc x ((u3 hok x).mp hx)
              rw [← u1] at this
              exact this
      · rename_i hok
        have h := Except.ok.inj h
        subst h
        exact ⟨fun s e => (by cases e), fun _ => u2 (by simpa using hok)⟩

/-! ## C119: equations and bounds drawn from implications -/

/-- The tables that `convert` makes of implications recorded by `fixes` are complete, and true of every point of which the
recorded implications are true. -/
theorem convert_right {P : Prob} (hn : P.nCols < 2 ^ 30) {cs : List TreeInfo.Call} {s : Info}
    (hr : TreeInfo.run (TreeInfo.initializeFixing P) cs = some s) :
    Complete (TreeInfo.convert s) ∧
    ∀ x, TreeInfo.Binary s x → (∀ c ∈ cs, c.Holds P x) → TrueOf (TreeInfo.convert s) x := by
  have hre := TreeInfo.run_reachable (TreeInfo.Reachable.init (P := P)) hr
  have hcols := (TreeInfo.reachable_inv hre).cols
  refine ⟨⟨?_, fun i hi up => ?_⟩, fun x hb hx => ⟨?_, ?_⟩⟩
  · rw [(TreeInfo.convert_fields s).1, TreeInfo.integerVariable_convert, hcols.ni]
  · rw [(TreeInfo.convert_fields s).1] at hi
    obtain ⟨es, h1, -⟩ := (TreeInfo.packDown_keeps_01 P s hre).1 i hi up
    exact ⟨es, h1⟩
  · rw [TreeInfo.integerVariable_convert]; exact hb
  · intro i j k up es e hi hes he hk hj
    rw [TreeInfo.integerVariable_convert] at hi hk
    have hseq : sequence e < s.numberIntegers := hcols.lt hk
    have hex : TreeInfo.Exposed (TreeInfo.convert s) j up k (oneFixes e) := by
      refine ⟨i, es, e, by rw [TreeInfo.integerVariable_convert]; exact hi, hes, he, ?_, rfl⟩
      unfold TreeInfo.targetCol
      rw [(TreeInfo.convert_fields s).1, TreeInfo.integerVariable_convert, if_pos hseq]
      exact hk
    have hrec := TreeInfo.exposed_only_recorded P hn cs s hr j up k _ hex
    have := hx _ hrec.2 hj
    rw [if_pos (hcols.inv _ _ hk).2.1] at this
    simpa using this

/-- **Equations and bounds drawn from recorded implications are true**, and the problem is declared infeasible only if no point
with values 0 and 1 makes the implications true. -/
theorem implications_valid {P : Prob} (hn : P.nCols < 2 ^ 30) {cs : List TreeInfo.Call} {s : Info}
    (hr : TreeInfo.run (TreeInfo.initializeFixing P) cs = some s) {two : List RowCut} {cuts : List ColCut} {ok : Bool}
    (h : implications (some (TreeInfo.convert s)) = .ok (two, cuts, ok)) (x : Nat → ℚ) (hb : TreeInfo.Binary s x)
    (hx : ∀ c ∈ cs, c.Holds P x) :
    (∀ c ∈ two, c.row.dot x = c.lb ∧ c.row.dot x = c.ub) ∧ (∀ c ∈ cuts, c.Sat x) ∧ ok = true := by
  obtain ⟨c1, c2⟩ := convert_right hn hr
  obtain ⟨i1, i2, i3⟩ := implications_right c1 h
  refine ⟨fun c hc => i1 c hc x (c2 x hb hx), fun c hc => (i2 c hc).1 x (c2 x hb hx), ?_⟩
  cases ok
  · exact absurd (c2 x hb hx) (i3 rfl x)
  · rfl

/-- The implications of complete tables are always worked through. -/
theorem pairList_returns {t : Info} (hC : Complete t) {k : Nat} {up : Bool} : ∀ (es : List TreeInfo.CliqueEntry) (s : Pairs),
    ∃ s', pairList t k up es s = .ok s' := by
  intro es
  induction es with
  | nil => intro s; exact ⟨s, rfl⟩
  | cons e es ih =>
    intro s
    rw [pairList]
    by_cases h : t.numberIntegers ≤ sequence e
    · rw [if_pos h]; exact ih s
    · rw [if_neg h]
      obtain ⟨b, hb⟩ := hC.table (sequence e) (not_le.mp h) (oneFixes e)
      rw [hb]
      exact ih _

theorem pairColumns_returns {t : Info} (hC : Complete t) : ∀ (l : List Nat) (s : Pairs), (∀ k ∈ l, k < t.numberIntegers) →
    ∃ s', pairColumns t l s = .ok s' := by
  intro l
  induction l with
  | nil => intro s _; exact ⟨s, rfl⟩
  | cons k l ih =>
    intro s hl
    rw [pairColumns, pairColumn]
    obtain ⟨z, hz⟩ := hC.table k (hl k List.mem_cons_self) false
    obtain ⟨o, ho⟩ := hC.table k (hl k List.mem_cons_self) true
    rw [hz, ho]
    dsimp only
    obtain ⟨s1, e1⟩ := pairList_returns (k := k) (up := false) hC z s
    rw [e1]
    dsimp only
    obtain ⟨s2, e2⟩ := pairList_returns (k := k) (up := true) hC o s1
    rw [e2]
    exact ih _ fun k hk => hl k (List.mem_cons_of_mem _ hk)

theorem implications_return {table : Option Info} (hC : ∀ t, table = some t → Complete t) : ∃ w, implications table = .ok w := by
  unfold implications
  cases table with
  | none => exact ⟨_, rfl⟩
  | some t =>
    dsimp only
    obtain ⟨s, e⟩ := pairColumns_returns (hC t rfl) (List.range t.numberIntegers) ⟨[], [], []⟩ fun k hk => List.mem_range.mp hk
    rw [e]
    dsimp only
    split <;> exact ⟨_, rfl⟩

end Cgl.Rebuild
