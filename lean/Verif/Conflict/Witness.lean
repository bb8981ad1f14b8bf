import Verif.Conflict.Props
import Mathlib.Tactic.IntervalCases

/-!
# Concrete cases: the hypotheses can be met, and where the full statements fail
-/

namespace Cgl.Conflict

/-! ### Problems made of conflicting pairs -/

/-- Column of a node. -/
def pcol (n u : Nat) : Nat := if u < n then u else u - n
/-- Coefficient of a node in a row of literals. -/
def psign (n u : Nat) : ℚ := if u < n then 1 else -1
/-- What its complement takes off the right-hand side. -/
def poff (n u : Nat) : ℚ := if u < n then 0 else 1

/-- The row "not both literals". -/
def pairRow (n : Nat) (p : Nat × Nat) : Row where
  lb := -10 ^ 30
  ub := 1 - poff n p.1 - poff n p.2
  coefs := [(pcol n p.1, psign n p.1), (pcol n p.2, psign n p.2)]

/-- `n` binary columns, one row for each pair, further rows before and after. -/
def pairProb (n : Nat) (pre : List Row) (ps : List (Nat × Nat)) (post : List Row) : Prob where
  nCols := n
  inf := 10 ^ 30
  colLower := fun _ => 0
  colUpper := fun _ => 1
  isInt := fun _ => true
  rows := pre ++ ps.map (pairRow n) ++ post

/-- The graph with exactly the pairs as edges. -/
def pairGraph (n : Nat) (ps : List (Nat × Nat)) : Graph where
  nCols := n
  adj := fun u v => ps.contains (u, v) || ps.contains (v, u)

theorem lit_row (n : Nat) (x : Nat → ℚ) (u : Nat) : psign n u * x (pcol n u) + poff n u = lit n x u := by
  unfold psign pcol poff lit
  split <;> ring

theorem pair_sound (n : Nat) (pre post : List Row) (ps : List (Nat × Nat)) :
    (pairGraph n ps).SoundFor (pairProb n pre ps post) := by
  intro x hx u hu v hv h
  have h01 : ∀ w < 2 * n, ZeroOne n x w := by
    intro w hw
    have hw' : pcol n w < n := by unfold pcol; split <;> omega
    have h1 := hx.lower _ hw'
    have h2 := hx.upper _ hw'
    have h3 := hx.int _ hw' rfl
    have h1' : 0 ≤ x (pcol n w) := h1 (by show -(10 ^ 30 : ℚ) < 0; norm_num)
    have h2' : x (pcol n w) ≤ 1 := h2 (by show (1 : ℚ) < 10 ^ 30; norm_num)
    obtain ⟨z, hz⟩ := h3
    rw [hz] at h1' h2'
    have hz1 : 0 ≤ z := by exact_mod_cast h1'
    have hz2 : z ≤ 1 := by exact_mod_cast h2'
    have hl := lit_row n x w
    rw [hz] at hl
    rcases (by omega : z = 0 ∨ z = 1) with rfl | rfl
    · unfold ZeroOne
      rw [← hl]
      unfold psign poff
      split <;> norm_num
    · unfold ZeroOne
      rw [← hl]
      unfold psign poff
      split <;> norm_num
  have key : ∀ a b, (a, b) ∈ ps → ¬(lit n x a = 1 ∧ lit n x b = 1) := by
    intro a b hab hboth
    have hr := (hx.rows (pairRow n (a, b)) (by
      show _ ∈ pre ++ ps.map (pairRow n) ++ post
      simp only [List.mem_append, List.mem_map]
      exact Or.inl (Or.inr ⟨(a, b), hab, rfl⟩))).2 (by
        show 1 - poff n a - poff n b < 10 ^ 30
        unfold poff
        split <;> split <;> norm_num)
    have e : SVec.dot (pairRow n (a, b)).coefs x = psign n a * x (pcol n a) + psign n b * x (pcol n b) := by
      show SVec.dot [(pcol n a, psign n a), (pcol n b, psign n b)] x = _
      rw [SVec.dot_cons, SVec.dot_cons, SVec.dot_nil]; ring
    rw [e] at hr
    have := lit_row n x a
    have := lit_row n x b
    have hub : (pairRow n (a, b)).ub = 1 - poff n a - poff n b := rfl
    rw [hub] at hr
    linarith [hboth.1, hboth.2]
  refine ⟨h01 u hu, h01 v hv, ?_⟩
  unfold pairGraph at h
  simp only [Bool.or_eq_true, List.contains_iff_mem] at h
  rcases h with h | h
  · exact key u v h
  · intro hb; exact key v u h ⟨hb.2, hb.1⟩

/-- The state of a call, if it returned. -/
def okAnd {α : Type} (r : Except Fault α) (p : α → Bool) : Bool :=
  match r with
  | .ok a => p a
  | .error _ => false

theorem okAnd_spec {α : Type} {r : Except Fault α} {p : α → Bool} (h : okAnd r p = true) :
    ∃ a, r = .ok a ∧ p a = true := by
  unfold okAnd at h
  split at h
  · exact ⟨_, rfl, h⟩
  · cases h

/-- The fault of a call, if any. -/
def faultOf {α : Type} (r : Except Fault α) : Option Fault :=
  match r with
  | .ok _ => none
  | .error f => some f

/-! ### `CglBKClique` -/

/-- A triangle of conflicts. -/
def triPairs : List (Nat × Nat) := [(0, 1), (0, 2), (1, 2)]
def triProb : Prob := pairProb 3 [] triPairs []
def triGraph : Graph := pairGraph 3 triPairs

/-- The LP point (1/2, 1/2, 1/2). -/
def halfPoint : Nat → ℚ := fun _ => 1 / 2

/-- The nodes of the triangle with their weights. -/
def triNodes : List (Nat × ℚ) := [(0, 500), (1, 500), (2, 500)]

/-- A search that finds the triangle if it may call itself at least twice, and reports one call. -/
def triEnv : BKEnv where
  top := fun m l => l.take m
  bk := fun k w nodes => (if nodes = triNodes ∧ w ≤ 1500 ∧ 2 ≤ k then [[0, 1, 2]] else [], 1, true)
  ext := fun _ _ => none
  pool := fun l => l
  late := false

theorem triEnv_ok : triEnv.OK triGraph where
  top := fun m l => (List.take_sublist m l).subperm
  bk := by
    intro k w nodes c hc
    unfold triEnv at hc
    dsimp only at hc
    split at hc
    · rename_i hif
      obtain ⟨hn, hw, _⟩ := hif
      simp only [List.mem_singleton] at hc
      subst hc; subst hn
      refine ⟨by simp, by decide, by decide, ?_, ?_⟩
      · intro i hi j hj hij p q hp hq
        have hi' : i < 3 := by simp at hi; omega
        have hj' : j < 3 := by simp at hj; omega
        have hp' : p.1 = i := by
          interval_cases i <;> (simp [triNodes] at hp; subst hp; rfl)
        have hq' : q.1 = j := by
          interval_cases j <;> (simp [triNodes] at hq; subst hq; rfl)
        rw [hp', hq']
        interval_cases i <;> interval_cases j <;> first | (exact absurd rfl hij) | decide
      · have : (([0, 1, 2] : List Nat).map fun i => ((triNodes[i]?).getD (0, 0)).2).sum = 1500 := by decide +kernel
        rw [this]; exact hw
    · simp at hc
  ext := by intro k C S _ h; cases h
  pool := fun l c hc => ⟨c, hc, List.Perm.refl _, rfl⟩

/-- The hypotheses of `bk_valid`, `bk_cutsOff` and `bk_returns` are met, and the call adds the clique cut. -/
theorem bk_case : triEnv.OK triGraph ∧ triGraph.SoundFor triProb ∧ BKObj.init.Reached ∧ triProb.nCols = triGraph.nCols ∧
    Respects triGraph (fun _ => 0) ∧
    (∀ u < 2 * triGraph.nCols, ∀ v < 2 * triGraph.nCols, triGraph.adj u v = true → 0 ≤ lit triGraph.nCols halfPoint u) ∧
    ∃ o', bkGenerate triEnv triProb triGraph halfPoint .init [] =
      .ok (o', [{ lb := -dblMax, ub := 1, row := [(0, 1), (1, 1), (2, 1)] }]) := by
  refine ⟨triEnv_ok, pair_sound _ _ _ _, .init, rfl, by decide +kernel, by decide +kernel, ?_⟩
  have h : okAnd (bkGenerate triEnv triProb triGraph halfPoint .init [])
      (fun r => decide (r.2 = [{ lb := -dblMax, ub := 1, row := [(0, 1), (1, 1), (2, 1)] }])) = true := by decide +kernel
  obtain ⟨⟨o', cs⟩, e, h'⟩ := okAnd_spec h
  have h' := of_decide_eq_true h'
  dsimp only at h'
  subst h'
  exact ⟨o', e⟩

/-- **C61 fails for `CglBKClique`** The call overwrites the limit on recursive calls with the number of calls made, so
the same call on the same problem and point gives the clique cut the first time and nothing the second time. -/
theorem bk_history : ∃ (env : BKEnv) (P : Prob) (G : Graph) (x : Nat → ℚ) (o1 o2 : BKObj) (c : RowCut),
    env.OK G ∧ G.SoundFor P ∧ bkGenerate env P G x .init [] = .ok (o1, [c]) ∧ bkGenerate env P G x o1 [] = .ok (o2, []) := by
  have h : okAnd (bkGenerate triEnv triProb triGraph halfPoint .init []) (fun r =>
      decide (r.2 = [{ lb := -dblMax, ub := 1, row := [(0, 1), (1, 1), (2, 1)] }]) &&
      okAnd (bkGenerate triEnv triProb triGraph halfPoint r.1 []) (fun r => decide (r.2 = []))) = true := by
    decide +kernel
  obtain ⟨⟨o1, cs⟩, e, h'⟩ := okAnd_spec h
  rw [Bool.and_eq_true] at h'
  have h1 := of_decide_eq_true h'.1
  obtain ⟨⟨o2, cs2⟩, e2, h2⟩ := okAnd_spec h'.2
  have h2 := of_decide_eq_true h2
  dsimp only at h1 h2 e2
  subst h1; subst h2
  exact ⟨triEnv, triProb, triGraph, halfPoint, o1, o2, _, triEnv_ok, pair_sound _ _ _ _, e, e2⟩

/-! ### `CglOddWheel` -/

/-- A wheel: cycle 0–1–2–3–4, centre 5. -/
def wheelPairs : List (Nat × Nat) :=
  [(0, 1), (1, 2), (2, 3), (3, 4), (4, 0), (5, 0), (5, 1), (5, 2), (5, 3), (5, 4)]
def theWheel : Wheel := { hole := [0, 1, 2, 3, 4], center := [5], rhs := 2 }

/-- A search that finds the wheel if it has five seconds. -/
def wheelEnv : OWEnv where
  wheels := fun _ t => if t = 5 then [theWheel] else []
  pool := fun l => l

theorem cycle_of {G : Graph} {h : List Nat}
    (hd : ∀ i < h.length, G.adj (h.getD i 0) (h.getD ((i + 1) % h.length) 0) = true) :
    ∀ i < h.length, ∀ u v, h[i]? = some u → h[(i + 1) % h.length]? = some v → G.adj u v = true := by
  intro i hi u v hu hv
  have := hd i hi
  rw [List.getD_eq_getElem?_getD, List.getD_eq_getElem?_getD, hu, hv] at this
  exact this

theorem theWheel_ok : IsWheel (pairGraph 6 wheelPairs) theWheel where
  size := by decide
  odd := by decide
  holeNodes := by decide
  cycle := cycle_of (by decide)
  center := by decide
  spokes := by decide
  rhs := by decide +kernel

theorem wheelEnv_ok : wheelEnv.OK (pairGraph 6 wheelPairs) where
  wheels := by
    intro e t w hw
    unfold wheelEnv at hw
    dsimp only at hw
    split at hw
    · simp only [List.mem_singleton] at hw
      rw [hw]; exact theWheel_ok
    · simp at hw
  pool := fun l c hc => ⟨c, hc, List.Perm.refl _, rfl⟩

/-- The hypotheses of `ow_valid`, `ow_returns` and `ow_full_partial` are met, and the call adds the wheel cut. -/
theorem ow_case : wheelEnv.OK (pairGraph 6 wheelPairs) ∧ (pairGraph 6 wheelPairs).SoundFor (pairProb 6 [] wheelPairs []) ∧
    (∀ w ∈ wheelEnv.wheels 2 5, ∀ u ∈ w.hole, u < 6) ∧
    ∃ o', owGenerate wheelEnv (pairProb 6 [] wheelPairs []) (pairGraph 6 wheelPairs) ((OWObj.init 2).setMaxSeconds 5) [] =
      .ok (o', [{ lb := -dblMax, ub := 2, row := [(0, 1), (1, 1), (2, 1), (3, 1), (4, 1), (5, 2)] }]) := by
  refine ⟨wheelEnv_ok, pair_sound _ _ _ _, by decide +kernel, ?_⟩
  have h : okAnd (owGenerate wheelEnv (pairProb 6 [] wheelPairs []) (pairGraph 6 wheelPairs) ((OWObj.init 2).setMaxSeconds 5) [])
      (fun r => decide (r.2 = [{ lb := -dblMax, ub := 2, row := [(0, 1), (1, 1), (2, 1), (3, 1), (4, 1), (5, 2)] }])) = true := by
    decide +kernel
  obtain ⟨⟨o', cs⟩, e, h'⟩ := okAnd_spec h
  have h' := of_decide_eq_true h'
  dsimp only at h'
  subst h'
  exact ⟨o', e⟩

/-- **C61 fails for `CglOddWheel`** A copy forgets the time limit, and with it the answer of the call. -/
theorem ow_copy : ∃ (env : OWEnv) (P : Prob) (G : Graph) (o o1 o2 : OWObj) (c : RowCut), env.OK G ∧ G.SoundFor P ∧
    owGenerate env P G o [] = .ok (o1, [c]) ∧ owGenerate env P G o.copy [] = .ok (o2, []) := by
  obtain ⟨h1, h2, _, o1, h4⟩ := ow_case
  have h : okAnd (owGenerate wheelEnv (pairProb 6 [] wheelPairs []) (pairGraph 6 wheelPairs)
      ((OWObj.init 2).setMaxSeconds 5).copy []) (fun r => decide (r.2 = [])) = true := by decide +kernel
  obtain ⟨⟨o2, cs⟩, e, h'⟩ := okAnd_spec h
  have h' := of_decide_eq_true h'
  dsimp only at h'
  subst h'
  exact ⟨_, _, _, _, o1, o2, _, h1, h2, h4, e⟩

/-- The wheel whose cycle consists of three complements and two columns. -/
def compPairs : List (Nat × Nat) :=
  [(6, 7), (7, 8), (8, 3), (3, 4), (4, 6), (5, 6), (5, 7), (5, 8), (5, 3), (5, 4)]
def compWheel : Wheel := { hole := [6, 7, 8, 3, 4], center := [5], rhs := 2 }
def compEnv : OWEnv where
  wheels := fun _ _ => [compWheel]
  pool := fun l => l

theorem compEnv_ok : compEnv.OK (pairGraph 6 compPairs) where
  wheels := by
    intro e t w hw
    have : w = compWheel := by simpa [compEnv] using hw
    rw [this]
    exact ⟨by decide, by decide, by decide, cycle_of (by decide), by decide, by decide, by decide +kernel⟩
  pool := fun l c hc => ⟨c, hc, List.Perm.refl _, rfl⟩

/-- **C61 fails with complements** The centre gets the right-hand side left after the complements, here −1: the cut
is satisfied at a point that violates the wheel inequality. -/
theorem negative_center : ∃ (env : OWEnv) (P : Prob) (G : Graph) (o o' : OWObj) (c : RowCut) (w : Wheel) (x : Nat → ℚ),
    env.OK G ∧ G.SoundFor P ∧ env.wheels o.extMethod o.maxSeconds = [w] ∧ owGenerate env P G o [] = .ok (o', [c]) ∧
    c.Sat x ∧ w.rhs < (w.hole.map (lit G.nCols x)).sum + w.rhs * (w.center.map (lit G.nCols x)).sum := by
  let c : RowCut := { lb := -dblMax, ub := -1, row := [(0, -1), (1, -1), (2, -1), (3, 1), (4, 1), (5, -1)] }
  have h : okAnd (owGenerate compEnv (pairProb 6 [] compPairs []) (pairGraph 6 compPairs) (OWObj.init 2) [])
      (fun r => decide (r.2 = [c])) = true := by
    decide +kernel
  obtain ⟨⟨o', cs⟩, e, h'⟩ := okAnd_spec h
  have h' := of_decide_eq_true h'
  dsimp only at h'
  subst h'
  let x : Nat → ℚ := fun j => if j < 3 then 2 / 3 else 1 / 3
  refine ⟨compEnv, pairProb 6 [] compPairs [], pairGraph 6 compPairs, OWObj.init 2, o', c, compWheel, x, compEnv_ok,
    pair_sound _ _ _ _, rfl, e, ?_, ?_⟩
  · exact ⟨fun hl => absurd hl (lt_irrefl _), fun _ => by decide +kernel⟩
  · decide +kernel

/-! ### `CglCliqueStrengthening` -/

/-- An extender that knows one extension. -/
def oneExt (C S : List Nat) (nameLen : Nat) : StrEnv where
  ext := fun _ D => if D = C then some S else none
  late := fun _ => false
  nameLen := fun _ => nameLen

theorem oneExt_ok {G : Graph} {C S : List Nat} {l : Nat} (h : Extends G C S) : (oneExt C S l).OK G := by
  constructor
  intro k D T e
  unfold oneExt at e
  dsimp only at e
  split at e
  · rename_i hD; cases e; rw [hD]; exact h
  · cases e

theorem inf_le_dblMax : (10 ^ 30 : ℚ) ≤ dblMax := by decide +kernel

/-- The hypotheses of the strengthening theorems are met: three conflicting pairs become one row. -/
theorem str_case : ∃ (env : StrEnv) (P : Prob) (G : Graph) (o : StrObj), env.OK G ∧ env.ShortNames ∧ P.nCols = G.nCols ∧
    P.WF ∧ 1 < P.inf ∧ P.inf ≤ dblMax ∧ G.SoundFor P ∧ G.Binary P ∧
    (∀ r ∈ P.rows, cliqueOf P r ≠ none → Spread P r ∧ Packing P r) ∧ (∃ r ∈ P.rows, r.coefs ≠ []) ∧
    (∀ i ∈ [0, 2], ∃ r, P.rows[i]? = some r ∧ cliqueOf P r ≠ none) ∧
    strengthen env (StrObj.init P) = .ok o ∧
    o.model.rows.map (fun r => (r.lb, r.ub, r.coefs)) = [(-dblMax, 1, [(0, 1), (1, 1), (2, 1)])] := by
  have h : okAnd (strengthen (oneExt [0, 1] [0, 1, 2] 8) (StrObj.init triProb)) (fun o =>
      decide (o.model.rows.map (fun r => (r.lb, r.ub, r.coefs)) = [(-dblMax, 1, [(0, 1), (1, 1), (2, 1)])])) = true := by decide +kernel
  obtain ⟨o, e, h'⟩ := okAnd_spec h
  refine ⟨_, triProb, triGraph, o, oneExt_ok (by decide), fun _ => by show 8 + 9 ≤ 256; decide, rfl, ⟨by decide +kernel, by decide +kernel⟩,
    by decide +kernel, inf_le_dblMax, pair_sound _ _ _ _, by decide +kernel, by decide +kernel, ⟨_, List.mem_cons_self, by decide⟩, ?_, e,
    of_decide_eq_true h'⟩
  intro i hi
  have : i = 0 ∨ i = 2 := by simpa using hi
  rcases this with rfl | rfl
  · exact ⟨_, rfl, by decide +kernel⟩
  · exact ⟨_, rfl, by decide +kernel⟩

/-- The row `3 x0 + 2 x1 ≤ 2`. -/
def strictRow : Row := { lb := -10 ^ 30, ub := 2, coefs := [(0, 3), (1, 2)] }

/-- **C58 fails** A row that excludes more than "at most one" is dropped when its clique is extended: the strengthened
model has a feasible point the given model does not have. -/
theorem row_lost : ∃ (env : StrEnv) (P : Prob) (G : Graph) (o : StrObj) (x : Nat → ℚ), env.OK G ∧ P.nCols = G.nCols ∧
    G.SoundFor P ∧ G.Binary P ∧ (∀ r ∈ P.rows, cliqueOf P r ≠ none → Spread P r) ∧
    strengthen env (StrObj.init P) = .ok o ∧ o.model.Feasible x ∧ ¬P.Feasible x := by
  let P := pairProb 3 [strictRow] [(0, 2), (1, 2)] []
  let x : Nat → ℚ := fun j => if j = 0 then 1 else 0
  have h : okAnd (strengthen (oneExt [0, 1] [0, 1, 2] 8) (StrObj.init P)) (fun o => decide (o.model.Feasible x)) = true := by
    decide +kernel
  obtain ⟨o, e, h'⟩ := okAnd_spec h
  exact ⟨_, P, pairGraph 3 [(0, 2), (1, 2)], o, x, oneExt_ok (by decide), rfl, pair_sound _ _ _ _, by decide +kernel,
    by decide +kernel, e, of_decide_eq_true h', by decide +kernel⟩

/-- The row `x0 + x1 + (1 − 9e-7) (x2 + x3) ≤ 2 − 1e-6`: `x2 = x3 = 1` is allowed. -/
def tieRow : Row where
  lb := -10 ^ 30
  ub := 2 - 1 / 1000000
  coefs := [(0, 1), (1, 1), (2, 1 - 9 / 10000000), (3, 1 - 9 / 10000000)]

/-- **C34 fails for the strengthening** Coefficients that differ by less than 1e-6 are not compared, the row is taken
for a clique row, and its extension cuts off a feasible point. -/
theorem near_tie_cut_off : ∃ (env : StrEnv) (P : Prob) (G : Graph) (o : StrObj) (x : Nat → ℚ), env.OK G ∧
    P.nCols = G.nCols ∧ G.SoundFor P ∧ G.Binary P ∧
    strengthen env (StrObj.init P) = .ok o ∧ P.Feasible x ∧ ¬o.model.Feasible x := by
  let ps := [(0, 4), (1, 4), (2, 4), (3, 4)]
  let P := pairProb 5 [tieRow] ps []
  let x : Nat → ℚ := fun j => if j = 2 ∨ j = 3 then 1 else 0
  have h : okAnd (strengthen (oneExt [0, 1, 2, 3] [0, 1, 2, 3, 4] 8) (StrObj.init P))
      (fun o => decide (¬o.model.Feasible x)) = true := by
    decide +kernel
  obtain ⟨o, e, h'⟩ := okAnd_spec h
  exact ⟨_, P, pairGraph 5 ps, o, x, oneExt_ok (by decide), rfl, pair_sound _ _ _ _, by decide +kernel, e,
    by decide +kernel, of_decide_eq_true h'⟩

/-- The row `x0 + x2 + x5 ≤ 2`. -/
def padRow : Row := { lb := -10 ^ 30, ub := 2, coefs := [(0, 1), (2, 1), (5, 1)] }
def twoProb : Prob :=
  pairProb 6 [] [(0, 1), (2, 3), (0, 4), (1, 4), (2, 4), (3, 4)] [padRow, padRow, padRow]
def twoGraph : Graph := pairGraph 6 [(0, 1), (2, 3), (0, 4), (1, 4), (2, 4), (3, 4)]

/-- **C58 fails for a second call** The object keeps the row indices and marks of the first call, so the second call
deletes rows of the changed model that have nothing to do with cliques: `x0 + x2 + x5 ≤ 2` is lost. -/
theorem second_call : ∃ (e1 e2 : StrEnv) (P : Prob) (G : Graph) (o1 o2 : StrObj) (x : Nat → ℚ), e1.OK G ∧ e2.OK G ∧
    P.nCols = G.nCols ∧ G.SoundFor P ∧ G.Binary P ∧ (∀ r ∈ P.rows, cliqueOf P r ≠ none → Spread P r ∧ Packing P r) ∧
    strengthen e1 (StrObj.init P) = .ok o1 ∧ strengthen e2 o1 = .ok o2 ∧ o2.model.Feasible x ∧ ¬P.Feasible x := by
  let x : Nat → ℚ := fun j => if j = 0 ∨ j = 2 ∨ j = 5 then 1 else 0
  have h : okAnd (strengthen (oneExt [0, 1] [0, 1, 4] 8) (StrObj.init twoProb)) (fun o =>
      okAnd (strengthen (oneExt [2, 3] [2, 3, 4] 8) o) (fun o => decide (o.model.Feasible x))) = true := by
    decide +kernel
  obtain ⟨o1, e1, h1⟩ := okAnd_spec h
  obtain ⟨o2, e2, h2⟩ := okAnd_spec h1
  exact ⟨_, _, twoProb, twoGraph, o1, o2, x, oneExt_ok (by decide), oneExt_ok (by decide), rfl, pair_sound _ _ _ _,
    by decide +kernel, by decide +kernel, e1, e2, of_decide_eq_true h2, by decide +kernel⟩

/-- **C60 fails** A listed row that is no clique row: the code reads past the arrays of the clique rows. -/
theorem other_row : faultOf (strengthenRows (oneExt [0, 1] [0, 1, 4] 8) (StrObj.init twoProb) [6]) = some .memory := by
  decide +kernel

/-- **C60 fails** Rows and columns but no element: the constructor builds no clique rows, the call uses them. -/
theorem no_elements :
    faultOf (strengthen (oneExt [0, 1] [0, 1, 4] 8) (StrObj.init (pairProb 1 [{ lb := 0, ub := 1, coefs := [] }] [] []))) =
      some .nullPointer := by
  decide +kernel

/-- **C60 fails** A row name of 252 characters overflows the buffer of the new name. -/
theorem long_name : faultOf (strengthen (oneExt [0, 1] [0, 1, 2] 252) (StrObj.init triProb)) = some .nameOverflow := by
  decide +kernel

end Cgl.Conflict
