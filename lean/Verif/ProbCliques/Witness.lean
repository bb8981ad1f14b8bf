import Verif.ProbCliques.Use

/-! # Examples and counterexamples for the clique tables -/

namespace Cgl.ProbCliques

/-- `inf` of the examples (`COIN_DBL_MAX` is far larger). -/
def big : ℚ := 10 ^ 20

/-- Binary columns and rows. -/
def binProb (n : Nat) (rows : List Row) : Prob := ⟨n, big, fun _ => 0, fun _ => 1, fun _ => true, rows⟩

/-- What `createCliques` gives, without the functions. -/
def cliquesIn (e : Except Fault (Prob × Tables)) : Option (ℤ × List Clique) :=
  match e with
  | .ok r => some (r.2.number, r.2.cliques)
  | .error _ => none

def faultIn {α : Type} (e : Except Fault α) : Option Fault :=
  match e with
  | .ok _ => none
  | .error f => some f

/-- The bounds of the first columns afterwards. -/
def boundsIn (n : Nat) (e : Except Fault (Prob × Tables)) : Option (List (ℚ × ℚ)) :=
  match e with
  | .ok r => some ((List.range n).map fun j => (r.1.colLower j, r.1.colUpper j))
  | .error _ => none

/-- The starts and the array. -/
def storeIn (n : Nat) (e : Except Fault (Prob × Tables)) : Option (List (ℤ × ℤ × ℤ) × List (Option Nat)) :=
  match e with
  | .ok r => r.2.store.map fun S => ((List.range n).map fun j => (S.one j, S.zero' j, S.stop j), S.which)
  | .error _ => none

/-! ### A run -/

/-- Three clique rows and one row of another kind. -/
def ex1 : Prob := binProb 6 [
  ⟨-big, 1, [(0, 1), (1, 1), (2, 1)]⟩,
  ⟨1, big, [(2, 1), (3, 1)]⟩,
  ⟨0, 0, [(3, 1), (4, -1)]⟩,
  ⟨-big, 3, [(0, 1), (1, 2), (2, 1), (3, 1)]⟩]

theorem ex1_wf : ex1.WF := by decide +kernel

theorem ex1_moderate : Moderate ex1 := by
  refine ⟨?_, ?_, ?_, ?_⟩
  · decide +kernel
  · intro j _ h; exact absurd h (by unfold fixedCol ex1 binProb; norm_num)
  · decide +kernel
  · decide +kernel

theorem ex1_fits : Fits ex1 := by unfold Fits; decide +kernel

example : cliquesIn (createCliques ex1 2 100) = some (3, [
    ⟨false, [⟨0, true⟩, ⟨1, true⟩, ⟨2, true⟩]⟩,
    ⟨false, [⟨2, false⟩, ⟨3, false⟩]⟩,
    ⟨true, [⟨3, true⟩, ⟨4, false⟩]⟩]) := by decide +kernel

example : storeIn 6 (createCliques ex1 2 100) = some (
    [(0, 1, 1), (1, 2, 2), (2, 3, 4), (4, 5, 6), (6, 6, 7), (-1, -1, -1)],
    [some 0, some 0, some 0, some 1, some 2, some 1, some 2]) := by decide +kernel

/-- All hypotheses of `createCliques_sound_partial` are met, and there is a point. -/
example : ∃ P' T, createCliques ex1 2 100 = .ok (P', T) ∧ 0 < T.number ∧
    (∀ r ∈ ex1.rows, ∀ p ∈ r.coefs, P'.colLower p.1 = ex1.colLower p.1 ∧ P'.colUpper p.1 = ex1.colUpper p.1) := by
  obtain ⟨⟨P', T⟩, h⟩ := createCliques_returns ex1_moderate ex1_wf ex1_fits 2 100
  refine ⟨P', T, h, ?_, ?_⟩
  · have : cliquesIn (createCliques ex1 2 100) = some (3, [⟨false, [⟨0, true⟩, ⟨1, true⟩, ⟨2, true⟩]⟩,
      ⟨false, [⟨2, false⟩, ⟨3, false⟩]⟩, ⟨true, [⟨3, true⟩, ⟨4, false⟩]⟩]) := by decide +kernel
    rw [h] at this
    have := congrArg Prod.fst (Option.some.inj this)
    change T.number = 3 at this
    omega
  · have : boundsIn 6 (createCliques ex1 2 100) = some [(0, 1), (0, 1), (0, 1), (0, 1), (0, 1), (0, 1)] := by decide +kernel
    rw [h] at this
    simp [boundsIn, List.range_succ] at this
    obtain ⟨⟨a0, b0⟩, ⟨a1, b1⟩, ⟨a2, b2⟩, ⟨a3, b3⟩, ⟨a4, b4⟩, a5, b5⟩ := this
    intro r hr p hp
    have hc := ex1_wf.cols r hr p hp
    have e1 : ex1.colLower p.1 = 0 := rfl
    have e2 : ex1.colUpper p.1 = 1 := rfl
    rw [e1, e2]
    have hp6 : p.1 < 6 := hc
    rcases (by omega : p.1 = 0 ∨ p.1 = 1 ∨ p.1 = 2 ∨ p.1 = 3 ∨ p.1 = 4 ∨ p.1 = 5) with e | e | e | e | e | e <;> rw [e]
    · exact ⟨a0, b0⟩
    · exact ⟨a1, b1⟩
    · exact ⟨a2, b2⟩
    · exact ⟨a3, b3⟩
    · exact ⟨a4, b4⟩
    · exact ⟨a5, b5⟩

example : ex1.Feasible fun j => if j = 0 ∨ j = 3 ∨ j = 4 then 1 else 0 := by
  refine ⟨by decide +kernel, ?_, ?_, ?_⟩
  · intro j _ _; dsimp only [ex1, binProb]; split <;> norm_num
  · intro j _ _; dsimp only [ex1, binProb]; split <;> norm_num
  · intro j _ _
    split
    · exact ⟨1, by norm_num⟩
    · exact ⟨0, by norm_num⟩

/-- The marks of the last row: its columns 0, 1, 2 are one group, 3 is left alone; the other rows are cliques. -/
def setupIn (P : Prob) (rows : List SVec) : Option (Except Fault (Option (List (Option Marks)))) :=
  match createCliques P 2 100 with
  | .ok r => some (setupRows r.1 r.2 rows)
  | .error _ => none

def marksIn (e : Option (Except Fault (Option (List (Option Marks))))) : Option (List (Option Marks)) :=
  match e with
  | some (.ok (some l)) => some l
  | _ => none

example : marksIn (setupIn ex1 (ex1.rows.map Row.coefs)) =
    some [none, none, none, some [(0, true), (0, true), (0, true), (7, false)]] := by decide +kernel

/-! ### Fixing -/

/-- The second row fixes both of its columns. -/
def ex2 : Prob := binProb 4 [⟨-big, 1, [(0, 1), (1, 1), (2, 1), (3, 1)]⟩, ⟨-big, 0, [(0, 1), (1, 1)]⟩]

example : boundsIn 4 (createCliques ex2 2 100) = some [(0, 0), (0, 0), (0, 1), (0, 1)] := by decide +kernel

example : cliquesIn (createCliques ex2 2 100) = some (1, [⟨false, [⟨2, true⟩, ⟨3, true⟩]⟩]) := by decide +kernel

example : cliquesIn (createCliques (binProb 3 [⟨-big, -1, [(0, 1), (1, 1)]⟩]) 2 100) = some (-99999, []) := by decide +kernel

/-! ### What fails -/

/-- The property without the restriction on the rows. -/
def CreateCliquesSound : Prop := ∀ (P : Prob) (minSize maxSize : ℤ) (P' : Prob) (T : Tables), Moderate P → P.WF →
  createCliques P minSize maxSize = .ok (P', T) → ∀ x, P.Feasible x → ∀ c ∈ T.cliques, c.Holds x

/-- A row with two bounds that loses a column while the rows are scanned. -/
def ex3 : Prob := binProb 3 [⟨1, 1, [(0, 1), (1, 1), (2, 1)]⟩, ⟨1, big, [(0, 1)]⟩]

theorem ex3_wf : ex3.WF := by decide +kernel

theorem ex3_moderate : Moderate ex3 := by
  refine ⟨?_, ?_, ?_, ?_⟩
  · decide +kernel
  · intro j _ h; exact absurd h (by unfold fixedCol ex3 binProb; norm_num)
  · decide +kernel
  · decide +kernel

theorem ex3_fits : Fits ex3 := by unfold Fits; decide +kernel

/-- The point (1, 0, 0). -/
def pt3 : Nat → ℚ := fun j => if j = 0 then 1 else 0

theorem ex3_feasible : ex3.Feasible pt3 := by
  refine ⟨by decide +kernel, ?_, ?_, ?_⟩
  · intro j _ _; dsimp only [ex3, binProb, pt3]; split <;> norm_num
  · intro j _ _; dsimp only [ex3, binProb, pt3]; split <;> norm_num
  · intro j _ _
    dsimp only [pt3]
    split
    · exact ⟨1, by norm_num⟩
    · exact ⟨0, by norm_num⟩

/-- The row `x0 + x1 + x2 = 1` is a clique when it is scanned; then `x0` is fixed at 1 by the next row.  The table says that
at most one of `x1` and `x2` is 0, but both are 0 at the only feasible point. -/
theorem createCliques_fails : ¬ CreateCliquesSound := by
  intro h
  obtain ⟨⟨P', T⟩, hr⟩ := createCliques_returns ex3_moderate ex3_wf ex3_fits 1 100
  have ht : cliquesIn (createCliques ex3 1 100) = some (1, [⟨true, [⟨1, false⟩, ⟨2, false⟩]⟩]) := by decide +kernel
  rw [hr] at ht
  have ht2 : T.cliques = [⟨true, [⟨1, false⟩, ⟨2, false⟩]⟩] := congrArg Prod.snd (Option.some.inj ht)
  have := (h ex3 1 100 P' T ex3_moderate ex3_wf hr pt3 ex3_feasible _ (by rw [ht2]; exact List.mem_cons_self)).atMost
  revert this
  decide +kernel

/-- The row `x0 + x1 + x2 = 2` with `x0` fixed at 0 afterwards: the clique claims that exactly one of `x1`, `x2` is 0. -/
example : cliquesIn (createCliques (binProb 3 [⟨2, 2, [(0, 1), (1, 1), (2, 1)]⟩, ⟨-big, 0, [(0, 1)]⟩]) 1 100) =
    some (1, [⟨true, [⟨1, false⟩, ⟨2, false⟩]⟩]) := by decide +kernel

/-- A row bound below -2^31 is cast to an `int`, even if the row has nothing to do with cliques. -/
theorem createCliques_casts : faultIn (createCliques
    (⟨1, big, fun _ => -big, fun _ => big, fun _ => false, [⟨-big, -5 * 10 ^ 9, [(0, 1)]⟩]⟩) 2 100) = some .cast := by decide +kernel

/-- A column whose bounds differ by less than 1e-8 is taken as fixed at its lower bound.  With a large coefficient, points are
lost: `10^9 x0 - x1 ≤ 0` fixes `x1` at 0 when `x0` is between 0 and 5e-9, and the point (1e-9, 1) is cut off. -/
def ex4 : Prob := ⟨2, big, fun _ => 0, fun j => if j = 0 then 5 / 10 ^ 9 else 1, fun j => decide (j = 1),
  [⟨0, big, [(0, 10 ^ 9), (1, -1)]⟩]⟩

def pt4 : Nat → ℚ := fun j => if j = 0 then 1 / 10 ^ 9 else 1

theorem ex4_feasible : ex4.Feasible pt4 := by
  refine ⟨by decide +kernel, ?_, ?_, ?_⟩
  · intro j _ _; dsimp only [ex4, pt4]; split <;> norm_num
  · intro j _ _; dsimp only [ex4, pt4]; split <;> norm_num
  · intro j hj hi
    have : j = 1 := of_decide_eq_true hi
    subst this
    exact ⟨1, by norm_num [pt4]⟩

theorem createCliques_loses : boundsIn 2 (createCliques ex4 2 100) = some [(0, 5 / 10 ^ 9), (0, 0)] ∧ ex4.Feasible pt4 ∧ pt4 1 = 1 :=
  ⟨by decide +kernel, ex4_feasible, by norm_num [pt4]⟩

/-- Without cliques `cliqueModel` reads a null pointer. -/
theorem cliqueModel_null : faultIn (cliqueModel ex1 ⟨0, [], none⟩ 1) = some .outside := by decide +kernel

/-- Type 2 takes the packed entries for columns: entries with the flag give negative columns. -/
theorem cliqueModel_fake (S : Store) : faultIn (cliqueModel ex1 ⟨1, [⟨false, [⟨0, true⟩, ⟨1, true⟩]⟩], some S⟩ 2) = some .outside := by
  rfl

/-- After `createCliques` has found the problem infeasible, `setupRowCliqueInformation` allocates arrays of a negative
size. -/
theorem setupRows_alloc : (setupIn (binProb 3 [⟨-big, -1, [(0, 1), (1, 1)]⟩]) [[(0, 1), (1, 1)]]).bind faultIn = some .alloc := by
  decide +kernel

end Cgl.ProbCliques
