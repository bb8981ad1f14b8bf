import Verif.MoveObj.Props
import Verif.Setup.Props

/-! # Slack columns and moved costs together: the problem that `preProcessNonDefault` goes on with -/

namespace Cgl.MoveObj

theorem addSlacks_nCols (l : List Setup.Slack) : ∀ S : Prob, S.nCols ≤ (Setup.addSlacks S l).nCols := by
  induction l with
  | nil => intro S; exact le_refl _
  | cons s l ih => intro S; exact le_trans (Nat.le_succ _) (ih (Setup.addSlack S s))

theorem setup_nCols {rat : ℚ → ℤ × ℕ} {types : Bool} {makeEquality : ℤ} {P M S : Prob}
    (h : Setup.setup rat types makeEquality P = .ok (some (M, S))) : P.nCols ≤ S.nCols := by
  obtain ⟨rows, o', -, -, h3⟩ := Setup.setup_parts h
  by_cases hcl : Setup.cleanOk (Setup.withRows P rows) = true
  · rw [if_pos hcl] at h3
    cases o' with
    | none => cases h3
    | some q =>
      simp only [Option.map_some, Option.some.injEq, Prod.mk.injEq] at h3
      rw [h3.2]
      exact addSlacks_nCols _ (Setup.withRows P rows)
  · rw [if_neg hcl] at h3; cases h3

/-- Columns without cost do not count. -/
theorem value_more {n k : Nat} (h : n ≤ k) (o : Obj) (ho : ∀ j, n ≤ j → o.cost j = 0) (x : Nat → ℚ) : value k o x = value n o x := by
  unfold value
  congr 1
  symm
  apply Finset.sum_subset (Finset.range_subset_range.mpr h)
  intro j _ hj
  rw [ho j (not_lt.mp fun hl => hj (Finset.mem_range.mpr hl)), zero_mul]

/-- The start of `preProcessNonDefault`: the problem it goes on with has, on the columns given, the feasible points of the problem
given (`Extends`), and its objective differs from the one given by the same number at all of them.  `S` is the problem with slack
columns, whose costs are zero. -/
theorem start_objective_partial (rat : ℚ → ℤ × ℕ) (types : Bool) (makeEquality : ℤ) (P : Prob) (hN : Setup.Neat P)
    (ht : Setup.Tidy rat P) (hcr : makeEquality = 2 → Setup.CrispRhs rat types P) (M S : Prob)
    (h : Setup.setup rat types makeEquality P = .ok (some (M, S))) (hS : Tidy S) (o : Obj) (ho : ∀ j, P.nCols ≤ j → o.cost j = 0) :
    (∀ x, P.Feasible x → ∃ y, (∀ j < P.nCols, y j = x j) ∧ S.Feasible y) ∧
    ∃ K, ∀ y, S.Feasible y → P.Feasible y ∧ value S.nCols (moveCosts S o) y = value P.nCols o y + K := by
  have he := Setup.setup_start_same_partial rat types makeEquality P hN ht hcr M S h
  obtain ⟨K, hK⟩ := moveCosts_constant S hS o
  refine ⟨he.2, K, fun y hy => ⟨he.1 y hy, ?_⟩⟩
  rw [hK y hy, value_more (setup_nCols h) o ho]

end Cgl.MoveObj
