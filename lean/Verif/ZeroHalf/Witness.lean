import Verif.ZeroHalf.Props

/-!
# Zero-half cuts: concrete cases

The hypotheses of the theorems can be met, and the full statements fail where the theorems are partial.
-/

namespace Cgl.ZeroHalf

/-- Result of a computation that must come through, tested. -/
def okAnd {α : Type} (r : Except Fault α) (f : α → Bool) : Bool :=
  match r with
  | .ok a => f a
  | .error _ => false

theorem okAnd_spec {α : Type} {r : Except Fault α} {f : α → Bool} (h : okAnd r f = true) :
    ∃ a, r = .ok a ∧ f a = true := by
  rcases r with e | a
  · cases h
  · exact ⟨a, rfl, h⟩

/-- The fault of a computation. -/
def faultOf {α : Type} (r : Except Fault α) : Option Fault :=
  match r with
  | .ok _ => none
  | .error e => some e

theorem faultOf_spec {α : Type} {r : Except Fault α} {e : Fault} (h : faultOf r = some e) : r = .error e := by
  rcases r with e' | a
  · simp only [faultOf, Option.some.injEq] at h; rw [h]
  · cases h

theorem exact_of_int {P : Prob} (h : ∀ r ∈ P.rows, ∀ p ∈ r.coefs, p.2 = ((⌊p.2⌋ : ℤ) : ℚ)) : ExactCoefs P := by
  intro r hr p hp z hz
  have h1 := h r hr p hp
  rw [h1] at hz ⊢
  have h2 : |((⌊p.2⌋ - z : ℤ) : ℚ)| < 1 := by
    push_cast
    refine lt_of_le_of_lt hz ?_
    norm_num
  rw [← Int.cast_abs] at h2
  have h3 : |⌊p.2⌋ - z| < 1 := by exact_mod_cast h2
  have h4 := Int.abs_lt_one_iff.mp h3
  congr 1
  omega

/-! ### The triangle: every hypothesis holds and a cut comes out -/

/-- The three pairs of three binary columns. -/
def tri : Prob where
  nCols := 3
  inf := 10 ^ 30
  colLower := fun _ => 0
  colUpper := fun _ => 1
  isInt := fun _ => true
  rows := [⟨-10 ^ 30, 1, [(0, 1), (1, 1)]⟩, ⟨-10 ^ 30, 1, [(1, 1), (2, 1)]⟩, ⟨-10 ^ 30, 1, [(0, 1), (2, 1)]⟩]

/-- The search finds the cycle of the three rows. -/
def triEnv : Env := ⟨[[[0, 1, 2]]], fun _ => false⟩
/-- The LP point. -/
def half : Nat → ℚ := fun _ => 1 / 2
/-- The cut. -/
def triCut : RowCut := ⟨-dblMax, 1, [(0, 1), (1, 1), (2, 1)]⟩
/-- The triangle loaded. -/
def triObj (f : ℤ) : Obj :=
  ⟨some ⟨[(0, 1), (0, 1), (0, 1)],
    [⟨[(0, 1), (1, 1)], 1, false⟩, ⟨[(1, 1), (2, 1)], 1, false⟩, ⟨[(0, 1), (2, 1)], 1, false⟩]⟩, true, f⟩
/-- An earlier call and a change of the flags. -/
def triPost (f : ℤ) : List Op := [.generate triEnv tri half [], .setFlags f]

theorem tri_refresh (f : ℤ) : refresh tri ⟨none, false, f⟩ = .ok (triObj f) := by
  have h : ∀ L, (List.range tri.nCols).mapM (colBounds tri) = .ok L →
      load tri ⟨none, false, f⟩ L = .ok (triObj f) := by
    intro L hL
    have : okAnd ((List.range tri.nCols).mapM (colBounds tri)) (fun L => decide (L = [(0, 1), (0, 1), (0, 1)])) = true := by
      decide +kernel
    obtain ⟨L', h1, h2⟩ := okAnd_spec this
    rw [h1] at hL
    injection hL with hL
    subst hL
    obtain rfl : L' = [(0, 1), (0, 1), (0, 1)] := by simpa using h2
    unfold load
    rw [if_neg (by decide +kernel), if_neg (by decide +kernel)]
    have : storeAll [(0, 1), (0, 1), (0, 1)] tri =
        [⟨[(0, 1), (1, 1)], 1, false⟩, ⟨[(1, 1), (2, 1)], 1, false⟩, ⟨[(0, 1), (2, 1)], 1, false⟩] := by decide +kernel
    rw [this]
    rfl
  unfold refresh
  rw [if_neg (by decide)]
  have : okAnd ((List.range tri.nCols).mapM (colBounds tri)) (fun _ => true) = true := by decide +kernel
  obtain ⟨L, h1, -⟩ := okAnd_spec this
  rw [h1]
  exact h L h1

theorem tri_wf : tri.WF := by
  constructor <;> decide +kernel

theorem tri_fit : BoundsFit (atCall tri tri) half := by
  intro j _ _
  exact ⟨Or.inl (by show -(intMax : ℚ) ≤ 0; norm_num [intMax]), Or.inl (by show (1 : ℚ) ≤ intMax; norm_num [intMax])⟩

theorem tri_small : Small tri tri := by
  constructor <;> decide +kernel

theorem tri_tame (f : ℤ) : Tame tri (triPost f) := by
  intro op hop
  rcases List.mem_cons.mp hop with rfl | hop
  · intro j _ _
    show (0 : ℚ) ≤ intMax - 1
    norm_num [intMax]
  · rcases List.mem_cons.mp hop with rfl | hop
    · trivial
    · cases hop

/-- The hypotheses of `generate_valid_partial`, `generate_neat` and `generate_returns_partial` hold and the triangle
cut comes out. -/
theorem tri_case : tri.rows ≠ [] ∧ tri.WF ∧ ExactCoefs tri ∧ (intMax : ℚ) < tri.inf ∧
    refresh tri ⟨none, false, 0⟩ = .ok (triObj 0) ∧ run (triObj 0) (triPost 0) = .ok (triObj 0) ∧
    Tame tri (triPost 0) ∧ BoundsFit (atCall tri tri) half ∧ (triObj 0).glob = false ∧ Castable tri tri ∧
    Small tri tri ∧ generate triEnv (triObj 0) tri half [] = .ok ([triCut], triObj 0) := by
  have hg : generate triEnv (triObj 0) tri half [] = .ok ([triCut], triObj 0) := by
    have : okAnd (generate triEnv (triObj 0) tri half []) (fun r => decide (r = ([triCut], triObj 0))) = true := by
      decide +kernel
    obtain ⟨a, h1, h2⟩ := okAnd_spec this
    rw [h1, of_decide_eq_true h2]
  refine ⟨by decide, tri_wf, exact_of_int (by decide +kernel), by norm_num [intMax, tri], tri_refresh 0, ?_,
    tri_tame 0, tri_fit, by decide, ?_, tri_small, hg⟩
  · simp only [triPost, run, step, bind_ok, pure_ok]
    exact ⟨_, ⟨_, hg, rfl⟩, _, rfl, rfl⟩
  · intro j _ _
    exact ⟨by show (0 : ℚ) ≤ intMax; norm_num [intMax], by show -(intMax : ℚ) ≤ 1; norm_num [intMax]⟩

/-- The hypotheses of the theorems about global cuts hold and the triangle cut comes out. -/
theorem tri_global : refresh tri ⟨none, false, 1⟩ = .ok (triObj 1) ∧ run (triObj 1) (triPost 1) = .ok (triObj 1) ∧
    Tame tri (triPost 1) ∧ GlobalOnly (triObj 1) (triPost 1) ∧ BoundsFit tri half ∧ (triObj 1).glob = true ∧
    generate triEnv (triObj 1) tri half [] = .ok ([triCut], triObj 1) := by
  have hg : generate triEnv (triObj 1) tri half [] = .ok ([triCut], triObj 1) := by
    have : okAnd (generate triEnv (triObj 1) tri half []) (fun r => decide (r = ([triCut], triObj 1))) = true := by
      decide +kernel
    obtain ⟨a, h1, h2⟩ := okAnd_spec this
    rw [h1, of_decide_eq_true h2]
  refine ⟨tri_refresh 1, ?_, tri_tame 1, ⟨by decide, ?_⟩, tri_fit, by decide, hg⟩
  · simp only [triPost, run, step, bind_ok, pure_ok]
    exact ⟨_, ⟨_, hg, rfl⟩, _, rfl, rfl⟩
  · intro o' _ o'' _
    trivial

/-- The hypotheses of `refresh_returns_partial` hold for the triangle. -/
theorem tri_refreshes : Castable tri tri ∧ ∀ r ∈ tri.rows, ∀ p ∈ r.coefs, 1 / 10 ^ 15 < |p.2| :=
  ⟨tri_case.2.2.2.2.2.2.2.2.2.1, by decide +kernel⟩

/-! ### Where the full statements fail -/

/-- Refresh an empty generator and call it. -/
def once (P0 P : Prob) (env : Env) (x : Nat → ℚ) : Except Fault (List RowCut) := do
  let o ← refresh P0 {}
  let r ← generate env o P x []
  return r.1

/-- An explicit zero in a row: `refreshSolver` fails its assertion (without assertions it goes on with a gcd of
rows that may be zero and divides by it). -/
theorem explicit_zero :
    refresh { tri with rows := [⟨-10 ^ 30, 1, [(0, 1), (1, 0)]⟩] } {} = .error .assertion :=
  faultOf_spec (by decide +kernel)

/-- A coefficient a little below one. -/
def near : Prob where
  nCols := 3
  inf := 10 ^ 30
  colLower := fun _ => 0
  colUpper := fun _ => 10 ^ 20
  isInt := fun _ => true
  rows := [⟨-10 ^ 30, 0, [(0, 1 - 1 / 10 ^ 15), (1, -1)]⟩, ⟨-10 ^ 30, 1, [(0, 1), (1, 1), (2, -2)]⟩]

/-- A coefficient within 1e-15 of an integer is taken for the integer: the cut cuts off a feasible point. -/
theorem near_integer :
    okAnd (once near near
      ⟨[[[0, 1]]], fun _ => false⟩ (fun j => if j = 2 then 1 else 3 / 2))
      (fun cs => cs.any fun c => decide (SVec.dot c.row (fun j => if j = 0 then 10 ^ 15 + 1 else 10 ^ 15) > c.ub)) = true ∧
    near.Feasible (fun j => if j = 0 then 10 ^ 15 + 1 else 10 ^ 15) := by
  constructor <;> decide +kernel

/-- A column without a lower bound that fits. -/
def deep : Prob where
  nCols := 2
  inf := 10 ^ 30
  colLower := fun j => if j = 0 then -10 ^ 10 else 0
  colUpper := fun _ => 10
  isInt := fun _ => true
  rows := [⟨-10 ^ 30, -2147483646, [(0, 1), (1, 2)]⟩]

/-- A lower bound of -1e10 becomes -INT_MAX, and an LP value next to that gives a cut that cuts off a feasible
point. -/
theorem deep_bound :
    okAnd (once deep deep ⟨[[[0]]], fun _ => false⟩ (fun j => if j = 0 then -2147483647 + 1 / 4 else 3 / 8))
      (fun cs => cs.any fun c => decide (SVec.dot c.row (fun j => if j = 0 then -2147483648 else 1) > c.ub)) = true ∧
    deep.Feasible (fun j => if j = 0 then -2147483648 else 1) := by
  constructor <;> decide +kernel

/-- A row with an odd right-hand side. -/
def par : Prob where
  nCols := 2
  inf := 10 ^ 30
  colLower := fun _ => 0
  colUpper := fun _ => 4
  isInt := fun _ => true
  rows := [⟨-10 ^ 30, 4, [(0, 1), (1, 2)]⟩]

/-- A call at a node where `x0 ≥ 1`, then the flag for global cuts is set: the next call uses the bound of the node
and gives a cut that is not valid for the problem. -/
theorem stale_global :
    okAnd (do
        let o ← refresh par {}
        let o ← step o (.generate ⟨[], fun _ => false⟩ { par with colLower := fun j => if j = 0 then 1 else 0 }
          (fun _ => 1) [])
        let o ← step o (.setFlags 1)
        let r ← generate ⟨[[[0]]], fun _ => false⟩ o par (fun j => if j = 0 then 1 else 3 / 2) []
        return r.1)
      (fun cs => cs.any fun c => decide (SVec.dot c.row (fun j => if j = 0 then 0 else 2) > c.ub)) = true ∧
    par.Feasible (fun j => if j = 0 then 0 else 2) := by
  constructor <;> decide +kernel

/-- `refreshSolver` with a problem without rows leaves the old rows in place: the next call gives cuts of the old
problem. -/
theorem stale_rows :
    okAnd (do
        let o ← refresh tri {}
        let o ← refresh { tri with rows := [] } o
        let r ← generate triEnv o { tri with rows := [] } half []
        return r.1) (fun cs => decide (cs = [triCut])) = true ∧
    ({ tri with rows := [] } : Prob).Feasible (fun _ => 1) ∧ SVec.dot triCut.row (fun _ => 1) > triCut.ub := by
  refine ⟨?_, ?_, ?_⟩ <;> decide +kernel

/-- A generator that is not called for a problem of the size of its last `refreshSolver` reads outside its arrays. -/
theorem more_columns : generate triEnv (triObj 0) { tri with nCols := 4 } half [] = .error .memory :=
  faultOf_spec (by decide +kernel)

/-- An integer column with a lower bound of 1e10. -/
theorem no_cast : refresh { tri with colLower := fun _ => 10 ^ 10, colUpper := fun _ => 10 ^ 11 } {} = .error .cast :=
  faultOf_spec (by decide +kernel)

/-- Two rows with large coefficients: their sum does not fit. -/
theorem too_large :
    faultOf (once { tri with rows := [⟨-10 ^ 30, 1, [(0, 2 * 10 ^ 9), (1, 1)]⟩, ⟨-10 ^ 30, 1, [(0, 2 * 10 ^ 9), (1, 1)]⟩] } tri
      ⟨[[[0, 1]]], fun _ => false⟩ (fun j => if j = 1 then 1 else 0)) = some .overflow := by decide +kernel

/-- The copy of a generator that finds the triangle cut adds nothing; refreshed, it does. -/
theorem copy_case : okAnd (generate triEnv (copy (triObj 0)) tri half []) (fun r => decide (r.1 = [])) = true ∧
    refresh tri (copy (triObj 0)) = .ok (triObj 0) ∧
    okAnd (generate triEnv (triObj 0) tri half []) (fun r => decide (r.1 = [triCut])) = true := by
  refine ⟨by decide +kernel, ?_, by decide +kernel⟩
  rw [copy_refresh _ (by decide), refresh_forgets (triObj 0) ⟨none, false, 0⟩ (by decide) rfl]
  exact tri_refresh 0

/-- Assigning to a loaded generator ends the program. -/
theorem assign_aborts : assign (triObj 0) {} = .error .abort := rfl

end Cgl.ZeroHalf
