import Verif.PreClique.Props
import Mathlib.Data.List.Sort

/-!
# `CglPreProcess::cliqueIt`: examples

Concrete problems that meet the hypotheses of the theorems of `Props.lean`, and a problem to which `cliqueIt` adds
feasible points.
-/

namespace Cgl.PreClique

/-- A problem over `n` binary columns with the rows `sum of the columns of l <= 1`. -/
def packing (n : Nat) (ls : List (List Nat)) : Prob where
  nCols := n
  inf := 10 ^ 30
  colLower := fun _ => 0
  colUpper := fun _ => 1
  isInt := fun _ => true
  rows := ls.map fun l => ⟨-10 ^ 30, 1, l.map fun j => (j, 1)⟩

/-- A call with `cliquesNeeded = 0`; the sort is by insertion. -/
def call (P : Prob) : Call where
  P := P
  needed := 0
  rnd := fun j => (j + 1) ^ 2
  srt := List.insertionSort fun a b => a.1 ≤ b.1

theorem call_sorts (P : Prob) : Sorts (call P).srt := fun l => List.perm_insertionSort _ l

/-- The columns of the rows of the returned model. -/
def shape (c : Call) : Option (List (List Nat)) :=
  match cliqueIt c with
  | .ok (some Q) => some (Q.rows.map cols)
  | _ => none

theorem shape_spec {c : Call} {l : List (List Nat)} (h : shape c = some l) :
    ∃ Q, cliqueIt c = .ok (some Q) ∧ Q.rows.map cols = l := by
  unfold shape at h
  rcases hc : cliqueIt c with f | o <;> rw [hc] at h
  · simp at h
  · rcases o with _ | Q
    · simp at h
    · exact ⟨Q, rfl, Option.some.inj h⟩

/-! ### The six edges of a clique on four columns become one row -/

def k4 : Prob := packing 5 [[0, 1], [0, 2], [0, 3], [1, 2], [1, 3], [2, 3], [3, 4]]

theorem k4_wf : k4.WF := by decide +kernel
theorem k4_sharesOne : SharesOne k4 := by decide +kernel
theorem k4_shape : shape (call k4) = some [[3, 4], [0, 1, 2, 3]] := by decide +kernel

/-- All hypotheses of the equivalence are met. -/
example : ∃ Q, cliqueIt (call k4) = .ok (some Q) ∧ ∀ x, Q.Feasible x ↔ k4.Feasible x := by
  obtain ⟨Q, hQ, -⟩ := shape_spec k4_shape
  exact ⟨Q, hQ, cliqueIt_equiv_partial (by decide +kernel) k4_wf (call_sorts _) k4_sharesOne hQ⟩

/-! ### Repeated doubleton rows are removed -/

def twice : Prob := packing 3 [[0, 1], [1, 0], [1, 2], [0, 2], [0, 1]]

theorem twice_shape : shape (call twice) = some [[0, 1, 2]] := by decide +kernel
theorem twice_dups : dups (call twice) = [1, 4] := by decide +kernel

example : ∃ Q, cliqueIt (call twice) = .ok (some Q) ∧ ∀ x, Q.Feasible x ↔ twice.Feasible x := by
  obtain ⟨Q, hQ, -⟩ := shape_spec twice_shape
  refine ⟨Q, hQ, cliqueIt_equiv_of_nodup (by decide +kernel) (by decide +kernel) (call_sorts _) (fun v => ?_) hQ⟩
  by_cases hv : v < 3
  · have : ∀ v < 3, (adj (call twice) v).Nodup := by decide +kernel
    exact this v hv
  · have : adj (call twice) v = [] := by
      apply List.eq_nil_iff_forall_not_mem.mpr
      intro k hk
      obtain ⟨-, r, hr, -, ⟨p, hp, rfl⟩, -⟩ :=
        (adj_conflict (c := call twice) (by decide +kernel) (call_sorts _)).mp hk
      have : (call twice).P.WF := by decide +kernel
      exact hv (this.cols r hr p hp)
    change (adj (call twice) v).Nodup
    rw [this]; exact List.nodup_nil

/-! ### Two clique rows that share two columns

The rows `x0 + x4 + x5 <= 1` and `x2 + x4 + x5 + x6 <= 1` share the columns 4 and 5.  When the search is in the branch
of column 0, its candidates are 4 and 5.  Column 4 has two entries for column 5, so `nMax` is 2, the number of
candidates, and the branch is given up: the clique `{0, 4, 5}` is never found.  The row `x0 + x4 + x5 <= 1` is deleted
all the same, because it links the columns 4 and 5 of the clique `{2, 4, 5, 6}`. -/

def shared : Prob := packing 7 [[4, 5, 0], [2, 4, 6, 5], [1, 2, 6], [1, 0, 3]]

theorem shared_shape : shape (call shared) = some [[1, 0, 3], [2, 1, 6], [2, 4, 5, 6]] := by decide +kernel

/-- The point with `x0 = x4 = 1`. -/
def added (j : Nat) : ℚ := if j = 0 ∨ j = 4 then 1 else 0

theorem feasible_of_shape {Q : Prob} {x : Nat → ℚ} {l : List (List Nat)} (hQ : Q.rows.map cols = l)
    (hone : ∀ r ∈ Q.rows, r.ub = 1 ∧ r.lb ≤ 0 ∧ ∀ p ∈ r.coefs, p.2 = 1)
    (hsum : ∀ q ∈ l, 0 ≤ (q.map x).sum ∧ (q.map x).sum ≤ 1) : ∀ r ∈ Q.rows, r.Sat Q.inf x := by
  intro r hr
  obtain ⟨h1, h2, h3⟩ := hone r hr
  have hd := dot_ones (x := x) r.coefs h3
  have := hsum (cols r) (by rw [← hQ]; exact List.mem_map_of_mem hr)
  unfold cols at this
  exact ⟨fun _ => by rw [hd]; linarith, fun _ => by rw [hd, h1]; exact this.2⟩

/-- **C85 is false in general**: `cliqueIt` returns a model with a feasible point that is not feasible for the
input. -/
theorem shared_pair_adds_points : ∃ Q, cliqueIt (call shared) = .ok (some Q) ∧ Q.Feasible added ∧
    ¬ shared.Feasible added := by
  obtain ⟨Q, hQ, hshape⟩ := shape_spec shared_shape
  refine ⟨Q, hQ, ?_, by decide +kernel⟩
  have hP : (call shared).P.WF := by decide +kernel
  obtain ⟨kept, new, e, hsub, -, hnew, -, -⟩ := cliqueIt_rows hP (call_sorts _) hQ
  have hkept : ∀ r ∈ shared.rows, r.ub = 1 ∧ r.lb ≤ 0 ∧ ∀ p ∈ r.coefs, p.2 = 1 := by decide +kernel
  refine ⟨feasible_of_shape hshape (fun r hr => ?_) (by decide +kernel), ?_, ?_, ?_⟩
  · rw [e] at hr
    rcases List.mem_append.mp hr with hr | hr
    · exact hkept r (hsub.subset hr)
    · obtain ⟨h1, h2, h3, -⟩ := hnew r hr
      exact ⟨h2, by rw [h1]; have := dblMax_pos; linarith, h3⟩
  · have : ∀ j < shared.nCols, lbOk shared.inf (shared.colLower j) (added j) := by decide +kernel
    rw [e]; exact this
  · have : ∀ j < shared.nCols, ubOk shared.inf (shared.colUpper j) (added j) := by decide +kernel
    rw [e]; exact this
  · have : ∀ j < shared.nCols, shared.isInt j = true → IsInteger (added j) := by decide +kernel
    rw [e]; exact this

/-- The maximal clique `{0, 4, 5}` is the support of no row of the returned model. -/
theorem shared_pair_misses_clique : ∃ Q, cliqueIt (call shared) = .ok (some Q) ∧
    ∀ r ∈ Q.rows, support r ≠ {0, 4, 5} := by
  obtain ⟨Q, hQ, hshape⟩ := shape_spec shared_shape
  refine ⟨Q, hQ, fun r hr he => ?_⟩
  have hc : cols r ∈ Q.rows.map cols := List.mem_map_of_mem hr
  rw [hshape] at hc
  have hs : (cols r).toFinset = {0, 4, 5} := he
  have : ∀ q ∈ [[1, 0, 3], [2, 1, 6], [2, 4, 5, 6]], (q : List Nat).toFinset ≠ {0, 4, 5} := by decide +kernel
  exact this _ hc hs

/-- It is a maximal clique. -/
theorem shared_maximal : MaximalClique shared {0, 4, 5} := by
  have hP : (call shared).P.WF := by decide +kernel
  have key : ∀ u v, Conflict shared u v ↔ v ∈ adj (call shared) u :=
    fun u v => (adj_conflict (c := call shared) hP (call_sorts _)).symm
  have hall : ∀ u ∈ ({0, 4, 5} : Finset Nat), ∀ v ∈ ({0, 4, 5} : Finset Nat), u ≠ v →
      v ∈ adj (call shared) u := by decide +kernel
  have hmax : ∀ w ∈ adj (call shared) 0, w ∉ ({0, 4, 5} : Finset Nat) →
      ∃ u ∈ ({0, 4, 5} : Finset Nat), w ∉ adj (call shared) u := by decide +kernel
  refine ⟨fun u hu v hv hne => (key u v).mpr (hall u hu v hv hne), fun w hw => ?_⟩
  by_cases h0 : w ∈ adj (call shared) 0
  · obtain ⟨u, hu, hn⟩ := hmax w h0 hw
    exact ⟨u, hu, fun hc => hn ((key u w).mp hc)⟩
  · exact ⟨0, by simp, fun hc => h0 ((key 0 w).mp hc)⟩

/-! ### Undefined behaviour and `NULL` -/

/-- `cliquesNeeded` is multiplied by the number of rows and converted to `int` without a check. -/
theorem needed_overflow :
    (match cliqueIt { call k4 with needed := 10 ^ 9 } with | .error .cast => true | _ => false) = true := by
  decide +kernel

/-- With `cliquesNeeded = 1` nothing is done: there are not more cliques than rows. -/
theorem k4_all_needed : (match cliqueIt { call k4 with needed := 1 } with | .ok none => true | _ => false) = true := by
  decide +kernel

example : ∃ r, cliqueIt (call k4) = .ok r := cliqueIt_returns (by decide +kernel) (by decide +kernel)

end Cgl.PreClique
