import Verif.Setup.Returns

/-! # Concrete cases, and what happens outside the hypotheses -/

namespace Cgl.Setup

/-- Fractions with denominators up to 1000 are recognised, nothing else. -/
def exactRat (v : ℚ) : ℤ × ℕ := if v.den ≤ 1000 then (v.num, v.den) else (0, 1)

/-- A row in numbers. -/
abbrev Shown := ℚ × ℚ × List (ℕ × ℚ)

def shownRow (r : Row) : Shown := (r.lb, r.ub, r.coefs)

/-- The user's model and `startModel_` in numbers: bounds of the columns, rows. -/
def shown : Except Fault (Option (Prob × Prob)) → Option (List (ℚ × ℚ) × List (ℚ × ℚ × Bool) × List Shown)
  | .ok (some q) => some ((List.range q.1.nCols).map fun j => (q.1.colLower j, q.1.colUpper j),
      (List.range q.2.nCols).map fun j => (q.2.colLower j, q.2.colUpper j, q.2.isInt j), q.2.rows.map shownRow)
  | _ => none

instance : DecidableEq Shown := inferInstanceAs (DecidableEq (ℚ × ℚ × List (ℕ × ℚ)))
instance : DecidableEq (ℚ × ℚ × Bool) := inferInstance
instance : DecidableEq (List (ℚ × ℚ) × List (ℚ × ℚ × Bool) × List Shown) := inferInstance
instance : DecidableEq (List (ℚ × ℚ × Bool) × List Shown) := inferInstance

/-- Columns 0-7 and 9 are binary, 8 is integer with fractional bounds, 10 is continuous. -/
def prob : Prob where
  nCols := 11
  inf := 10 ^ 30
  colLower := fun j => if j = 8 then 3 / 10 else 0
  colUpper := fun j => if j = 8 then 27 / 10 else if j = 10 then 10 ^ 30 else 1
  isInt := fun j => j != 10
  rows := [⟨0, 1, (List.range 8).map fun j => (j, 1)⟩,
    ⟨-5, 10 ^ 30, [(8, -1 / 2), (10, -1 / 3), (0, 1)]⟩,
    ⟨-1, -1, [(0, 1), (9, -1)]⟩,
    ⟨1, 2, [(1, 1), (2, 1), (3, 1), (4, 1), (5, 1), (9, 1)]⟩]

theorem prob_neat : Neat prob where
  wf := ⟨by decide +kernel, by decide +kernel⟩
  inf := by decide +kernel
  infMax := by decide +kernel
  infInt := by decide +kernel
  rowBounds := by decide +kernel
  ordered := by decide +kernel
  sized := by decide +kernel
  fixedCols := by decide +kernel

/-- The hypotheses of the theorems about `setup` hold for `prob`. -/
theorem prob_meets : Neat prob ∧ Tidy exactRat prob ∧ Denoms exactRat prob ∧ NoZero prob ∧ CrispRhs exactRat false prob := by
  refine ⟨prob_neat, by decide +kernel, by decide +kernel, by decide +kernel, fun rows h => ?_⟩
  have hd : (match scaled exactRat false prob with
    | .ok rows => decide (CrispRun rows (clean (withRows prob rows)))
    | .error _ => false) = true := by decide +kernel
  rw [h] at hd
  exact of_decide_eq_true hd

/-- What comes out for `makeEquality` 2: the bounds of column 8 are rounded, columns 0 and 9 are fixed (in the user's model only),
row 1 is scaled by -6, rows 0 and 3 get slack columns. -/
theorem prob_setup : shown (setup exactRat false 2 prob) = some
    ([(0, 0), (0, 1), (0, 1), (0, 1), (0, 1), (0, 1), (0, 1), (0, 1), (1, 2), (1, 1), (0, 10 ^ 30)],
     [(0, 1, true), (0, 1, true), (0, 1, true), (0, 1, true), (0, 1, true), (0, 1, true), (0, 1, true), (0, 1, true),
      (3 / 10, 27 / 10, true), (0, 1, true), (0, 10 ^ 30, false), (0, 1, true), (0, 1, true)],
     [(1, 1, [(0, 1), (1, 1), (2, 1), (3, 1), (4, 1), (5, 1), (6, 1), (7, 1), (11, 1)]),
      (-10 ^ 30, 30, [(8, 3), (10, 2), (0, -6)]),
      (-1, -1, [(0, 1), (9, -1)]),
      (2, 2, [(1, 1), (2, 1), (3, 1), (4, 1), (5, 1), (9, 1), (12, 1)])]) := by
  decide +kernel

/-- What comes out for `makeEquality` -2: every inequality gets a slack column; that of row 1 is continuous and has no upper
bound. -/
theorem prob_setup_all : (shown (setup exactRat false (-2) prob)).map (fun t => (t.2.1.drop 11, t.2.2)) = some
    ([(0, 1, true), (0, dblMax, false), (0, 1, true)],
     [(0, 0, [(0, 1), (1, 1), (2, 1), (3, 1), (4, 1), (5, 1), (6, 1), (7, 1), (11, -1)]),
      (30, 30, [(8, 3), (10, 2), (0, -6), (12, 1)]),
      (-1, -1, [(0, 1), (9, -1)]),
      (1, 1, [(1, 1), (2, 1), (3, 1), (4, 1), (5, 1), (9, 1), (13, -1)])]) := by
  decide +kernel

/-- A feasible point. -/
theorem prob_point : prob.Feasible (fun j => if j = 8 ∨ j = 9 ∨ j = 2 then 1 else 0) := by decide +kernel

/-- An infeasible problem for which `NULL` is returned: two columns with coefficient -1 cannot make -3. -/
def noPoint : Prob := { prob with rows := [⟨-100, -3, [(0, 1), (1, 1), (2, -1), (3, -1)]⟩] }

theorem noPoint_none : (match setup exactRat false 0 noPoint with | .ok none => true | _ => false) = true ∧ Neat noPoint ∧
    Tidy exactRat noPoint := by
  refine ⟨by decide +kernel, ⟨⟨by decide +kernel, by decide +kernel⟩, by decide +kernel, by decide +kernel, by decide +kernel,
    by decide +kernel, by decide +kernel, by decide +kernel, by decide +kernel⟩, by decide +kernel⟩

/-! ### Outside the hypotheses -/

/-- All numbers of the row are multiples of 2e12: 2e12 x + 2e12 y ≤ 4e12. -/
def huge : Prob := { prob with rows := [⟨-10 ^ 30, 4 * 10 ^ 12, [(0, 2 * 10 ^ 12), (1, 2 * 10 ^ 12)]⟩] }

/-- The multiplier 5e-13 is rounded to 0, and the double check accepts 0. -/
theorem huge_zero : (match multiplier exactRat ⟨-10 ^ 30, 4 * 10 ^ 12, [(0, 2 * 10 ^ 12), (1, 2 * 10 ^ 12)]⟩ with
    | .ok t => t.1 | .error _ => 1) = 0 := by decide +kernel

/-- The assertion that the new coefficients are not zero fails. -/
theorem huge_assert : (match setup exactRat false 0 huge with | .error .assert => true | _ => false) = true ∧ NoZero huge ∧
    Denoms exactRat huge ∧ ¬ Tidy exactRat huge := by
  refine ⟨by decide +kernel, by decide +kernel, by decide +kernel, by decide +kernel⟩

/-- A coefficient that is stored although it is zero. -/
def zeroCoef : Prob := { prob with rows := [⟨-10 ^ 30, 4, [(0, 2), (1, 0)]⟩] }

theorem zeroCoef_assert : (match setup exactRat false 0 zeroCoef with | .error .assert => true | _ => false) = true ∧
    Tidy exactRat zeroCoef ∧ Denoms exactRat zeroCoef := by
  refine ⟨by decide +kernel, by decide +kernel, by decide +kernel⟩

/-- Coefficients 1/2, 1/3, 1/5, ..., 1/53. -/
def primes : Prob := { prob with
  nCols := 16
  rows := [⟨-10 ^ 30, 1, ([2, 3, 5, 7, 11, 13, 17, 19, 23, 29, 31, 37, 41, 43, 47, 53].zipIdx).map fun p => (p.2, 1 / p.1)⟩] }

/-- The least common multiple of the denominators does not fit into 64 bits. -/
theorem primes_overflow : (match setup exactRat false 0 primes with | .error .overflow => true | _ => false) = true ∧
    Tidy exactRat primes ∧ NoZero primes := by
  refine ⟨by decide +kernel, by decide +kernel, by decide +kernel⟩

/-- `CoinRational` with tolerance 1e-13: multiples of 1/7 are recognised, also if they are not quite. -/
def nearRat (v : ℚ) : ℤ × ℕ :=
  if |v - (⌊v * 7 + 1 / 2⌋ : ℚ) / 7| ≤ 1 / 10 ^ 13 then (((⌊v * 7 + 1 / 2⌋ : ℚ) / 7).num, ((⌊v * 7 + 1 / 2⌋ : ℚ) / 7).den) else (0, 1)

/-- Not quite 1/7. -/
def seventh : ℚ := 1 / 7 + 9 / 10 ^ 14

/-- Row 0 has the coefficients -1/7 (not quite) and -400000 (in a fixed column); row 1 is a set. -/
def skew : Prob where
  nCols := 6
  inf := 10 ^ 30
  colLower := fun _ => 0
  colUpper := fun j => if j = 5 then 0 else 1
  isInt := fun j => j != 5
  rows := [⟨-1, 0, [(0, -seventh), (1, -seventh), (2, -seventh), (3, -seventh), (4, -seventh), (5, -400000)]⟩,
    ⟨0, 1, (List.range 5).map fun j => (j, 1)⟩]

/-- The first column at 1 is a solution. -/
def skewPoint : Nat → ℚ := fun j => if j = 0 then 1 else 0

/-- The row is only negated, but the local copy of the row has been scaled by 7. -/
theorem skew_copy : (match scaled nearRat false skew with
    | .ok ((r, v) :: _) => some (shownRow r, v)
    | _ => none) =
    some ((0, 1, [(0, seventh), (1, seventh), (2, seventh), (3, seventh), (4, seventh), (5, 400000)]),
      [(0, 1), (1, 1), (2, 1), (3, 1), (4, 1), (5, 2800000)]) := by
  decide +kernel

theorem skew_rows : (shown (setup nearRat false 2 skew)).map (fun t => (t.2.1, t.2.2)) = some
    ([(0, 1, true), (0, 1, true), (0, 1, true), (0, 1, true), (0, 1, true), (0, 0, false), (0, 1, true), (0, 1, true)],
     [(1, 1, [(0, seventh), (1, seventh), (2, seventh), (3, seventh), (4, seventh), (5, 400000), (6, 1)]),
      (1, 1, [(0, 1), (1, 1), (2, 1), (3, 1), (4, 1), (7, 1)])]) := by
  decide +kernel

/-- A solution is lost: the row that was taken for a clique becomes an equation with a binary slack column, which no extension of
`skewPoint` satisfies. -/
theorem skew_lost : skew.Feasible skewPoint ∧ ∃ M S, setup nearRat false 2 skew = .ok (some (M, S)) ∧ ¬ Extends S skew := by
  refine ⟨by decide +kernel, ?_⟩
  have hs := skew_rows
  cases h : setup nearRat false 2 skew with
  | error e => rw [h] at hs; cases hs
  | ok o =>
    cases o with
    | none => rw [h] at hs; cases hs
    | some q =>
      obtain ⟨M, S⟩ := q
      refine ⟨M, S, rfl, fun hE => ?_⟩
      rw [h] at hs
      simp only [shown, Option.map_some, Option.some.injEq, Prod.mk.injEq] at hs
      obtain ⟨hcols, hrows⟩ := hs
      obtain ⟨y, hy, hf⟩ := hE.2 skewPoint (by decide +kernel)
      have hlen : S.nCols = 8 := by simpa using congrArg List.length hcols
      obtain ⟨r, l, hr⟩ : ∃ r l, S.rows = r :: l := by
        cases hS : S.rows with
        | nil => rw [hS] at hrows; cases hrows
        | cons r l => exact ⟨r, l, rfl⟩
      rw [hr, List.map_cons] at hrows
      have hr0 := (List.cons.inj hrows).1
      unfold shownRow at hr0
      simp only [Prod.mk.injEq] at hr0
      obtain ⟨e1, e2, e3⟩ := hr0
      have hinf : S.inf = 10 ^ 30 := by
        have : (match setup nearRat false 2 skew with | .ok (some q) => q.2.inf | _ => 0) = 10 ^ 30 := by decide +kernel
        rw [h] at this; exact this
      have hint : S.isInt 6 = true := by
        have : (match setup nearRat false 2 skew with | .ok (some q) => q.2.isInt 6 | _ => false) = true := by decide +kernel
        rw [h] at this; exact this
      have hsat := hf.rows r (by rw [hr]; exact List.mem_cons_self)
      unfold Row.Sat lbOk ubOk at hsat
      rw [e1, e2, e3, hinf] at hsat
      have a := hsat.1 (by norm_num)
      have b := hsat.2 (by norm_num)
      have y0 : y 0 = 1 := hy 0 (by decide)
      have y1 : y 1 = 0 := hy 1 (by decide)
      have y2 : y 2 = 0 := hy 2 (by decide)
      have y3 : y 3 = 0 := hy 3 (by decide)
      have y4 : y 4 = 0 := hy 4 (by decide)
      have y5 : y 5 = 0 := hy 5 (by decide)
      simp only [SVec.dot_cons, SVec.dot_nil, y0, y1, y2, y3, y4, y5] at a b
      have hy6 : y 6 = 1 - seventh := by linarith
      obtain ⟨z, hz⟩ := hf.int 6 (by rw [hlen]; decide) hint
      rw [hy6] at hz
      have hz1 : (0 : ℚ) < z := by rw [← hz]; unfold seventh; norm_num
      have hz2 : (z : ℚ) < 1 := by rw [← hz]; unfold seventh; norm_num
      have h1 : 0 < z := by exact_mod_cast hz1
      have h2 : z < 1 := by exact_mod_cast hz2
      omega

/-- A row whose lower bound is above its upper bound. -/
def crossed : Prob := { skew with rows := [⟨2, 1, (List.range 5).map fun j => (j, 1)⟩] }

/-- The problem has no solution; the one that is preprocessed further has: the lower bound of the row is gone. -/
theorem crossed_feasible : (∀ x, ¬ crossed.Feasible x) ∧
    (match setup exactRat false 2 crossed with
    | .ok (some q) => decide (q.2.Feasible fun j => if j = 0 then 1 else 0)
    | _ => false) = true := by
  refine ⟨fun x hx => ?_, by decide +kernel⟩
  have h := hx.rows ⟨2, 1, (List.range 5).map fun j => (j, 1)⟩ List.mem_cons_self
  have hinf : crossed.inf = 10 ^ 30 := rfl
  unfold Row.Sat lbOk ubOk at h
  rw [hinf] at h
  have a := h.1 (by norm_num)
  have b := h.2 (by norm_num)
  dsimp only at a b
  linarith

/-- The usual form of a set packing row, without a lower bound: it is passed over, and stays an inequality. -/
def packing : Prob := { skew with rows := [⟨-10 ^ 30, 1, (List.range 5).map fun j => (j, 1)⟩] }

theorem packing_skipped : (shown (setup exactRat false 2 packing)).map (fun t => t.2.2) =
    some [(-10 ^ 30, 1, [(0, 1), (1, 1), (2, 1), (3, 1), (4, 1)])] ∧
    (sets (clean packing) (packing.rows.map fun r => (r, r.coefs))).number = 1 := by
  refine ⟨by decide +kernel, by decide +kernel⟩

end Cgl.Setup
