import Verif.RedSplit2.Run

/-!
# C26 (CglRedSplit2), C80-C84: the second reduce-and-split generator
-/

namespace Cgl.RedSplit2

open RedSplit (stat indices nonBasic goodModel flip tabv Dense BasicSolution TableauRow)

/-! ### C26: validity -/

theorem adjust_nonneg {c : Call} (hr : Reached c.prm) (rhs : ℚ) : 0 ≤ adjust c rhs := by
  have h1 : 0 ≤ c.par .EPS_RELAX_ABS := hr.range .EPS_RELAX_ABS
  have h2 : 0 ≤ c.par .EPS_RELAX_REL := hr.range .EPS_RELAX_REL
  unfold adjust
  split
  · have := mul_nonneg (abs_nonneg rhs) h2
    linarith
  · exact h1

theorem made_sat {c : Call} (hr : Reached c.prm) (hs : SafeParams c) (hwf : c.P.WF) (hb : BasicSolution c.P c.lp.toLp)
    (ht : Tableau c) (hx : Exact c) (hgood : goodModel c.P c.lp.toLp = true) (hsl : (slots c).length = mTab c) {f : Found}
    (hf : Made c f) {x : Nat → ℚ} (hfe : c.P.Feasible x) (hmo : Moderate c.P x) : f.cut.Sat x := by
  obtain ⟨s, _, i, _, m, d, es, rhs, hsrc, _, hd, hp, rfl⟩ := hf
  have h := cut_le hs (hr.range .away).1 hwf hb hgood ht hx hsl hsrc.small hd hp hfe hmo
  refine ⟨fun hlt => ?_, fun _ => ?_⟩
  · dsimp only at hlt
    linarith [hs.infinit]
  · dsimp only
    linarith [adjust_nonneg hr rhs]

theorem run_sat {c : Call} (hr : Reached c.prm) (hs : SafeParams c) (hwf : c.P.WF) (hb : BasicSolution c.P c.lp.toLp)
    (ht : Tableau c) (hx : Exact c) {w : Wanted} {n : Nat} {cs cs' : List RowCut} {fs : List Found}
    (h : run c w n cs = .ok (cs', fs)) : ∀ d ∈ cs', d ∈ cs ∨ ∀ x, c.P.Feasible x → Moderate c.P x → d.Sat x := by
  have hres := run_result hr h
  obtain ⟨new, rfl, _, hnew, _⟩ := hres.cuts
  intro d hd
  rcases List.mem_append.mp hd with hd | hd
  · exact Or.inl hd
  · obtain ⟨f, hf, rfl⟩ := hnew d hd
    obtain ⟨h1, h2⟩ := hres.slots (List.ne_nil_of_mem hf)
    exact Or.inr fun x hfe hmo => made_sat hr hs hwf hb ht hx h2 h1 (hres.made f hf) hfe hmo

theorem generateCuts_run {c : Call} {cs cs' : List RowCut} (h : generateCuts c cs = .ok cs') :
    ∃ fs, run c ⟨true, false⟩ ⌊c.par .maxNumCuts⌋.toNat cs = .ok (cs', fs) := by
  unfold generateCuts at h
  rcases hrun : run c ⟨true, false⟩ ⌊c.par .maxNumCuts⌋.toNat cs with e | ⟨a, b⟩
  · rw [hrun] at h; cases h
  · rw [hrun] at h; cases h; exact ⟨b, rfl⟩

theorem generateMultipliers_run {c : Call} {n : Nat} {cs cs' : Option (List RowCut)} {ls : List (List ℤ)}
    (h : generateMultipliers c n cs = .ok (cs', ls)) : ∃ a fs, run c ⟨cs.isSome, true⟩ n (cs.getD []) = .ok (a, fs) ∧
      ls = fs.map Found.lambda ∧ cs' = cs.map fun _ => a := by
  unfold generateMultipliers at h
  rcases hrun : run c ⟨cs.isSome, true⟩ n (cs.getD []) with e | ⟨a, b⟩
  · rw [hrun] at h; cases h
  · rw [hrun] at h; cases h; exact ⟨a, b, rfl, rfl, rfl⟩

/-- **C26** for `CglRedSplit2`.  What is missing: it holds for parameters whose `INFINIT` is not lowered, for data on
which no tolerance comes into play, and for points within 1e20. -/
theorem generateCuts_valid_partial {c : Call} (hr : Reached c.prm) (hs : SafeParams c) (hwf : c.P.WF)
    (hb : BasicSolution c.P c.lp.toLp) (ht : Tableau c) (hx : Exact c) {cs cs' : List RowCut}
    (h : generateCuts c cs = .ok cs') :
    ∀ d ∈ cs', d ∈ cs ∨ ∀ x, c.P.Feasible x → Moderate c.P x → d.Sat x := by
  obtain ⟨fs, hrun⟩ := generateCuts_run h
  exact run_sat hr hs hwf hb ht hx hrun

/-- **C26** if all bounds are within 1e20: every cut is valid. -/
theorem generateCuts_valid_bounded_partial {c : Call} (hr : Reached c.prm) (hs : SafeParams c) (hwf : c.P.WF)
    (hb : BasicSolution c.P c.lp.toLp) (ht : Tableau c) (hx : Exact c)
    (hbd : ∀ j < c.P.nCols, - 10^20 ≤ c.P.colLower j ∧ c.P.colUpper j ≤ 10^20) (hinf : 10^20 < c.P.inf)
    {cs cs' : List RowCut} (h : generateCuts c cs = .ok cs') : ∀ d ∈ cs', d ∈ cs ∨ d.Valid c.P := by
  intro d hd
  rcases generateCuts_valid_partial hr hs hwf hb ht hx h d hd with h | h
  · exact Or.inl h
  · refine Or.inr fun x hf => h x hf fun j hj => ?_
    obtain ⟨h1, h2⟩ := hbd j hj
    have hl := hf.lower j hj (by linarith)
    have hu := hf.upper j hj (by linarith)
    exact abs_le.mpr ⟨by linarith, by linarith⟩

/-- **C26** for the cuts that come with multipliers. -/
theorem generateMultipliers_valid_partial {c : Call} (hr : Reached c.prm) (hs : SafeParams c) (hwf : c.P.WF)
    (hb : BasicSolution c.P c.lp.toLp) (ht : Tableau c) (hx : Exact c) {n : Nat} {cs cs' : List RowCut}
    {ls : List (List ℤ)} (h : generateMultipliers c n (some cs) = .ok (some cs', ls)) :
    ∀ d ∈ cs', d ∈ cs ∨ ∀ x, c.P.Feasible x → Moderate c.P x → d.Sat x := by
  obtain ⟨a, fs, hrun, _, he⟩ := generateMultipliers_run h
  cases he
  exact run_sat hr hs hwf hb ht hx hrun

/-! ### C80: limits and shape -/

/-- **C80**, number: cuts are only added, and not more than the two limits allow (the second is an integer in the code). -/
theorem generateCuts_number {c : Call} (hr : Reached c.prm) {cs cs' : List RowCut} (h : generateCuts c cs = .ok cs') :
    ∃ new, cs' = cs ++ new ∧ (new.length : ℚ) ≤ c.par .maxNumCuts ∧
      (new.length : ℚ) < c.par .maxNumComputedCuts + 1 := by
  obtain ⟨fs, hrun⟩ := generateCuts_run h
  have hres := run_result hr hrun
  obtain ⟨new, rfl, hlen, _⟩ := hres.cuts
  have h0 : 0 ≤ c.par .maxNumCuts := hr.range .maxNumCuts
  refine ⟨new, rfl, ?_, ?_⟩
  · have h1 : (new.length : ℤ) ≤ ⌊c.par .maxNumCuts⌋ := by
      have := hlen.trans hres.limit
      have h2 := Int.floor_nonneg.mpr h0
      omega
    have h2 : ((new.length : ℤ) : ℚ) ≤ c.par .maxNumCuts := le_trans (by exact_mod_cast h1) (Int.floor_le _)
    exact_mod_cast h2
  · have : (new.length : ℚ) ≤ fs.length := by exact_mod_cast hlen
    linarith [hres.num]

theorem maxSupport_le {c : Call} (hr : Reached c.prm) {s : ℤ} (h : maxSupport c = .ok s) :
    (s : ℚ) ≤ c.par .MAX_SUPPORT + c.P.nCols * c.par .MAX_SUPP_REL := by
  unfold maxSupport at h
  split at h
  · cases h
  rename_i v hv
  split at h
  · cases h
    have h0 : 0 < c.par .MAX_SUPP_REL := (hr.range .MAX_SUPP_REL).1
    have h1 : (v : ℚ) ≤ c.P.nCols * c.par .MAX_SUPP_REL := by
      unfold castInt at hv
      split at hv
      · cases hv
        unfold truncQ
        split
        · exact Int.floor_le _
        · rename_i hneg
          exact absurd (mul_nonneg (Nat.cast_nonneg c.P.nCols) h0.le) (by simpa using hneg)
      · cases hv
    have h2 := Int.floor_le (c.par .MAX_SUPPORT)
    push_cast
    linarith
  · cases h

theorem foldl_max_le (g : Nat → ℚ) : ∀ (l : List Nat) (a : ℚ), a ≤ l.foldl (fun m j => max m (g j)) a ∧
    ∀ j ∈ l, g j ≤ l.foldl (fun m j => max m (g j)) a := by
  intro l
  induction l with
  | nil => intro a; simp
  | cons b l ih =>
    intro a
    rw [List.foldl_cons]
    obtain ⟨h1, h2⟩ := ih (max a (g b))
    refine ⟨(le_max_left _ _).trans h1, fun j hj => ?_⟩
    rcases List.mem_cons.mp hj with rfl | hj
    · exact (le_max_right _ _).trans h1
    · exact h2 j hj

theorem foldl_min_le (g : Nat → ℚ) : ∀ (l : List Nat) (a : ℚ), l.foldl (fun m j => min m (g j)) a ≤ a ∧
    ∀ j ∈ l, l.foldl (fun m j => min m (g j)) a ≤ g j := by
  intro l
  induction l with
  | nil => intro a; simp
  | cons b l ih =>
    intro a
    rw [List.foldl_cons]
    obtain ⟨h1, h2⟩ := ih (min a (g b))
    refine ⟨h1.trans (min_le_left _ _), fun j hj => ?_⟩
    rcases List.mem_cons.mp hj with rfl | hj
    · exact h1.trans (min_le_right _ _)
    · exact h2 j hj

/-- **C80**, shape: a new cut is a `≤` row, its columns exist and are in increasing order, its coefficients are above
`EPS_COEFF` and within a factor `MAXDYN` of each other, and its support is within the limit. -/
theorem generateCuts_shape {c : Call} (hr : Reached c.prm) {cs cs' : List RowCut} (h : generateCuts c cs = .ok cs') :
    ∀ d ∈ cs', d ∈ cs ∨ (d.lb = - c.par .INFINIT ∧ (d.row.map Prod.fst).Pairwise (· < ·) ∧
      (∀ p ∈ d.row, p.1 < c.P.nCols ∧ c.par .EPS_COEFF < |p.2|) ∧
      (∀ p ∈ d.row, ∀ q ∈ d.row, |p.2| < c.par .MAXDYN * |q.2|) ∧
      (d.row.length : ℚ) ≤ c.par .MAX_SUPPORT + c.P.nCols * c.par .MAX_SUPP_REL) := by
  obtain ⟨fs, hrun⟩ := generateCuts_run h
  have hres := run_result hr hrun
  obtain ⟨new, rfl, _, hnew, _⟩ := hres.cuts
  intro d hd
  rcases List.mem_append.mp hd with hd | hd
  · exact Or.inl hd
  right
  obtain ⟨f, hf, rfl⟩ := hnew d hd
  obtain ⟨s, _, i, _, m, e, es, rhs, _, _, _, hp, rfl⟩ := hres.made f hf
  obtain ⟨rfl, rfl, hdyn, ⟨sup, hsup, hle⟩, _⟩ := packRow_some hp
  set D := eliminate c (unflip c e)
  have hmem : ∀ p ∈ packed c D, p.1 < c.P.nCols ∧ big c (D.row p.1) = true ∧ p.2 = D.row p.1 := by
    intro p hp
    obtain ⟨j, hj, rfl⟩ := List.mem_map.mp hp
    obtain ⟨h1, h2⟩ := List.mem_filter.mp hj
    exact ⟨List.mem_range.mp h1, h2, rfl⟩
  refine ⟨rfl, ?_, fun p hp => ?_, fun p hp q hq => ?_, ?_⟩
  · dsimp only
    unfold packed
    rw [List.map_map]
    have : (Prod.fst ∘ fun j => (j, D.row j)) = id := rfl
    rw [this, List.map_id]
    exact List.Pairwise.filter _ List.pairwise_lt_range
  · obtain ⟨h1, h2, h3⟩ := hmem p hp
    refine ⟨h1, ?_⟩
    rw [h3]
    simpa [big] using h2
  · obtain ⟨h1, h2, h3⟩ := hmem p hp
    obtain ⟨h4, h5, h6⟩ := hmem q hq
    unfold dynOk at hdyn
    simp only [decide_eq_true_eq] at hdyn
    have ha := (foldl_max_le (fun j => |D.row j|) (List.range c.P.nCols) 0).2 p.1 (List.mem_range.mpr h1)
    have hb := (foldl_min_le (fun j => |D.row j|) ((List.range c.P.nCols).filter fun j => big c (D.row j))
      (c.par .INFINIT)).2 q.1 (List.mem_filter.mpr ⟨List.mem_range.mpr h4, h5⟩)
    have hm : 1 < c.par .MAXDYN := hr.range .MAXDYN
    rw [h3, h6]
    calc |D.row p.1| ≤ _ := ha
      _ < _ := hdyn.1
      _ ≤ _ := mul_le_mul_of_nonneg_left hb (by linarith)
  · have h1 := maxSupport_le hr hsup
    have h2 : ((packed c D).length : ℚ) ≤ sup := by exact_mod_cast hle
    exact h2.trans h1

/-- **C80**, violation: before its right-hand side is relaxed, a new cut that cuts off the LP solution does so by at least
`MINVIOL` per coefficient. -/
theorem generateCuts_violation {c : Call} (hr : Reached c.prm) {cs cs' : List RowCut} (h : generateCuts c cs = .ok cs') :
    ∀ d ∈ cs', d ∈ cs ∨ ∃ rhs, d.ub = rhs + adjust c rhs ∧
      (rhs < d.row.dot c.lp.xlp → c.par .MINVIOL * d.row.length ≤ d.row.dot c.lp.xlp - rhs) := by
  obtain ⟨fs, hrun⟩ := generateCuts_run h
  have hres := run_result hr hrun
  obtain ⟨new, rfl, _, hnew, _⟩ := hres.cuts
  intro d hd
  rcases List.mem_append.mp hd with hd | hd
  · exact Or.inl hd
  right
  obtain ⟨f, hf, rfl⟩ := hnew d hd
  obtain ⟨s, _, i, _, m, e, es, rhs, _, _, _, hp, rfl⟩ := hres.made f hf
  exact ⟨rhs, rfl, (packRow_some hp).2.2.2.2⟩

/-- No coefficient is small enough to be dropped. -/
def NoDrop (c : Call) : Prop :=
  ∀ m, Small c m → ∀ d, cgCut c (flipped c m) = some d → ∀ j < c.P.nCols,
    (eliminate c (unflip c d)).row j ≠ 0 → big c ((eliminate c (unflip c d)).row j) = true

/-- **C80**, violation, where no coefficient is dropped: a new cut is violated by the LP solution, by `MINVIOL` per
coefficient and by half of `away` before its right-hand side is relaxed.  What is missing: a dropped coefficient of a
column without bound relaxes the cut by up to 1e20 times the coefficient, and the cut is still added. -/
theorem generateCuts_cutsOff_partial {c : Call} (hr : Reached c.prm) (hwf : c.P.WF) (hb : BasicSolution c.P c.lp.toLp)
    (hx : Exact c) (hnd : NoDrop c) {cs cs' : List RowCut} (h : generateCuts c cs = .ok cs') :
    ∀ d ∈ cs', d ∈ cs ∨ ∃ rhs, d.ub = rhs + adjust c rhs ∧ c.par .away / 2 ≤ d.row.dot c.lp.xlp - rhs ∧
      c.par .MINVIOL * d.row.length ≤ d.row.dot c.lp.xlp - rhs := by
  obtain ⟨fs, hrun⟩ := generateCuts_run h
  have hres := run_result hr hrun
  obtain ⟨new, rfl, _, hnew, _⟩ := hres.cuts
  intro d hd
  rcases List.mem_append.mp hd with hd | hd
  · exact Or.inl hd
  right
  obtain ⟨f, hf, rfl⟩ := hnew d hd
  obtain ⟨s, _, i, _, m, e, es, rhs, hsrc, _, hcg, hp, rfl⟩ := hres.made f hf
  have hlp := cut_lp (hr.range .away).1 hwf hb hx hsrc.small hcg
  obtain ⟨h1, h2, _, _, hviol⟩ := packRow_some hp
  have hval : es.dot c.lp.xlp - rhs = RedSplit.colExcess c.P (eliminate c (unflip c e)) c.lp.xlp := by
    rw [h1, h2]
    unfold packed packedRhs RedSplit.colExcess
    rw [RedSplit.dot_map_range, RedSplit.filter_sum]
    have hz : ∑ j ∈ Finset.range c.P.nCols, (if (! big c ((eliminate c (unflip c e)).row j)) = true then
        taken c j ((eliminate c (unflip c e)).row j) else 0) = 0 := by
      refine Finset.sum_eq_zero fun j hj => ?_
      split
      · rename_i hbig
        have : (eliminate c (unflip c e)).row j = 0 := by
          by_contra hne
          rw [hnd m hsrc.small e hcg j (Finset.mem_range.mp hj) hne] at hbig
          exact absurd hbig (by simp)
        rw [this]; simp [taken]
      · rfl
    have hs : ∑ j ∈ Finset.range c.P.nCols, (if big c ((eliminate c (unflip c e)).row j) = true then
        (eliminate c (unflip c e)).row j * c.lp.xlp j else 0) =
        ∑ j ∈ Finset.range c.P.nCols, (eliminate c (unflip c e)).row j * c.lp.xlp j := by
      refine Finset.sum_congr rfl fun j hj => ?_
      split
      · rfl
      · rename_i hbig
        have : (eliminate c (unflip c e)).row j = 0 := by
          by_contra hne
          exact hbig (hnd m hsrc.small e hcg j (Finset.mem_range.mp hj) hne)
        rw [this, zero_mul]
    rw [hz, hs]
    ring
  have ha : 0 < c.par .away := (hr.range .away).1
  have hlt : c.par .away / 2 ≤ es.dot c.lp.xlp - rhs := by rw [hval]; linarith
  exact ⟨rhs, rfl, hlt, hviol (by linarith)⟩

/-! ### C81: multipliers -/

theorem fill_nodup (c : Call) : ∀ (l kept : List Nat) (p : Option Nat), (kept ++ p.toList ++ l).Nodup →
    (fill c l kept p).Nodup := by
  intro l
  induction l with
  | nil => intro kept p h; simpa [fill] using h
  | cons a l ih =>
    intro kept p h
    unfold fill
    split
    · split
      · refine ih _ _ ?_
        refine h.sublist ?_
        simp only [Option.toList_none, List.append_nil, List.append_assoc]
        exact (List.sublist_append_right _ _).append_left kept
      · refine ih _ _ ?_
        refine h.sublist ?_
        simp only [Option.toList_some, List.append_assoc]
        exact (List.sublist_append_right _ _).append_left kept
    · exact ih _ _ (h.sublist (List.Sublist.append_left (List.sublist_cons_self ..) _))

theorem slots_nodup (c : Call) : (slots c).Nodup := fill_nodup c _ _ _ (by simpa using List.nodup_range)

theorem lambda_sum {c : Call} (hsl : (slots c).length = mTab c) (m : Nat → ℤ) (g : ℤ → Nat → ℚ) (hg : ∀ r, g 0 r = 0) :
    ∑ r ∈ Finset.range c.P.rows.length, g ((lambdaOf c m).getD r 0) r =
      ∑ k ∈ Finset.range (mTab c), g (m k) ((slots c).getD k 0) := by
  have h1 : ∀ r < c.P.rows.length, (lambdaOf c m).getD r 0 = spread (slots c) ((List.range (mTab c)).map m) r := by
    intro r hr
    unfold lambdaOf
    rw [getD_map_range _ _ _ hr]
    unfold spread
    split
    · rename_i hmem
      rw [getD_map_range _ _ _ (by rw [← hsl]; exact List.idxOf_lt_length_of_mem hmem)]
    · rfl
  rw [Finset.sum_congr rfl fun r hr => by rw [h1 r (Finset.mem_range.mp hr)]]
  rw [sum_spread (slots_nodup c) (fun r hr => (slots_spec hr).1) _ g hg, list_range_sum, hsl]
  refine Finset.sum_congr rfl fun k hk => ?_
  rw [getD_map_range _ _ _ (Finset.mem_range.mp hk)]

/-- The combination of the tableau rows of the problem with the multipliers `v`, in column `j`. -/
def combined (c : Call) (v : List ℤ) (j : Nat) : ℚ :=
  ∑ r ∈ Finset.range c.P.rows.length, (v.getD r 0 : ℚ) * tabv c.P c.lp.toLp r j

/-- What a vector of multipliers is: one number per row of the problem, nonzero only for rows whose basic variable is an
integer column, with 1-norm at most `maxSumMultipliers` (or 1). -/
structure IsVector (c : Call) (v : List ℤ) : Prop where
  len : v.length = c.P.rows.length
  rows : ∀ r < c.P.rows.length, v.getD r 0 ≠ 0 → c.lp.basis r < c.P.nCols ∧ c.lp.cstat (c.lp.basis r) = 1 ∧
    isInteger c (c.lp.basis r) = true
  norm1 : ∑ r ∈ Finset.range c.P.rows.length, |(v.getD r 0 : ℚ)| ≤ max 1 (c.par .maxSumMultipliers)

/-- Row `r` of the tableau and nothing else. -/
def Single (c : Call) (v : List ℤ) : Prop :=
  ∃ r < c.P.rows.length, v = (List.range c.P.rows.length).map fun s => if s = r then 1 else 0

/-- A proper combination: at least two rows take part, and for one of them, `r`, the combined row is shorter on the columns
of one of the chosen strategies, by the factor that is asked for. -/
def Shortens (c : Call) (v : List ℤ) : Prop :=
  ∃ r < c.P.rows.length, ∃ s < c.P.rows.length, r ≠ s ∧ v.getD r 0 ≠ 0 ∧ v.getD s 0 ≠ 0 ∧
    ∃ st ∈ c.strat.cols, ((workCols c st).map fun j => combined c v j ^ 2).sum ≤
      (1 - c.par .minNormReduction) * ((workCols c st).map fun j => tabv c.P c.lp.toLp r j ^ 2).sum

theorem lambda_slot {c : Call} (m : Nat → ℤ) {k : Nat} (hk : k < (slots c).length) :
    (lambdaOf c m).getD ((slots c).getD k 0) 0 = m k := by
  have hm := getD_mem hk
  unfold lambdaOf
  rw [getD_map_range _ _ _ (slots_spec hm).1, if_pos hm]
  congr 1
  simp only [List.getD, List.getElem?_eq_getElem hk, Option.getD_some]
  exact (slots_nodup c).idxOf_getElem k hk

theorem lambda_zero {c : Call} (m : Nat → ℤ) {r : Nat} (hr : r < c.P.rows.length)
    (h : (lambdaOf c m).getD r 0 ≠ 0) : r ∈ slots c := by
  unfold lambdaOf at h
  rw [getD_map_range _ _ _ hr] at h
  by_contra hne
  exact h (if_neg hne)

theorem norm_tab {c : Call} {k : Nat} (hk : k < (slots c).length) (W : List Nat) :
    norm c W k = (W.map fun j => tabv c.P c.lp.toLp ((slots c).getD k 0) j ^ 2).sum := by
  unfold norm dotOn
  congr 1
  refine List.map_congr_left fun j _ => ?_
  rw [tab_eq hk, sq]

theorem better_two {c : Call} (hr : Reached c.prm) {W : List Nat} {i : Nat} (hi : i < mTab c) {m : Nat → ℤ}
    (h : Better c W i m) (h0 : m i ≠ 0) : ∃ k < mTab c, k ≠ i ∧ m k ≠ 0 := by
  by_contra hne
  push Not at hne
  have hone : ∀ g : ℤ → Nat → ℚ, (∀ r, g 0 r = 0) → ∑ r ∈ Finset.range (mTab c), g (m r) r = g (m i) i := by
    intro g hg
    refine Finset.sum_eq_single i (fun k hk hki => ?_) (fun h => absurd (Finset.mem_range.mpr hi) h)
    rw [hne k (Finset.mem_range.mp hk) hki, hg]
  have h1 := hone (fun v _ => |(v : ℚ)|) (by simp)
  have hn1 := h.one
  rw [h1] at hn1
  have h2 := h.shorter
  have h3 : (W.map fun j => (∑ r ∈ Finset.range (mTab c), (m r : ℚ) * tab c r j) ^ 2).sum = (m i : ℚ) ^ 2 * norm c W i := by
    unfold norm dotOn
    rw [← List.sum_map_mul_left]
    congr 1
    refine List.map_congr_left fun j _ => ?_
    rw [hone (fun v r => (v : ℚ) * tab c r j) (by simp)]
    ring
  rw [h3] at h2
  have hz : 0 < c.par .normIsZero := (hr.range .normIsZero).1
  have hpos : 0 < norm c W i := hz.trans h.long
  have hmin : 0 < c.par .minNormReduction := (hr.range .minNormReduction).1
  have hsq : (1 : ℚ) ≤ (m i : ℚ) ^ 2 := by
    have : 1 ≤ m i ^ 2 := by
      have := sq_pos_of_ne_zero h0
      omega
    exact_mod_cast this
  nlinarith

theorem made_vector {c : Call} (hr : Reached c.prm) (hsl : (slots c).length = mTab c) {f : Found} (hf : Made c f) :
    IsVector c f.lambda ∧ ((c.par .skipGomory = 0 ∧ Single c f.lambda) ∨ Shortens c f.lambda) := by
  obtain ⟨s, hs, i, hi, m, d, es, rhs, hsrc, _, _, _, rfl⟩ := hf
  refine ⟨⟨by simp [lambdaOf], fun r hr' hne => ?_, ?_⟩, ?_⟩
  · exact usable_iff.mp (slots_spec (lambda_zero m hr' hne)).2
  · rw [lambda_sum hsl m (fun v _ => |(v : ℚ)|) (by simp)]
    exact hsrc.small
  · have hil : i < (slots c).length := by rw [hsl]; exact hi
    rcases hsrc with ⟨h0, rfl⟩ | ⟨hb, h0⟩
    · left
      refine ⟨h0, (slots c).getD i 0, (slots_spec (getD_mem hil)).1, ?_⟩
      dsimp only
      unfold lambdaOf
      refine List.map_congr_left fun r hr' => ?_
      unfold unit
      have hidx : (slots c).idxOf ((slots c).getD i 0) = i := by
        simp only [List.getD, List.getElem?_eq_getElem hil, Option.getD_some]
        exact (slots_nodup c).idxOf_getElem i hil
      by_cases hmem : r ∈ slots c
      · rw [if_pos hmem]
        by_cases he : r = (slots c).getD i 0
        · rw [if_pos he, he, hidx, if_pos rfl]
        · rw [if_neg he, if_neg]
          intro hk
          have hlt := List.idxOf_lt_length_of_mem hmem
          apply he
          have : (slots c)[(slots c).idxOf r] = r := List.getElem_idxOf hlt
          rw [← this]
          simp only [List.getD, List.getElem?_eq_getElem hil, Option.getD_some, hk]
      · rw [if_neg hmem, if_neg]
        rintro rfl
        exact hmem (getD_mem hil)
    · right
      obtain ⟨k, hk, hki, hmk⟩ := better_two hr hi hb h0
      have hkl : k < (slots c).length := by rw [hsl]; exact hk
      refine ⟨_, (slots_spec (getD_mem hil)).1, _, (slots_spec (getD_mem hkl)).1, ?_, ?_, ?_, s, hs, ?_⟩
      · simp only [List.getD, List.getElem?_eq_getElem hil, List.getElem?_eq_getElem hkl, Option.getD_some]
        intro he
        exact hki ((List.Nodup.getElem_inj_iff (slots_nodup c)).mp he).symm
      · rw [lambda_slot m hil]; exact h0
      · rw [lambda_slot m hkl]; exact hmk
      · have h1 := hb.shorter
        rw [← norm_tab hil, mul_comm]
        refine le_trans (le_of_eq ?_) h1
        congr 1
        refine List.map_congr_left fun j _ => ?_
        unfold combined
        rw [lambda_sum hsl m (fun v r => (v : ℚ) * tabv c.P c.lp.toLp r j) (by simp)]
        congr 1
        refine Finset.sum_congr rfl fun q hq => ?_
        rw [tab_eq (by rw [hsl]; exact Finset.mem_range.mp hq)]

/-- **C81.**  The vectors of multipliers are pairwise different, at most `n`; each is a vector of multipliers, and is a
single row (only if the Gomory cuts of the rows are not to be skipped) or a proper combination that shortens a row. -/
theorem generateMultipliers_spec {c : Call} (hr : Reached c.prm) {n : Nat} {cs cs' : Option (List RowCut)}
    {ls : List (List ℤ)} (h : generateMultipliers c n cs = .ok (cs', ls)) :
    ls.Nodup ∧ ls.length ≤ n ∧ (ls.length : ℚ) < c.par .maxNumComputedCuts + 1 ∧
      ∀ v ∈ ls, IsVector c v ∧ ((c.par .skipGomory = 0 ∧ Single c v) ∨ Shortens c v) := by
  obtain ⟨a, fs, hrun, rfl, _⟩ := generateMultipliers_run h
  have hres := run_result hr hrun
  refine ⟨hres.lambda rfl, by rw [List.length_map]; exact hres.limit, by rw [List.length_map]; exact hres.num, ?_⟩
  intro v hv
  obtain ⟨f, hf, rfl⟩ := List.mem_map.mp hv
  exact made_vector hr (hres.slots (List.ne_nil_of_mem hf)).1 (hres.made f hf)

/-- **C81**: the multipliers without cuts leave nothing else; with cuts, cuts are only added, at most one per vector. -/
theorem generateMultipliers_cuts {c : Call} (hr : Reached c.prm) {n : Nat} {cs cs' : Option (List RowCut)}
    {ls : List (List ℤ)} (h : generateMultipliers c n cs = .ok (cs', ls)) :
    (cs = none → cs' = none) ∧ ∀ l, cs = some l → ∃ new, cs' = some (l ++ new) ∧ new.length ≤ ls.length := by
  obtain ⟨a, fs, hrun, rfl, rfl⟩ := generateMultipliers_run h
  refine ⟨fun he => by rw [he]; rfl, fun l he => ?_⟩
  subst he
  obtain ⟨new, h1, h2, _⟩ := (run_result hr hrun).cuts
  exact ⟨new, by rw [h1]; rfl, by rw [List.length_map]; exact h2⟩

/-! ### C82: calls return -/

theorem fill_short {c : Call} : ∀ (l kept : List Nat),
    (∀ r ∈ l, usable c r = true → (nonzeroes c r : ℚ) < c.par .maxNonzeroesTab) →
    fill c l kept none = kept ++ l.filter (usable c) := by
  intro l
  induction l with
  | nil => intro kept _; simp [fill]
  | cons a l ih =>
    intro kept h
    have h' : ∀ r ∈ l, usable c r = true → (nonzeroes c r : ℚ) < c.par .maxNonzeroesTab :=
      fun r hr => h r (List.mem_cons_of_mem _ hr)
    unfold fill
    split
    · rename_i hu
      rw [if_pos (h a (List.mem_cons_self ..) hu), ih _ h', List.filter_cons, if_pos hu]
      simp
    · rename_i hu
      rw [ih _ h', List.filter_cons, if_neg hu]

/-- With a proper basis and short rows the slots are filled exactly. -/
theorem slots_length {c : Call} (hb : Basis c) (hs : Survives c) : (slots c).length = mTab c := by
  unfold slots
  rw [fill_short _ _ fun r hr => hs.short r (List.mem_range.mp hr), List.nil_append]
  unfold mTab
  have h1 : (((List.range c.P.rows.length).filter (usable c)).map c.lp.basis).Perm
      ((List.range c.P.nCols).filter (isIntBasic c)) := by
    rw [List.perm_ext_iff_of_nodup]
    · intro j
      constructor
      · intro hj
        obtain ⟨r, hr, rfl⟩ := List.mem_map.mp hj
        obtain ⟨h1, h2⟩ := List.mem_filter.mp hr
        simp only [usable, Bool.and_eq_true, decide_eq_true_eq] at h2
        exact List.mem_filter.mpr ⟨List.mem_range.mpr h2.1, h2.2⟩
      · intro hj
        obtain ⟨h1, h2⟩ := List.mem_filter.mp hj
        have h1 := List.mem_range.mp h1
        have h3 := h2
        simp only [isIntBasic, Bool.and_eq_true, decide_eq_true_eq] at h3
        obtain ⟨r, hr, rfl⟩ := hb.onto j h1 h3.1
        exact List.mem_map.mpr ⟨r, List.mem_filter.mpr ⟨List.mem_range.mpr hr, by simp [usable, h1, h2]⟩, rfl⟩
    · refine List.Nodup.map_on ?_ (List.nodup_range.filter _)
      intro r hr s hs he
      exact hb.inj r (List.mem_range.mp (List.mem_filter.mp hr).1) s (List.mem_range.mp (List.mem_filter.mp hs).1) he
    · exact List.nodup_range.filter _
  rw [← h1.length_eq, List.length_map]

theorem packRow_returns {c : Call} (hr : Reached c.prm) (hs : Survives c) (d : Dense) : ∃ r, packRow c d = .ok r := by
  have h0 : 0 < c.par .MAX_SUPP_REL := (hr.range .MAX_SUPP_REL).1
  have h1 : 0 < c.par .MAX_SUPPORT := hr.range .MAX_SUPPORT
  have h2 := hs.support
  have h3 : 0 ≤ (c.P.nCols : ℚ) * c.par .MAX_SUPP_REL := mul_nonneg (Nat.cast_nonneg _) h0.le
  have h4 : truncQ (c.P.nCols * c.par .MAX_SUPP_REL) = ⌊(c.P.nCols : ℚ) * c.par .MAX_SUPP_REL⌋ := by
    unfold truncQ; rw [if_pos h3]
  have h5 : (⌊c.par .MAX_SUPPORT⌋ + ⌊(c.P.nCols : ℚ) * c.par .MAX_SUPP_REL⌋ : ℤ) ≤ intMax := by
    have ha := Int.floor_le (c.par .MAX_SUPPORT)
    have hb := Int.floor_le ((c.P.nCols : ℚ) * c.par .MAX_SUPP_REL)
    have : ((⌊c.par .MAX_SUPPORT⌋ + ⌊(c.P.nCols : ℚ) * c.par .MAX_SUPP_REL⌋ : ℤ) : ℚ) ≤ intMax := by
      push_cast at hb ⊢
      linarith
    exact_mod_cast this
  have h6 : 0 ≤ ⌊c.par .MAX_SUPPORT⌋ := Int.floor_nonneg.mpr h1.le
  have h7 : 0 ≤ ⌊(c.P.nCols : ℚ) * c.par .MAX_SUPP_REL⌋ := Int.floor_nonneg.mpr h3
  have hmin : intMin ≤ 0 := by decide
  have hc : castInt (c.P.nCols * c.par .MAX_SUPP_REL) = some ⌊(c.P.nCols : ℚ) * c.par .MAX_SUPP_REL⌋ := by
    unfold castInt
    rw [h4, if_pos ⟨by omega, by omega⟩]
  have hsup : ∃ s, maxSupport c = .ok s := by
    unfold maxSupport
    rw [hc]
    dsimp only
    rw [if_pos (by simp only [RedSplit.fitsInt, decide_eq_true_eq]; exact ⟨by omega, h5⟩)]
    exact ⟨_, rfl⟩
  obtain ⟨s, hsup⟩ := hsup
  unfold packRow
  rw [hsup]
  exact ⟨_, rfl⟩

theorem oneCut_returns {c : Call} (hr : Reached c.prm) (hb : Basis c) (hs : Survives c) (w : Wanted) (m : Nat → ℤ) (i : Nat)
    (a : Acc) : ∃ b, oneCut c w m i a = .ok b := by
  unfold oneCut
  split
  · exact ⟨_, rfl⟩
  rw [if_neg (by rw [slots_length hb hs]; exact lt_irrefl _)]
  split
  · exact ⟨_, rfl⟩
  split
  · exact ⟨_, rfl⟩
  rename_i d _ _
  obtain ⟨r, hp⟩ := packRow_returns hr hs (eliminate c (unflip c d))
  rw [hp]
  rcases r with _ | ⟨es, rhs⟩
  · exact ⟨_, rfl⟩
  · exact ⟨_, rfl⟩

theorem cutLoop_returns {c : Call} (hr : Reached c.prm) (hb : Basis c) (hs : Survives c) (w : Wanted)
    (pi : Nat → Nat → ℤ) : ∀ (l : List Nat) (a : Acc), ∃ b, cutLoop c w pi l a = .ok b := by
  intro l
  induction l with
  | nil => intro a; exact ⟨_, rfl⟩
  | cons i l ih =>
    intro a
    unfold cutLoop
    split
    · obtain ⟨b, h⟩ := oneCut_returns hr hb hs w (pi i) i a
      rw [h]
      exact ih b
    · exact ⟨_, rfl⟩

theorem reduce_returns {c : Call} {n : ℤ} (hn : 0 < n) (W : List Nat) (rs : Param.Strat.RS) (pi : Nat → Nat → ℤ) :
    ∃ b, reduce c W n rs pi = .ok b := by
  unfold reduce
  dsimp only
  split
  · exact ⟨_, rfl⟩
  split
  · rename_i h1 h2
    have : mTab c = 0 := by omega
    rw [this]
    simp
  · exact ⟨_, rfl⟩

theorem mainLoop_returns {c : Call} (hr : Reached c.prm) (hb : Basis c) (hs : Survives c) (w : Wanted) :
    ∀ (l : List (Param.Strat.CS × ℤ × Param.Strat.RS)) (a : Acc), (∀ e ∈ l, 0 < e.2.1) →
    ∃ b, mainLoop c w l a = .ok b := by
  intro l
  induction l with
  | nil => intro a _; exact ⟨_, rfl⟩
  | cons e l ih =>
    obtain ⟨s, n, r⟩ := e
    intro a hl
    unfold mainLoop
    split
    · obtain ⟨pi, h⟩ := reduce_returns (c := c) (hl _ (List.mem_cons_self ..)) (workCols c s) r (startPi c)
      rw [h]
      obtain ⟨b, h⟩ := cutLoop_returns hr hb hs w pi (List.range (mTab c)) a
      dsimp only
      rw [h]
      exact ih b fun e he => hl e (List.mem_cons_of_mem _ he)
    · exact ⟨_, rfl⟩

theorem run_returns {c : Call} (hr : Reached c.prm) (hb : Basis c) (hs : Survives c) (w : Wanted) (n : Nat)
    (hl : lambdaFits c w n = true) (cs : List RowCut) : ∃ r, run c w n cs = .ok r := by
  unfold run
  rw [if_neg (by
    simp only [rhsOk, Bool.eq_false_iff, ne_eq, not_not, List.all_eq_true, List.mem_range, decide_eq_true_eq]
    exact hs.rhs)]
  split
  · exact ⟨_, rfl⟩
  rw [if_neg (by rw [slots_length hb hs]; exact lt_irrefl _), if_neg (by rw [hl]; simp)]
  obtain ⟨b, h⟩ := mainLoop_returns hr hb hs w (rounds c)
    ⟨if (n : ℚ) < c.par .maxNumComputedCuts then [] else cs, []⟩ (by
      intro e he
      unfold rounds at he
      obtain ⟨s, _, he⟩ := List.mem_flatMap.mp he
      obtain ⟨k, hk, he⟩ := List.mem_flatMap.mp he
      obtain ⟨r, _, rfl⟩ := List.mem_map.mp he
      exact hs.rows k hk)
  rw [h]
  exact ⟨_, rfl⟩

/-- **C82.**  With a proper basis, finite right-hand sides, rows shorter than `maxNonzeroesTab`, positive numbers of rows
and a sensible limit on the support, a call returns.  What is missing: without these provisos it need not, although every
setting is accepted. -/
theorem generateCuts_returns_partial {c : Call} (hr : Reached c.prm) (hb : Basis c) (hs : Survives c) (cs : List RowCut) :
    ∃ cs', generateCuts c cs = .ok cs' := by
  obtain ⟨r, h⟩ := run_returns hr hb hs ⟨true, false⟩ ⌊c.par .maxNumCuts⌋.toNat (by simp [lambdaFits]) cs
  exact ⟨r.1, by unfold generateCuts; rw [h]; rfl⟩

/-- **C82** for the multipliers: the number of entries of the array must be an `int`, also for the limit on the cuts that
are computed. -/
theorem generateMultipliers_returns_partial {c : Call} (hr : Reached c.prm) (hb : Basis c) (hs : Survives c) {n : Nat}
    (hn : n * c.P.rows.length ≤ intMax) (hm : c.par .maxNumComputedCuts * c.P.rows.length ≤ intMax)
    (cs : Option (List RowCut)) : ∃ r, generateMultipliers c n cs = .ok r := by
  have hfit : RedSplit.fitsInt (max (n : ℤ) ⌊c.par .maxNumComputedCuts⌋ * c.P.rows.length) = true := by
    simp only [RedSplit.fitsInt, decide_eq_true_eq]
    have h0 : (0 : ℤ) ≤ max (n : ℤ) ⌊c.par .maxNumComputedCuts⌋ * c.P.rows.length :=
      mul_nonneg (le_max_of_le_left (Int.natCast_nonneg n)) (Int.natCast_nonneg _)
    have hmin : intMin ≤ 0 := by decide
    refine ⟨by omega, ?_⟩
    rcases le_total (n : ℤ) ⌊c.par .maxNumComputedCuts⌋ with h | h
    · rw [max_eq_right h]
      have h1 : ((⌊c.par .maxNumComputedCuts⌋ * (c.P.rows.length : ℤ) : ℤ) : ℚ) ≤ intMax := by
        push_cast
        refine le_trans (mul_le_mul_of_nonneg_right (Int.floor_le _) (Nat.cast_nonneg _)) hm
      exact_mod_cast h1
    · rw [max_eq_left h]; exact_mod_cast hn
  obtain ⟨r, h⟩ := run_returns hr hb hs ⟨cs.isSome, true⟩ n (by simp [lambdaFits, hfit]) (cs.getD [])
  exact ⟨_, by unfold generateMultipliers; rw [h]; rfl⟩

/-! ### C83: the strategies for columns -/

theorem sortedCont_perm (c : Call) : (sortedCont c).Perm (contVars c) := by
  unfold sortedCont
  refine ((qsort_perm _).map _).trans ?_
  rw [List.map_map]
  have : ((fun e : Nat × ℚ => (contVars c).getD e.1 0) ∘ fun i => (i, colCost c ((contVars c).getD i 0))) =
    fun i => (contVars c).getD i 0 := rfl
  rw [this, map_getD_range]

theorem sortedCont_sorted (c : Call) : (sortedCont c).Pairwise fun a b => colCost c a ≤ colCost c b := by
  unfold sortedCont
  rw [List.pairwise_map]
  refine (qsort_sorted _).imp_of_mem fun {a b} ha hb h => ?_
  have key : ∀ e ∈ qsort ((List.range (contVars c).length).map fun i => (i, colCost c ((contVars c).getD i 0))),
      e.2 = colCost c ((contVars c).getD e.1 0) := by
    intro e he
    obtain ⟨i, _, rfl⟩ := List.mem_map.mp ((qsort_perm _).mem_iff.mp he)
    rfl
  rw [← key a ha, ← key b hb]
  exact before_le h

theorem csPositions_nodup (k n : Nat) : (csPositions k n).Nodup := List.nodup_range.filter _

theorem mem_csPositions {k n i : Nat} : i ∈ csPositions k n ↔
    i < n ∧ (csRange k n).1 ≤ i ∧ i < (csRange k n).2 ∧ csPattern k i = true := by
  simp [csPositions, and_assoc]

/-- Strategies that are disjoint in position and cover the positions below `b` cover the `b` cheapest columns. -/
theorem family {c : Call} (ks : List Nat) (b : Nat) (hb : b ≤ (sortedCont c).length)
    (hd : ks.Pairwise fun k l => ∀ i, i ∈ csPositions k (sortedCont c).length → i ∉ csPositions l (sortedCont c).length)
    (hc : ∀ i, (∃ k ∈ ks, i ∈ csPositions k (sortedCont c).length) ↔ i < b) :
    (ks.flatMap fun k => (csPositions k (sortedCont c).length).map fun i => (sortedCont c).getD i 0).Perm
      ((sortedCont c).take b) := by
  have h1 : (ks.flatMap fun k => (csPositions k (sortedCont c).length).map fun i => (sortedCont c).getD i 0) =
      (ks.flatMap fun k => csPositions k (sortedCont c).length).map fun i => (sortedCont c).getD i 0 := by
    rw [List.map_flatMap]
  have h2 : (ks.flatMap fun k => csPositions k (sortedCont c).length).Perm (List.range b) := by
    rw [List.perm_ext_iff_of_nodup _ List.nodup_range]
    · intro i
      rw [List.mem_flatMap, List.mem_range]
      exact hc i
    · rw [List.nodup_flatMap]
      exact ⟨fun k _ => csPositions_nodup _ _, hd.imp fun h i hi hj => h i hi hj⟩
  rw [h1]
  refine (h2.map _).trans (List.Perm.of_eq ?_)
  apply List.ext_getElem
  · simp [hb]
  · intro i h3 h4
    have : i < (sortedCont c).length := by
      rw [List.length_take] at h4; omega
    simp [List.getD, this]

/-- Positions of different strategies are different. -/
macro "positions_disjoint" : tactic => `(tactic|
  (simp only [List.pairwise_cons, List.mem_cons, List.not_mem_nil, or_false, forall_eq_or_imp, forall_eq, mem_csPositions,
     csRange, csPattern, IsEmpty.forall_iff, implies_true, and_true, List.Pairwise.nil, decide_eq_true_eq]
   and_intros <;> intros <;> omega))

/-- The positions of some strategies together. -/
macro "positions_cover" : tactic => `(tactic|
  (intro i
   simp only [List.mem_cons, List.not_mem_nil, or_false, exists_eq_or_imp, exists_eq_left, mem_csPositions, csRange,
     csPattern, decide_eq_true_eq, and_true]
   omega))

/-- **C83**, partitions: each of the families 1-3, 4-8, 15-17 and 18-21 splits the continuous nonbasic columns and
slacks: each of them occurs exactly once. -/
theorem workCols_partition (c : Call) :
    (workCols c (.cs 0) ++ workCols c (.cs 1) ++ workCols c (.cs 2)).Perm (contVars c) ∧
    (workCols c (.cs 3) ++ workCols c (.cs 4) ++ workCols c (.cs 5) ++ workCols c (.cs 6) ++ workCols c (.cs 7)).Perm
      (contVars c) ∧
    (workCols c (.cs 14) ++ workCols c (.cs 15) ++ workCols c (.cs 16)).Perm (contVars c) ∧
    (workCols c (.cs 17) ++ workCols c (.cs 18) ++ workCols c (.cs 19) ++ workCols c (.cs 20)).Perm (contVars c) := by
  have hall : (sortedCont c).take (sortedCont c).length = sortedCont c := List.take_length
  refine ⟨?_, ?_, ?_, ?_⟩
  · refine List.Perm.trans ?_ ((hall ▸ family (c := c) [0, 1, 2] (sortedCont c).length le_rfl ?_ ?_).trans
      (sortedCont_perm c))
    · simp [workCols]
    · positions_disjoint
    · positions_cover
  · refine List.Perm.trans ?_ ((hall ▸ family (c := c) [3, 4, 5, 6, 7] (sortedCont c).length le_rfl ?_ ?_).trans
      (sortedCont_perm c))
    · simp [workCols]
    · positions_disjoint
    · positions_cover
  · refine List.Perm.trans ?_ ((hall ▸ family (c := c) [14, 15, 16] (sortedCont c).length le_rfl ?_ ?_).trans
      (sortedCont_perm c))
    · simp [workCols]
    · positions_disjoint
    · positions_cover
  · refine List.Perm.trans ?_ ((hall ▸ family (c := c) [17, 18, 19, 20] (sortedCont c).length le_rfl ?_ ?_).trans
      (sortedCont_perm c))
    · simp [workCols]
    · positions_disjoint
    · positions_cover

/-- The absolute reduced cost of a column, or the absolute price of a row for its slack. -/
def absCost (c : Call) (j : Nat) : ℚ := if j < c.P.nCols then |c.lp.redCost j| else |c.lp.price (j - c.P.nCols)|

theorem csRange_order (n : Nat) : ∀ k l : Nat, k < l → (l ≤ 2 ∨ (3 ≤ k ∧ l ≤ 7)) → (csRange k n).2 ≤ (csRange l n).1 := by
  have key : ∀ k : Nat, (k < 2 ∨ (3 ≤ k ∧ k < 7)) → (csRange k n).2 ≤ (csRange (k + 1) n).1 ∧
      (csRange k n).1 ≤ (csRange k n).2 := by
    intro k hk
    have : k = 0 ∨ k = 1 ∨ k = 3 ∨ k = 4 ∨ k = 5 ∨ k = 6 := by omega
    rcases this with rfl | rfl | rfl | rfl | rfl | rfl <;> simp only [csRange] <;> omega
  intro k l
  induction l with
  | zero => intro h; omega
  | succ l ih =>
    intro h1 h2
    rcases Nat.lt_succ_iff_lt_or_eq.mp h1 with h | rfl
    · have h3 := ih h (by omega)
      have h4 := key l (by omega)
      omega
    · exact (key k (by omega)).1

/-- **C83**, order: in the families 1-3 and 4-8 each strategy takes columns whose reduced costs are at most those of the
next. -/
theorem workCols_ordered (c : Call) (k l : Fin 21) (h : k < l ∧ (l ≤ 2 ∨ (3 ≤ k ∧ l ≤ 7))) :
    ∀ a ∈ workCols c (.cs k), ∀ b ∈ workCols c (.cs l), absCost c a ≤ absCost c b := by
  intro a ha b hb
  obtain ⟨i, hi, rfl⟩ := List.mem_map.mp ha
  obtain ⟨j, hj, rfl⟩ := List.mem_map.mp hb
  have hi' := mem_csPositions.mp hi
  have hj' := mem_csPositions.mp hj
  have hlt : i < j := by
    have := csRange_order (sortedCont c).length k.val l.val h.1 h.2
    omega
  have hs := List.pairwise_iff_getElem.mp (sortedCont_sorted c) i j hi'.1 hj'.1 hlt
  simp only [List.getD, List.getElem?_eq_getElem hi'.1, List.getElem?_eq_getElem hj'.1, Option.getD_some]
  exact hs

/-- **C83**, halves: strategies 9 and 10, 11 and 12, 13 and 14 each split the cheapest two thirds, four fifths and half of
the continuous nonbasic columns and slacks: `cheap` are that many, `rest` are the others and cost no less. -/
theorem workCols_halves (c : Call) (k : Fin 21) (h : k = 8 ∨ k = 10 ∨ k = 12) :
    ∃ cheap rest, (cheap ++ rest).Perm (contVars c) ∧ (∀ a ∈ cheap, ∀ b ∈ rest, absCost c a ≤ absCost c b) ∧
      cheap.length = (if k = 8 then 2 * (contVars c).length / 3 else if k = 10 then 4 * (contVars c).length / 5
        else (contVars c).length / 2) ∧
      (workCols c (.cs k) ++ workCols c (.cs (k + 1))).Perm cheap := by
  have hlen := (sortedCont_perm c).length_eq
  have key : ∀ n, (∀ a ∈ (sortedCont c).take n, ∀ b ∈ (sortedCont c).drop n, absCost c a ≤ absCost c b) ∧
      ((sortedCont c).take n ++ (sortedCont c).drop n).Perm (contVars c) := by
    intro n
    refine ⟨?_, by rw [List.take_append_drop]; exact sortedCont_perm c⟩
    have hs := sortedCont_sorted c
    rw [← List.take_append_drop n (sortedCont c), List.pairwise_append] at hs
    exact hs.2.2
  rcases h with rfl | rfl | rfl
  · refine ⟨_, _, (key (2 * (sortedCont c).length / 3)).2, (key _).1, ?_, ?_⟩
    · rw [List.length_take, ← hlen]; simp; omega
    · have := family (c := c) [8, 9] (2 * (sortedCont c).length / 3) (by omega) (by positions_disjoint) (by positions_cover)
      simpa [workCols] using this
  · refine ⟨_, _, (key (4 * (sortedCont c).length / 5)).2, (key _).1, ?_, ?_⟩
    · rw [List.length_take, ← hlen]; simp; omega
    · have := family (c := c) [10, 11] (4 * (sortedCont c).length / 5) (by omega) (by positions_disjoint)
        (by positions_cover)
      simpa [workCols] using this
  · refine ⟨_, _, (key ((sortedCont c).length / 2)).2, (key _).1, ?_, ?_⟩
    · rw [List.length_take, ← hlen]; simp; omega
    · have := family (c := c) [12, 13] ((sortedCont c).length / 2) (by omega) (by positions_disjoint) (by positions_cover)
      simpa [workCols] using this

/-! ### C84: the best cuts are kept -/

/-- The quality of a cut with right-hand side `rhs` before it is relaxed: how far the LP solution is from violating it,
relative to the square of its norm. -/
def measure (c : Call) (d : RowCut) (rhs : ℚ) : ℚ := (rhs - d.row.dot c.lp.xlp) / (d.row.map fun p => p.2 * p.2).sum

theorem foldl_insert_nodup : ∀ (fs : List Found) (cs : List RowCut), (fs.map Found.cut).Nodup → (∀ f ∈ fs, f.cut ∉ cs) →
    fs.foldl (fun l f => insertIfNotDuplicate l f.cut) cs = cs ++ fs.map Found.cut := by
  intro fs
  induction fs with
  | nil => intro cs _ _; simp
  | cons f fs ih =>
    intro cs hn hm
    rw [List.map_cons, List.nodup_cons] at hn
    have he : insertIfNotDuplicate cs f.cut = cs ++ [f.cut] := if_neg (hm f (List.mem_cons_self ..))
    rw [List.foldl_cons, he, ih _ hn.2 ?_]
    · simp
    · intro g hg hmem
      rcases List.mem_append.mp hmem with h | h
      · exact hm g (List.mem_cons_of_mem _ hg) h
      · exact hn.1 (List.mem_singleton.mp h ▸ List.mem_map_of_mem hg)

theorem zip_maps (fs : List Found) : (fs.map Found.cut).zip (fs.map Found.lambda) = fs.map fun f => (f.cut, f.lambda) := by
  rw [List.zip_map']

/-- **C84.**  Compared with a call with the limit `M`, which is not below the number of cuts to compute, a call with the
limit `n` delivers the best cuts with their multipliers: `rest` are those left out, and none is better than one kept. -/
theorem generateMultipliers_best {c : Call} (hr : Reached c.prm) {n M : Nat} (hM : c.par .maxNumComputedCuts ≤ M)
    {cs CS : List RowCut} {ls LS : List (List ℤ)} (h : generateMultipliers c n (some []) = .ok (some cs, ls))
    (H : generateMultipliers c M (some []) = .ok (some CS, LS)) :
    cs.length = ls.length ∧ cs.length = min n CS.length ∧ ∃ rest, (cs.zip ls ++ rest).Perm (CS.zip LS) ∧
      ∀ a ∈ cs.zip ls, ∀ b ∈ rest, ∃ ra rb, a.1.ub = ra + adjust c ra ∧ b.1.ub = rb + adjust c rb ∧
        measure c a.1 ra ≤ measure c b.1 rb := by
  obtain ⟨a1, fs, hrun, rfl, he⟩ := generateMultipliers_run h
  cases he
  obtain ⟨a2, FS, Hrun, rfl, he⟩ := generateMultipliers_run H
  cases he
  have hlim := (run_result hr hrun).limit
  unfold run at hrun Hrun
  split at hrun
  · cases hrun
  rename_i c1
  rw [if_neg c1] at Hrun
  split at hrun
  · rename_i c2
    rw [if_pos c2] at Hrun
    cases hrun; cases Hrun
    exact ⟨rfl, by simp, [], by simp, by simp⟩
  rename_i c2
  rw [if_neg c2] at Hrun
  split at hrun
  · cases hrun
  rename_i c3
  rw [if_neg c3] at Hrun
  split at hrun
  · cases hrun
  split at Hrun
  · cases Hrun
  have hb : ∀ k : Nat, (if (k : ℚ) < c.par .maxNumComputedCuts then [] else (some ([] : List RowCut)).getD []) = [] := by
    intro k; split <;> rfl
  rw [hb] at hrun Hrun
  split at hrun
  · cases hrun
  rename_i a ha
  rw [ha] at Hrun
  dsimp only at Hrun
  rw [Except.ok.injEq] at hrun Hrun
  have hinv := mainLoop_inv (c := c) (w := ⟨true, true⟩) (buf := []) _ _ _ rounds_cols
    ⟨by simp, by simp, by simp, by simp, by
      have : 0 ≤ c.par .maxNumComputedCuts := hr.range .maxNumComputedCuts
      push_cast [List.length_nil]; linarith⟩ ha
  obtain ⟨h1, h2, h3⟩ := hinv.cuts rfl
  rw [List.nil_append] at h1
  unfold finish at Hrun
  rw [if_neg (not_lt.mpr hM), Prod.mk.injEq] at Hrun
  obtain ⟨rfl, rfl⟩ := Hrun
  have hq : ∀ f ∈ a.found, ∃ rhs, f.cut.ub = rhs + adjust c rhs ∧ f.quality = measure c f.cut rhs := by
    intro f hf
    obtain ⟨s, _, i, _, m, d, es, rhs, _, _, _, _, rfl⟩ := hinv.made f hf
    exact ⟨rhs, rfl, rfl⟩
  unfold finish at hrun
  split at hrun
  · rw [if_pos (show (Wanted.mk (some ([] : List RowCut)).isSome true).cuts = true from rfl), Prod.mk.injEq] at hrun
    obtain ⟨hcs, rfl⟩ := hrun
    obtain ⟨rest, hp, hqual⟩ := best_quality (fs := a.found) (n := n)
    have hnd : ((best a.found n).map Found.cut).Nodup := by
      have := ((hp.map Found.cut).nodup_iff).mpr h3
      rw [List.map_append, List.nodup_append] at this
      exact this.1
    have hcs' : (best a.found n).foldl (fun l f => insertIfNotDuplicate l f.cut) ((some ([] : List RowCut)).getD []) =
        (best a.found n).map Found.cut := by
      rw [foldl_insert_nodup _ _ hnd (by simp)]; rfl
    rw [← hcs, hcs', h1]
    refine ⟨by simp, by simp [best_length], rest.map fun f => (f.cut, f.lambda), ?_, ?_⟩
    · rw [zip_maps, zip_maps, ← List.map_append]
      exact hp.map _
    · intro x hx y hy
      rw [zip_maps] at hx
      obtain ⟨f, hf, rfl⟩ := List.mem_map.mp hx
      obtain ⟨g, hg, rfl⟩ := List.mem_map.mp hy
      obtain ⟨ra, ha1, ha2⟩ := hq f (hp.subset (List.mem_append_left _ hf))
      obtain ⟨rb, hb1, hb2⟩ := hq g (hp.subset (List.mem_append_right _ hg))
      exact ⟨ra, rb, ha1, hb1, by rw [← ha2, ← hb2]; exact hqual f hf g hg⟩
  · rw [Prod.mk.injEq] at hrun
    obtain ⟨rfl, rfl⟩ := hrun
    rw [h1]
    refine ⟨by simp, ?_, [], by simp, by simp⟩
    rw [List.length_map, min_eq_right hlim]

/-! ### Tilting -/

/-- `tiltLandPcut` never tells that it tilted a cut. -/
theorem tilt_useless {c : Call} {r : ℤ} {n : Nat} (h : tilt c r = .ok n) : n = 0 := by
  unfold tilt at h
  split at h
  · cases h
  split at h
  · cases h
  split at h
  · cases h; rfl
  split at h
  · cases h
  split at h
  · cases h; rfl
  · cases h

/-- A call of `tiltLandPcut` fails whenever there is something to do: a continuous nonbasic variable, an integer basic
column, and a strategy for columns. -/
theorem tilt_fails {c : Call} (hc : contVars c ≠ []) (hm : mTab c ≠ 0) (hs : c.strat.colsLAP ≠ []) (r : ℤ) :
    ∃ e, tilt c r = .error e := by
  unfold tilt
  split
  · exact ⟨_, rfl⟩
  split
  · exact ⟨_, rfl⟩
  rw [if_neg (by simp [hc, hm])]
  split
  · exact ⟨_, rfl⟩
  · exact ⟨_, rfl⟩

end Cgl.RedSplit2
