import Verif.RedSplit.Reduce
import Verif.Param.Props
import Mathlib.Algebra.Order.Archimedean.Basic

/-!
# C26 (CglRedSplit), C56, C57: the reduce-and-split generator
-/

namespace Cgl.RedSplit

/-- A parameter object some program can have: the result of a history of constructions, copies, assignments and calls of
setters. -/
def Reached (prm : Prm) : Prop :=
  ∃ (h : List (Param.Op Param.RedSplit.Name ℚ)) (i : ℕ), (Param.RedSplit.impl.run h)[i]? = some prm

theorem Reached.range {prm : Prm} (h : Reached prm) (n : Param.RedSplit.Name) : Param.RedSplit.doc.range n (par prm n) := by
  obtain ⟨h, i, hi⟩ := h
  exact Param.RedSplit.ranges h i prm hi n

theorem Reached.minReduc {prm : Prm} (h : Reached prm) : 0 < par prm .minReduc := (h.range .minReduc).1
theorem Reached.normIsZero {prm : Prm} (h : Reached prm) : 0 < par prm .normIsZero := (h.range .normIsZero).1
theorem Reached.away {prm : Prm} (h : Reached prm) : 0 < par prm .away := (h.range .away).1
theorem Reached.relax {prm : Prm} (h : Reached prm) : 0 ≤ par prm .EPS_RELAX_ABS := h.range .EPS_RELAX_ABS
theorem Reached.relaxRel {prm : Prm} (h : Reached prm) : 0 ≤ par prm .EPS_RELAX_REL := h.range .EPS_RELAX_REL

/-! ### The rows picked -/

theorem genalea_le (n : ℕ) : genalea n ≤ 1 := by
  unfold genalea
  dsimp only
  rw [div_le_one (by norm_num), Int.tdiv_eq_ediv_of_nonneg (by omega)]
  have : ((if 16807 * ((n : ℤ) - (n : ℤ) / 127773 * 127773) - (n : ℤ) / 127773 * 2836 < 0 then
      16807 * ((n : ℤ) - (n : ℤ) / 127773 * 127773) - (n : ℤ) / 127773 * 2836 + 2147483647
      else 16807 * ((n : ℤ) - (n : ℤ) / 127773 * 127773) - (n : ℤ) / 127773 * 2836 : ℤ)) ≤ 2147483647 := by
    split <;> omega
  exact_mod_cast this

theorem start_le (P : Prob) (card : Nat) (limit : ℤ) : (tabSize P card limit).2 ≤ P.rows.length := by
  unfold tabSize
  split
  · dsimp only
    have h1 : (P.rows.length : ℚ) * genalea card ≤ P.rows.length :=
      mul_le_of_le_one_right (by positivity) (genalea_le card)
    have h2 : truncQ (P.rows.length * genalea card) ≤ P.rows.length := by
      unfold truncQ
      split
      · have := Int.floor_le ((P.rows.length : ℚ) * genalea card)
        exact_mod_cast le_trans this h1
      · exact Int.ceil_le.mpr (by exact_mod_cast h1)
    omega
  · exact Nat.zero_le _

/-- The rows picked belong to fractional integer basic columns, and the LP has a usable basis. -/
theorem selection_spec {prm : Prm} {P : Prob} {lp : Lp} {sqrt cbrt : ℚ → ℚ} {sel : List Nat}
    (h : selection prm P lp sqrt cbrt = .ok (some sel)) :
    Picked prm P lp sel ∧ goodModel P lp = true ∧ (sel.length : ℤ) ≤ numFrac prm P lp := by
  unfold selection at h
  split at h
  · cases h
  rename_i h0
  push Not at h0
  split at h
  · cases h
  rename_i limit _
  split at h
  · cases h
  dsimp only at h
  split at h
  · cases h
  rename_i sel' hp
  split at h
  · rename_i hlen
    cases h
    have hpk := pickRows_picked (start_le P (numFrac prm P lp) limit) _ _ _ (fun i hi => List.mem_range.mp hi) hp
    have hmem : ∀ k < sel.length, sel.getD k 0 ∈ sel := by
      intro k hk
      have : sel.getD k 0 = sel[k] := by simp [List.getD, hk]
      rw [this]
      exact List.getElem_mem hk
    refine ⟨⟨fun k hk => (hpk.2 _ (hmem k hk)).1, fun k hk => (hpk.2 _ (hmem k hk)).2.1,
      fun k hk => (hpk.2 _ (hmem k hk)).2.2⟩, ?_, ?_⟩
    · simpa using h0.2.2
    · have : (tabSize P (numFrac prm P lp) limit).1 ≤ numFrac prm P lp := by
        unfold tabSize; split
        · dsimp only; omega
        · exact le_refl _
      omega
  · cases h

/-! ### Slacks that stay behind -/

/-- At a feasible point the slacks that are not substituted do not matter. -/
theorem stay_feasible {prm : Prm} {P : Prob} (hx : ExactData prm P) {d : Dense}
    (hel : ∀ i < P.rows.length, |d.row (P.nCols + i)| ≤ par prm .EPS_ELIM → d.row (P.nCols + i) = 0) {x : Nat → ℚ}
    (hf : P.Feasible x) {i : Nat} (hi : i < P.rows.length) (he : eliminated prm P d i = false) :
    d.row (P.nCols + i) * ext P x (P.nCols + i) = 0 := by
  simp only [eliminated, Bool.and_eq_false_iff, decide_eq_false_iff_not, Bool.not_eq_false', decide_eq_true_eq] at he
  rcases he with he | he
  · rw [hel i hi (not_lt.mp he), zero_mul]
  · obtain ⟨h1, h2, h3⟩ := hx.rows i hi he
    have hrow := hf.rows _ (Prob.row_mem hi)
    have h4 := hrow.1 h2
    have h5 := hrow.2 h3
    rw [ext_slack, rowRhs_eq h1 h2 h3]
    have : P.activity x i = (P.row i).ub := by
      unfold Prob.activity
      rw [h1] at h4
      exact le_antisymm h5 h4
    rw [this]; ring

/-- At the LP solution the slacks that are not substituted do not matter. -/
theorem stay_lp {prm : Prm} {P : Prob} {lp : Lp} (hb : BasicSolution P lp) (hx : ExactData prm P)
    (hgood : goodModel P lp = true) {sel : List Nat} (hp : Picked prm P lp sel) {s : St} {r : Nat} {d : Dense}
    (hd : cgCut prm P lp ⟨flip P lp (comboRow prm P lp sel s r), comboRhs lp sel s r⟩ = some d)
    (hel : ∀ i < P.rows.length, |(unflip P lp d).row (P.nCols + i)| ≤ par prm .EPS_ELIM →
      (unflip P lp d).row (P.nCols + i) = 0)
    {i : Nat} (hi : i < P.rows.length) (he : eliminated prm P (unflip P lp d) i = false) :
    (unflip P lp d).row (P.nCols + i) * ext P lp.xlp (P.nCols + i) = 0 := by
  simp only [eliminated, Bool.and_eq_false_iff, decide_eq_false_iff_not, Bool.not_eq_false', decide_eq_true_eq] at he
  rcases he with he | he
  · rw [hel i hi (not_lt.mp he), zero_mul]
  · obtain ⟨h1, h2, h3⟩ := hx.rows i hi he
    rw [ext_slack, rowRhs_eq h1 h2 h3, ← hb.act i hi]
    have hs : stat P lp (P.nCols + i) = lp.rstat i := by
      unfold stat; rw [if_neg (by omega), Nat.add_sub_cancel_left]
    rcases good_cases hgood (j := P.nCols + i) (by omega) with hst | hst
    · have hn : nonBasic P lp (P.nCols + i) = false := by
        rw [← Bool.not_eq_true, nonBasic_iff, hst]; omega
      have hcomb : comboRow prm P lp sel s r (P.nCols + i) = 0 := by
        unfold comboRow
        rw [if_neg (by simp [contNB, hn]), if_neg (by simp [intNB, hn])]
        split
        · rw [list_range_sum]
          refine Finset.sum_eq_zero fun k hk => ?_
          have := hp.col k (Finset.mem_range.mp hk)
          rw [if_neg (by omega)]
        · rfl
      have h2' : ¬ stat P lp (P.nCols + i) = 2 := by omega
      have hi' : intNB prm P lp (P.nCols + i) = false := by simp [intNB, hn]
      have hc' : contNB prm P lp (P.nCols + i) = false := by simp [contNB, hn]
      have : (unflip P lp d).row (P.nCols + i) = 0 := by
        unfold unflip flip
        dsimp only
        rw [if_neg h2']
        unfold cgCut at hd
        dsimp only at hd
        split at hd
        · cases hd
        split at hd
        · cases hd
          dsimp only
          unfold cgCoef
          rw [hi', hc', if_neg (by simp), if_neg (by simp)]
          unfold flip; rw [if_neg h2', hcomb]
        · cases hd
          dsimp only
          unfold cg2Coef
          rw [hi', hc', if_neg (by simp), if_neg (by simp)]
          unfold flip; rw [if_neg h2', hcomb]
      rw [this, zero_mul]
    · rw [nonBasic_iff, hs] at hst
      rcases hst with h | h
      · rw [(hb.rowLower i hi h).1, h1]; ring
      · rw [(hb.rowUpper i hi h).1]; ring

/-! ### One combination -/

theorem adjust_nonneg {prm : Prm} (h : 0 ≤ par prm .EPS_RELAX_ABS) (rhs : ℚ) : 0 ≤ adjust prm rhs := by
  unfold adjust
  split
  · rename_i h'
    have := mul_nonneg (abs_nonneg rhs) h'.le
    linarith
  · exact h

/-- The cuts after a pass: the old ones, then at most one from the packed row of the combination. -/
theorem oneCut_cases (prm : Prm) (P : Prob) (lp : Lp) (sqrt : ℚ → ℚ) (sel : List Nat) (s : St) (r : Nat)
    (cs : List RowCut) :
    oneCut prm P lp sqrt sel s r cs = cs ∨ ∃ d es rhs, denseCut prm P lp sel s r = some d ∧
      packRow prm P sqrt lp.xlp d = some (es, rhs) ∧ es.length < 300 ∧
      ⟨- par prm .INFINIT, rhs + adjust prm rhs, es⟩ ∉ cs ∧
      oneCut prm P lp sqrt sel s r cs = cs ++ [⟨- par prm .INFINIT, rhs + adjust prm rhs, es⟩] := by
  unfold oneCut
  rcases hd : denseCut prm P lp sel s r with _ | d
  · exact Or.inl rfl
  dsimp only
  rcases hp : packRow prm P sqrt lp.xlp d with _ | ⟨es, rhs⟩
  · exact Or.inl rfl
  dsimp only
  by_cases hl : es.length < 300
  · rw [if_pos hl]
    unfold insertIfNotDuplicate
    by_cases hm : (⟨- par prm .INFINIT, rhs + adjust prm rhs, es⟩ : RowCut) ∈ cs
    · rw [if_pos hm]; exact Or.inl rfl
    · rw [if_neg hm]; exact Or.inr ⟨d, es, rhs, rfl, hp, hl, hm, rfl⟩
  · rw [if_neg hl]; exact Or.inl rfl

/-- A new cut comes from one of the combinations. -/
def FromRow (prm : Prm) (P : Prob) (lp : Lp) (sqrt : ℚ → ℚ) (sel : List Nat) (s : St) (r : Nat) (c : RowCut) : Prop :=
  ∃ d es rhs, denseCut prm P lp sel s r = some d ∧ packRow prm P sqrt lp.xlp d = some (es, rhs) ∧ es.length < 300 ∧
    c = ⟨- par prm .INFINIT, rhs + adjust prm rhs, es⟩

theorem cutLoop_cases (prm : Prm) (P : Prob) (lp : Lp) (sqrt : ℚ → ℚ) (sel : List Nat) (s : St) :
    ∀ (l : List Nat) (cs : List RowCut), ∃ new : List RowCut, cutLoop prm P lp sqrt sel s l cs = cs ++ new ∧
      new.length ≤ l.length ∧ new.Nodup ∧ (∀ c ∈ new, c ∉ cs) ∧ ∀ c ∈ new, ∃ r ∈ l, FromRow prm P lp sqrt sel s r c
  | [], cs => ⟨[], by simp [cutLoop], le_refl _, List.nodup_nil, by simp, by simp⟩
  | r :: l, cs => by
    unfold cutLoop
    rcases oneCut_cases prm P lp sqrt sel s r cs with h | ⟨d, es, rhs, h1, h2, h3, h4, h⟩
    · rw [h]
      obtain ⟨new, e, hl, hn, ho, hf⟩ := cutLoop_cases prm P lp sqrt sel s l cs
      refine ⟨new, e, by simp; omega, hn, ho, fun c hc => ?_⟩
      obtain ⟨q, hq, hq'⟩ := hf c hc
      exact ⟨q, by simp [hq], hq'⟩
    · rw [h]
      obtain ⟨new, e, hl, hn, ho, hf⟩ := cutLoop_cases prm P lp sqrt sel s l
        (cs ++ [⟨- par prm .INFINIT, rhs + adjust prm rhs, es⟩])
      refine ⟨⟨- par prm .INFINIT, rhs + adjust prm rhs, es⟩ :: new, by rw [e]; simp, by simp; omega, ?_, ?_, ?_⟩
      · refine List.nodup_cons.mpr ⟨fun hc => ?_, hn⟩
        exact ho _ hc (by simp)
      · intro c hc
        rcases List.mem_cons.mp hc with rfl | hc
        · exact h4
        · exact fun hm => ho c hc (by simp [hm])
      · intro c hc
        rcases List.mem_cons.mp hc with rfl | hc
        · exact ⟨r, by simp, d, es, rhs, h1, h2, h3, rfl⟩
        · obtain ⟨q, hq, hq'⟩ := hf c hc
          exact ⟨q, by simp [hq], hq'⟩

/-- The excess of the dense cut at a point where the slacks left behind do not matter. -/
theorem dense_excess {prm : Prm} {P : Prob} (hwf : P.WF) {lp : Lp} (hb : BasicSolution P lp)
    (hgood : goodModel P lp = true) {sel : List Nat} {s : St} (hp : Picked prm P lp sel) (hc : Combined P lp sel s)
    (ht : ∀ k < sel.length, TableauRow P lp (sel.getD k 0)) {r : Nat} (hr : r < sel.length) {sqrt : ℚ → ℚ}
    (hcl : CleanRow prm P lp sqrt sel s r) (ha : 0 < par prm .away) {d : Dense}
    (hd : denseCut prm P lp sel s r = some d) {x : Nat → ℚ}
    (hstay : ∀ d', cgCut prm P lp ⟨flip P lp (comboRow prm P lp sel s r), comboRhs lp sel s r⟩ = some d' →
      ∀ i < P.rows.length, eliminated prm P (unflip P lp d') i = false →
        (unflip P lp d').row (P.nCols + i) * ext P x (P.nCols + i) = 0) :
    colExcess P d x = aboveInteger prm (comboRhs lp sel s r) -
      gom prm P lp (comboRow prm P lp sel s r) (aboveInteger prm (comboRhs lp sel s r)) x ∧
      par prm .away ≤ aboveInteger prm (comboRhs lp sel s r) := by
  unfold denseCut at hd
  split at hd
  · cases hd
  rename_i d' hd'
  cases hd
  rw [eliminate_excess hwf (hstay d' hd'), unflip_excess hwf hb hgood hp hc ht hr hcl.near ha hd' x]
  refine ⟨rfl, ?_⟩
  unfold cgCut at hd'
  dsimp only at hd'
  split at hd'
  · cases hd'
  · rename_i h; push Not at h; exact h.1

/-! ### C26 -/

/-- **C26** for CglRedSplit.  Every cut the call adds holds at every feasible point of the problem, if the solver's
basis, tableau rows and solution are right, the data are not within a tolerance of being something else and no tolerance
comes into play in the run.  Partial: with the default settings these provisos matter, see `Verif.RedSplit.Witness`. -/
theorem generateCuts_valid_partial {prm : Prm} {P : Prob} {lp : Lp} {sqrt cbrt : ℚ → ℚ} {fuel : Nat}
    {cs cs' : List RowCut} (hprm : Reached prm) (hs : SafeParams prm P.inf) (hwf : P.WF) (hb : BasicSolution P lp)
    (ht : ∀ r < P.rows.length, lp.basis r < P.nCols → TableauRow P lp r) (hx : ExactData prm P)
    (hcl : Clean prm P lp sqrt cbrt fuel) (h : generateCuts prm P lp sqrt cbrt fuel cs = .ok cs') :
    ∀ c ∈ cs', c ∈ cs ∨ c.Valid P := by
  intro c hc
  unfold generateCuts at h
  split at h
  · cases h
  · cases h; exact Or.inl hc
  rename_i sel hsel
  split at h
  · cases h
  rename_i s hred
  cases h
  obtain ⟨new, e, _, _, _, hf⟩ := cutLoop_cases prm P lp sqrt sel s (List.range sel.length) cs
  rw [e] at hc
  rcases List.mem_append.mp hc with hc | hc
  · exact Or.inl hc
  obtain ⟨r, hr, d, es, rhs, h1, h2, h3, rfl⟩ := hf c hc
  have hr := List.mem_range.mp hr
  obtain ⟨hp, hgood, _⟩ := selection_spec hsel
  have ht' : ∀ k < sel.length, TableauRow P lp (sel.getD k 0) := fun k hk => ht _ (hp.lt k hk) (hp.col k hk)
  have hinv := (reduceLoop_inv hprm.minReduc fuel 0 _ s (inv_init P lp (contVars prm P lp) sel) hred).1
  have hclr := hcl sel s hsel hred r hr
  right
  intro x hfx
  obtain ⟨hex, haw⟩ := dense_excess hwf hb hgood hp hinv.comb ht' hr hclr hprm.away h1
    (x := x) (fun d' hd' i hi he => stay_feasible hx (hclr.elim d' hd') hfx hi he)
  have hge := gom_ge hwf hb hx hgood hp hinv.comb ht' hr (by have := hprm.away; intro h; rw [h] at haw; linarith) hfx
  have hle := packRow_le hs.lub h2 (hclr.drop d h1) hfx (by rw [hex]; linarith)
  constructor
  · intro hlt
    dsimp only at hlt
    have := hs.infinit
    exact absurd hlt (by linarith)
  · intro _
    dsimp only
    have := adjust_nonneg (prm := prm) hprm.relax rhs
    linarith

/-! ### C56 -/

/-- **C56**.  Whatever tableau the solver returns, the reduction comes to an end: there is a number of rounds that
suffices, and more rounds change nothing.  (The remaining outcome is undefined behaviour, see the witnesses.) -/
theorem reduction_ends {prm : Prm} (hprm : Reached prm) (P : Prob) (lp : Lp) (sqrt cbrt : ℚ → ℚ) :
    ∃ n, ∀ cs, generateCuts prm P lp sqrt cbrt n cs ≠ .error .fuel ∧
      ∀ more ≥ n, generateCuts prm P lp sqrt cbrt more cs = generateCuts prm P lp sqrt cbrt n cs := by
  rcases hsel : selection prm P lp sqrt cbrt with e | _ | sel
  · refine ⟨0, fun cs => ⟨?_, fun more _ => ?_⟩⟩
    · unfold generateCuts; rw [hsel]
      unfold selection at hsel
      split at hsel
      · cases hsel
      split at hsel
      · cases hsel; simp
      split at hsel
      · cases hsel
      dsimp only at hsel
      split at hsel
      · cases hsel; simp
      split at hsel
      · cases hsel
      · cases hsel; simp
    · unfold generateCuts; rw [hsel]
  · refine ⟨0, fun cs => ⟨?_, fun more _ => ?_⟩⟩
    · unfold generateCuts; rw [hsel]; simp
    · unfold generateCuts; rw [hsel]
  · obtain ⟨n, hn⟩ := exists_nat_gt (total sel.length (initSt P lp (contVars prm P lp) sel) /
      (par prm .minReduc * par prm .normIsZero))
    have hpos := mul_pos hprm.minReduc hprm.normIsZero
    rw [div_lt_iff₀ hpos] at hn
    obtain ⟨h1, h2⟩ := reduceLoop_ends hprm.minReduc hprm.normIsZero n 0 _ (inv_init P lp (contVars prm P lp) sel) hn
    refine ⟨n, fun cs => ⟨?_, fun more hm => ?_⟩⟩
    · unfold generateCuts
      rw [hsel]
      dsimp only
      unfold reduced
      split
      · rename_i e he
        intro hc
        cases hc
        exact h1 he
      · simp
    · unfold generateCuts reduced
      rw [hsel]
      dsimp only
      rw [h2 more hm]

/-! ### C57 -/

/-- The shape of a cut added by a call at the LP solution `x`: no lower bound, columns of the problem in increasing order,
at most `MAX_SUPPORT` and fewer than 300 of them, no coefficient negligible, and if the cut before it was relaxed is
violated at `x`, then by at least `MINVIOL` per coefficient. -/
structure Shape (prm : Prm) (P : Prob) (x : Nat → ℚ) (c : RowCut) : Prop where
  lb : c.lb = - par prm .INFINIT
  increasing : (c.row.map Prod.fst).Pairwise (· < ·)
  cols : ∀ p ∈ c.row, p.1 < P.nCols
  support : (c.row.length : ℚ) ≤ par prm .MAX_SUPPORT ∧ c.row.length < 300
  large : ∀ p ∈ c.row, min (par prm .EPS_COEFF) (par prm .EPS_COEFF_LUB) < |p.2|
  violation : ∃ rhs, c.ub = rhs + adjust prm rhs ∧
    (c.row.dot x ≤ rhs ∨ par prm .MINVIOL * c.row.length ≤ c.row.dot x - rhs)

theorem kept_large {prm : Prm} {P : Prob} {j : Nat} {v : ℚ} (h : kept prm P j v = true) :
    min (par prm .EPS_COEFF) (par prm .EPS_COEFF_LUB) < |v| := by
  unfold kept at h
  split at h
  · rename_i h'; exact lt_of_le_of_lt (min_le_left _ _) h'
  · split at h
    · cases h
    · split at h
      · cases h
      · exact lt_of_le_of_lt (min_le_right _ _) (by simpa using h)

/-- **C57**.  A call only appends to the cuts it is given; it adds no cut that is there already and none twice, at most
one per basic integer column with a fractional value, and every new cut has the promised shape. -/
theorem generateCuts_shape {prm : Prm} {P : Prob} {lp : Lp} {sqrt cbrt : ℚ → ℚ} {fuel : Nat} {cs cs' : List RowCut}
    (h : generateCuts prm P lp sqrt cbrt fuel cs = .ok cs') :
    ∃ new, cs' = cs ++ new ∧ new.Nodup ∧ (∀ c ∈ new, c ∉ cs) ∧
      new.length ≤ ((List.range P.nCols).filter (isFrac prm P lp)).length ∧ ∀ c ∈ new, Shape prm P lp.xlp c := by
  unfold generateCuts at h
  split at h
  · cases h
  · cases h; exact ⟨[], by simp, List.nodup_nil, by simp, by simp, by simp⟩
  rename_i sel hsel
  split at h
  · cases h
  rename_i s hred
  cases h
  obtain ⟨new, e, hl, hn, ho, hf⟩ := cutLoop_cases prm P lp sqrt sel s (List.range sel.length) cs
  refine ⟨new, e, hn, ho, ?_, fun c hc => ?_⟩
  · have := (selection_spec hsel).2.2
    rw [List.length_range] at hl
    unfold numFrac at this
    omega
  · obtain ⟨r, _, d, es, rhs, h1, h2, h3, rfl⟩ := hf c hc
    unfold packRow at h2
    split at h2
    · cases h2
    rename_i v hv
    dsimp only at h2
    split at h2
    · cases h2
    rename_i hsup
    split at h2
    · cases h2
    rename_i hviol
    cases h2
    refine ⟨rfl, ?_, ?_, ⟨not_lt.mp hsup, h3⟩, ?_, ⟨_, rfl, ?_⟩⟩
    · dsimp only
      rw [List.map_map]
      have : (Prod.fst ∘ fun j => (j, d.row j / v)) = id := rfl
      rw [this, List.map_id]
      exact List.pairwise_lt_range.filter _
    · intro p hp
      obtain ⟨j, hj, rfl⟩ := List.mem_map.1 hp
      exact List.mem_range.1 (List.mem_filter.1 hj).1
    · intro p hp
      obtain ⟨j, hj, rfl⟩ := List.mem_map.1 hp
      exact kept_large (List.mem_filter.1 hj).2
    · by_contra hcon
      push Not at hcon
      exact hviol hcon

/-! ### The LP solution is cut off -/

theorem gom_lp (prm : Prm) (P : Prob) (lp : Lp) (row : Nat → ℚ) (f0 : ℚ) : gom prm P lp row f0 lp.xlp = 0 := by
  unfold gom
  refine Finset.sum_eq_zero fun j _ => ?_
  unfold dist
  split
  · split <;> ring
  · ring

theorem packRow_lp {prm : Prm} {P : Prob} {sqrt : ℚ → ℚ} {xlp : Nat → ℚ} {d : Dense} {es : SVec} {rhs f : ℚ}
    (h : packRow prm P sqrt xlp d = some (es, rhs)) (hf : 0 ≤ f)
    (hall : ∀ v, scaleFactor prm P sqrt d.row = some v → ∀ j < P.nCols, d.row j ≠ 0 → par prm .EPS_COEFF < |d.row j / v|)
    (hge : f ≤ colExcess P d xlp) : f / 50 ≤ SVec.dot es xlp - rhs := by
  unfold packRow at h
  split at h
  · cases h
  rename_i v hv
  dsimp only at h
  split at h
  · cases h
  split at h
  · cases h
  cases h
  obtain ⟨hv1, hv2⟩ := scaleFactor_pos hv
  have hv0 : 0 < v := by linarith
  rw [dot_map_range, list_range_sum]
  have e1 : ∑ j ∈ Finset.range P.nCols, (if kept prm P j (d.row j / v) = true then d.row j / v * xlp j else 0) =
      ∑ j ∈ Finset.range P.nCols, d.row j / v * xlp j := by
    refine Finset.sum_congr rfl fun j hj => ?_
    by_cases h0 : d.row j = 0
    · rw [h0]; simp
    · have : kept prm P j (d.row j / v) = true := by
        unfold kept; rw [if_pos (hall v hv j (Finset.mem_range.mp hj) h0)]
      rw [if_pos this]
  have e2 : ∑ j ∈ Finset.range P.nCols, taken prm P j (d.row j / v) = 0 := by
    refine Finset.sum_eq_zero fun j hj => ?_
    by_cases h0 : d.row j = 0
    · rw [h0]; unfold taken; simp
    · unfold taken; rw [if_pos (hall v hv j (Finset.mem_range.mp hj) h0)]
  rw [e1, e2]
  have e3 : ∑ j ∈ Finset.range P.nCols, d.row j / v * xlp j - (d.rhs / v - 0) = colExcess P d xlp / v := by
    unfold colExcess
    have : ∑ j ∈ Finset.range P.nCols, d.row j / v * xlp j = (∑ j ∈ Finset.range P.nCols, d.row j * xlp j) / v := by
      rw [div_eq_mul_inv, Finset.sum_mul]; exact Finset.sum_congr rfl fun j _ => by ring
    rw [this]; ring
  rw [e3]
  rw [le_div_iff₀ hv0]
  have : f / 50 * v ≤ f := by
    have := mul_le_mul_of_nonneg_left hv2 hf
    linarith
  linarith

/-- In the run, no coefficient of a scaled cut is so small that it is left out. -/
def NoSmall (prm : Prm) (P : Prob) (lp : Lp) (sqrt cbrt : ℚ → ℚ) (fuel : Nat) : Prop :=
  ∀ sel s, selection prm P lp sqrt cbrt = .ok (some sel) → reduced prm P lp sel fuel = .ok s →
    ∀ r < sel.length, ∀ d, denseCut prm P lp sel s r = some d → ∀ v, scaleFactor prm P sqrt d.row = some v →
      ∀ j < P.nCols, d.row j ≠ 0 → par prm .EPS_COEFF < |d.row j / v|

/-- **C57**, cutting off.  Before it is relaxed, every cut the call adds is violated at the LP solution by at least a
fiftieth of `away`, if the solver's answers are right and no tolerance comes into play.  Partial: these provisos; the
witnesses show a cut that the LP solution satisfies. -/
theorem generateCuts_cutsOff_partial {prm : Prm} {P : Prob} {lp : Lp} {sqrt cbrt : ℚ → ℚ} {fuel : Nat}
    {cs cs' : List RowCut} (hprm : Reached prm) (hwf : P.WF) (hb : BasicSolution P lp)
    (ht : ∀ r < P.rows.length, lp.basis r < P.nCols → TableauRow P lp r) (hx : ExactData prm P)
    (hcl : Clean prm P lp sqrt cbrt fuel) (hsm : NoSmall prm P lp sqrt cbrt fuel)
    (h : generateCuts prm P lp sqrt cbrt fuel cs = .ok cs') :
    ∀ c ∈ cs', c ∈ cs ∨ ∃ rhs, c.ub = rhs + adjust prm rhs ∧ par prm .away / 50 ≤ c.row.dot lp.xlp - rhs := by
  intro c hc
  unfold generateCuts at h
  split at h
  · cases h
  · cases h; exact Or.inl hc
  rename_i sel hsel
  split at h
  · cases h
  rename_i s hred
  cases h
  obtain ⟨new, e, _, _, _, hf⟩ := cutLoop_cases prm P lp sqrt sel s (List.range sel.length) cs
  rw [e] at hc
  rcases List.mem_append.mp hc with hc | hc
  · exact Or.inl hc
  obtain ⟨r, hr, d, es, rhs, h1, h2, h3, rfl⟩ := hf c hc
  have hr := List.mem_range.mp hr
  obtain ⟨hp, hgood, _⟩ := selection_spec hsel
  have ht' : ∀ k < sel.length, TableauRow P lp (sel.getD k 0) := fun k hk => ht _ (hp.lt k hk) (hp.col k hk)
  have hinv := (reduceLoop_inv hprm.minReduc fuel 0 _ s (inv_init P lp (contVars prm P lp) sel) hred).1
  have hclr := hcl sel s hsel hred r hr
  obtain ⟨hex, haw⟩ := dense_excess hwf hb hgood hp hinv.comb ht' hr hclr hprm.away h1
    (x := lp.xlp) (fun d' hd' i hi he => stay_lp hb hx hgood hp hd' (hclr.elim d' hd') hi he)
  right
  refine ⟨rhs, rfl, ?_⟩
  refine packRow_lp h2 hprm.away.le (hsm sel s hsel hred r hr d h1) ?_
  rw [hex, gom_lp]
  linarith

end Cgl.RedSplit
