import Verif.TreeInfo.AnalyzeSound

/-!
# The model made by `analyze` keeps every feasible point
-/

namespace Cgl.TreeInfo

/-! ## C49: the clique model -/

/-- What the fixed columns add to a row. -/
def fixedPart (P : Prob) (r : Row) : ℚ :=
  ((r.coefs.filter fun p => decide (P.colUpper p.1 - P.colLower p.1 < 1 / 10 ^ 8)).map fun p => P.colLower p.1 * p.2).sum

/-- What the reading of a row relies on: bounds that are close are equal and finite, an infinite side of a row stays large
without the fixed columns, and rows are no longer than an `int`. -/
structure CleanRows (P : Prob) : Prop where
  cols : ∀ r ∈ P.rows, ∀ p ∈ r.coefs, p.1 < P.nCols
  fixed : ∀ j < P.nCols, P.colUpper j - P.colLower j < 1 / 10 ^ 8 →
    P.colUpper j = P.colLower j ∧ -P.inf < P.colLower j ∧ P.colUpper j < P.inf
  upper : ∀ r ∈ P.rows, P.inf ≤ r.ub → 10 ^ 6 ≤ r.ub - fixedPart P r
  lower : ∀ r ∈ P.rows, r.lb ≤ -P.inf → r.lb - fixedPart P r < - 2 ^ 31
  short : ∀ r ∈ P.rows, r.coefs.length < 2 ^ 31

theorem Feasible.fixed {P : Prob} (hP : CleanRows P) {x : Nat → ℚ} (hx : P.Feasible x) {j : Nat} (hj : j < P.nCols)
    (h : P.colUpper j - P.colLower j < 1 / 10 ^ 8) : x j = P.colLower j := by
  obtain ⟨h1, h2, h3⟩ := hP.fixed j hj h
  exact le_antisymm (h1 ▸ hx.upper j hj h3) (hx.lower j hj h2)

/-- What reading a row gives. -/
theorem readRow_spec {P : Prob} {s : Info} (hN : s.numberIntegers = s.integerVariable.length)
    (hbk : ∀ j i : Nat, s.backward[j]? = some (some i) → s.integerVariable[i]? = some j) {x : Nat → ℚ}
    (l : SVec) (hfix : ∀ p ∈ l, P.colUpper p.1 - P.colLower p.1 < 1 / 10 ^ 8 → x p.1 = P.colLower p.1)
    {lo up lo' up' : ℚ} {p m : List Nat} (h : readRow s P l lo up = some (lo', up', p, m)) :
    let F := ((l.filter fun p => decide (P.colUpper p.1 - P.colLower p.1 < 1 / 10 ^ 8)).map
      fun p => P.colLower p.1 * p.2).sum
    lo' = lo - F ∧ up' = up - F ∧ (∀ i ∈ p, i < s.numberIntegers) ∧ (∀ i ∈ m, i < s.numberIntegers) ∧
    m.length ≤ l.length ∧
    SVec.dot l x = F + ((p.map fun i => (i, true)) ++ m.map fun i => (i, false)).foldr (fun e t => litVal s x e + t) 0
      - m.length := by
  intro F
  induction l generalizing lo up lo' up' p m with
  | nil =>
    simp only [readRow, Option.some.injEq, Prod.mk.injEq] at h
    obtain ⟨rfl, rfl, rfl, rfl⟩ := h
    simp [F]
  | cons a l ih =>
    obtain ⟨j, v⟩ := a
    have ih := @ih (fun p hp => hfix p (List.mem_cons_of_mem _ hp))
    unfold readRow at h
    by_cases hw : P.colUpper j - P.colLower j < 1 / 10 ^ 8
    · rw [if_pos hw] at h
      have := ih h
      dsimp only at this
      obtain ⟨h1, h2, h3, h4, h5, h6⟩ := this
      have hF : F = P.colLower j * v + ((l.filter fun p => decide (P.colUpper p.1 - P.colLower p.1 < 1 / 10 ^ 8)).map
          fun p => P.colLower p.1 * p.2).sum := by
        show (List.map _ (List.filter _ _)).sum = _
        rw [List.filter_cons_of_pos (by simpa using hw), List.map_cons, List.sum_cons]
      refine ⟨by rw [hF, h1]; ring, by rw [hF, h2]; ring, h3, h4, by simp only [List.length_cons]; omega, ?_⟩
      rw [SVec.dot_cons, h6, hF, hfix (j, v) List.mem_cons_self hw]
      ring
    · rw [if_neg hw] at h
      have hF : F = ((l.filter fun p => decide (P.colUpper p.1 - P.colLower p.1 < 1 / 10 ^ 8)).map
          fun p => P.colLower p.1 * p.2).sum := by
        show (List.map _ (List.filter _ _)).sum = _
        rw [List.filter_cons_of_neg (by simpa using hw)]
      rcases hbj : s.backward[j]? with _ | (_ | i)
      · rw [hbj] at h; cases h
      · rw [hbj] at h; cases h
      · rw [hbj] at h
        dsimp only at h
        by_cases hv : |v| ≠ 1
        · rw [if_pos hv] at h; cases h
        rw [if_neg hv] at h
        have hiv := hbk j i hbj
        have hi : i < s.numberIntegers := by rw [hN]; exact (List.getElem?_eq_some_iff.mp hiv).1
        rcases hrr : readRow s P l lo up with _ | ⟨lo1, up1, p1, m1⟩
        · rw [hrr] at h; cases h
        rw [hrr] at h
        dsimp only at h
        have := ih hrr
        dsimp only at this
        obtain ⟨h1, h2, h3, h4, h5, h6⟩ := this
        have hv : |v| = 1 := not_not.mp hv
        by_cases hpos : 0 < v
        · rw [if_pos hpos] at h
          simp only [Option.some.injEq, Prod.mk.injEq] at h
          obtain ⟨rfl, rfl, rfl, rfl⟩ := h
          have hv1 : v = 1 := by rw [abs_of_pos hpos] at hv; exact hv
          refine ⟨by rw [hF, h1], by rw [hF, h2], ?_, h4, by simp only [List.length_cons]; omega, ?_⟩
          · intro k hk
            rcases List.mem_cons.mp hk with rfl | hk
            · exact hi
            · exact h3 k hk
          · rw [SVec.dot_cons, h6, hF, hv1]
            simp only [List.map_cons, List.cons_append, List.foldr_cons, litVal, hiv, Option.getD_some, if_true]
            ring
        · rw [if_neg hpos] at h
          simp only [Option.some.injEq, Prod.mk.injEq] at h
          obtain ⟨rfl, rfl, rfl, rfl⟩ := h
          have hv1 : v = -1 := by
            rw [abs_of_nonpos (not_lt.mp hpos)] at hv
            linarith
          refine ⟨by rw [hF, h1], by rw [hF, h2], h3, ?_, by simp only [List.length_cons]; omega, ?_⟩
          · intro k hk
            rcases List.mem_cons.mp hk with rfl | hk
            · exact hi
            · exact h4 k hk
          · have hmid : ∀ (a b : List (Nat × Bool)) (e : Nat × Bool),
                (a ++ e :: b).foldr (fun e t => litVal s x e + t) 0 =
                litVal s x e + (a ++ b).foldr (fun e t => litVal s x e + t) 0 := by
              intro a b e
              induction a with
              | nil => rfl
              | cons q a ih => rw [List.cons_append, List.foldr_cons, ih, List.cons_append, List.foldr_cons]; ring
            rw [SVec.dot_cons, h6, hF, hv1, List.map_cons, hmid]
            simp only [litVal, hiv, Option.getD_some, List.length_cons, Bool.false_eq_true, if_false, Nat.cast_add,
              Nat.cast_one]
            ring

theorem foldr_sum (s : Info) (x : Nat → ℚ) (l : List (Nat × Bool)) :
    l.foldr (fun e t => litVal s x e + t) 0 = (l.map (litVal s x)).sum := by
  induction l with
  | nil => rfl
  | cons a l ih => rw [List.foldr_cons, ih, List.map_cons, List.sum_cons]

theorem litVal_sum_int {s : Info} {x : Nat → ℚ} (hb : Binary s x) (l : List (Nat × Bool))
    (hl : ∀ e ∈ l, e.1 < s.integerVariable.length) : ∃ z : ℤ, (l.map (litVal s x)).sum = z := by
  induction l with
  | nil => exact ⟨0, by simp⟩
  | cons a l ih =>
    obtain ⟨z, hz⟩ := ih fun e he => hl e (List.mem_cons_of_mem _ he)
    rw [List.map_cons, List.sum_cons, hz]
    rcases litVal_bin hb (hl a List.mem_cons_self) with h | h
    · exact ⟨z, by rw [h, zero_add]⟩
    · exact ⟨1 + z, by rw [h]; push_cast; ring⟩

theorem rowKind_holds {P : Prob} (hP : CleanRows P) {s : Info} (hN : s.numberIntegers = s.integerVariable.length)
    (hbk : ∀ j i : Nat, s.backward[j]? = some (some i) → s.integerVariable[i]? = some j) {x : Nat → ℚ} (hx : P.Feasible x)
    (hb : Binary s x) {r : Row} (hr : r ∈ P.rows) {c : Clique} (hc : rowKind s P r = .clique c) :
    c.Range s.numberIntegers ∧ c.Holds s x := by
  unfold rowKind at hc
  rcases hrr : readRow s P r.coefs r.lb r.ub with _ | ⟨lo, up, p, m⟩
  · rw [hrr] at hc; cases hc
  rw [hrr] at hc
  dsimp only at hc
  have hs := readRow_spec hN hbk r.coefs (x := x) (fun p hp hw => Feasible.fixed hP hx (hP.cols r hr p hp) hw) hrr
  dsimp only at hs
  obtain ⟨h1, h2, h3, h4, h5, h6⟩ := hs
  rw [foldr_sum] at h6
  have hF : ((r.coefs.filter fun p => decide (P.colUpper p.1 - P.colLower p.1 < 1 / 10 ^ 8)).map
      fun p => P.colLower p.1 * p.2).sum = fixedPart P r := rfl
  rw [hF] at h1 h2 h6
  have hrange : ∀ e ∈ (p.map fun i => (i, true)) ++ m.map fun i => (i, false), e.1 < s.numberIntegers := by
    intro e he
    rcases List.mem_append.mp he with he | he
    · obtain ⟨i, hi, rfl⟩ := List.mem_map.mp he
      exact h3 i hi
    · obtain ⟨i, hi, rfl⟩ := List.mem_map.mp he
      exact h4 i hi
  obtain ⟨z, hz⟩ := litVal_sum_int hb _ fun e he => by rw [← hN]; exact hrange e he
  rw [hz] at h6
  generalize hiU : (if 2 ^ 31 - 1 < up then 2 ^ 31 - 1 else ⌊up + 1 / 10 ^ 5⌋ : ℤ) = iU at hc
  generalize hiL : (if lo < - 2 ^ 31 then - 2 ^ 31 else ⌈lo - 1 / 10 ^ 5⌉ : ℤ) = iL at hc
  split at hc
  · rename_i hcond
    split at hc
    · rename_i hup
      simp only [RowKind.clique.injEq] at hc
      subst hc
      refine ⟨hrange, ?_⟩
      have hsat := hx.rows r hr
      have hub : r.coefs.dot x ≤ r.ub := by
        apply hsat.2
        by_contra hcon
        have := hP.upper r hr (not_lt.mp hcon)
        rw [← h2] at this
        linarith [hcond.1]
      have hle : z ≤ 1 := by
        have h7 : (z : ℚ) - m.length ≤ up := by rw [h2]; linarith
        rw [if_neg (by have := hcond.1; norm_num; linarith)] at hiU
        have h8 : z - (m.length : ℤ) ≤ ⌊up + 1 / 10 ^ 5⌋ := by
          rw [Int.le_floor]
          push_cast
          have : (0 : ℚ) < 1 / 10 ^ 5 := by norm_num
          linarith
        omega
      refine ⟨by rw [hz]; exact_mod_cast hle, ?_⟩
      intro heq
      have heq := of_decide_eq_true heq
      rw [hz]
      rw [hup, ← hiL] at heq
      by_cases hlo : lo < - 2 ^ 31
      · rw [if_pos hlo] at heq
        have := hP.short r hr
        omega
      · rw [if_neg hlo] at heq
        have hlb : r.lb ≤ r.coefs.dot x := by
          apply hsat.1
          by_contra hcon
          have := hP.lower r hr (not_lt.mp hcon)
          rw [← h1] at this
          exact hlo this
        have h9 : (lo : ℚ) - 1 / 10 ^ 5 ≤ ((z - (m.length : ℤ) : ℤ) : ℚ) := by
          have : (0 : ℚ) < 1 / 10 ^ 5 := by norm_num
          push_cast
          rw [h1]
          linarith
        have h10 := Int.ceil_le.mpr h9
        have : z = 1 := by omega
        rw [this]; norm_num
    · split at hc
      · cases hc
      · split at hc <;> cases hc
  · cases hc

theorem matrixCliques_hold {P : Prob} (hP : CleanRows P) {s : Info}
    (hN : s.numberIntegers = s.integerVariable.length)
    (hbk : ∀ j i : Nat, s.backward[j]? = some (some i) → s.integerVariable[i]? = some j) {x : Nat → ℚ} (hx : P.Feasible x)
    (hb : Binary s x) (rs : List Row) (hrs : ∀ r ∈ rs, r ∈ P.rows) : AllHold s x (matrixCliques s P rs) := by
  induction rs with
  | nil => intro c hc; cases hc
  | cons r rs ih =>
    have ih := ih fun r hr => hrs r (List.mem_cons_of_mem _ hr)
    unfold matrixCliques
    rcases hk : rowKind s P r with _ | _ | c
    · exact ih
    · intro c hc; cases hc
    · intro d hd
      rcases List.mem_cons.mp hd with rfl | hd
      · exact rowKind_holds hP hN hbk hx hb (hrs r List.mem_cons_self) hk
      · exact ih d hd

/-- A clique as a row. -/
theorem cliqueRow_dot (s : Info) (x : Nat → ℚ) (l : List (Nat × Bool)) :
    SVec.dot (l.map fun e => (s.integerVariable[e.1]?.getD 0, if e.2 then (1 : ℚ) else -1)) x =
      (l.map (litVal s x)).sum - (l.filter fun e => ! e.2).length := by
  induction l with
  | nil => simp
  | cons a l ih =>
    obtain ⟨i, b⟩ := a
    rw [List.map_cons, SVec.dot_cons, ih, List.map_cons, List.sum_cons]
    cases b
    · rw [List.filter_cons_of_pos (by rfl)]
      simp only [litVal, Bool.false_eq_true, if_false, List.length_cons]
      push_cast
      ring
    · rw [List.filter_cons_of_neg (by simp)]
      simp only [litVal, if_true]
      ring

theorem cliqueRow_sat {s : Info} {x : Nat → ℚ} {c : Clique} (h : c.Holds s x) {inf : ℚ} (hinf : inf ≤ dblMax) :
    (cliqueRow s c).Sat inf x := by
  unfold cliqueRow Row.Sat lbOk ubOk
  dsimp only
  rw [cliqueRow_dot]
  refine ⟨fun hl => ?_, fun _ => ?_⟩
  · by_cases he : c.eq = true
    · rw [if_pos he]
      rw [h.2 he]
    · rw [if_neg he] at hl
      linarith
  · linarith [h.1]

/-- **C49.** Let any history of implications be recorded for a problem `P` and then `analyze` be called for a problem
`Q`.  Every point that is feasible for `Q`, has 0 or 1 in the 0-1 columns of the table and for which the recorded
implications are true is feasible for the model that is returned: the rows made from cliques of the matrix, from the
table and by strengthening cut nothing off. -/
theorem analyze_keeps_points (P : Prob) (hn : P.nCols < 2 ^ 30) (calls : List Call) (s : Info)
    (hr : run (initializeFixing P) calls = some s) (Q : Prob) (hQ : CleanRows Q) (hinf : Q.inf ≤ dblMax)
    (createSolver : Bool) (extra : ℤ) (Q' : Prob) (ha : analyze s Q createSolver extra = some (some Q'))
    (x : Nat → ℚ) (hx : Q.Feasible x) (hb : Binary s x) (hc : ∀ c ∈ calls, c.Holds P x) : Q'.Feasible x := by
  have hre := run_reachable (Reachable.init (P := P)) hr
  have hcols := (reachable_inv hre).cols
  have hf := convert_fields s
  have hN : (convert s).numberIntegers = (convert s).integerVariable.length := by rw [hf.1, hf.2.2.1, hcols.ni]
  have hb' : Binary (convert s) x := by rw [Binary, hf.2.2.1]; exact hb
  have hbk : ∀ j i : Nat, (convert s).backward[j]? = some (some i) → (convert s).integerVariable[i]? = some j := by
    intro j i h
    rw [hf.2.2.2] at h
    rw [hf.2.2.1]
    have hj : j < P.nCols := by rw [← hcols.len]; exact (List.getElem?_eq_some_iff.mp h).1
    by_cases ht : colType P j = 1
    · obtain ⟨i', h1, h2⟩ := hcols.bin j hj ht
      rw [h1] at h
      cases h
      exact h2
    · rw [hcols.nonbin j hj ht] at h
      cases h
  have hres := respects_of_holds P hn calls s hr x hc
  have hpairs : PairsHold (convert s) x := by
    intro i hi up q hq hq1 hxi
    rw [hf.1] at hi hq1
    rw [hf.2.2.1] at hxi ⊢
    obtain ⟨es, h1, h2⟩ := (packDown_keeps_01 P s hre).1 i hi up
    unfold impliedPairs at hq
    rw [h1, Option.getD_some] at hq
    obtain ⟨e, he, rfl⟩ := List.mem_map.mp hq
    have hg : ∀ k, k < s.numberIntegers → s.integerVariable[k]? = some (s.integerVariable[k]?.getD 0) := by
      intro k hk
      rw [List.getElem?_eq_getElem (by rw [← hcols.ni]; exact hk), Option.getD_some]
    refine hres _ up _ (oneFixes e) ⟨i, es.filter (targets01 s), e, ?_, h2, ?_, ?_, rfl⟩ hxi
    · rw [(packDown_fields s).2.2.1]; exact hg i hi
    · exact List.mem_filter.mpr ⟨he, by simpa [targets01] using hq1⟩
    · unfold targetCol
      rw [(packDown_fields s).1, (packDown_fields s).2.2.1, if_pos hq1]
      exact hg _ hq1
  unfold analyze at ha
  split at ha
  · cases ha
  dsimp only at ha
  split at ha
  · cases ha
  split at ha
  · cases ha
  split at ha
  · cases ha
  rename_i r hro
  have h0 : AllHold (convert s) x r.cliques := by
    apply AllHold.out _ hro
    intro c hc
    rcases List.mem_append.mp hc with hc | hc
    · exact matrixCliques_hold hQ hN hbk hx hb' Q.rows (fun r h => h) c hc
    · exact twoCliques_hold hb' hN hpairs c hc
  split at ha
  · cases ha
  rename_i cs nM hpa
  have h1 := passes_hold hb' hN 20 1 h0 r.nMatrix hpa
  split at ha
  · simp only [Option.some.injEq] at ha
    subst ha
    refine ⟨?_, hx.lower, hx.upper, hx.int⟩
    intro row hrow
    obtain ⟨c, hc, rfl⟩ := List.mem_map.mp hrow
    exact cliqueRow_sat (h1 c hc).2 hinf
  · cases ha

end Cgl.TreeInfo
