import Verif.TreeInfo.Sound

/-!
# Properties of `CglTreeProbingInfo` (C07-C11)
-/

namespace Cgl.TreeInfo

/-! ## C07: clique entries encode a (column, direction) pair without loss -/

/-- A write to a clique entry. -/
inductive Write
  | column (n : Nat)
  | direction (b : Bool)

/-- The write on the 32-bit word. -/
def Write.onWord (e : CliqueEntry) : Write → CliqueEntry
  | .column n => setSequence e (BitVec.ofNat 32 n)
  | .direction b => setOneFixes e b

/-- The write on a plain (column, direction) record. -/
def Write.onPair (p : Nat × Bool) : Write → Nat × Bool
  | .column n => (n, p.2)
  | .direction b => (p.1, b)

/-- The write is of a column number that is a non-negative `int`. -/
def Write.Ok : Write → Prop
  | .column n => n < 2 ^ 31
  | .direction _ => True

/-- **C07.** After any sequence of writes, from any previous content, reading a clique entry gives what a plain
record with two independent fields would hold; and the two fields determine the word. -/
theorem cliqueEntry_is_pair (e : CliqueEntry) (ws : List Write) (h : ∀ w ∈ ws, w.Ok) :
    (sequence (ws.foldl Write.onWord e), oneFixes (ws.foldl Write.onWord e))
        = ws.foldl Write.onPair (sequence e, oneFixes e) ∧
      ∀ e' : CliqueEntry, sequence e' = sequence e → oneFixes e' = oneFixes e → e' = e := by
  refine ⟨?_, fun e' h1 h2 => entry_ext h1 h2⟩
  induction ws generalizing e with
  | nil => rfl
  | cons w ws ih =>
    simp only [List.foldl_cons]
    rw [ih (w.onWord e) (fun w' hw' => h w' (List.mem_cons_of_mem _ hw'))]
    congr 1
    have hw := h w (List.mem_cons_self ..)
    cases w with
    | column n =>
      have hn : (BitVec.ofNat 32 n).toNat = n := by
        rw [BitVec.toNat_ofNat]; exact Nat.mod_eq_of_lt (by simp only [Write.Ok] at hw; omega)
      simp only [Write.onWord, Write.onPair]
      rw [sequence_setSequence e _ (by rw [hn]; exact hw), oneFixes_setSequence e _ (by rw [hn]; exact hw), hn]
    | direction b =>
      simp only [Write.onWord, Write.onPair]
      rw [sequence_setOneFixes, oneFixes_setOneFixes]

example : ∀ w ∈ [Write.column 5, .direction true, .column 2147483647, .direction false], w.Ok := by
  simp [Write.Ok]

/-! ## C08: recorded implications are exactly the implications exposed -/

theorem integerVariable_convert (s : Info) : (convert s).integerVariable = s.integerVariable :=
  (convert_fields s).2.2.1

/-- **C08, soundness half (full).** After any history of successful `fixes` calls, every implication the ordered
tables list was recorded by one of the calls, for a 0-1 column. -/
theorem exposed_only_recorded (P : Prob) (hn : P.nCols < 2 ^ 30) (cs : List Call) (s : Info)
    (hr : run (initializeFixing P) cs = some s) (j : Nat) (up : Bool) (k : Nat) (one : Bool)
    (h : Exposed (convert s) j up k one) : colType P j = 1 ∧ ⟨j, up, k, !one⟩ ∈ cs := by
  obtain ⟨i, es, e, hi, hes, he, ht, ho⟩ := h
  have hcols := (reachable_inv (run_reachable (Reachable.init (P := P)) hr)).cols
  rw [integerVariable_convert] at hi
  obtain ⟨seg, h1, h2⟩ := exposed_run hr i j hi up
  rw [h1] at hes
  simp only [Option.some.injEq] at hes
  rw [← hes] at he
  obtain ⟨c, hc, hv, hu, htl, hce⟩ := (h2 e).mp (mem_cleanSegment_of he)
  have hd := decode hcols hn htl (!c.toLower)
  rw [← hce] at hd
  have ht' : targetCol s e = some k := by
    unfold targetCol at ht ⊢
    rw [(convert_fields s).1, (convert_fields s).2.2.1] at ht
    exact ht
  rw [hd.1] at ht'
  simp only [Option.some.injEq] at ht'
  refine ⟨(hcols.inv i j hi).2.1, ?_⟩
  have : c = ⟨j, up, k, !one⟩ := by
    cases c with
    | mk a b t l =>
      simp only at hv hu ht' hd
      rw [ho] at hd
      have := hd.2
      subst hv hu ht'
      congr 1
      rw [this]; simp
  rw [← this]; exact hc

/-- **C08, full statement with the one exception the code has.** After any history of successful `fixes` calls, the
ordered tables list for each 0-1 column and direction exactly the recorded implications, except that a recorded
"fixes column k to its lower bound" may be missing when k is not 0-1 and (number of 0-1 columns) + k =
(number of columns) + 1. Missing from the full property: that exception, which is real (`convert_loses`). -/
theorem exposed_iff_recorded_partial (P : Prob) (hn : P.nCols < 2 ^ 30) (cs : List Call) (s : Info)
    (hr : run (initializeFixing P) cs = some s) (j : Nat) (up : Bool) (k : Nat) (one : Bool) (hk : k < P.nCols)
    (hexc : ¬ (colType P k ≠ 1 ∧ s.numberIntegers + k = P.nCols + 1 ∧ one = false)) :
    Exposed (convert s) j up k one ↔ colType P j = 1 ∧ ⟨j, up, k, !one⟩ ∈ cs ∧ j < P.nCols := by
  have hcols := (reachable_inv (run_reachable (Reachable.init (P := P)) hr)).cols
  constructor
  · intro h
    have := exposed_only_recorded P hn cs s hr j up k one h
    refine ⟨this.1, this.2, ?_⟩
    obtain ⟨i, es, e, hi, _⟩ := h
    rw [integerVariable_convert] at hi
    exact (hcols.inv i j hi).1
  · rintro ⟨hj, hc, hjn⟩
    obtain ⟨i, _, hi⟩ := hcols.bin j hjn hj
    obtain ⟨seg, h1, h2⟩ := exposed_run hr i j hi up
    have hd := decode hcols hn hk one
    have hmem : mk (code s k) one ∈ seg := (h2 _).mpr ⟨_, hc, rfl, rfl, hk, by simp⟩
    have hlt := code_lt hcols hn hk
    rcases mem_cleanSegment_or (n := s.numberVariables) hmem with hm | hm
    · refine ⟨i, _, mk (code s k) one, by rw [integerVariable_convert]; exact hi, h1, hm, ?_, hd.2⟩
      have := hd.1
      unfold targetCol at this ⊢
      rw [(convert_fields s).1, (convert_fields s).2.2.1]
      exact this
    · exfalso
      have hnv := hcols.nv
      have hs1 : sequence (mk (code s k) one) = P.nCols + 1 := by
        rw [hm]
        have : (BitVec.ofNat 32 (s.numberVariables + 1)).toNat = s.numberVariables + 1 := by
          rw [BitVec.toNat_ofNat]; exact Nat.mod_eq_of_lt (by omega)
        unfold sentinel
        rw [sequence_setSequence _ _ (by rw [this]; omega), this, hnv]
      have hs2 : oneFixes (mk (code s k) one) = false := by
        rw [hm]
        have : (BitVec.ofNat 32 (s.numberVariables + 1)).toNat = s.numberVariables + 1 := by
          rw [BitVec.toNat_ofNat]; exact Nat.mod_eq_of_lt (by omega)
        unfold sentinel
        rw [oneFixes_setSequence _ _ (by rw [this]; omega)]
        decide
      rw [sequence_mk hlt] at hs1
      rw [oneFixes_mk hlt] at hs2
      have hni := filter_len_le hcols
      by_cases hct : colType P k = 1
      · obtain ⟨i', h1', h2'⟩ := hcols.bin k hk hct
        have := hcols.lt h2'
        unfold code at hs1; rw [h1'] at hs1; simp only at hs1
        omega
      · unfold code at hs1; rw [hcols.nonbin k hk hct] at hs1; simp only at hs1
        exact hexc ⟨hct, hs1, hs2⟩

/-- Two 0-1 columns and one continuous column in [0, 10]. -/
def lossProb : Prob :=
  { nCols := 3, inf := 1000, colLower := fun _ => 0, colUpper := fun j => if j = 2 then 10 else 1,
    isInt := fun j => decide (j ≠ 2), rows := [] }

/-- **C08 is false of the code**: with two 0-1 columns and one continuous column, the single recorded implication
"column 0 at zero puts column 2 at its lower bound" is accepted (the call returns true) and then lost by the
ordering, because it coincides with the duplicate filter's starting value. -/
theorem convert_loses :
    ∃ s, run (initializeFixing lossProb) [⟨0, false, 2, true⟩] = some s ∧
      implied (convert s) 0 false = some [] := by
  refine ⟨(run (initializeFixing lossProb) [⟨0, false, 2, true⟩]).get (by decide +kernel), by simp, ?_⟩
  decide +kernel

/-- Non-vacuity of C08: a history with four implications, one of them repeated. -/
example : (run (initializeFixing lossProb)
    [⟨0, false, 1, true⟩, ⟨0, true, 2, false⟩, ⟨1, true, 0, true⟩, ⟨0, false, 1, true⟩]).isSome = true ∧
    lossProb.nCols < 2 ^ 30 := by decide +kernel

/-! ## C09: packing down keeps exactly the 0-1 implications -/

/-- The entry's target is a 0-1 column. -/
def targets01 (s : Info) (e : CliqueEntry) : Bool := decide (sequence e < s.numberIntegers)

/-- **C09.** In every reachable state (collecting or already ordered), `packDown` keeps, per 0-1 column and
direction and in order, exactly the listed implications with a 0-1 target, and returns the number kept. -/
theorem packDown_keeps_01 (P : Prob) (s : Info) (h : Reachable P s) :
    (∀ i < s.numberIntegers, ∀ up, ∃ es, implied (convert s) i up = some es ∧
        implied (packDown s).1 i up = some (es.filter (targets01 s))) ∧
      (packDown s).2 = ((List.range s.numberIntegers).map fun i =>
        ((implied (packDown s).1 i false).getD []).length + ((implied (packDown s).1 i true).getD []).length).sum := by
  obtain ⟨segs, hs⟩ := (reachable_inv h).convert.2
  obtain ⟨ht, hc⟩ := packDown_table s hs
  have hlen : segs.length = s.numberIntegers := by rw [hs.1, (convert_fields s).1]
  have key : ∀ i < s.numberIntegers, ∀ t, segs[i]? = some t →
      implied (packDown s).1 i false = some (t.1.filter (targets01 s)) ∧
      implied (packDown s).1 i true = some (t.2.filter (targets01 s)) := by
    intro i hi t hg
    exact implied_of_table ht i (t.1.filter (targets01 s), t.2.filter (targets01 s))
      (by rw [List.getElem?_map, hg]; rfl)
  constructor
  · intro i hi up
    have hg : segs[i]? = some (segs[i]'(by omega)) := List.getElem?_eq_getElem (by omega)
    have h1 := implied_of_table hs i _ hg
    have h2 := key i hi _ hg
    cases up
    · exact ⟨_, h1.1, h2.1⟩
    · exact ⟨_, h1.2, h2.2⟩
  · rw [hc, List.length_flatten, List.map_map]
    congr 1
    apply List.ext_getElem
    · simp [hlen]
    · intro i h1 h2
      simp only [List.length_map] at h1
      have hg : segs[i]? = some segs[i] := List.getElem?_eq_getElem h1
      have := key i (by omega) _ hg
      simp only [List.getElem_map, Function.comp_apply, List.length_append, List.getElem_range, this.1, this.2,
        Option.getD_some]
      rfl

/-- Non-vacuity of C09: a table with an implication on a continuous column, packed down from two entries to one. -/
example : ∃ s, run (initializeFixing lossProb) [⟨0, true, 1, true⟩, ⟨0, true, 2, false⟩] = some s ∧
    (packDown s).2 = 1 := by
  refine ⟨(run (initializeFixing lossProb) [⟨0, true, 1, true⟩, ⟨0, true, 2, false⟩]).get (by decide +kernel),
    by simp, ?_⟩
  decide +kernel

/-! ## C10: fixing columns from implications never removes a feasible point -/

/-- A point for which all recorded implications are true respects the packed table. -/
theorem respects_of_holds (P : Prob) (hn : P.nCols < 2 ^ 30) (cs : List Call) (s : Info)
    (hr : run (initializeFixing P) cs = some s) (x : Nat → ℚ) (hx : ∀ c ∈ cs, c.Holds P x) :
    Respects (packDown s).1 x := by
  have hre := run_reachable (Reachable.init (P := P)) hr
  have hcols := (reachable_inv hre).cols
  intro j up k one h hj
  obtain ⟨i, es, e, hi, hes, he, ht, ho⟩ := h
  rw [(packDown_fields s).2.2.1] at hi
  have hin : i < s.numberIntegers := hcols.lt hi
  obtain ⟨es', h1, h2⟩ := (packDown_keeps_01 P s hre).1 i hin up
  rw [h2] at hes
  simp only [Option.some.injEq] at hes
  rw [← hes, List.mem_filter] at he
  have hseq : sequence e < s.numberIntegers := by simpa [targets01] using he.2
  have ht2 : s.integerVariable[sequence e]? = some k := by
    unfold targetCol at ht
    rw [(packDown_fields s).1, (packDown_fields s).2.2.1, if_pos hseq] at ht
    exact ht
  have hex : Exposed (convert s) j up k one := by
    refine ⟨i, es', e, by rw [integerVariable_convert]; exact hi, h1, he.1, ?_, ho⟩
    unfold targetCol
    rw [(convert_fields s).1, integerVariable_convert, if_pos hseq]
    exact ht2
  have hrec := exposed_only_recorded P hn cs s hr j up k one hex
  have := hx _ hrec.2 hj
  rw [if_pos (hcols.inv _ _ ht2).2.1] at this
  simpa using this

theorem packDown_ni (s : Info) (P : Prob) (h : Cols P s) :
    (packDown s).1.numberIntegers = (packDown s).1.integerVariable.length := by
  rw [(packDown_fields s).1, (packDown_fields s).2.2.1, h.ni]

/-- **C10, all-columns form.** Record any history of implications, pack the table, and call `fixColumns` with any
current bounds inside [0,1] on the 0-1 columns. The call is defined; every 0-1 point within the bounds for which
the recorded implications are true is within the new bounds; and a return of -1 means there is no such point. -/
theorem fixColumns_sound (P : Prob) (hn : P.nCols < 2 ^ 30) (cs : List Call) (s : Info)
    (hr : run (initializeFixing P) cs = some s) (lower upper : Nat → ℚ)
    (hbd : ∀ j < P.nCols, colType P j = 1 → 0 ≤ lower j ∧ upper j ≤ 1) :
    ∃ lower' upper' n, fixColumns (packDown s).1 lower upper = some (lower', upper', n) ∧
      ∀ x : Nat → ℚ, (∀ c ∈ cs, c.Holds P x) → (∀ j < P.nCols, colType P j = 1 → x j = 0 ∨ x j = 1) →
        Within lower upper x → Within lower' upper' x ∧ n ≠ -1 := by
  have hre := run_reachable (Reachable.init (P := P)) hr
  have hcols := (reachable_inv hre).cols
  have hni := packDown_ni s P hcols
  obtain ⟨st', hst⟩ := fixLoop_def hni (packDown_allBinary hre) (packDown s).1.numberIntegers 0 (by omega)
    ⟨lower, upper, 0, true⟩
  refine ⟨st'.lower, st'.upper, _, by unfold fixColumns; rw [hst], ?_⟩
  intro x hx hb hw
  have hmem : ∀ k ∈ (packDown s).1.integerVariable, k < P.nCols ∧ colType P k = 1 := by
    intro k hk
    rw [(packDown_fields s).2.2.1] at hk
    obtain ⟨i, hi⟩ := List.getElem?_of_mem hk
    exact ⟨(hcols.inv i k hi).1, (hcols.inv i k hi).2.1⟩
  have hinv := fixLoop_inv hni (respects_of_holds P hn cs s hr x hx)
    (fun k hk => hb k (hmem k hk).1 (hmem k hk).2) _ 0
    (st := ⟨lower, upper, 0, true⟩)
    ⟨hw, rfl, le_refl _, fun k hk => (hbd k (hmem k hk).1 (hmem k hk).2).1,
      fun k hk => (hbd k (hmem k hk).1 (hmem k hk).2).2⟩ hst
  refine ⟨hinv.within, ?_⟩
  simp only [hinv.feas, if_true]
  have := hinv.count
  omega

/-- **C10, one-variable form.** As `fixColumns_sound`, for points with the given value in the given 0-1 column. -/
theorem fixColumnsOne_sound (P : Prob) (hn : P.nCols < 2 ^ 30) (cs : List Call) (s : Info)
    (hr : run (initializeFixing P) cs = some s) (lower upper : Nat → ℚ)
    (hbd : ∀ j < P.nCols, colType P j = 1 → 0 ≤ lower j ∧ upper j ≤ 1) (iColumn : Nat) (hi : iColumn < P.nCols)
    (value : Bool) :
    ∃ lower' upper' n, fixColumnsOne (packDown s).1 iColumn value lower upper = some (lower', upper', n) ∧
      ∀ x : Nat → ℚ, (∀ c ∈ cs, c.Holds P x) → x iColumn = bit value →
        Within lower upper x → Within lower' upper' x ∧ n ≠ -1 := by
  have hre := run_reachable (Reachable.init (P := P)) hr
  have hcols := (reachable_inv hre).cols
  have hni := packDown_ni s P hcols
  have hbw := (packDown_fields s).2.2.2
  by_cases hc : colType P iColumn = 1
  · obtain ⟨i, h1, h2⟩ := hcols.bin iColumn hi hc
    have hin : i < (packDown s).1.numberIntegers := by rw [(packDown_fields s).1]; exact hcols.lt h2
    obtain ⟨es, h3, h4⟩ := packDown_allBinary hre i hin value
    obtain ⟨st', hst⟩ := fixEntries_def hni es ⟨lower, upper, 0, true⟩ h4
    obtain ⟨segs, hsg⟩ := (reachable_inv hre).convert.2
    have hph := (packDown_table s hsg).1.2
    refine ⟨st'.lower, st'.upper, if st'.feasible then st'.nFix else -1, ?_, ?_⟩
    · unfold fixColumnsOne
      rw [hbw, h1]
      simp only [hph, h3, hst]
    intro x hx hxv hw
    have hmem : ∀ k ∈ (packDown s).1.integerVariable, k < P.nCols ∧ colType P k = 1 := by
      intro k hk
      rw [(packDown_fields s).2.2.1] at hk
      obtain ⟨i, hi⟩ := List.getElem?_of_mem hk
      exact ⟨(hcols.inv i k hi).1, (hcols.inv i k hi).2.1⟩
    have hinv := fixEntries_inv (x := x) (st := ⟨lower, upper, 0, true⟩)
      ⟨hw, rfl, le_refl _, fun k hk => (hbd k (hmem k hk).1 (hmem k hk).2).1,
        fun k hk => (hbd k (hmem k hk).1 (hmem k hk).2).2⟩
      (entryTrue_of_respects hni (respects_of_holds P hn cs s hr x hx)
        (by rw [(packDown_fields s).2.2.1]; exact h2) h3 hxv) hst
    refine ⟨hinv.within, ?_⟩
    simp only [hinv.feas, if_true]
    have := hinv.count
    omega
  · refine ⟨lower, upper, 0, ?_, fun x _ _ hw => ⟨hw, by omega⟩⟩
    unfold fixColumnsOne
    rw [hbw, hcols.nonbin iColumn hi hc]

/-- Non-vacuity of C10: two chained implications; column 0 already at one. The table gives two more fixings, and
the point (1, 0, 1, …) meets every hypothesis. -/
def chainProb : Prob :=
  { nCols := 3, inf := 1000, colLower := fun _ => 0, colUpper := fun _ => 1, isInt := fun _ => true, rows := [] }

example : ∃ s, run (initializeFixing chainProb) [⟨0, true, 1, true⟩, ⟨1, false, 2, false⟩] = some s ∧
    (fixColumns (packDown s).1 (fun j => if j = 0 then 1 else 0) (fun _ => 1)).map (fun r => r.2.2) = some 2 ∧
    (∀ c ∈ ([⟨0, true, 1, true⟩, ⟨1, false, 2, false⟩] : List Call), c.Holds chainProb (fun j => if j = 1 then 0 else 1)) := by
  refine ⟨(run (initializeFixing chainProb) [⟨0, true, 1, true⟩, ⟨1, false, 2, false⟩]).get (by decide +kernel),
    by simp, ?_, ?_⟩ <;> decide +kernel

/-! ## C11: implication cuts and fixings from the probing table are valid -/

/-- **C11.** Record any history of implications, pack the table, and call `generateCuts` with current bounds in
{0,1} on the 0-1 columns and any LP solution. The call is defined, and every new row cut
and column cut is satisfied by every 0-1 point within the bounds for which the recorded implications are true. As
no point satisfies the infeasible cut (`infeasibleCut_unsat`), that cut appears only if there is no such point. -/
theorem generateCuts_valid (P : Prob) (hn : P.nCols < 2 ^ 30) (cs : List Call) (s : Info)
    (hr : run (initializeFixing P) cs = some s) (lower upper sol : Nat → ℚ)
    (hbd : ∀ j < P.nCols, colType P j = 1 → (lower j = 0 ∨ lower j = 1) ∧ (upper j = 0 ∨ upper j = 1))
    (rcs : List RowCut) (ccs : List ColCut) :
    ∃ rcs' ccs', generateCuts (packDown s).1 lower upper sol rcs ccs = some (rcs', ccs') ∧
      ∀ x : Nat → ℚ, (∀ c ∈ cs, c.Holds P x) → (∀ j < P.nCols, colType P j = 1 → x j = 0 ∨ x j = 1) →
        Within lower upper x →
        (∀ c ∈ rcs', c ∈ rcs ∨ c.Sat x) ∧ (∀ c ∈ ccs', c ∈ ccs ∨ c.Sat x) := by
  have hre := run_reachable (Reachable.init (P := P)) hr
  have hcols := (reachable_inv hre).cols
  have hni := packDown_ni s P hcols
  obtain ⟨⟨g, stop⟩, hg⟩ := genLoop_def hni (packDown_allBinary hre) lower upper sol
    (packDown s).1.numberIntegers 0 (by omega) ⟨rcs, [], [], fun _ => false, fun _ => false, 0⟩
  have hdef : ∃ rcs' ccs', generateCuts (packDown s).1 lower upper sol rcs ccs = some (rcs', ccs') := by
    unfold generateCuts
    rw [hg]
    cases stop
    · simp only; split
      · split
        · exact ⟨_, _, rfl⟩
        · exact ⟨_, _, rfl⟩
      · exact ⟨_, _, rfl⟩
    · exact ⟨_, _, rfl⟩
  obtain ⟨rcs', ccs', hgen⟩ := hdef
  refine ⟨rcs', ccs', hgen, ?_⟩
  intro x hx hb hw
  have hmem : ∀ k ∈ (packDown s).1.integerVariable, k < P.nCols ∧ colType P k = 1 := by
    intro k hk
    rw [(packDown_fields s).2.2.1] at hk
    obtain ⟨i, hi⟩ := List.getElem?_of_mem hk
    exact ⟨(hcols.inv i k hi).1, (hcols.inv i k hi).2.1⟩
  have hinv := genLoop_ok (rcs := rcs) hni (respects_of_holds P hn cs s hr x hx)
    (fun k hk => hb k (hmem k hk).1 (hmem k hk).2) hw (fun k hk => hbd k (hmem k hk).1 (hmem k hk).2) _ 0
    (g := ⟨rcs, [], [], fun _ => false, fun _ => false, 0⟩)
    ⟨fun c hc => Or.inl hc, by simp, by simp, by simp, by simp⟩ hg
  obtain ⟨hinv, rfl⟩ := hinv
  unfold generateCuts at hgen
  rw [hg] at hgen
  simp only at hgen
  split at hgen
  · split at hgen
    · simp only [Option.some.injEq, Prod.mk.injEq] at hgen
      obtain ⟨rfl, rfl⟩ := hgen
      refine ⟨hinv.cuts, ?_⟩
      intro c hc
      rcases List.mem_append.mp hc with hc | hc
      · exact Or.inl hc
      · rw [List.mem_singleton.mp hc]; exact Or.inr ⟨hinv.lbs, hinv.ubs⟩
    · rename_i hall
      exfalso
      apply hall
      rw [List.all_eq_true]
      intro i _
      by_contra hcon
      simp only [Bool.not_eq_true, Bool.not_eq_false', Bool.and_eq_true] at hcon
      obtain ⟨k, hk, h1⟩ := hinv.one i hcon.1
      obtain ⟨k', hk', h0⟩ := hinv.zer i hcon.2
      rw [hk] at hk'
      simp only [Option.some.injEq] at hk'
      rw [← hk', h1] at h0
      norm_num at h0
  · simp only [Option.some.injEq, Prod.mk.injEq] at hgen
    obtain ⟨rfl, rfl⟩ := hgen
    exact ⟨hinv.cuts, fun c hc => Or.inl hc⟩

/-- No point satisfies the infeasible cut. -/
theorem infeasibleCut_unsat (x : Nat → ℚ) : ¬ infeasibleCut.Sat x := by
  intro h
  have h1 := h.1
  have hp := dblMax_pos
  simp only [infeasibleCut, lbOk, SVec.dot_nil] at h1
  have := h1 (by linarith)
  linarith

/-- Non-vacuity of C11: the LP point (0.9, 0.9, 0.2) violates both recorded implications. -/
example : ∃ s, run (initializeFixing chainProb) [⟨0, true, 1, true⟩, ⟨1, true, 2, false⟩] = some s ∧
    (generateCuts (packDown s).1 (fun _ => 0) (fun _ => 1) (fun j => if j = 2 then 1/5 else 9/10) [] []).map
      (fun r => r.1.map (fun c => c.row)) = some [[(0, 1), (1, 1)], [(1, 1), (2, -1)]] ∧
    (∀ c ∈ ([⟨0, true, 1, true⟩, ⟨1, true, 2, false⟩] : List Call), c.Holds chainProb (fun j => if j = 1 then 0 else 1)) := by
  refine ⟨(run (initializeFixing chainProb) [⟨0, true, 1, true⟩, ⟨1, true, 2, false⟩]).get (by decide +kernel),
    by simp, ?_, ?_⟩ <;> decide +kernel

end Cgl.TreeInfo
