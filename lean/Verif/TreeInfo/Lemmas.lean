import Verif.TreeInfo.Bits

/-!
# Helper lemmas for `CglTreeProbingInfo`: the table built by `convert` and compacted by `packDown`
-/

namespace Cgl.TreeInfo

/-! ### Abstract table -/

/-- Arrays describing a list of (to zero, to one) segments, written from position `put`. -/
def mkTable : List (List CliqueEntry × List CliqueEntry) → Nat → List Nat × List Nat × List CliqueEntry
  | [], _ => ([], [], [])
  | s :: ss, put =>
    let p0 := put + s.1.length
    let p1 := p0 + s.2.length
    let r := mkTable ss p1
    (p0 :: r.1, p1 :: r.2.1, s.1 ++ s.2 ++ r.2.2)

theorem mkTable_length (segs : List (List CliqueEntry × List CliqueEntry)) (put : Nat) :
    (mkTable segs put).1.length = segs.length ∧ (mkTable segs put).2.1.length = segs.length := by
  induction segs generalizing put with
  | nil => simp [mkTable]
  | cons s ss ih => simp [mkTable, ih]

theorem slice_mid {α : Type} (a b c : List α) : slice (a ++ b ++ c) a.length (a.length + b.length) = b := by
  unfold slice
  rw [List.append_assoc, List.drop_left, Nat.add_sub_cancel_left, List.take_left]

theorem mkTable_slice (segs : List (List CliqueEntry × List CliqueEntry)) (pre : List CliqueEntry) (i : Nat)
    (s : List CliqueEntry × List CliqueEntry) (hi : segs[i]? = some s) :
    ∃ a b c, (pre.length :: (mkTable segs pre.length).2.1)[i]? = some a ∧
      (mkTable segs pre.length).1[i]? = some b ∧ (mkTable segs pre.length).2.1[i]? = some c ∧
      slice (pre ++ (mkTable segs pre.length).2.2) a b = s.1 ∧
      slice (pre ++ (mkTable segs pre.length).2.2) b c = s.2 := by
  induction segs generalizing pre i with
  | nil => simp at hi
  | cons t ts ih =>
    cases i with
    | zero =>
      simp only [List.getElem?_cons_zero, Option.some.injEq] at hi
      subst hi
      refine ⟨pre.length, pre.length + t.1.length, pre.length + t.1.length + t.2.length, rfl, rfl, rfl, ?_, ?_⟩
      · simp only [mkTable]
        have := slice_mid pre t.1 (t.2 ++ (mkTable ts (pre.length + t.1.length + t.2.length)).2.2)
        simpa [List.append_assoc] using this
      · simp only [mkTable]
        have := slice_mid (pre ++ t.1) t.2 ((mkTable ts (pre.length + t.1.length + t.2.length)).2.2)
        simpa [List.append_assoc] using this
    | succ i =>
      simp only [List.getElem?_cons_succ] at hi
      obtain ⟨a, b, c, h1, h2, h3, h4, h5⟩ := ih (pre ++ t.1 ++ t.2) i hi
      have hl : (pre ++ t.1 ++ t.2).length = pre.length + t.1.length + t.2.length := by simp [Nat.add_assoc]
      rw [hl] at h1 h2 h3 h4 h5
      refine ⟨a, b, c, ?_, ?_, ?_, ?_, ?_⟩
      · simp only [mkTable, List.getElem?_cons_succ]; exact h1
      · simp only [mkTable, List.getElem?_cons_succ]; exact h2
      · simp only [mkTable, List.getElem?_cons_succ]; exact h3
      · simp only [mkTable]; simpa [List.append_assoc] using h4
      · simp only [mkTable]; simpa [List.append_assoc] using h5

/-- The state's table is the one of these segments. -/
def HasTable (s : Info) (segs : List (List CliqueEntry × List CliqueEntry)) : Prop :=
  segs.length = s.numberIntegers ∧
    s.phase = .ordered (0 :: (mkTable segs 0).2.1) (mkTable segs 0).1 (mkTable segs 0).2.2

theorem implied_of_table {s : Info} {segs} (h : HasTable s segs) (i : Nat)
    (t : List CliqueEntry × List CliqueEntry) (hi : segs[i]? = some t) :
    implied s i false = some t.1 ∧ implied s i true = some t.2 := by
  obtain ⟨a, b, c, h1, h2, h3, h4, h5⟩ := mkTable_slice segs [] i t hi
  simp only [List.length_nil, List.nil_append] at h1 h2 h3 h4 h5
  unfold implied
  rw [h.2]
  constructor
  · simp only [Bool.false_eq_true, if_false, h1, h2, h4]
  · simp only [if_true, List.getElem?_cons_succ, h2, h3, h5]

/-! ### `convert` -/

theorem dedup_sublist (t : CliqueEntry) (l : List CliqueEntry) : (dedup t l).Sublist l := by
  induction l generalizing t with
  | nil => simp [dedup]
  | cons e es ih =>
    unfold dedup
    split
    · exact (ih e).cons_cons e
    · exact (ih t).cons e

theorem mem_dedup_or {t e : CliqueEntry} {l : List CliqueEntry} (h : e ∈ l) : e ∈ dedup t l ∨ e = t := by
  induction l generalizing t with
  | nil => cases h
  | cons a as ih =>
    unfold dedup
    split
    · left
      rcases List.mem_cons.mp h with rfl | h
      · exact List.mem_cons_self ..
      · rcases ih (t := a) h with h | h
        · exact List.mem_cons_of_mem _ h
        · rw [h]; exact List.mem_cons_self ..
    · rename_i hc
      simp only [ne_eq, not_or, not_not, Bool.not_eq_true] at hc
      have hta : t = a := entry_ext hc.1 (by rw [hc.2.1, hc.2.2])
      rcases List.mem_cons.mp h with rfl | h
      · exact Or.inr hta.symm
      · exact ih h

theorem mem_cleanSegment_of {n : Nat} {seg : List CliqueEntry} {e : CliqueEntry}
    (h : e ∈ cleanSegment n seg) : e ∈ seg := by
  have := (dedup_sublist _ _).subset h
  exact (List.perm_insertionSort ..).mem_iff.mp this

theorem mem_cleanSegment_or {n : Nat} {seg : List CliqueEntry} {e : CliqueEntry} (h : e ∈ seg) :
    e ∈ cleanSegment n seg ∨ e = sentinel n := by
  apply mem_dedup_or
  exact (List.perm_insertionSort ..).mem_iff.mpr h

/-- The cleaned segments of columns `v, v+1, …`. -/
def convSegs (nv : Nat) : Nat → Nat → List (Nat × CliqueEntry) → List (List CliqueEntry × List CliqueEntry)
  | 0, _, _ => []
  | fuel + 1, v, rest =>
    let seg0 := rest.takeWhile (fun p => decide (p.1 / 2 = v ∧ p.1 % 2 = 0))
    let rest0 := rest.dropWhile (fun p => decide (p.1 / 2 = v ∧ p.1 % 2 = 0))
    let seg1 := rest0.takeWhile (fun p => decide (p.1 / 2 = v))
    let rest1 := rest0.dropWhile (fun p => decide (p.1 / 2 = v))
    (cleanSegment nv (seg0.map Prod.snd), cleanSegment nv (seg1.map Prod.snd)) :: convSegs nv fuel (v + 1) rest1

theorem convertLoop_eq (nv fuel v : Nat) (rest : List (Nat × CliqueEntry)) (put : Nat) :
    convertLoop nv fuel v rest put = mkTable (convSegs nv fuel v rest) put := by
  induction fuel generalizing v rest put with
  | zero => simp [convertLoop, convSegs, mkTable]
  | succ n ih => simp only [convertLoop, convSegs, mkTable, ih]

theorem convSegs_length (nv fuel v : Nat) (rest : List (Nat × CliqueEntry)) :
    (convSegs nv fuel v rest).length = fuel := by
  induction fuel generalizing v rest with
  | zero => rfl
  | succ n ih => simp [convSegs, ih]

theorem takeWhile_key {l : List (Nat × CliqueEntry)} {m : Nat} {q : Nat × CliqueEntry → Bool}
    (hs : l.Pairwise (fun a b => a.1 ≤ b.1)) (hm : ∀ p ∈ l, m ≤ p.1)
    (hq : ∀ p ∈ l, q p = decide (p.1 = m)) :
    l.takeWhile q = l.filter (fun p => decide (p.1 = m)) ∧
      l.dropWhile q = l.filter (fun p => decide (m < p.1)) := by
  induction l with
  | nil => simp
  | cons a as ih =>
    have ih' := ih (List.Pairwise.of_cons hs) (fun p hp => hm p (List.mem_cons_of_mem _ hp))
      (fun p hp => hq p (List.mem_cons_of_mem _ hp))
    have hqa := hq a (List.mem_cons_self ..)
    by_cases h : a.1 = m
    · rw [List.takeWhile_cons, List.dropWhile_cons, hqa]
      simp only [h, decide_true, if_true]
      rw [List.filter_cons, List.filter_cons, ih'.1, ih'.2]
      simp [h]
    · have hlt : m < a.1 := by have := hm a (List.mem_cons_self ..); omega
      have hall : ∀ p ∈ as, a.1 ≤ p.1 := fun p hp => List.rel_of_pairwise_cons hs hp
      rw [List.takeWhile_cons, List.dropWhile_cons, hqa]
      have h1 : decide (a.1 = m) = false := by simp [h]
      rw [h1]
      simp only [Bool.false_eq_true, if_false]
      constructor
      · symm
        rw [List.filter_eq_nil_iff]
        intro p hp
        rcases List.mem_cons.mp hp with rfl | hp
        · simp [h]
        · have := hall p hp; simp; omega
      · symm
        rw [List.filter_eq_self]
        intro p hp
        rcases List.mem_cons.mp hp with rfl | hp
        · simp [hlt]
        · have := hall p hp; simp; omega

/-- What each segment of `convert` contains. -/
theorem convSegs_spec (nv fuel v : Nat) (rest : List (Nat × CliqueEntry))
    (hs : rest.Pairwise (fun a b => a.1 ≤ b.1)) (hge : ∀ p ∈ rest, 2 * v ≤ p.1) (i : Nat) (hi : i < fuel) :
    ∃ s0 s1, (convSegs nv fuel v rest)[i]? = some (cleanSegment nv s0, cleanSegment nv s1) ∧
      (∀ e, e ∈ s0 ↔ (2 * (v + i), e) ∈ rest) ∧ (∀ e, e ∈ s1 ↔ (2 * (v + i) + 1, e) ∈ rest) := by
  induction fuel generalizing v rest i with
  | zero => omega
  | succ n ih =>
    obtain ⟨t0, d0⟩ := takeWhile_key (m := 2 * v) (q := fun p => decide (p.1 / 2 = v ∧ p.1 % 2 = 0)) hs hge
      (by intro p hp; simp only [decide_eq_decide]; omega)
    set rest0 := rest.dropWhile (fun p => decide (p.1 / 2 = v ∧ p.1 % 2 = 0)) with hrest0
    have hs0 : rest0.Pairwise (fun a b => a.1 ≤ b.1) := by
      rw [d0]; exact hs.sublist List.filter_sublist
    have hge0 : ∀ p ∈ rest0, 2 * v + 1 ≤ p.1 := by
      intro p hp; rw [d0, List.mem_filter] at hp
      have := hp.2; simp at this; omega
    obtain ⟨t1, d1⟩ := takeWhile_key (m := 2 * v + 1) (q := fun p => decide (p.1 / 2 = v)) hs0 hge0
      (by intro p hp; have := hge0 p hp; simp only [decide_eq_decide]; omega)
    cases i with
    | zero =>
      refine ⟨_, _, by simp only [convSegs, List.getElem?_cons_zero]; rfl, ?_, ?_⟩
      · intro e
        rw [t0]
        simp only [List.mem_map, List.mem_filter, decide_eq_true_eq, Nat.add_zero]
        constructor
        · rintro ⟨p, ⟨h1, h2⟩, rfl⟩; rw [← h2]; exact h1
        · intro h; exact ⟨_, ⟨h, rfl⟩, rfl⟩
      · intro e
        rw [t1, d0]
        simp only [List.mem_map, List.mem_filter, decide_eq_true_eq, Nat.add_zero]
        constructor
        · rintro ⟨p, ⟨⟨h0, _⟩, h2⟩, rfl⟩; rw [← h2]; exact h0
        · intro h; exact ⟨_, ⟨⟨h, by simp⟩, rfl⟩, rfl⟩
    | succ i =>
      have hs1 : (rest0.dropWhile (fun p => decide (p.1 / 2 = v))).Pairwise (fun a b => a.1 ≤ b.1) := by
        rw [d1]; exact hs0.sublist List.filter_sublist
      have hge1 : ∀ p ∈ rest0.dropWhile (fun p => decide (p.1 / 2 = v)), 2 * (v + 1) ≤ p.1 := by
        intro p hp; rw [d1, List.mem_filter] at hp
        have := hp.2; simp at this; omega
      obtain ⟨s0, s1, e1, e2, e3⟩ := ih (v + 1) _ hs1 hge1 i (by omega)
      have hmem : ∀ k e, 2 * (v + 1) ≤ k →
          ((k, e) ∈ rest0.dropWhile (fun p => decide (p.1 / 2 = v)) ↔ (k, e) ∈ rest) := by
        intro k e hk
        rw [d1, List.mem_filter, d0, List.mem_filter]
        constructor
        · exact fun h => h.1.1
        · intro h
          refine ⟨⟨h, ?_⟩, ?_⟩ <;> simp <;> omega
      refine ⟨s0, s1, ?_, ?_, ?_⟩
      · simp only [convSegs, List.getElem?_cons_succ]; exact e1
      · intro e
        rw [e2, hmem _ _ (by omega)]
        have : v + 1 + i = v + (i + 1) := by omega
        rw [this]
      · intro e
        rw [e3, hmem _ _ (by omega)]
        have : v + 1 + i = v + (i + 1) := by omega
        rw [this]

/-- The sorted pairs `convert` works on. -/
theorem sorted_pairs (l : List (Nat × CliqueEntry)) :
    (l.insertionSort (fun a b => a.1 ≤ b.1)).Pairwise (fun a b => a.1 ≤ b.1) := by
  have : Std.Total (fun a b : Nat × CliqueEntry => a.1 ≤ b.1) := ⟨fun a b => Nat.le_total _ _⟩
  have : IsTrans (Nat × CliqueEntry) (fun a b => a.1 ≤ b.1) := ⟨fun a b c h1 h2 => Nat.le_trans h1 h2⟩
  exact List.pairwise_insertionSort _ l

theorem convert_table (s : Info) (entries : List (Nat × CliqueEntry)) (hp : s.phase = .collecting entries) :
    ∃ segs, HasTable (convert s) segs ∧
      ∀ i < s.numberIntegers, ∃ s0 s1,
        segs[i]? = some (cleanSegment s.numberVariables s0, cleanSegment s.numberVariables s1) ∧
        (∀ e, e ∈ s0 ↔ (2 * i, e) ∈ entries) ∧ (∀ e, e ∈ s1 ↔ (2 * i + 1, e) ∈ entries) := by
  refine ⟨convSegs s.numberVariables s.numberIntegers 0 (entries.insertionSort (fun a b => a.1 ≤ b.1)), ?_, ?_⟩
  · unfold HasTable convert
    rw [hp]
    simp only [convertLoop_eq, convSegs_length, and_self]
  · intro i hi
    obtain ⟨s0, s1, h1, h2, h3⟩ := convSegs_spec s.numberVariables s.numberIntegers 0 _ (sorted_pairs entries)
      (fun p _ => by omega) i hi
    refine ⟨s0, s1, h1, ?_, ?_⟩
    · intro e; rw [h2, Nat.zero_add, (List.perm_insertionSort ..).mem_iff]
    · intro e; rw [h3, Nat.zero_add, (List.perm_insertionSort ..).mem_iff]

theorem convert_fields (s : Info) : (convert s).numberIntegers = s.numberIntegers ∧
    (convert s).numberVariables = s.numberVariables ∧ (convert s).integerVariable = s.integerVariable ∧
    (convert s).backward = s.backward := by
  unfold convert
  cases s.phase <;> simp

theorem convert_of_table {s : Info} {segs} (h : HasTable s segs) : convert s = s := by
  unfold convert; rw [h.2]

/-! ### `packDown` -/

theorem packLoop_eq (N : Nat) (segs : List (List CliqueEntry × List CliqueEntry)) (pre : List CliqueEntry)
    (iPut : Nat) :
    packLoop N (pre ++ (mkTable segs pre.length).2.2) (mkTable segs pre.length).1 (mkTable segs pre.length).2.1
        pre.length iPut
      = mkTable (segs.map fun t => (t.1.filter (fun e => decide (sequence e < N)),
          t.2.filter (fun e => decide (sequence e < N)))) iPut := by
  induction segs generalizing pre iPut with
  | nil => simp [packLoop, mkTable]
  | cons t ts ih =>
    have e1 : slice (pre ++ (t.1 ++ t.2 ++ (mkTable ts (pre.length + t.1.length + t.2.length)).2.2))
        pre.length (pre.length + t.1.length) = t.1 := by
      have := slice_mid pre t.1 (t.2 ++ (mkTable ts (pre.length + t.1.length + t.2.length)).2.2)
      simpa [List.append_assoc] using this
    have e2 : slice (pre ++ (t.1 ++ t.2 ++ (mkTable ts (pre.length + t.1.length + t.2.length)).2.2))
        (pre.length + t.1.length) (pre.length + t.1.length + t.2.length) = t.2 := by
      have := slice_mid (pre ++ t.1) t.2 ((mkTable ts (pre.length + t.1.length + t.2.length)).2.2)
      simpa [List.append_assoc] using this
    have hl : (pre ++ t.1 ++ t.2).length = pre.length + t.1.length + t.2.length := by simp [Nat.add_assoc]
    have ih' := ih (pre ++ t.1 ++ t.2)
    rw [hl] at ih'
    simp only [mkTable, packLoop, List.map_cons]
    rw [e1, e2]
    have hre : pre ++ (t.1 ++ t.2 ++ (mkTable ts (pre.length + t.1.length + t.2.length)).2.2)
        = pre ++ t.1 ++ t.2 ++ (mkTable ts (pre.length + t.1.length + t.2.length)).2.2 := by
      simp [List.append_assoc]
    rw [hre, ih']

theorem mkTable_total (segs : List (List CliqueEntry × List CliqueEntry)) (put : Nat) :
    (mkTable segs put).2.2 = (segs.map fun t => t.1 ++ t.2).flatten := by
  induction segs generalizing put with
  | nil => rfl
  | cons t ts ih => simp [mkTable, ih]

theorem packDown_table (s : Info) {segs} (h : HasTable (convert s) segs) :
    HasTable (packDown s).1 (segs.map fun t => (t.1.filter (fun e => decide (sequence e < s.numberIntegers)),
          t.2.filter (fun e => decide (sequence e < s.numberIntegers)))) ∧
      (packDown s).2 = ((segs.map fun t => (t.1.filter (fun e => decide (sequence e < s.numberIntegers)) ++
          t.2.filter (fun e => decide (sequence e < s.numberIntegers)))).flatten).length := by
  have hp := packLoop_eq s.numberIntegers segs [] 0
  simp only [List.nil_append, List.length_nil] at hp
  generalize hq : (segs.map fun t => (t.1.filter (fun e => decide (sequence e < s.numberIntegers)),
          t.2.filter (fun e => decide (sequence e < s.numberIntegers)))) = q at hp ⊢
  have hpd : packDown s = ({ convert s with phase := .ordered (0 :: (mkTable q 0).2.1) (mkTable q 0).1 (mkTable q 0).2.2 },
      (mkTable q 0).2.2.length) := by
    unfold packDown
    rw [h.2]
    simp only [List.tail_cons, List.take_succ_cons, List.take_zero, hp, List.cons_append, List.nil_append]
  rw [hpd]
  refine ⟨⟨?_, rfl⟩, ?_⟩
  · rw [← hq, List.length_map]; exact h.1
  · simp only [mkTable_total, ← hq, List.map_map, Function.comp_def]

/-! ### Columns -/

theorem scanColumns_spec (P : Prob) (fuel k n : Nat) :
    (scanColumns P fuel k n).2.length = fuel ∧
    (∀ j < fuel, if colType P (k + j) = 1 then
        ∃ i, (scanColumns P fuel k n).2[j]? = some (some (n + i)) ∧ (scanColumns P fuel k n).1[i]? = some (k + j)
      else (scanColumns P fuel k n).2[j]? = some none) ∧
    (∀ i c, (scanColumns P fuel k n).1[i]? = some c → ∃ j < fuel, c = k + j ∧ colType P c = 1 ∧
      (scanColumns P fuel k n).2[j]? = some (some (n + i))) := by
  induction fuel generalizing k n with
  | zero => simp [scanColumns]
  | succ f ih =>
    by_cases h : colType P k = 1
    · have hu : scanColumns P (f + 1) k n =
          (k :: (scanColumns P f (k + 1) (n + 1)).1, some n :: (scanColumns P f (k + 1) (n + 1)).2) := by
        rw [scanColumns, if_pos h]
      obtain ⟨i1, i2, i3⟩ := ih (k + 1) (n + 1)
      rw [hu]
      refine ⟨by simp [i1], ?_, ?_⟩
      · intro j hj
        cases j with
        | zero => simp only [Nat.add_zero, h, if_true]; exact ⟨0, rfl, rfl⟩
        | succ j =>
          have := i2 j (by omega)
          have hk : k + 1 + j = k + (j + 1) := by omega
          rw [hk] at this
          split
          · rename_i hc
            rw [if_pos hc] at this
            obtain ⟨i, h1, h2⟩ := this
            refine ⟨i + 1, ?_, ?_⟩
            · simp only [List.getElem?_cons_succ, h1]; congr 2; omega
            · simp only [List.getElem?_cons_succ, h2]
          · rename_i hc
            rw [if_neg hc] at this
            simp only [List.getElem?_cons_succ, this]
      · intro i c hc
        cases i with
        | zero =>
          simp only [List.getElem?_cons_zero, Option.some.injEq] at hc
          subst hc
          exact ⟨0, by omega, rfl, h, rfl⟩
        | succ i =>
          simp only [List.getElem?_cons_succ] at hc
          obtain ⟨j, h1, h2, h3, h4⟩ := i3 i c hc
          refine ⟨j + 1, by omega, by omega, h3, ?_⟩
          simp only [List.getElem?_cons_succ, h4]; congr 2; omega
    · have hu : scanColumns P (f + 1) k n =
          ((scanColumns P f (k + 1) n).1, none :: (scanColumns P f (k + 1) n).2) := by
        rw [scanColumns, if_neg h]
      obtain ⟨i1, i2, i3⟩ := ih (k + 1) n
      rw [hu]
      refine ⟨by simp [i1], ?_, ?_⟩
      · intro j hj
        cases j with
        | zero => simp [h]
        | succ j =>
          have := i2 j (by omega)
          have hk : k + 1 + j = k + (j + 1) := by omega
          rw [hk] at this
          split
          · rename_i hc
            rw [if_pos hc] at this
            obtain ⟨i, h1, h2⟩ := this
            exact ⟨i, by simp only [List.getElem?_cons_succ, h1], h2⟩
          · rename_i hc
            rw [if_neg hc] at this
            simp only [List.getElem?_cons_succ, this]
      · intro i c hc
        obtain ⟨j, h1, h2, h3, h4⟩ := i3 i c hc
        exact ⟨j + 1, by omega, by omega, h3, by simp only [List.getElem?_cons_succ, h4]⟩

/-- The column tables are consistent with each other and with the problem. -/
structure Cols (P : Prob) (s : Info) : Prop where
  nv : s.numberVariables = P.nCols
  ni : s.numberIntegers = s.integerVariable.length
  len : s.backward.length = P.nCols
  bin : ∀ j < P.nCols, colType P j = 1 → ∃ i, s.backward[j]? = some (some i) ∧ s.integerVariable[i]? = some j
  nonbin : ∀ j < P.nCols, colType P j ≠ 1 → s.backward[j]? = some none
  inv : ∀ i c, s.integerVariable[i]? = some c → c < P.nCols ∧ colType P c = 1 ∧ s.backward[c]? = some (some i)

theorem init_cols (P : Prob) : Cols P (initializeFixing P) := by
  obtain ⟨h1, h2, h3⟩ := scanColumns_spec P P.nCols 0 0
  refine ⟨rfl, rfl, h1, ?_, ?_, ?_⟩
  · intro j hj hc
    have := h2 j hj
    rw [Nat.zero_add, if_pos hc] at this
    obtain ⟨i, e1, e2⟩ := this
    exact ⟨i, by simpa [initializeFixing] using e1, by simpa [initializeFixing] using e2⟩
  · intro j hj hc
    have := h2 j hj
    rw [Nat.zero_add, if_neg hc] at this
    exact this
  · intro i c hc
    obtain ⟨j, e1, e2, e3, e4⟩ := h3 i c hc
    rw [Nat.zero_add] at e2 e4
    subst e2
    exact ⟨e1, e3, e4⟩

theorem Cols.of_fields {P : Prob} {s t : Info} (h : Cols P s) (h1 : t.numberVariables = s.numberVariables)
    (h2 : t.numberIntegers = s.numberIntegers) (h3 : t.integerVariable = s.integerVariable)
    (h4 : t.backward = s.backward) : Cols P t := by
  refine ⟨by rw [h1, h.nv], by rw [h2, h3, h.ni], by rw [h4, h.len], ?_, ?_, ?_⟩
  · rw [h4, h3]; exact h.bin
  · rw [h4]; exact h.nonbin
  · rw [h4, h3]; exact h.inv

end Cgl.TreeInfo
