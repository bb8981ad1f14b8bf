import Verif.PreInteger.Run
import Mathlib.Data.List.Nodup

/-! # Declaring continuous columns integer: the theorems -/

namespace Cgl.PreInteger

variable {P : Prob} {O : Objective} {make : Bool}

/-! ### The tests for pairs -/

theorem pairsOk_analyze (P : Prob) (O : Objective) : PairsOk false P O := by
  intro i r p q _ _ _ _ _ _ h
  unfold pairTest at h
  by_cases hs : pairShape P p q = true
  · rw [if_pos hs, if_neg (by decide)] at h
    have h := Except.ok.inj h
    unfold pairAnalyze at h
    rw [Bool.and_eq_true, Bool.and_eq_true] at h
    exact ⟨hs, of_decide_eq_true h.1.1, of_decide_eq_true h.1.2, of_decide_eq_true h.2⟩
  · rw [if_neg hs] at h
    simp at h

theorem colEntries_length (P : Prob) (j : Nat) :
    (colEntries P j).length = (P.rows.flatMap fun r => r.coefs.map Prod.fst).count j := by
  unfold colEntries
  generalize 0 = n
  induction P.rows generalizing n with
  | nil => rfl
  | cons r rs ih =>
    rw [List.zipIdx_cons, List.flatMap_cons, List.flatMap_cons, List.length_append, List.count_append, ih]
    congr 1
    rw [List.length_map]
    induction r.coefs with
    | nil => rfl
    | cons e es ih =>
      rw [List.filter_cons, List.map_cons, List.count_cons, ← ih]
      by_cases h : (e.1 == j) = true
      · rw [if_pos h, if_pos h]; rfl
      · rw [if_neg h, if_neg h]; rfl

theorem pairsOk_make (hC : Clean P) (hA : PairsAlone P) : PairsOk true P O := by
  intro i r p q hr he hp hq hpi hqi h
  have hm := List.mem_of_getElem? hr
  unfold pairTest at h
  by_cases hs : pairShape P p q = true
  · rw [if_pos hs, if_pos rfl] at h
    unfold pairMake at h
    dsimp only at h
    split at h
    · have h := Except.ok.inj h
      rw [Bool.and_eq_true] at h
      have ho := of_decide_eq_true h.1
      have hs' := hs
      unfold pairShape at hs'
      rw [Bool.and_eq_true, Bool.and_eq_true, Bool.and_eq_true] at hs'
      obtain ⟨⟨⟨s1, s2⟩, s3⟩, s4⟩ := hs'
      have := hA r hm (equation hC hm he).2.2 p hp q hq hpi hqi (of_decide_eq_true s1) (of_decide_eq_true s2)
        (of_decide_eq_true s3) (of_decide_eq_true s4)
      rw [← colEntries_length, ← colEntries_length] at this
      exact ⟨hs, this.1, this.2, ho⟩
    · cases h
  · rw [if_neg hs] at h
    simp at h

/-! ### `analyze` -/

theorem analyze_parts {n : ℤ} {T : Nat → Bool} (h : analyze P O = .ok (n, T)) : ∃ s, search false P O = .ok s ∧
    n = (if (List.range P.nCols).any (crossed P s) then -1 else (s.count : ℤ)) ∧
    T = if s.count = 0 then P.isInt else finalInt P s := by
  unfold analyze at h
  cases h1 : search false P O with
  | error e => rw [h1] at h; cases h
  | ok s =>
    rw [h1] at h
    have := Except.ok.inj h
    exact ⟨s, rfl, (congrArg Prod.fst this).symm, (congrArg Prod.snd this).symm⟩

theorem final_old {s : State} {T : Nat → Bool} (hT : T = if s.count = 0 then P.isInt else finalInt P s) {j : Nat}
    (h : P.isInt j = true) : T j = true := by
  subst hT
  by_cases hc : s.count = 0
  · rw [if_pos hc]; exact h
  · rw [if_neg hc]
    unfold finalInt
    rw [h]; rfl

theorem final_new {s : State} {T : Nat → Bool} (hT : T = if s.count = 0 then P.isInt else finalInt P s) {j : Nat}
    (h : T j = true) : P.isInt j = true ∨ s.isInt j = true := by
  subst hT
  by_cases hc : s.count = 0
  · rw [if_pos hc] at h; exact Or.inl h
  · rw [if_neg hc] at h
    unfold finalInt at h
    rw [Bool.or_eq_true, Bool.and_eq_true, Bool.and_eq_true] at h
    rcases h with h | h
    · exact Or.inl h
    · exact Or.inr h.1.2

/-- **The columns that `analyze` declares integer may be declared integer.** -/
theorem analyze_harmless (hC : Clean P) {n : ℤ} {T : Nat → Bool} (h : analyze P O = .ok (n, T)) : Harmless P O T := by
  obtain ⟨s, h1, -, hT⟩ := analyze_parts h
  have hs := search_sound hC (pairsOk_analyze P O) h1
  exact harmless_of_dom hs.dom (fun j => final_old hT) (fun j _ => final_new hT)

/-- An optimal solution with the new types is an optimal solution. -/
theorem harmless_optimum {T : Nat → Bool} (h : Harmless P O T) {x : Nat → ℚ} (hx : (retype P T).Feasible x)
    (ho : ∀ y, (retype P T).Feasible y → O.direction * value P O x ≤ O.direction * value P O y) :
    P.Feasible x ∧ ∀ y, P.Feasible y → O.direction * value P O x ≤ O.direction * value P O y := by
  refine ⟨h.feasible x hx, fun y hy => ?_⟩
  obtain ⟨z, h1, h2, -⟩ := h.dominated y hy
  exact (ho z h1).trans h2

/-- **`analyze` comes to an end and stays within its arrays.** -/
theorem analyze_total (hW : P.WF) (O : Objective) : ∃ n T, analyze P O = .ok (n, T) := by
  rcases search_result (O := O) (make := false) hW with ⟨s, h⟩ | ⟨-, k, r, p, q, -, -, h⟩
  · unfold analyze
    rw [h]
    exact ⟨_, _, rfl⟩
  · unfold pairTest at h
    split at h <;> cases h

/-- **`analyze` returns -1 only for an infeasible problem.** -/
theorem analyze_infeasible (hC : Clean P) (hl : ∀ j < P.nCols, P.colLower j < 10 ^ 20) {T : Nat → Bool}
    (h : analyze P O = .ok (-1, T)) (x : Nat → ℚ) : ¬ P.Feasible x := by
  intro hx
  obtain ⟨s, h1, hn, -⟩ := analyze_parts h
  have hs := search_sound hC (pairsOk_analyze P O) h1
  have hc := search_counted hC.wf h1
  by_cases ha : (List.range P.nCols).any (crossed P s) = true
  · obtain ⟨j, hj, hx2⟩ := List.any_eq_true.1 ha
    have hj := List.mem_range.1 hj
    unfold crossed at hx2
    rw [Bool.and_eq_true, Bool.and_eq_true] at hx2
    obtain ⟨⟨c1, c2⟩, c3⟩ := hx2
    have c3 := of_decide_eq_true c3
    have c2 : ¬ P.colLower j < -10 ^ 20 := by simpa using c2
    unfold isNew at c1
    rw [Bool.and_eq_true] at c1
    have hf : free P j = true := by
      rcases hc.fresh j c1.1 with h2 | h2
      · rw [h2] at c1; simp at c1
      · exact h2.2
    have hf : P.colLower j + 1 / 10 ^ 8 < P.colUpper j := of_decide_eq_true hf
    obtain ⟨y, y1, y2, -⟩ := hs.dom x hx
    obtain ⟨z, hz⟩ := y2 j hj c1.1
    unfold roundLower roundUpper at c3
    rw [if_neg c2] at c3
    have hlow : (⌈P.colLower j - 1 / 10 ^ 5⌉ : ℤ) ≤ max z (-10 ^ 20) := by
      rw [Int.ceil_le]
      by_cases hb : -10 ^ 20 < P.colLower j
      · have := y1.lower j hj (by rw [hC.inf]; exact hb)
        rw [hz] at this
        push_cast
        exact le_trans (by linarith) (le_max_left _ _)
      · push_cast
        exact le_trans (by linarith) (le_max_right _ _)
    by_cases hu : 10 ^ 20 < P.colUpper j
    · rw [if_pos hu] at c3
      have h4 : (⌈P.colLower j - 1 / 10 ^ 5⌉ : ℤ) ≤ (10 ^ 20 : ℤ) := by
        rw [Int.ceil_le]
        push_cast
        linarith [hl j hj]
      have : ((⌈P.colLower j - 1 / 10 ^ 5⌉ : ℤ) : ℚ) ≤ 10 ^ 20 := by exact_mod_cast h4
      linarith
    · rw [if_neg hu] at c3
      have hup : min z (10 ^ 20) ≤ (⌊P.colUpper j + 1 / 10 ^ 5⌋ : ℤ) := by
        rw [Int.le_floor]
        push_cast
        by_cases hb : P.colUpper j < 10 ^ 20
        · have := y1.upper j hj (by rw [hC.inf]; exact hb)
          rw [hz] at this
          exact le_trans (min_le_left _ _) (by linarith)
        · exact le_trans (min_le_right _ _) (by linarith)
      have hmid : (⌈P.colLower j - 1 / 10 ^ 5⌉ : ℤ) ≤ (10 ^ 20 : ℤ) := by
        rw [Int.ceil_le]
        push_cast
        linarith [hl j hj]
      have hmid2 : (-10 ^ 20 : ℤ) ≤ (⌊P.colUpper j + 1 / 10 ^ 5⌋ : ℤ) := by
        rw [Int.le_floor]
        push_cast
        linarith [not_lt.1 c2]
      have c3 : (⌊P.colUpper j + 1 / 10 ^ 5⌋ : ℤ) < (⌈P.colLower j - 1 / 10 ^ 5⌉ : ℤ) := by exact_mod_cast c3
      omega
  · rw [if_neg ha] at hn
    omega

theorem round_bounds {j : Nat} (h1 : IsInteger (P.colLower j)) (h2 : IsInteger (P.colUpper j))
    (h3 : P.colLower j < 10 ^ 20) (h4 : -10 ^ 20 < P.colUpper j) (hf : free P j = true) :
    roundLower P j < roundUpper P j := by
  have hf : P.colLower j + 1 / 10 ^ 8 < P.colUpper j := of_decide_eq_true hf
  obtain ⟨a, ha⟩ := h1
  obtain ⟨b, hb⟩ := h2
  unfold roundLower roundUpper
  rw [ha] at hf h3 ⊢
  rw [hb] at hf h4 ⊢
  have e1 : ⌈(a : ℚ) - 1 / 10 ^ 5⌉ = a := by
    rw [Int.ceil_eq_iff]
    constructor <;> norm_num
  have e2 : ⌊(b : ℚ) + 1 / 10 ^ 5⌋ = b := by
    rw [Int.floor_eq_iff]
    constructor <;> norm_num
  rw [e1, e2]
  by_cases c1 : (a : ℚ) < -10 ^ 20
  · rw [if_pos c1]
    by_cases c2 : (10 : ℚ) ^ 20 < b
    · rw [if_pos c2]; norm_num
    · rw [if_neg c2]; exact h4
  · rw [if_neg c1]
    by_cases c2 : (10 : ℚ) ^ 20 < b
    · rw [if_pos c2]; exact h3
    · rw [if_neg c2]; linarith

/-- **`analyze` returns the number of columns it declares integer**, if the bounds of the columns are integers; in any
case it declares no more columns integer than it returns. -/
theorem analyze_count (hW : P.WF) {n : ℤ} {T : Nat → Bool} (h : analyze P O = .ok (n, T)) (hn : n ≠ -1) :
    (added P T : ℤ) ≤ n ∧ ((∀ j < P.nCols, IsInteger (P.colLower j) ∧ IsInteger (P.colUpper j) ∧
      P.colLower j < 10 ^ 20 ∧ -10 ^ 20 < P.colUpper j) → n = added P T) := by
  obtain ⟨s, h1, hv, hT⟩ := analyze_parts h
  have hc := search_counted hW h1
  rw [if_neg (by intro ha; rw [if_pos ha] at hv; exact hn hv)] at hv
  have hv2 : n = (news P s : ℤ) := by rw [hv, hc.count]
  rw [hv2]
  refine ⟨?_, fun hb => ?_⟩
  · have : added P T ≤ news P s := by
      unfold added news
      apply List.countP_mono_left
      intro j _ hj
      rw [Bool.and_eq_true] at hj
      unfold isNew
      rcases final_new hT hj.1 with h2 | h2
      · rw [h2] at hj; simp at hj
      · rw [h2]; exact hj.2
    exact_mod_cast this
  · have : news P s = added P T := by
      unfold added news
      apply List.countP_congr
      intro j hj
      have hj := List.mem_range.1 hj
      obtain ⟨b1, b2, b3, b4⟩ := hb j hj
      rw [Bool.and_eq_true]
      unfold isNew
      rw [Bool.and_eq_true]
      constructor
      · rintro ⟨h2, h3⟩
        refine ⟨?_, h3⟩
        have hf : free P j = true := by
          rcases hc.fresh j h2 with h4 | h4
          · rw [h4] at h3; simp at h3
          · exact h4.2
        have hr := round_bounds b1 b2 b3 b4 hf
        have hpos : s.count ≠ 0 := by
          rw [hc.count]
          unfold news
          intro h0
          rw [List.countP_eq_zero] at h0
          exact h0 j (List.mem_range.2 hj) (by unfold isNew; rw [h2]; exact h3)
        rw [hT, if_neg hpos]
        unfold finalInt
        simp [hj, h2, hr.ne]
      · rintro ⟨h2, h3⟩
        refine ⟨?_, h3⟩
        rcases final_new hT h2 with h4 | h4
        · rw [h4] at h3; simp at h3
        · exact h4
    rw [this]

/-! ### Nothing is overlooked -/

theorem near_of_integer {v : ℚ} (h : IsInteger v) : near v = true := by
  obtain ⟨z, rfl⟩ := h
  unfold near
  have : ⌊(z : ℚ) + 1 / 2⌋ = z := by
    rw [Int.floor_eq_iff]
    constructor <;> norm_num
  rw [this]
  simp

theorem recip_of_integer {c : ℚ} (h1 : 1 / 10 ^ 3 < |c|) (h2 : IsInteger (1 / c)) : recip c = true := by
  obtain ⟨z, hz⟩ := h2
  unfold recip
  rw [hz, decide_eq_true h1]
  have : ⌊(z : ℚ) + 1 / 2⌋ = z := by
    rw [Int.floor_eq_iff]
    constructor <;> norm_num
  rw [this]
  simp

theorem filter_single {α : Type} [DecidableEq α] {l : List α} (hn : l.Nodup) {a : α} (ha : a ∈ l) {f : α → Bool}
    (hf : ∀ b ∈ l, f b = true ↔ b = a) : l.filter f = [a] := by
  induction l with
  | nil => simp at ha
  | cons b l ih =>
    rw [List.nodup_cons] at hn
    rw [List.filter_cons]
    by_cases hb : b = a
    · subst hb
      rw [if_pos ((hf b List.mem_cons_self).2 rfl)]
      have : l.filter f = [] := by
        rw [List.filter_eq_nil_iff]
        intro c hc h
        have := (hf c (List.mem_cons_of_mem _ hc)).1 h
        exact hn.1 (this ▸ hc)
      rw [this]
    · rw [if_neg (fun h => hb ((hf b List.mem_cons_self).1 h))]
      refine ih hn.2 ?_ fun c hc => hf c (List.mem_cons_of_mem _ hc)
      rcases List.mem_cons.1 ha with h | h
      · exact absurd h.symm hb
      · exact h

theorem settles_state (hW : P.WF) {I : Nat → Bool} {r : Row} (hr : r ∈ P.rows) {j : Nat} {c : ℚ}
    (h : Settles P I r j c) (hf : free P j = true) (hj : I j = false) :
    allInteger P I r = true ∧ continuous P I r = [(j, c)] ∧ recip c = true := by
  have hnd := hW.nodup r hr
  have same : ∀ p ∈ r.coefs, p.1 = j → p = (j, c) := by
    intro p hp hpj
    exact List.inj_on_of_nodup_map hnd hp h.mem hpj
  refine ⟨?_, ?_, recip_of_integer h.coef.1 h.coef.2⟩
  · unfold allInteger
    rw [Bool.and_eq_true, Bool.and_eq_true]
    refine ⟨⟨?_, ?_⟩, ?_⟩
    · unfold intCoefs
      rw [List.all_eq_true]
      intro p hp
      obtain ⟨hp, hq⟩ := List.mem_filter.1 hp
      rw [Bool.and_eq_true] at hq
      apply near_of_integer
      by_cases hpj : p.1 = j
      · rw [hpj, hj] at hq; simp at hq
      · exact (h.others p hp hpj (of_decide_eq_true hq.1)).2
    · by_cases hb : -10 ^ 20 < r.lb
      · rw [decide_eq_true hb]
        unfold low
        rw [if_pos hb, sumFixed_eq, near_of_integer (h.lower hb)]; rfl
      · rw [decide_eq_false hb]; rfl
    · by_cases hb : r.ub < 10 ^ 20
      · rw [decide_eq_true hb]
        unfold up
        rw [if_pos hb, sumFixed_eq, near_of_integer (h.upper hb)]; rfl
      · rw [decide_eq_false hb]; rfl
  · unfold continuous
    refine filter_single (List.Nodup.of_map _ hnd) h.mem fun p hp => ?_
    constructor
    · intro hq
      rw [Bool.and_eq_true] at hq
      by_contra hne
      have hpj : p.1 ≠ j := fun hpj => hne (same p hp hpj)
      have := (h.others p hp hpj (of_decide_eq_true hq.1)).1
      rw [this] at hq
      simp at hq
    · rintro rfl
      simp [hf, hj]

theorem Settles.mono {I T : Nat → Bool} {r : Row} {j : Nat} {c : ℚ} (h : Settles P T r j c)
    (hi : ∀ k, T k = true → I k = true) : Settles P I r j c :=
  ⟨h.mem, fun p hp hne hf => ⟨hi _ (h.others p hp hne hf).1, (h.others p hp hne hf).2⟩, h.coef, h.lower, h.upper⟩

theorem done_equation (hW : P.WF) {s : State} (hd : Done make P O s) {r : Row} (hr : r ∈ P.rows) {j : Nat} {c : ℚ}
    (h : Settles P s.isInt r j c) (hf : free P j = true) (he : r.lb = r.ub) (h1 : -10 ^ 20 < r.lb)
    (h2 : r.ub < 10 ^ 20) : s.isInt j = true := by
  by_contra hj
  have hj : s.isInt j = false := by simpa using hj
  obtain ⟨a, b, d⟩ := settles_state hW hr h hf hj
  obtain ⟨i, hi⟩ := List.mem_iff_getElem?.1 hr
  have := ((hd.rows i r hi) a).1 _ b d
  apply this.1
  unfold low up
  rw [if_pos h1, if_pos h2, he]

theorem colEntries_mem {i j : Nat} {c : ℚ} (h : (i, c) ∈ colEntries P j) :
    ∃ r, P.rows[i]? = some r ∧ (j, c) ∈ r.coefs := by
  unfold colEntries at h
  rw [List.mem_flatMap] at h
  obtain ⟨⟨r, k⟩, h1, h2⟩ := h
  rw [List.mem_zipIdx_iff_getElem?] at h1
  obtain ⟨⟨k', c'⟩, h3, h4⟩ := List.mem_map.1 h2
  obtain ⟨h5, h6⟩ := List.mem_filter.1 h3
  have h6 : k' = j := by simpa using h6
  cases h4
  exact ⟨r, h1, h6 ▸ h5⟩

theorem done_column (hW : P.WF) {s : State} (hd : Done make P O s) {j : Nat} (hj : j < P.nCols)
    (hf : free P j = true) (hl : -10 ^ 20 < P.colLower j → IsInteger (P.colLower j))
    (hu : P.colUpper j < 10 ^ 20 → IsInteger (P.colUpper j))
    (h : ∀ r ∈ P.rows, ∀ c, (j, c) ∈ r.coefs → Settles P s.isInt r j c) : s.isInt j = true := by
  by_contra hI
  have hI : s.isInt j = false := by simpa using hI
  have hg := hd.columns j hj
  have : columnGood P s j = true := by
    unfold columnGood
    rw [Bool.and_eq_true, Bool.and_eq_true, Bool.and_eq_true, Bool.and_eq_true]
    refine ⟨⟨⟨⟨hf, by rw [hI]; rfl⟩, ?_⟩, ?_⟩, ?_⟩
    · by_cases hb : P.colUpper j < 10 ^ 20
      · rw [decide_eq_true hb, near_of_integer (hu hb)]; rfl
      · rw [decide_eq_false hb]; rfl
    · by_cases hb : -10 ^ 20 < P.colLower j
      · rw [decide_eq_true hb, near_of_integer (hl hb)]; rfl
      · rw [decide_eq_false hb]; rfl
    · rw [List.all_eq_true]
      rintro ⟨i, c⟩ he
      obtain ⟨r, h1, h2⟩ := colEntries_mem he
      have hm := List.mem_of_getElem? h1
      obtain ⟨a, b, d⟩ := settles_state hW hm (h r hm c h2) hf hI
      exact (((hd.rows i r h1) a).1 _ b d).2
  rw [hg] at this
  simp at this

theorem analyze_into {T : Nat → Bool} {s : State} (hW : P.WF) (h1 : search false P O = .ok s)
    (hT : T = if s.count = 0 then P.isInt else finalInt P s) : (∀ k, T k = true → s.isInt k = true) ∧
    ∀ k < P.nCols, s.isInt k = true → roundLower P k ≠ roundUpper P k → T k = true := by
  have hc := search_counted hW h1
  refine ⟨fun k hk => ?_, fun k hk hs hr => ?_⟩
  · rcases final_new hT hk with h | h
    · exact hc.grows k h
    · exact h
  · by_cases hp : P.isInt k = true
    · exact final_old hT hp
    · have hpos : s.count ≠ 0 := by
        rw [hc.count]
        unfold news
        intro h0
        rw [List.countP_eq_zero] at h0
        exact h0 k (List.mem_range.2 hk) (by unfold isNew; rw [hs]; simpa using hp)
      rw [hT, if_neg hpos]
      unfold finalInt
      simp [hk, hs, hr]

/-- **`analyze` overlooks no equation** that forces a column with integer bounds to be integral, **and no column** with
integer bounds all of whose rows stop it only at integers. -/
theorem analyze_complete (hW : P.WF) {n : ℤ} {T : Nat → Bool} (h : analyze P O = .ok (n, T)) {j : Nat}
    (hj : j < P.nCols) (hf : P.colLower j + 1 / 10 ^ 8 < P.colUpper j) (hl : IsInteger (P.colLower j))
    (hu : IsInteger (P.colUpper j)) (hl2 : P.colLower j < 10 ^ 20) (hu2 : -10 ^ 20 < P.colUpper j)
    (hs : (∃ r ∈ P.rows, ∃ c, Settles P T r j c ∧ r.lb = r.ub ∧ -10 ^ 20 < r.lb ∧ r.ub < 10 ^ 20) ∨
      ∀ r ∈ P.rows, ∀ c, (j, c) ∈ r.coefs → Settles P T r j c) : T j = true := by
  obtain ⟨s, h1, -, hT⟩ := analyze_parts h
  obtain ⟨i1, i2⟩ := analyze_into hW h1 hT
  have hd := search_done h1
  refine i2 j hj ?_ (round_bounds hl hu hl2 hu2 (decide_eq_true hf)).ne
  rcases hs with ⟨r, hr, c, a, b, d, e⟩ | hs
  · exact done_equation hW hd hr (a.mono i1) (decide_eq_true hf) b d e
  · exact done_column hW hd hj (decide_eq_true hf) (fun _ => hl) (fun _ => hu) fun r hr c hc => (hs r hr c hc).mono i1

/-! ### `makeInteger` -/

theorem makeInteger_parts {T : Nat → Bool} (h : makeInteger P O = .ok T) : T = P.isInt ∨
    ∃ s, search true P O = .ok s ∧
      T = fun j => P.isInt j || (decide (j < P.nCols) && s.isInt j && decide (O.coef j ≠ 0)) := by
  unfold makeInteger at h
  split at h
  · cases h1 : search true P O with
    | error e => rw [h1] at h; cases h
    | ok s =>
      rw [h1] at h
      have h := Except.ok.inj h
      by_cases hc : s.count = 0
      · rw [if_pos hc] at h
        exact Or.inl h.symm
      · rw [if_neg hc] at h
        exact Or.inr ⟨s, rfl, h.symm⟩
  · exact Or.inl (Except.ok.inj h).symm

/-- **The columns that `makeInteger` declares integer may be declared integer**, if nonnegative continuous columns that
are linked by an equation are in no other row. -/
theorem makeInteger_harmless_partial (hC : Clean P) (hA : PairsAlone P) {T : Nat → Bool}
    (h : makeInteger P O = .ok T) : Harmless P O T := by
  rcases makeInteger_parts h with rfl | ⟨s, h1, rfl⟩
  · exact harmless_of_dom (sound_start P O).dom (fun _ h => h) (fun _ _ h => Or.inl h)
  · have hs := search_sound hC (pairsOk_make hC hA) h1
    refine harmless_of_dom hs.dom (fun j h => by simp [h]) fun j _ h => ?_
    rw [Bool.or_eq_true, Bool.and_eq_true, Bool.and_eq_true] at h
    rcases h with h | h
    · exact Or.inl h
    · exact Or.inr h.1.2

/-- **`makeInteger` declares only columns in the objective integer, that were not fixed.** -/
theorem makeInteger_objective (hW : P.WF) {T : Nat → Bool} (h : makeInteger P O = .ok T) (j : Nat) :
    (P.isInt j = true → T j = true) ∧ (T j = true → P.isInt j = false → j < P.nCols ∧ O.coef j ≠ 0 ∧
      P.colLower j + 1 / 10 ^ 8 < P.colUpper j) := by
  rcases makeInteger_parts h with rfl | ⟨s, h1, rfl⟩
  · refine ⟨fun h => h, fun h h2 => ?_⟩
    rw [h] at h2; cases h2
  · have hc := search_counted hW h1
    refine ⟨fun h => by simp [h], fun h h2 => ?_⟩
    dsimp only at h
    rw [h2, Bool.false_or, Bool.and_eq_true, Bool.and_eq_true] at h
    refine ⟨of_decide_eq_true h.1.1, of_decide_eq_true h.2, ?_⟩
    rcases hc.fresh j h.1.2 with h3 | h3
    · rw [h3] at h2; cases h2
    · exact of_decide_eq_true h3.2

theorem entries_le (hn : ∀ r ∈ P.rows, (r.coefs.map Prod.fst).Nodup) (j : Nat) :
    (colEntries P j).length ≤ P.rows.length := by
  rw [colEntries_length]
  revert hn
  generalize P.rows = rs
  intro hn
  induction rs with
  | nil => simp
  | cons r rs ih =>
    rw [List.flatMap_cons, List.count_append, List.length_cons]
    have h1 := List.nodup_iff_count_le_one.1 (hn r List.mem_cons_self) j
    have h2 := ih fun r hr => hn r (List.mem_cons_of_mem _ hr)
    omega

/-- **`makeInteger` comes to an end, and stays within its arrays** if the matrix has no explicit zeros. -/
theorem makeInteger_total (hW : P.WF) (hz : ∀ r ∈ P.rows, ∀ p ∈ r.coefs, p.2 ≠ 0) (O : Objective) :
    ∃ T, makeInteger P O = .ok T := by
  unfold makeInteger
  split
  · rcases search_result (O := O) (make := true) hW with ⟨s, h⟩ | ⟨-, k, r, p, q, hr, hp, h⟩
    · rw [h]; exact ⟨_, rfl⟩
    · exfalso
      unfold pairTest at h
      split at h
      · rw [if_pos rfl] at h
        unfold pairMake at h
        dsimp only at h
        split at h
        · cases h
        · rename_i hlen
          apply hlen
          have h0 : ((colEntries P p.1).filter fun e => e.1 != k).filter (fun e => decide (e.2 = 0)) = [] := by
            rw [List.filter_eq_nil_iff]
            rintro ⟨i, c⟩ he hc
            obtain ⟨r', h1, h2⟩ := colEntries_mem (List.mem_filter.1 he).1
            exact hz r' (List.mem_of_getElem? h1) _ h2 (of_decide_eq_true hc)
          rw [h0, List.length_nil, add_zero]
          exact (List.length_filter_le _ _).trans (entries_le hW.nodup p.1)
      · cases h
  · exact ⟨_, rfl⟩

/-- **`makeInteger` overlooks no column in the objective.** -/
theorem makeInteger_complete (hW : P.WF) {T : Nat → Bool} (h : makeInteger P O = .ok T) {j : Nat}
    (hj : j < P.nCols) (hf : P.colLower j + 1 / 10 ^ 8 < P.colUpper j) (ho : O.coef j ≠ 0)
    (hs : (∃ r ∈ P.rows, ∃ c, Settles P T r j c ∧ r.lb = r.ub ∧ -10 ^ 20 < r.lb ∧ r.ub < 10 ^ 20) ∨
      (IsInteger (P.colLower j) ∧ IsInteger (P.colUpper j) ∧
        ∀ r ∈ P.rows, ∀ c, (j, c) ∈ r.coefs → Settles P T r j c)) : T j = true := by
  by_contra hT
  have hT : T j = false := by simpa using hT
  have hP : P.isInt j = false := by
    by_contra hp
    rw [(makeInteger_objective hW h j).1 (by simpa using hp)] at hT
    simp at hT
  have hany : (List.range P.nCols).any (fun j => free P j && !P.isInt j) = true := by
    rw [List.any_eq_true]
    refine ⟨j, List.mem_range.2 hj, ?_⟩
    rw [Bool.and_eq_true]
    exact ⟨decide_eq_true hf, by rw [hP]; rfl⟩
  unfold makeInteger at h
  rw [if_pos hany] at h
  cases h1 : search true P O with
  | error e => rw [h1] at h; cases h
  | ok s =>
    rw [h1] at h
    have h := Except.ok.inj h
    have hc := search_counted hW h1
    have hd := search_done h1
    have into : ∀ k, T k = true → s.isInt k = true := by
      intro k hk
      rw [← h] at hk
      by_cases h0 : s.count = 0
      · rw [if_pos h0] at hk; exact hc.grows k hk
      · rw [if_neg h0, Bool.or_eq_true, Bool.and_eq_true, Bool.and_eq_true] at hk
        rcases hk with hk | hk
        · exact hc.grows k hk
        · exact hk.1.2
    have hsj : s.isInt j = true := by
      rcases hs with ⟨r, hr, c, a, b, d, e⟩ | ⟨b1, b2, hs⟩
      · exact done_equation hW hd hr (a.mono into) (decide_eq_true hf) b d e
      · exact done_column hW hd hj (decide_eq_true hf) (fun _ => b1) (fun _ => b2) fun r hr c hc => (hs r hr c hc).mono into
    have hpos : s.count ≠ 0 := by
      rw [hc.count]
      unfold news
      intro h0
      rw [List.countP_eq_zero] at h0
      exact h0 j (List.mem_range.2 hj) (by unfold isNew; rw [hsj, hP]; rfl)
    rw [← h, if_neg hpos] at hT
    simp [hP, hj, hsj, ho] at hT

end Cgl.PreInteger
