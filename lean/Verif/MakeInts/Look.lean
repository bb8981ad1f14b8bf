import Verif.MakeInts.Steps

/-! # What the loops of `makeIntegers2` find out -/

namespace Cgl.MakeInts

open PreInteger (Objective colEntries mem_colEntries colEntries_mem colEntries_length)

variable {P : Prob} {O : Objective}

/-! ### One column -/

theorem lookCount_good {high : Bool} {n : Nat} {r : Row} {k : Look} (h : (lookCount high n r k).good = true) :
    k.good = true ∧ (high = true → n ≤ 1) := by
  unfold lookCount at h
  by_cases h1 : 1 < n
  · rw [if_pos h1] at h
    dsimp only at h
    rw [Bool.and_eq_true] at h
    refine ⟨h.1, fun hh => ?_⟩
    rw [hh] at h
    simp at h
  · rw [if_neg h1] at h
    refine ⟨?_, fun _ => not_lt.1 h1⟩
    split at h <;> exact h

theorem lookCount_single {high : Bool} {n : Nat} {r : Row} {k : Look} (h : k.single = false ∨ 1 < n) :
    (lookCount high n r k).single = false := by
  unfold lookCount
  by_cases h1 : 1 < n
  · rw [if_pos h1]
  · rw [if_neg h1]
    have := h.resolve_right h1
    split <;> exact this

theorem lookCount_equality {high : Bool} {n : Nat} {r : Row} {k : Look} (h : (lookCount high n r k).equality = true) :
    k.equality = true ∨ (n ≤ 1 ∧ r.lb = r.ub) := by
  unfold lookCount at h
  by_cases h1 : 1 < n
  · rw [if_pos h1] at h
    exact Or.inl h
  · rw [if_neg h1] at h
    by_cases h2 : r.lb = r.ub
    · exact Or.inr ⟨not_lt.1 h1, h2⟩
    · rw [if_neg h2] at h
      exact Or.inl h

theorem lookRows_spec {high : Bool} {cnt : Nat → Nat} : ∀ (es : List (Nat × ℚ)) (k : Look),
    (∀ e ∈ es, ∃ r, P.rows[e.1]? = some r) → (lookRows P high cnt es k).good = true →
      k.good = true ∧
      (∀ e ∈ es, ∀ r, P.rows[e.1]? = some r → rowGood P high r e.2 = true ∧ (high = true → cnt e.1 ≤ 1)) ∧
      ((k.single = false ∨ ∃ e ∈ es, 1 < cnt e.1) → (lookRows P high cnt es k).single = false) ∧
      ((lookRows P high cnt es k).equality = true →
        k.equality = true ∨ ∃ e ∈ es, ∃ r, P.rows[e.1]? = some r ∧ cnt e.1 ≤ 1 ∧ r.lb = r.ub) := by
  intro es
  induction es with
  | nil =>
    intro k _ h
    unfold lookRows at *
    refine ⟨h, fun _ h => (by cases h), fun h => ?_, fun h => Or.inl h⟩
    rcases h with h | ⟨e, he, -⟩
    · exact h
    · cases he
  | cons e es ih =>
    intro k hes h
    obtain ⟨r, hr⟩ := hes e List.mem_cons_self
    unfold lookRows at h ⊢
    rw [hr] at h ⊢
    dsimp only at h ⊢
    by_cases hg : rowGood P high r e.2 = true
    · rw [if_pos hg] at h ⊢
      obtain ⟨h1, h2, h3, h4⟩ := ih _ (fun e' he' => hes e' (List.mem_cons_of_mem _ he')) h
      obtain ⟨h5, h6⟩ := lookCount_good h1
      refine ⟨h5, ?_, ?_, ?_⟩
      · intro e' he' r' hr'
        rcases List.mem_cons.1 he' with rfl | he'
        · rw [hr] at hr'
          cases hr'
          exact ⟨hg, h6⟩
        · exact h2 e' he' r' hr'
      · intro hs
        apply h3
        rcases hs with hs | ⟨e', he', hc⟩
        · exact Or.inl (lookCount_single (Or.inl hs))
        · rcases List.mem_cons.1 he' with rfl | he'
          · exact Or.inl (lookCount_single (Or.inr hc))
          · exact Or.inr ⟨e', he', hc⟩
      · intro he
        rcases h4 he with h7 | ⟨e', he', h7⟩
        · rcases lookCount_equality h7 with h8 | h8
          · exact Or.inl h8
          · exact Or.inr ⟨e, List.mem_cons_self, r, hr, h8⟩
        · exact Or.inr ⟨e', List.mem_cons_of_mem _ he', h7⟩
    · rw [if_neg hg] at h
      cases h

/-- `high` for a column. -/
def wantsHigh (O : Objective) (j : Nat) : Bool := decide (O.coef j * O.direction < 0)

/-- The column passes the tests with counts that are the true ones or marks. -/
def Fine (P : Prob) (O : Objective) (j : Nat) : Prop :=
  ∃ cnt : Nat → Nat, (∀ i, cnt i = counts P i ∨ cnt i = 999999) ∧ (verdict P (wantsHigh O j) cnt j).1 = true

theorem boundsGood_spec (hC : Clean P) {high : Bool} {j : Nat} (hj : j < P.nCols) (h : boundsGood P high j = true) :
    IsInteger (P.colLower j) ∧ IsInteger (P.colUpper j) := by
  unfold boundsGood at h
  obtain ⟨c1, c2⟩ := hC.colBounds j hj
  obtain ⟨l1, l2⟩ := hC.large j hj
  cases high with
  | true =>
    simp only [if_true, Bool.and_eq_true, Bool.not_eq_true', Bool.or_eq_false_iff, Bool.and_eq_false_iff,
      decide_eq_false_iff_not, Bool.not_eq_false'] at h
    refine ⟨?_, near_crisp h.1.2 c2⟩
    rcases h.2 with h | h
    · exact l1 (le_abs.2 (Or.inr (by linarith [not_lt.1 h])))
    · exact near_crisp h c1
  | false =>
    simp only [Bool.false_eq_true, if_false, Bool.and_eq_true, Bool.not_eq_true', Bool.or_eq_false_iff,
      Bool.and_eq_false_iff, decide_eq_false_iff_not, Bool.not_eq_false'] at h
    refine ⟨near_crisp h.1.2 c1, ?_⟩
    rcases h.2 with h | h
    · exact l2 (le_abs.2 (Or.inl (not_lt.1 h)))
    · exact near_crisp h c2

theorem verdict_good {high : Bool} {cnt : Nat → Nat} {j : Nat} (h : (verdict P high cnt j).1 = true) :
    boundsGood P high j = true ∧
    (∀ e ∈ colEntries P j, ∀ r, P.rows[e.1]? = some r → rowGood P high r e.2 = true ∧ (high = true → cnt e.1 ≤ 1)) ∧
    ((∃ e ∈ colEntries P j, 1 < cnt e.1) → (colEntries P j).length ≤ 1 ∨
      ∃ e ∈ colEntries P j, ∃ r, P.rows[e.1]? = some r ∧ cnt e.1 ≤ 1 ∧ r.lb = r.ub) := by
  unfold verdict at h
  dsimp only at h
  rw [Bool.and_eq_true] at h
  obtain ⟨h1, h2⟩ := h
  obtain ⟨a, b, c, d⟩ := lookRows_spec (colEntries P j) _ (fun e he => by
    obtain ⟨r, hr, -⟩ := colEntries_mem (i := e.1) (c := e.2) he
    exact ⟨r, hr⟩) h1
  refine ⟨a, b, fun hex => ?_⟩
  rw [c (Or.inr hex)] at h2
  by_cases hl : 1 < (colEntries P j).length
  · rw [decide_eq_true hl] at h2
    have he : (lookRows P high cnt (colEntries P j) ⟨true, false, boundsGood P high j⟩).equality = true := by simpa using h2
    rcases d he with h | h
    · cases h
    · exact Or.inr h
  · exact Or.inl (not_lt.1 hl)

theorem counts_at {i : Nat} {r : Row} (h : P.rows[i]? = some r) : counts P i = countOf P r := by
  unfold counts
  rw [h]

theorem fine_ok (hC : Clean P) {j : Nat} (hj : j < P.nCols) (hc : Continuous P j) (h : Fine P O j) :
    ColOk P O (wantsHigh O j) j := by
  obtain ⟨cnt, -, hv⟩ := h
  obtain ⟨a, b, -⟩ := verdict_good hv
  obtain ⟨l, u⟩ := boundsGood_spec hC hj a
  refine ⟨hj, hc, l, u, ?_, ?_⟩
  · intro r hr c hm
    obtain ⟨i, hi⟩ := List.getElem?_of_mem hr
    exact rowGood_spec hC hr (b (i, c) (mem_colEntries hi hm) r hi).1
  · unfold wantsHigh
    by_cases h : O.coef j * O.direction < 0
    · rw [decide_eq_true h, if_pos rfl, mul_comm]; exact h.le
    · rw [decide_eq_false h, if_neg (by decide), mul_comm]; exact not_lt.1 h

/-- A column with a row that has several continuous columns. -/
theorem fine_shared (hC : Clean P) {j : Nat} (hj : j < P.nCols) (hc : Continuous P j) (h : Fine P O j) {i : Nat} {r : Row}
    {a : ℚ} (hi : P.rows[i]? = some r) (ha : (j, a) ∈ r.coefs) (hn : 1 < countOf P r) :
    ColOk P O false j ∧ (Forced P j ∨ colEntries P j = [(i, a)]) := by
  have hk := fine_ok hC hj hc h
  obtain ⟨cnt, hcnt, hv⟩ := h
  obtain ⟨-, b, c⟩ := verdict_good hv
  have hm := mem_colEntries hi ha
  have hgt : 1 < cnt i := by
    rcases hcnt i with h | h
    · rw [h, counts_at hi]; exact hn
    · rw [h]; norm_num
  have hlow : wantsHigh O j = false := by
    rw [Bool.eq_false_iff]
    intro hh
    exact absurd ((b _ hm r hi).2 hh) (not_le.2 hgt)
  rw [hlow] at hk
  refine ⟨hk, ?_⟩
  rcases c ⟨_, hm, hgt⟩ with hl | ⟨e, he, r', hr', h1, h2⟩
  · right
    match hce : colEntries P j, hl with
    | [], _ => rw [hce] at hm; cases hm
    | [t], _ => rw [hce] at hm; rw [List.mem_singleton.1 hm]
    | _ :: _ :: _, hl => simp at hl
  · left
    obtain ⟨r'', hr'', hm'⟩ := colEntries_mem (i := e.1) (c := e.2) he
    rw [hr'] at hr''
    cases hr''
    have hmem := List.mem_of_getElem? hr'
    refine ⟨r', hmem, e.2, false, hm', h2, ?_, hk.rows r' hmem e.2 hm'⟩
    rcases hcnt e.1 with h | h
    · rw [h, counts_at hr'] at h1; exact h1
    · rw [h] at h1; norm_num at h1

theorem only_of_entries {i j : Nat} {r : Row} {a : ℚ} (hi : P.rows[i]? = some r) (h : colEntries P j = [(i, a)]) :
    Only P j r := by
  intro r' hr' b hb
  obtain ⟨i', hi'⟩ := List.getElem?_of_mem hr'
  have := mem_colEntries hi' hb
  rw [h] at this
  cases List.mem_singleton.1 this
  rw [hi] at hi'
  exact (Option.some.inj hi').symm

/-! ### All columns -/

/-- The column is tested. -/
def Considered (makeAll : Bool) (P : Prob) (O : Objective) (j : Nat) : Prop :=
  Continuous P j ∧ (O.coef j * O.direction ≠ 0 ∨ makeAll = true ∧ (colEntries P j).length ≠ 1)

/-- What is known in the middle of the loop over the columns. -/
structure Loop (makeAll : Bool) (P : Prob) (O : Objective) (seen : List Nat) (s : State) : Prop where
  cnt : ∀ i, s.cnt i = counts P i ∨ s.cnt i = 999999
  zap : ∀ j ∈ seen, Considered makeAll P O j → j ∈ s.zap ∨ Fine P O j
  allGood : s.allGood = true → ∀ j ∈ seen, Continuous P j → O.coef j * O.direction ≠ 0 → Fine P O j
  newInts : ∀ j ∈ s.newInts, j ∈ seen ∧ Continuous P j ∧ Fine P O j
  nodup : s.newInts.Nodup

theorem markRows_cnt {f : Nat → Nat} (es : List (Nat × ℚ)) : ∀ (cnt : Nat → Nat), (∀ i, cnt i = f i ∨ cnt i = 999999) →
    ∀ i, markRows es cnt i = f i ∨ markRows es cnt i = 999999 := by
  unfold markRows
  induction es with
  | nil => exact fun cnt h => h
  | cons e es ih =>
    intro cnt h
    rw [List.foldl_cons]
    apply ih
    intro i
    by_cases hi : i = e.1
    · rw [hi, Function.update_self]; exact Or.inr rfl
    · rw [Function.update_of_ne hi]; exact h i

theorem column_loop {makeAll : Bool} {seen : List Nat} {s : State} {j : Nat} (h : Loop makeAll P O seen s) (hj : j ∉ seen) :
    Loop makeAll P O (seen ++ [j]) (column makeAll P O s j) := by
  -- a turn that leaves the state as it is
  have keep : ¬ Considered makeAll P O j → (Continuous P j → O.coef j * O.direction = 0) → Loop makeAll P O (seen ++ [j]) s := by
    intro hn hz
    refine ⟨h.cnt, ?_, ?_, fun k hk => ⟨List.mem_append_left _ (h.newInts k hk).1, (h.newInts k hk).2⟩, h.nodup⟩
    · intro k hk hc
      rcases List.mem_append.1 hk with hk | hk
      · exact h.zap k hk hc
      · rw [List.mem_singleton.1 hk] at hc; exact absurd hc hn
    · intro ha k hk hc ho
      rcases List.mem_append.1 hk with hk | hk
      · exact h.allGood ha k hk hc ho
      · rw [List.mem_singleton.1 hk] at hc ho; exact absurd (hz hc) ho
  unfold column
  by_cases h1 : P.colLower j < P.colUpper j
  · rw [if_pos h1]
    by_cases h2 : looked makeAll P O j = true
    · rw [if_pos h2]
      unfold looked at h2
      rw [Bool.and_eq_true] at h2
      have hint : P.isInt j = false := by simpa using h2.2
      have hcont : Continuous P j := ⟨h1, hint⟩
      by_cases h3 : O.coef j * O.direction = 0 ∧ (colEntries P j).length = 1
      · rw [if_pos h3]
        exact keep (fun hc => hc.2.elim (fun h => h h3.1) fun h => h.2 h3.2) fun _ => h3.1
      · rw [if_neg h3]
        dsimp only
        have hcnt : ∀ b : Bool, ∀ i, (if b then markRows (colEntries P j) s.cnt else s.cnt) i = counts P i ∨
            (if b then markRows (colEntries P j) s.cnt else s.cnt) i = 999999 := by
          intro b i
          cases b with
          | true => exact markRows_cnt _ _ h.cnt i
          | false => exact h.cnt i
        unfold conclude
        generalize hb : (verdict P (decide (O.coef j * O.direction < 0)) s.cnt j).2 = b
        cases hv : (verdict P (decide (O.coef j * O.direction < 0)) s.cnt j).1 with
        | false =>
          rw [if_pos rfl]
          refine ⟨hcnt b, ?_, ?_, fun k hk => ⟨List.mem_append_left _ (h.newInts k hk).1, (h.newInts k hk).2⟩, h.nodup⟩
          · intro k hk hc
            rcases List.mem_append.1 hk with hk | hk
            · exact (h.zap k hk hc).imp (fun h => List.mem_append_left _ h) id
            · exact Or.inl (List.mem_append_right _ hk)
          · intro ha k hk hc ho
            dsimp only at ha
            rw [Bool.and_eq_true, decide_eq_true_eq] at ha
            rcases List.mem_append.1 hk with hk | hk
            · exact h.allGood ha.1 k hk hc ho
            · rw [List.mem_singleton.1 hk] at ho; exact absurd ha.2 ho
        | true =>
          have hfine : Fine P O j := ⟨s.cnt, h.cnt, hv⟩
          rw [if_neg (by decide)]
          have hz : ∀ k ∈ seen ++ [j], Considered makeAll P O k → k ∈ s.zap ∨ Fine P O k := by
            intro k hk hc
            rcases List.mem_append.1 hk with hk | hk
            · exact h.zap k hk hc
            · rw [List.mem_singleton.1 hk]; exact Or.inr hfine
          have ha : s.allGood = true → ∀ k ∈ seen ++ [j], Continuous P k → O.coef k * O.direction ≠ 0 → Fine P O k := by
            intro ha k hk hc ho
            rcases List.mem_append.1 hk with hk | hk
            · exact h.allGood ha k hk hc ho
            · rw [List.mem_singleton.1 hk]; exact hfine
          have hn : ∀ k ∈ s.newInts, k ∈ seen ++ [j] ∧ Continuous P k ∧ Fine P O k :=
            fun k hk => ⟨List.mem_append_left _ (h.newInts k hk).1, (h.newInts k hk).2⟩
          split
          · refine ⟨hcnt b, hz, ha, ?_, ?_⟩
            · intro k hk
              rcases List.mem_append.1 hk with hk | hk
              · exact hn k hk
              · rw [List.mem_singleton.1 hk]
                exact ⟨List.mem_append_right _ List.mem_cons_self, hcont, hfine⟩
            · rw [List.nodup_append]
              refine ⟨h.nodup, List.nodup_singleton j, ?_⟩
              rintro k hk k' hk' rfl
              exact hj (List.mem_singleton.1 hk' ▸ (h.newInts k hk).1)
          · exact ⟨hcnt b, hz, ha, hn, h.nodup⟩
    · rw [if_neg h2]
      unfold looked at h2
      unfold conclude
      rw [if_neg (by decide), if_neg ?_]
      · apply keep
        · intro hc
          apply h2
          rw [hc.1.2]
          rcases hc.2 with h | h
          · rw [decide_eq_true h]; rfl
          · rw [h.1]; simp
        · intro hc
          by_contra hne
          apply h2
          rw [hc.2, decide_eq_true hne]; rfl
      · rintro ⟨ha, hi, -⟩
        apply h2
        rw [ha, hi]; simp
  · rw [if_neg h1]
    exact keep (fun hc => h1 hc.1.1) fun hc => absurd hc.1 h1

theorem columns_loop (makeAll : Bool) (P : Prob) (O : Objective) :
    Loop makeAll P O (List.range P.nCols) (columns makeAll P O) := by
  have go : ∀ (l seen : List Nat) (s : State), (seen ++ l).Nodup → Loop makeAll P O seen s →
      Loop makeAll P O (seen ++ l) (l.foldl (column makeAll P O) s) := by
    intro l
    induction l with
    | nil => intro seen s _ h; rw [List.append_nil]; exact h
    | cons j l ih =>
      intro seen s hn h
      rw [List.foldl_cons]
      have := ih (seen ++ [j]) (column makeAll P O s j) (by simpa using hn) (column_loop h (by
        intro hj
        rw [List.nodup_append] at hn
        exact hn.2.2 j hj j List.mem_cons_self rfl))
      simpa using this
  exact go (List.range P.nCols) [] _ (by simpa using List.nodup_range)
    ⟨fun i => Or.inl rfl, fun _ h => (by cases h), fun _ _ h => (by cases h), fun _ h => (by cases h), List.nodup_nil⟩

/-! ### Spreading -/

/-- What happens to the counts: some are marked. -/
def Marked (c c' : Nat → Nat) : Prop := ∀ i, c' i = c i ∨ c' i = 999999

theorem Marked.trans {a b c : Nat → Nat} (h : Marked a b) (k : Marked b c) : Marked a c := by
  intro i
  rcases k i with h1 | h1
  · rw [h1]; exact h i
  · exact Or.inr h1

theorem Marked.keep {a b : Nat → Nat} (h : Marked a b) {i : Nat} (hi : a i = 999999) : b i = 999999 := by
  rcases h i with h1 | h1
  · rw [h1, hi]
  · exact h1

theorem zapRow_marked (s : (Nat → Nat) × List Nat) (e : Nat × ℚ) : Marked s.1 (zapRow s e).1 ∧ (zapRow s e).1 e.1 = 999999 := by
  unfold zapRow
  by_cases h : s.1 e.1 = 999999
  · rw [if_pos h]; exact ⟨fun _ => Or.inl rfl, h⟩
  · rw [if_neg h]
    refine ⟨fun i => ?_, by simp⟩
    dsimp only
    by_cases hi : i = e.1
    · rw [hi, Function.update_self]; exact Or.inr rfl
    · rw [Function.update_of_ne hi]; exact Or.inl rfl

theorem zapEntries_marked (es : List (Nat × ℚ)) : ∀ s : (Nat → Nat) × List Nat,
    Marked s.1 (es.foldl zapRow s).1 ∧ ∀ e ∈ es, (es.foldl zapRow s).1 e.1 = 999999 := by
  induction es with
  | nil => exact fun s => ⟨fun _ => Or.inl rfl, fun _ h => by cases h⟩
  | cons e es ih =>
    intro s
    rw [List.foldl_cons]
    obtain ⟨h1, h2⟩ := ih (zapRow s e)
    obtain ⟨h3, h4⟩ := zapRow_marked s e
    refine ⟨h3.trans h1, fun e' he' => ?_⟩
    rcases List.mem_cons.1 he' with rfl | he'
    · exact h1.keep h4
    · exact h2 e' he'

theorem zapRows_marked (zap : List Nat) (cnt : Nat → Nat) :
    Marked cnt (zapRows P zap cnt).1 ∧ ∀ j ∈ zap, ∀ e ∈ colEntries P j, (zapRows P zap cnt).1 e.1 = 999999 := by
  have go : ∀ (l : List Nat) (s : (Nat → Nat) × List Nat),
      Marked s.1 (l.foldl (fun s j => (colEntries P j).foldl zapRow s) s).1 ∧
      ∀ j ∈ l, ∀ e ∈ colEntries P j, (l.foldl (fun s j => (colEntries P j).foldl zapRow s) s).1 e.1 = 999999 := by
    intro l
    induction l with
    | nil => exact fun s => ⟨fun _ => Or.inl rfl, fun _ h => by cases h⟩
    | cons j l ih =>
      intro s
      rw [List.foldl_cons]
      obtain ⟨h1, h2⟩ := ih ((colEntries P j).foldl zapRow s)
      obtain ⟨h3, h4⟩ := zapEntries_marked (colEntries P j) s
      refine ⟨h3.trans h1, fun j' hj' e he => ?_⟩
      rcases List.mem_cons.1 hj' with rfl | hj'
      · exact h1.keep (h4 e he)
      · exact h2 j' hj' e he
  exact go zap (cnt, [])

theorem zapLoop_marked : ∀ (fuel : Nat) (zap : List Nat) (cnt : Nat → Nat) (noGood : Nat → Bool) (c : Nat → Nat),
    zapLoop P fuel zap cnt noGood = .ok c →
    Marked cnt c ∧ ∀ j ∈ zap, ∀ e ∈ colEntries P j, c e.1 = 999999 := by
  intro fuel
  induction fuel with
  | zero => intro zap cnt noGood c h; cases h
  | succ fuel ih =>
    intro zap cnt noGood c h
    unfold zapLoop at h
    by_cases hz : zap = []
    · rw [if_pos hz] at h
      cases h
      rw [hz]
      exact ⟨fun _ => Or.inl rfl, fun _ h => by cases h⟩
    · rw [if_neg hz] at h
      dsimp only at h
      obtain ⟨h1, -⟩ := ih _ _ _ _ h
      obtain ⟨h2, h3⟩ := zapRows_marked (P := P) zap cnt
      exact ⟨h2.trans h1, fun j hj e he => h1.keep (h3 j hj e he)⟩

/-! ### The columns that may be integer -/

/-- The column passed the tests and none of its rows is marked in the end. -/
def Chosen (P : Prob) (O : Objective) (c : Nat → Nat) (j : Nat) : Prop :=
  Continuous P j ∧ Fine P O j ∧ ∀ e ∈ colEntries P j, c e.1 ≠ 999999

theorem count_two {r : Row} (h : 1 < countOf P r) (hn : (r.coefs.map Prod.fst).Nodup) (hC : Clean P) (hr : r ∈ P.rows)
    (j : Nat) : ∃ q ∈ r.coefs, q.1 ≠ j ∧ Continuous P q.1 := by
  unfold countOf at h
  rw [List.countP_eq_length_filter] at h
  have hm : ∀ p ∈ r.coefs.filter (fun p => !fixed P p.1 && !P.isInt p.1), p ∈ r.coefs ∧ Continuous P p.1 := by
    intro p hp
    obtain ⟨h1, h2⟩ := List.mem_filter.1 hp
    rw [Bool.and_eq_true] at h2
    exact ⟨h1, continuous_of hC (hC.wf.cols r hr p h1) (by simpa using h2.1) (by simpa using h2.2)⟩
  have hd : ((r.coefs.filter fun p => !fixed P p.1 && !P.isInt p.1).map Prod.fst).Nodup :=
    hn.sublist (List.filter_sublist.map _)
  match he : (r.coefs.filter fun p => !fixed P p.1 && !P.isInt p.1), h with
  | [], h => rw [he] at h; simp at h
  | [_], h => rw [he] at h; simp at h
  | p :: q :: _, _ =>
    rw [he] at hm hd
    have hpq : p.1 ≠ q.1 := by
      simp only [List.map_cons, List.nodup_cons, List.mem_cons, not_or] at hd
      exact hd.1.1
    by_cases hj : p.1 = j
    · exact ⟨q, (hm q (by simp)).1, fun h => hpq (hj.trans h.symm), (hm q (by simp)).2⟩
    · exact ⟨p, (hm p (by simp)).1, hj, (hm p (by simp)).2⟩

theorem chosen_kind (hC : Clean P) {makeAll : Bool} (hO : O.direction ≠ 0) (hN : NoIdle makeAll P O) {c : Nat → Nat}
    {zap : List Nat}
    (hz : ∀ j < P.nCols, Considered makeAll P O j → j ∈ zap ∨ Fine P O j)
    (hm : ∀ j ∈ zap, ∀ e ∈ colEntries P j, c e.1 = 999999) {j : Nat} (hj : j < P.nCols) (h : Chosen P O c j) :
    Kind P O (Chosen P O c) j := by
  obtain ⟨h1, h2, h3⟩ := h
  by_cases ha : ∀ r ∈ P.rows, ∀ a, (j, a) ∈ r.coefs → countOf P r ≤ 1
  · exact .alone _ (fine_ok hC hj h1 h2) ha
  · push Not at ha
    obtain ⟨r, hr, a, hm', hn⟩ := ha
    obtain ⟨i, hi⟩ := List.getElem?_of_mem hr
    obtain ⟨h4, h5⟩ := fine_shared hC hj h1 h2 hi hm' hn
    rcases h5 with h5 | h5
    · exact .forced h1 h5
    · refine .shared h4 r hr a hm' (only_of_entries hi h5) ?_
      rintro ⟨k, b⟩ hp hc
      have hk := hC.wf.cols r hr _ hp
      obtain ⟨q, hq, hne, hqc⟩ := count_two hn (hC.wf.nodup r hr) hC hr k
      have hidle := hN r hr (k, b) hp q hq (Ne.symm hne) hc hqc
      rw [← colEntries_length] at hidle
      have hcons : Considered makeAll P O k := ⟨hc, hidle.imp (fun h => mul_ne_zero h hO) id⟩
      have hi3 := h3 (i, a) (mem_colEntries hi hm')
      have hfine : Fine P O k := by
        rcases hz k hk hcons with h | h
        · exact absurd (hm k h (i, b) (mem_colEntries hi hp)) hi3
        · exact h
      obtain ⟨h6, h7⟩ := fine_shared hC hk hc hfine hi hp hn
      rcases h7 with h7 | h7
      · exact Or.inl h7
      · refine Or.inr ⟨⟨hc, hfine, ?_⟩, h6, only_of_entries hi h7⟩
        intro e he
        rw [h7] at he
        rw [List.mem_singleton.1 he]
        exact hi3

end Cgl.MakeInts
