import Verif.MakeInts.Look

/-! # What one turn of `makeIntegers2` changes -/

namespace Cgl.MakeInts

open PreInteger (Objective colEntries colEntries_mem retype)

variable {P : Prob} {O : Objective}

/-! ### Counting -/

theorem countP_less {f g : Nat → Bool} {i : Nat} : ∀ {n : Nat}, i < n → (∀ k, k ≠ i → f k = g k) → f i = true →
    g i = false → (List.range n).countP g + 1 = (List.range n).countP f := by
  intro n
  induction n with
  | zero => intro h; exact absurd h (Nat.not_lt_zero i)
  | succ n ih =>
    intro hi he hf hg
    rw [List.range_succ, List.countP_append, List.countP_append, List.countP_singleton, List.countP_singleton]
    by_cases hn : i = n
    · subst hn
      have : (List.range i).countP g = (List.range i).countP f := by
        apply List.countP_congr
        intro k hk
        rw [he k (List.mem_range.1 hk).ne]
      rw [this, hf, hg]
      simp
    · have := ih (by omega) he hf hg
      rw [he n (Ne.symm hn)]
      omega

/-- The number of integer columns. -/
def ints (P : Prob) : Nat := (List.range P.nCols).countP P.isInt

theorem ints_le (P : Prob) : ints P ≤ P.nCols := by
  unfold ints
  exact List.countP_le_length.trans (by rw [List.length_range])

theorem ints_set {j : Nat} (hj : j < P.nCols) (hi : P.isInt j = false) : ints (setInteger P j) = ints P + 1 := by
  unfold ints setInteger
  dsimp only
  exact (countP_less hj (fun k hk => by rw [Function.update_of_ne hk]) (by rw [Function.update_self]) hi).symm

/-! ### The change of the problem -/

/-- `Q` is `P` with some of the columns `G` made integer. -/
structure Grow (P : Prob) (tol : ℚ) (G : Nat → Prop) (Q : Prob) : Prop where
  nCols : Q.nCols = P.nCols
  inf : Q.inf = P.inf
  rows : Q.rows = P.rows
  old : ∀ j, P.isInt j = true → Q.isInt j = true
  new : ∀ j, Q.isInt j = true → P.isInt j = true ∨ (j < P.nCols ∧ G j)
  bounds : ∀ j, (Q.colLower j = P.colLower j ∧ Q.colUpper j = P.colUpper j) ∨ (P.isInt j = false ∧ Q.isInt j = true ∧
    Q.colLower j = (⌈P.colLower j - tol⌉ : ℤ) ∧ Q.colUpper j = (⌊P.colUpper j + tol⌋ : ℤ))

theorem Grow.refl (P : Prob) (tol : ℚ) (G : Nat → Prop) : Grow P tol G P :=
  ⟨rfl, rfl, rfl, fun _ h => h, fun _ h => Or.inl h, fun _ => Or.inl ⟨rfl, rfl⟩⟩

theorem Grow.start {tol : ℚ} {G : Nat → Prop} {Q : Prob} (h : Grow P tol G Q) {j : Nat} (hj : Q.isInt j = false) :
    P.isInt j = false ∧ Q.colLower j = P.colLower j ∧ Q.colUpper j = P.colUpper j := by
  refine ⟨?_, ?_⟩
  · rw [Bool.eq_false_iff]
    intro hp
    rw [h.old j hp] at hj
    cases hj
  · rcases h.bounds j with hb | ⟨-, hb, -⟩
    · exact hb
    · rw [hj] at hb; cases hb

theorem grow_set {tol : ℚ} {G : Nat → Prop} {Q : Prob} (h : Grow P tol G Q) {j : Nat} (hj : j < P.nCols) (hg : G j) :
    Grow P tol G (setInteger Q j) := by
  refine ⟨h.nCols, h.inf, h.rows, ?_, ?_, ?_⟩
  · intro k hk
    unfold setInteger
    by_cases hkj : k = j
    · rw [hkj]; simp
    · dsimp only; rw [Function.update_of_ne hkj]; exact h.old k hk
  · intro k hk
    by_cases hkj : k = j
    · rw [hkj]; exact Or.inr ⟨hj, hg⟩
    · unfold setInteger at hk
      dsimp only at hk
      rw [Function.update_of_ne hkj] at hk
      exact h.new k hk
  · intro k
    rcases h.bounds k with hb | ⟨b1, b2, b3⟩
    · exact Or.inl hb
    · refine Or.inr ⟨b1, ?_, b3⟩
      unfold setInteger
      by_cases hkj : k = j
      · rw [hkj]; simp
      · dsimp only; rw [Function.update_of_ne hkj]; exact b2

theorem grow_clean {tol : ℚ} {G : Nat → Prop} {Q : Prob} (h : Grow P tol G Q) {j : Nat} (hj : j < P.nCols) (hg : G j)
    (hi : Q.isInt j = false) : Grow P tol G (cleanBounds (setInteger Q j) tol j) := by
  have hs := grow_set h hj hg
  obtain ⟨s1, s2, s3⟩ := h.start hi
  refine ⟨hs.nCols, hs.inf, hs.rows, hs.old, hs.new, ?_⟩
  intro k
  by_cases hkj : k = j
  · right
    subst hkj
    unfold cleanBounds setInteger
    dsimp only
    rw [Function.update_self, Function.update_self, Function.update_self, s2, s3]
    exact ⟨s1, rfl, rfl, rfl⟩
  · have := hs.bounds k
    unfold cleanBounds
    dsimp only
    rw [Function.update_of_ne hkj, Function.update_of_ne hkj]
    exact this

theorem colEntries_rows {Q : Prob} (h : Q.rows = P.rows) (j : Nat) : colEntries Q j = colEntries P j := by
  unfold colEntries
  rw [h]

theorem unmarked_iff {cnt : Nat → Nat} {j : Nat} :
    unmarked P cnt j = true ↔ ∀ e ∈ colEntries P j, cnt e.1 ≠ 999999 := by
  unfold unmarked
  rw [List.all_eq_true]
  simp only [decide_eq_true_eq]

/-- A column that may be declared integer. -/
structure May (P : Prob) (O : Objective) (cnt : Nat → Nat) (j : Nat) : Prop where
  cont : Continuous P j
  narrow : P.colUpper j ≤ P.colLower j + 10
  chosen : O.direction ≠ 0 → Chosen P O cnt j

theorem newInteger_spec {tol : ℚ} {cnt : Nat → Nat} : ∀ (l : List Nat) (s : Change), Grow P tol (May P O cnt) s.P →
    s.nonZero + s.zero + ints P = ints s.P → l.Nodup →
    (∀ j ∈ l, j < P.nCols ∧ s.P.isInt j = false ∧ Fine P O j ∧ Continuous P j) →
    Grow P tol (May P O cnt) (l.foldl (newInteger cnt O tol) s).P ∧
    (l.foldl (newInteger cnt O tol) s).nonZero + (l.foldl (newInteger cnt O tol) s).zero + ints P =
      ints (l.foldl (newInteger cnt O tol) s).P ∧
    ((l.foldl (newInteger cnt O tol) s).allGood = true → s.allGood = true) := by
  intro l
  induction l with
  | nil => exact fun s h1 h2 _ _ => ⟨h1, h2, id⟩
  | cons j l ih =>
    intro s h1 h2 h3 h4
    rw [List.nodup_cons] at h3
    obtain ⟨j1, j2, j3, j4⟩ := h4 j List.mem_cons_self
    rw [List.foldl_cons]
    unfold newInteger
    by_cases hc : unmarked s.P cnt j = true ∧ s.P.colUpper j < s.P.colLower j + 10
    · rw [if_pos hc]
      obtain ⟨b1, b2, b3⟩ := h1.start j2
      have hmay : May P O cnt j := by
        refine ⟨j4, by rw [← b2, ← b3]; exact hc.2.le, fun _ => ⟨j4, j3, ?_⟩⟩
        have := unmarked_iff.1 hc.1
        rw [colEntries_rows h1.rows] at this
        exact this
      have hi : ints (cleanBounds (setInteger s.P j) tol j) = ints s.P + 1 := by
        have : ints (cleanBounds (setInteger s.P j) tol j) = ints (setInteger s.P j) := rfl
        rw [this, ints_set (by rw [h1.nCols]; exact j1) j2]
      have := ih { s with
        P := cleanBounds (setInteger s.P j) tol j
        nonZero := if O.coef j = 0 then s.nonZero else s.nonZero + 1
        zero := if O.coef j = 0 then s.zero + 1 else s.zero } (grow_clean h1 j1 hmay j2) (by
          dsimp only
          rw [hi, ← h2]
          split <;> omega) h3.2 (by
          intro k hk
          obtain ⟨k1, k2, k3⟩ := h4 k (List.mem_cons_of_mem _ hk)
          refine ⟨k1, ?_, k3⟩
          have hne : k ≠ j := by rintro rfl; exact h3.1 hk
          show (setInteger s.P j).isInt k = false
          unfold setInteger
          dsimp only
          rw [Function.update_of_ne hne]
          exact k2)
      exact this
    · rw [if_neg hc]
      obtain ⟨a, b, c⟩ := ih { s with allGood := s.allGood && decide (O.coef j = 0) } h1 h2 h3.2
        fun k hk => h4 k (List.mem_cons_of_mem _ hk)
      refine ⟨a, b, fun h => ?_⟩
      have := c h
      dsimp only at this
      rw [Bool.and_eq_true] at this
      exact this.1

theorem lastColumn_spec {tol : ℚ} {cnt : Nat → Nat} {base : Nat}
    (hall : ∀ j < P.nCols, Continuous P j → O.coef j ≠ 0 → O.direction ≠ 0 → Chosen P O cnt j) :
    ∀ (l : List Nat) (s : Prob × Nat), (∀ j ∈ l, j < P.nCols) → Grow P tol (May P O cnt) s.1 → s.2 + base = ints s.1 →
    Grow P tol (May P O cnt) (l.foldl (lastColumn O) s).1 ∧ (l.foldl (lastColumn O) s).2 + base = ints (l.foldl (lastColumn O) s).1 := by
  intro l
  induction l with
  | nil => exact fun s _ h1 h2 => ⟨h1, h2⟩
  | cons j l ih =>
    intro s hl h1 h2
    rw [List.foldl_cons]
    have hj := hl j List.mem_cons_self
    apply ih _ fun k hk => hl k (List.mem_cons_of_mem _ hk)
    · unfold lastColumn
      by_cases hc : s.1.colLower j < s.1.colUpper j ∧ O.coef j ≠ 0 ∧ s.1.isInt j = false ∧ s.1.colUpper j ≤ s.1.colLower j + 10
      · rw [if_pos hc]
        obtain ⟨c1, c2, c3, c4⟩ := hc
        obtain ⟨b1, b2, b3⟩ := h1.start c3
        rw [b2, b3] at c1 c4
        exact grow_set h1 hj ⟨⟨c1, b1⟩, c4, hall j hj ⟨c1, b1⟩ c2⟩
      · rw [if_neg hc]; exact h1
    · unfold lastColumn
      by_cases hc : s.1.colLower j < s.1.colUpper j ∧ O.coef j ≠ 0 ∧ s.1.isInt j = false ∧ s.1.colUpper j ≤ s.1.colLower j + 10
      · rw [if_pos hc]
        dsimp only
        rw [ints_set (by rw [h1.nCols]; exact hj) hc.2.2.1]
        omega
      · rw [if_neg hc]; exact h2

theorem finalLook_iff {cnt : Nat → Nat} (h : finalLook P O cnt = true) {j : Nat} (hj : j < P.nCols) (hc : Continuous P j)
    (ho : O.coef j ≠ 0) : ∀ e ∈ colEntries P j, cnt e.1 ≠ 999999 := by
  unfold finalLook at h
  rw [List.all_eq_true] at h
  have := h j (List.mem_range.2 hj)
  rw [openC_iff.2 hc, decide_eq_true ho] at this
  exact unmarked_iff.1 (by simpa using this)

/-- What one turn does. -/
theorem pass_spec {makeAll : Bool} {tol : ℚ} {P' : Prob} {n : Nat} (h : pass makeAll P O tol = .ok (P', n)) :
    ∃ (cnt : Nat → Nat) (zap : List Nat), Grow P tol (May P O cnt) P' ∧ n + ints P = ints P' ∧
      (∀ j < P.nCols, Considered makeAll P O j → j ∈ zap ∨ Fine P O j) ∧
      (∀ j ∈ zap, ∀ e ∈ colEntries P j, cnt e.1 = 999999) := by
  unfold pass at h
  dsimp only at h
  have hL := columns_loop makeAll P O
  generalize columns makeAll P O = s at h hL
  cases hz : zapLoop P (P.rows.length + 2) s.zap s.cnt fun _ => false with
  | error e => rw [hz] at h; cases h
  | ok cnt =>
    rw [hz] at h
    dsimp only at h
    obtain ⟨-, hm⟩ := zapLoop_marked _ _ _ _ _ hz
    have hc : Grow P tol (May P O cnt) (newIntegers P O tol cnt s.newInts (s.allGood && finalLook P O cnt)).P ∧
        (newIntegers P O tol cnt s.newInts (s.allGood && finalLook P O cnt)).nonZero +
          (newIntegers P O tol cnt s.newInts (s.allGood && finalLook P O cnt)).zero + ints P =
          ints (newIntegers P O tol cnt s.newInts (s.allGood && finalLook P O cnt)).P ∧
        ((newIntegers P O tol cnt s.newInts (s.allGood && finalLook P O cnt)).allGood = true →
          (s.allGood && finalLook P O cnt) = true) := by
      unfold newIntegers
      split
      · apply newInteger_spec _ _ (Grow.refl P tol _) (by simp) hL.nodup
        intro j hj
        obtain ⟨a, b, c⟩ := hL.newInts j hj
        exact ⟨List.mem_range.1 a, b.2, c, b⟩
      · exact ⟨Grow.refl P tol _, by simp, id⟩
    generalize newIntegers P O tol cnt s.newInts (s.allGood && finalLook P O cnt) = c at h hc
    obtain ⟨c1, c2, c3⟩ := hc
    have hl : Grow P tol (May P O cnt) (lastColumns O c s.numberObj).1 ∧
        (lastColumns O c s.numberObj).2 + (c.zero + ints P) = ints (lastColumns O c s.numberObj).1 := by
      unfold lastColumns
      split
      · rename_i hg
        have hg := c3 hg.1
        rw [Bool.and_eq_true] at hg
        apply lastColumn_spec
        · intro j hj hcont ho hd
          exact ⟨hcont, hL.allGood hg.1 j (List.mem_range.2 hj) hcont (mul_ne_zero ho hd), finalLook_iff hg.2 hj hcont ho⟩
        · intro j hj
          rw [← c1.nCols]
          exact List.mem_range.1 hj
        · exact c1
        · dsimp only; omega
      · exact ⟨c1, by dsimp only; omega⟩
    have h := Except.ok.inj h
    rw [Prod.mk.injEq] at h
    rw [← h.1, ← h.2]
    refine ⟨cnt, s.zap, hl.1, by omega, ?_, hm⟩
    intro j hj hcons
    exact hL.zap j (List.mem_range.2 hj) hcons

/-! ### The loops end -/

/-- The number of rows that are not marked. -/
def open' (P : Prob) (cnt : Nat → Nat) : Nat := (List.range P.rows.length).countP fun i => decide (cnt i ≠ 999999)

theorem zapEntries_count (es : List (Nat × ℚ)) (hes : ∀ e ∈ es, e.1 < P.rows.length) : ∀ s : (Nat → Nat) × List Nat,
    open' P (es.foldl zapRow s).1 + (es.foldl zapRow s).2.length = open' P s.1 + s.2.length := by
  induction es with
  | nil => exact fun s => rfl
  | cons e es ih =>
    intro s
    rw [List.foldl_cons, ih (fun e' he' => hes e' (List.mem_cons_of_mem _ he'))]
    unfold zapRow
    by_cases h : s.1 e.1 = 999999
    · rw [if_pos h]
    · rw [if_neg h]
      have : open' P (Function.update s.1 e.1 999999) + 1 = open' P s.1 := by
        unfold open'
        apply countP_less (hes e List.mem_cons_self)
        · intro k hk
          rw [Function.update_of_ne hk]
        · exact decide_eq_true h
        · rw [Function.update_self]; simp
      rw [List.length_append]
      simp only [List.length_cons, List.length_nil]
      omega

theorem zapRows_count (zap : List Nat) (cnt : Nat → Nat) :
    open' P (zapRows P zap cnt).1 + (zapRows P zap cnt).2.length = open' P cnt := by
  have go : ∀ (l : List Nat) (s : (Nat → Nat) × List Nat),
      open' P (l.foldl (fun s j => (colEntries P j).foldl zapRow s) s).1 +
        (l.foldl (fun s j => (colEntries P j).foldl zapRow s) s).2.length = open' P s.1 + s.2.length := by
    intro l
    induction l with
    | nil => exact fun s => rfl
    | cons j l ih =>
      intro s
      rw [List.foldl_cons, ih, zapEntries_count]
      intro e he
      obtain ⟨r, hr, -⟩ := colEntries_mem (i := e.1) (c := e.2) he
      exact (List.getElem?_eq_some_iff.1 hr).1
  exact go zap (cnt, [])

theorem zapLoop_ends : ∀ (fuel : Nat) (zap : List Nat) (cnt : Nat → Nat) (noGood : Nat → Bool), open' P cnt + 2 ≤ fuel →
    ∃ c, zapLoop P fuel zap cnt noGood = .ok c := by
  intro fuel
  induction fuel with
  | zero => intro _ _ _ h; omega
  | succ fuel ih =>
    intro zap cnt noGood h
    unfold zapLoop
    by_cases hz : zap = []
    · rw [if_pos hz]; exact ⟨cnt, rfl⟩
    · rw [if_neg hz]
      dsimp only
      have hcount := zapRows_count (P := P) zap cnt
      match hl : (zapRows P zap cnt).2 with
      | [] =>
        unfold spread
        rw [List.foldl_nil]
        dsimp only
        cases fuel with
        | zero => omega
        | succ f => unfold zapLoop; rw [if_pos rfl]; exact ⟨_, rfl⟩
      | a :: l =>
        apply ih
        rw [hl, List.length_cons] at hcount
        omega

theorem open_le (P : Prob) (cnt : Nat → Nat) : open' P cnt ≤ P.rows.length :=
  List.countP_le_length.trans (by rw [List.length_range])

theorem pass_returns (makeAll : Bool) (P : Prob) (O : Objective) (tol : ℚ) : ∃ P' n, pass makeAll P O tol = .ok (P', n) := by
  unfold pass
  dsimp only
  obtain ⟨c, hc⟩ := zapLoop_ends (P := P) (P.rows.length + 2) (columns makeAll P O).zap (columns makeAll P O).cnt
    (fun _ => false) (by have := open_le P (columns makeAll P O).cnt; omega)
  rw [hc]
  exact ⟨_, _, rfl⟩

end Cgl.MakeInts
