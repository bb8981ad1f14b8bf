import Verif.MakeInts.Pass

/-! # Continuous columns that preprocessing declares integer -/

namespace Cgl.MakeInts

open PreInteger (Objective colEntries retype Harmless value added)

variable {P : Prob} {O : Objective}

/-! ### The call returns, and the number it returns -/

theorem Grow.mono {tol : ℚ} {G H : Nat → Prop} {Q : Prob} (h : Grow P tol G Q) (hg : ∀ j, G j → H j) : Grow P tol H Q :=
  ⟨h.nCols, h.inf, h.rows, h.old, fun j hj => (h.new j hj).imp id fun k => ⟨k.1, hg j k.2⟩, h.bounds⟩

/-- A continuous column that is not wide. -/
def Narrow (P : Prob) (j : Nat) : Prop := Continuous P j ∧ P.colUpper j ≤ P.colLower j + 10

theorem Grow.trans {tol : ℚ} {Q R : Prob} (h : Grow P tol (Narrow P) Q) (k : Grow Q tol (Narrow Q) R) :
    Grow P tol (Narrow P) R := by
  refine ⟨k.nCols.trans h.nCols, k.inf.trans h.inf, k.rows.trans h.rows, fun j hj => k.old j (h.old j hj), ?_, ?_⟩
  · intro j hj
    rcases k.new j hj with h1 | ⟨h1, h2, h3⟩
    · exact h.new j h1
    · obtain ⟨a, b, c⟩ := h.start h2.2
      have h4 := h2.1
      rw [b, c] at h4 h3
      exact Or.inr ⟨h.nCols ▸ h1, ⟨h4, a⟩, h3⟩
  · intro j
    rcases k.bounds j with ⟨b1, b2⟩ | ⟨b1, b2, b3, b4⟩
    · rw [b1, b2]
      rcases h.bounds j with hb | ⟨c1, c2, c3⟩
      · exact Or.inl hb
      · exact Or.inr ⟨c1, k.old j c2, c3⟩
    · obtain ⟨a, b, c⟩ := h.start b1
      rw [b] at b3
      rw [c] at b4
      exact Or.inr ⟨a, b2, b3, b4⟩

theorem passes_spec {makeAll : Bool} {tol : ℚ} : ∀ (fuel : Nat) (P : Prob) (total : Nat) (P' : Prob) (n : Nat),
    passes makeAll O tol fuel P total = .ok (P', n) → Grow P tol (Narrow P) P' ∧ n + ints P = total + ints P' := by
  intro fuel
  induction fuel with
  | zero => intro P total P' n h; cases h
  | succ fuel ih =>
    intro P total P' n h
    unfold passes at h
    cases hp : pass makeAll P O tol with
    | error e => rw [hp] at h; cases h
    | ok q =>
      obtain ⟨Q, m⟩ := q
      rw [hp] at h
      dsimp only at h
      obtain ⟨cnt, zap, hg, hm, -⟩ := pass_spec hp
      have hg := hg.mono fun j (hj : May P O cnt j) => (⟨hj.cont, hj.narrow⟩ : Narrow P j)
      by_cases hc : m = 0 ∨ makeAll = false
      · rw [if_pos hc] at h
        have h := Except.ok.inj h
        rw [Prod.mk.injEq] at h
        rw [← h.1, ← h.2]
        exact ⟨hg, by omega⟩
      · rw [if_neg hc] at h
        obtain ⟨h1, h2⟩ := ih _ _ _ _ h
        exact ⟨hg.trans h1, by omega⟩

theorem passes_returns {makeAll : Bool} {tol : ℚ} : ∀ (fuel : Nat) (P : Prob) (total : Nat), P.nCols + 1 ≤ fuel + ints P →
    ∃ P' n, passes makeAll O tol fuel P total = .ok (P', n) := by
  intro fuel
  induction fuel with
  | zero => intro P total h; have := ints_le P; omega
  | succ fuel ih =>
    intro P total h
    obtain ⟨Q, m, hp⟩ := pass_returns makeAll P O tol
    unfold passes
    rw [hp]
    dsimp only
    by_cases hc : m = 0 ∨ makeAll = false
    · rw [if_pos hc]; exact ⟨_, _, rfl⟩
    · rw [if_neg hc]
      obtain ⟨cnt, zap, hg, hm, -⟩ := pass_spec hp
      apply ih
      rw [hg.nCols]
      have : m ≠ 0 := fun h => hc (Or.inl h)
      omega

/-- **The call returns**, whatever the problem. -/
theorem makeIntegers2_returns (P : Prob) (O : Objective) (tol : ℚ) (mode : ℤ) :
    ∃ P' n, makeIntegers2 P O tol mode = .ok (P', n) := by
  unfold makeIntegers2
  exact passes_returns _ _ _ (by omega)

theorem added_ints {T : Nat → Bool} (h : ∀ j, P.isInt j = true → T j = true) :
    (List.range P.nCols).countP T = ints P + added P T := by
  unfold ints added
  induction List.range P.nCols with
  | nil => rfl
  | cons j l ih =>
    rw [List.countP_cons, List.countP_cons, List.countP_cons, ih]
    have hj := h j
    cases h1 : P.isInt j with
    | true => rw [hj h1]; simp; omega
    | false => cases T j <;> simp; omega

/-- **What the call changes.**  Rows stay, integer columns stay integer with their bounds; new integer columns were
continuous, not fixed and at most 10 wide, and their bounds are kept or rounded; the number returned is the number of new integer columns. -/
theorem makeIntegers2_frame {tol : ℚ} {mode : ℤ} {P' : Prob} {n : Nat} (h : makeIntegers2 P O tol mode = .ok (P', n)) :
    P'.nCols = P.nCols ∧ P'.inf = P.inf ∧ P'.rows = P.rows ∧ n = added P P'.isInt ∧
    (∀ j, P.isInt j = true → P'.isInt j = true) ∧
    (∀ j, P'.isInt j = true → P.isInt j = true ∨
      (j < P.nCols ∧ P.colLower j < P.colUpper j ∧ P.colUpper j ≤ P.colLower j + 10)) ∧
    (∀ j, (P'.isInt j = P.isInt j → P'.colLower j = P.colLower j ∧ P'.colUpper j = P.colUpper j) ∧
      (P'.colLower j = P.colLower j ∨ P'.colLower j = (⌈P.colLower j - tol⌉ : ℤ)) ∧
      (P'.colUpper j = P.colUpper j ∨ P'.colUpper j = (⌊P.colUpper j + tol⌋ : ℤ))) := by
  unfold makeIntegers2 at h
  obtain ⟨hg, hn⟩ := passes_spec _ _ _ _ _ h
  refine ⟨hg.nCols, hg.inf, hg.rows, ?_, hg.old, ?_, ?_⟩
  · have h1 := added_ints (P := P) hg.old
    have h2 : ints P' = (List.range P.nCols).countP P'.isInt := by unfold ints; rw [hg.nCols]
    omega
  · intro j hj
    exact (hg.new j hj).imp id fun k => ⟨k.1, k.2.1.1, k.2.2⟩
  · intro j
    rcases hg.bounds j with ⟨a, b⟩ | ⟨a, b, c, d⟩
    · exact ⟨fun _ => ⟨a, b⟩, Or.inl a, Or.inl b⟩
    · exact ⟨fun he => (by rw [a, b] at he; cases he), Or.inr c, Or.inr d⟩

/-! ### The optimum stays -/

theorem clean_retype (hC : Clean P) (T : Nat → Bool) : Clean (retype P T) :=
  ⟨⟨hC.wf.cols, hC.wf.nodup⟩, hC.inf, hC.order, hC.fixed, hC.coefs, hC.colBounds, hC.large, hC.rowBounds, hC.parts, hC.lowers,
    hC.uppers, hC.equations⟩

theorem noIdle_retype {makeAll : Bool} (h : NoIdle makeAll P O) {T : Nat → Bool} (hT : ∀ j, P.isInt j = true → T j = true) :
    NoIdle makeAll (retype P T) O := by
  have hc : ∀ j, Continuous (retype P T) j → Continuous P j := by
    intro j hj
    refine ⟨hj.1, ?_⟩
    rw [Bool.eq_false_iff]
    intro hi
    have : T j = false := hj.2
    rw [hT j hi] at this
    cases this
  intro r hr p hp q hq hne cp cq
  exact h r hr p hp q hq hne (hc _ cp) (hc _ cq)

theorem floor_tol {v tol : ℚ} (hv : IsInteger v) (h0 : 0 ≤ tol) (h1 : tol < 1) : ((⌊v + tol⌋ : ℤ) : ℚ) = v := by
  obtain ⟨z, rfl⟩ := hv
  have : ⌊(z : ℚ) + tol⌋ = z := by
    rw [Int.floor_eq_iff]
    constructor <;> linarith
  rw [this]

theorem ceil_tol {v tol : ℚ} (hv : IsInteger v) (h0 : 0 ≤ tol) (h1 : tol < 1) : ((⌈v - tol⌉ : ℤ) : ℚ) = v := by
  obtain ⟨z, rfl⟩ := hv
  have : ⌈(z : ℚ) - tol⌉ = z := by
    rw [Int.ceil_eq_iff]
    constructor <;> linarith
  rw [this]

theorem grow_retype {tol : ℚ} {G : Nat → Prop} {Q : Prob} (h : Grow P tol G Q) (h0 : 0 ≤ tol) (h1 : tol < 1)
    (hb : ∀ j < P.nCols, G j → IsInteger (P.colLower j) ∧ IsInteger (P.colUpper j)) : Q = retype P Q.isInt := by
  have hlu : Q.colLower = P.colLower ∧ Q.colUpper = P.colUpper := by
    have : ∀ j, Q.colLower j = P.colLower j ∧ Q.colUpper j = P.colUpper j := by
      intro j
      rcases h.bounds j with hb' | ⟨b1, b2, b3, b4⟩
      · exact hb'
      · rcases h.new j b2 with hp | ⟨hj, hg⟩
        · rw [b1] at hp; cases hp
        · obtain ⟨i1, i2⟩ := hb j hj hg
          rw [b3, b4, ceil_tol i1 h0 h1, floor_tol i2 h0 h1]
          exact ⟨rfl, rfl⟩
    exact ⟨funext fun j => (this j).1, funext fun j => (this j).2⟩
  unfold retype
  cases Q
  simp only [Prob.mk.injEq]
  exact ⟨h.nCols, h.inf, hlu.1, hlu.2, trivial, h.rows⟩

/-- One turn is harmless. -/
theorem pass_harmless {makeAll : Bool} {tol : ℚ} {P' : Prob} {n : Nat} (hC : Clean P) (hO : O.direction ≠ 0)
    (hN : NoIdle makeAll P O) (h0 : 0 ≤ tol) (h1 : tol < 1) (h : pass makeAll P O tol = .ok (P', n)) :
    P' = retype P P'.isInt ∧ Harmless P O P'.isInt ∧ ∀ j, P.isInt j = true → P'.isInt j = true := by
  obtain ⟨cnt, zap, hg, -, hz, hm⟩ := pass_spec h
  refine ⟨grow_retype hg h0 h1 ?_, ?_, hg.old⟩
  · intro j hj hmay
    have := fine_ok hC hj hmay.cont (hmay.chosen hO).2.1
    exact ⟨this.lower, this.upper⟩
  · refine ⟨fun x hx => ⟨hx.rows, hx.lower, hx.upper, fun j hj hi => hx.int j hj (hg.old j hi)⟩, fun x hx => ?_⟩
    obtain ⟨y, y1, y2⟩ := settle hC (O := O) (G := Chosen P O cnt) (fun j hj hc => chosen_kind hC hO hN hz hm hj hc) _ x rfl hx
    refine ⟨y, ⟨y1.feasible.rows, y1.feasible.lower, y1.feasible.upper, fun j hj hi => ?_⟩, y1.value, y1.same⟩
    rcases hg.new j hi with h2 | ⟨-, h2⟩
    · exact y1.feasible.int j hj h2
    · exact y2 j hj (h2.chosen hO)

theorem harmless_trans {T U : Nat → Bool} (h : Harmless P O T) (k : Harmless (retype P T) O U)
    (hT : ∀ j, P.isInt j = true → T j = true) : Harmless P O U := by
  refine ⟨fun x hx => h.feasible x (k.feasible x hx), fun x hx => ?_⟩
  obtain ⟨y, y1, y2, y3⟩ := h.dominated x hx
  obtain ⟨z, z1, z2, z3⟩ := k.dominated y y1
  exact ⟨z, z1, le_trans z2 y2, fun j hj hi => (z3 j hj (hT j hi)).trans (y3 j hj hi)⟩

theorem passes_harmless {makeAll : Bool} {tol : ℚ} (hO : O.direction ≠ 0) (h0 : 0 ≤ tol) (h1 : tol < 1) :
    ∀ (fuel : Nat) (P : Prob) (total : Nat) (P' : Prob) (n : Nat), Clean P → NoIdle makeAll P O →
      passes makeAll O tol fuel P total = .ok (P', n) → P' = retype P P'.isInt ∧ Harmless P O P'.isInt := by
  intro fuel
  induction fuel with
  | zero => intro P total P' n _ _ h; cases h
  | succ fuel ih =>
    intro P total P' n hC hN h
    unfold passes at h
    cases hp : pass makeAll P O tol with
    | error e => rw [hp] at h; cases h
    | ok q =>
      obtain ⟨Q, m⟩ := q
      rw [hp] at h
      dsimp only at h
      obtain ⟨q1, q2, q3⟩ := pass_harmless hC hO hN h0 h1 hp
      by_cases hc : m = 0 ∨ makeAll = false
      · rw [if_pos hc] at h
        have h := Except.ok.inj h
        rw [Prod.mk.injEq] at h
        rw [← h.1]
        exact ⟨q1, q2⟩
      · rw [if_neg hc, q1] at h
        obtain ⟨r1, r2⟩ := ih _ _ _ _ (clean_retype hC Q.isInt) (noIdle_retype hN q3) h
        exact ⟨r1, harmless_trans q2 r2 q3⟩

/-- **The columns that `makeIntegers2` declares integer may be declared integer**, and nothing else changes, if no continuous
column that the code passes over shares a row with another continuous column. -/
theorem makeIntegers2_harmless_partial {tol : ℚ} {mode : ℤ} {P' : Prob} {n : Nat} (hC : Clean P) (hO : O.direction ≠ 0)
    (hN : NoIdle (decide (1 < mode)) P O) (h0 : 0 ≤ tol) (h1 : tol < 1) (h : makeIntegers2 P O tol mode = .ok (P', n)) :
    P' = retype P P'.isInt ∧ Harmless P O P'.isInt :=
  passes_harmless hO h0 h1 _ _ _ _ _ hC hN h

/-- An optimal solution afterwards is an optimal solution of the problem. -/
theorem makeIntegers2_optimum_partial {tol : ℚ} {mode : ℤ} {P' : Prob} {n : Nat} (hC : Clean P) (hO : O.direction ≠ 0)
    (hN : NoIdle (decide (1 < mode)) P O) (h0 : 0 ≤ tol) (h1 : tol < 1) (h : makeIntegers2 P O tol mode = .ok (P', n))
    {x : Nat → ℚ} (hx : P'.Feasible x)
    (ho : ∀ y, P'.Feasible y → O.direction * value P O x ≤ O.direction * value P O y) :
    P.Feasible x ∧ ∀ y, P.Feasible y → O.direction * value P O x ≤ O.direction * value P O y := by
  obtain ⟨a, b⟩ := makeIntegers2_harmless_partial hC hO hN h0 h1 h
  rw [a] at hx ho
  exact PreInteger.harmless_optimum b hx ho

/-! ### Without `makeAll` it is all or nothing -/

theorem newInts_none : ∀ (l : List Nat) (s : State), s.newInts = [] → (l.foldl (column false P O) s).newInts = [] := by
  intro l
  induction l with
  | nil => exact fun s h => h
  | cons j l ih =>
    intro s h
    rw [List.foldl_cons]
    apply ih
    have hc : ∀ c good s, s.newInts = [] → (conclude false P c good s j).newInts = [] := by
      intro c good s h
      unfold conclude
      by_cases hg : good = false
      · rw [if_pos hg]; exact h
      · rw [if_neg hg, if_neg (by simp)]; exact h
    unfold column
    split
    · split
      · split
        · exact h
        · exact hc _ _ _ h
      · exact hc _ _ _ h
    · exact h

theorem lastColumn_isInt (k : Nat) : ∀ (l : List Nat) (s : Prob × Nat), (l.foldl (lastColumn O) s).1.colLower = s.1.colLower ∧
    (l.foldl (lastColumn O) s).1.colUpper = s.1.colUpper ∧
    ((l.foldl (lastColumn O) s).1.isInt k = true ↔ s.1.isInt k = true ∨
      (k ∈ l ∧ s.1.colLower k < s.1.colUpper k ∧ O.coef k ≠ 0 ∧ s.1.colUpper k ≤ s.1.colLower k + 10)) := by
  intro l
  induction l with
  | nil => intro s; simp
  | cons j l ih =>
    intro s
    rw [List.foldl_cons]
    obtain ⟨h1, h2, h3⟩ := ih (lastColumn O s j)
    rw [h1, h2, h3]
    unfold lastColumn
    by_cases hc : s.1.colLower j < s.1.colUpper j ∧ O.coef j ≠ 0 ∧ s.1.isInt j = false ∧ s.1.colUpper j ≤ s.1.colLower j + 10
    · rw [if_pos hc]
      unfold setInteger
      dsimp only
      refine ⟨rfl, rfl, ?_⟩
      by_cases hk : k = j
      · subst hk
        rw [Function.update_self]
        simp [hc.1, hc.2.1, hc.2.2.2]
      · rw [Function.update_of_ne hk, List.mem_cons]
        simp [hk]
    · rw [if_neg hc]
      refine ⟨rfl, rfl, ?_⟩
      by_cases hk : k = j
      · subst hk
        constructor
        · rintro (h | ⟨a, b⟩)
          · exact Or.inl h
          · exact Or.inr ⟨List.mem_cons_of_mem _ a, b⟩
        · rintro (h | ⟨a, b, c, d⟩)
          · exact Or.inl h
          · left
            by_contra hn
            exact hc ⟨b, c, by simpa using hn, d⟩
      · rw [List.mem_cons]
        simp [hk]

/-- **With mode 0 or 1 either nothing changes, or exactly the continuous columns with a cost that are not fixed and at most
10 wide become integer.** -/
theorem makeIntegers2_all_or_nothing {tol : ℚ} {mode : ℤ} (hm : mode ≤ 1) {P' : Prob} {n : Nat}
    (h : makeIntegers2 P O tol mode = .ok (P', n)) :
    (P' = P ∧ n = 0) ∨ (P' = retype P P'.isInt ∧ ∀ j < P.nCols, (P'.isInt j = true ↔ P.isInt j = true ∨
      (P.colLower j < P.colUpper j ∧ O.coef j ≠ 0 ∧ P.colUpper j ≤ P.colLower j + 10))) := by
  have hframe := makeIntegers2_frame h
  unfold makeIntegers2 at h
  rw [decide_eq_false (not_lt.2 hm)] at h
  unfold passes at h
  cases hp : pass false P O tol with
  | error e => rw [hp] at h; cases h
  | ok q =>
    obtain ⟨Q, m⟩ := q
    rw [hp] at h
    dsimp only at h
    rw [if_pos (Or.inr rfl)] at h
    have h := Except.ok.inj h
    rw [Prod.mk.injEq, zero_add] at h
    obtain ⟨rfl, rfl⟩ := h
    unfold pass at hp
    dsimp only at hp
    have hnone : (columns false P O).newInts = [] := newInts_none _ _ rfl
    generalize columns false P O = s at hp hnone
    cases hz : zapLoop P (P.rows.length + 2) s.zap s.cnt fun _ => false with
    | error e => rw [hz] at hp; cases hp
    | ok cnt =>
      rw [hz, hnone] at hp
      dsimp only at hp
      have hnew : ∀ b, newIntegers P O tol cnt [] b = ⟨P, 0, 0, b⟩ := by
        intro b
        unfold newIntegers
        rw [if_neg (by simp)]
      rw [hnew] at hp
      have hp := Except.ok.inj hp
      rw [Prod.mk.injEq] at hp
      unfold lastColumns at hp
      by_cases hg : (s.allGood && finalLook P O cnt) = true ∧ s.numberObj ≠ 0
      · rw [if_pos hg] at hp
        dsimp only at hp
        right
        have hi := fun k => lastColumn_isInt (O := O) k (List.range P.nCols) (P, 0)
        rw [hp.1] at hi
        dsimp only at hi
        refine ⟨?_, ?_⟩
        · have e1 := (hi 0).1
          have e2 := (hi 0).2.1
          obtain ⟨f1, f2, f3, -⟩ := hframe
          unfold retype
          cases Q
          simp only [Prob.mk.injEq]
          exact ⟨f1, f2, e1, e2, trivial, f3⟩
        · intro j hj
          rw [(hi j).2.2]
          simp [hj]
      · rw [if_neg hg] at hp
        dsimp only at hp
        exact Or.inl ⟨hp.1.symm, hp.2.symm⟩

end Cgl.MakeInts
