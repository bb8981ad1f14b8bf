import Verif.PreFix.Spec
import Mathlib.Tactic.Linarith
import Mathlib.Data.List.Nodup
import Mathlib.Data.List.Perm.Subperm

/-! # Fixing some of the problem -/

namespace Cgl.PreFix

variable {P : Prob} {L : Answers} {keep : Option (Nat → ℤ)} {fixCont : Bool}

/-- The key by which a candidate is sorted. -/
def key (L : Answers) (keep : Option (Nat → ℤ)) (i : Nat) : ℚ := if keepOf keep i = -1 then -10 ^ 30 else -L.dj i

/-- The state of the first loop after `n` columns. -/
structure Looked (P : Prob) (L : Answers) (keep : Option (Nat → ℤ)) (fixCont : Bool) (n : Nat) (s : Cands) : Prop where
  short : s.sort.length ≤ n
  below : ∀ i ∈ s.sort, i < n
  nodup : s.sort.Nodup
  rest : ∀ k, s.sort.length ≤ k → s.dj k = L.dj k
  keys : (List.range s.sort.length).map s.dj = s.sort.map (key L keep)
  member : ∀ i ∈ s.sort, (P.isInt i = true ∨ fixCont = true) ∧ keepOf keep i ≠ 1
  thrown : s.thrown = s.sort.countP fun i => decide (keepOf keep i = -1)
  found : ∀ i < n, (P.isInt i = true ∨ fixCont = true) → keepOf keep i ≠ 1 →
    (keepOf keep i = -1 ∨ L.solution i < P.colLower i + 1 / 10 ^ 8) → i ∈ s.sort

theorem looked_push {n : Nat} {s : Cands} (h : Looked P L keep fixCont n s)
    (he : P.isInt n = true ∨ fixCont = true) (hk : keepOf keep n ≠ 1) (t : Nat)
    (ht : t = s.thrown + if keepOf keep n = -1 then 1 else 0) :
    Looked P L keep fixCont (n + 1) { push s (key L keep n) n with thrown := t } := by
  refine ⟨?_, ?_, ?_, ?_, ?_, ?_, ?_, ?_⟩
  · change (s.sort ++ [n]).length ≤ _
    simp only [List.length_append, List.length_cons, List.length_nil]
    have := h.short
    omega
  · intro i hi
    rcases List.mem_append.1 hi with hi | hi
    · have := h.below i hi; omega
    · rw [List.mem_singleton.1 hi]; omega
  · change (s.sort ++ [n]).Nodup
    rw [List.nodup_append]
    refine ⟨h.nodup, by simp, ?_⟩
    rintro a ha b hb rfl
    have := h.below a ha
    rw [List.mem_singleton.1 hb] at this
    omega
  · intro k hk
    change (s.sort ++ [n]).length ≤ k at hk
    simp only [List.length_append, List.length_cons, List.length_nil] at hk
    change Function.update s.dj s.sort.length _ k = _
    rw [Function.update_of_ne (by omega)]
    exact h.rest k (by omega)
  · change (List.range (s.sort ++ [n]).length).map (Function.update s.dj s.sort.length (key L keep n)) =
      (s.sort ++ [n]).map (key L keep)
    simp only [List.length_append, List.length_cons, List.length_nil]
    rw [List.range_succ, List.map_append, List.map_append, ← h.keys]
    congr 1
    · apply List.map_congr_left
      intro k hk
      have := List.mem_range.1 hk
      exact Function.update_of_ne (by omega) _ _
    · simp
  · intro i hi
    rcases List.mem_append.1 hi with hi | hi
    · exact h.member i hi
    · rw [List.mem_singleton.1 hi]; exact ⟨he, hk⟩
  · change t = (s.sort ++ [n]).countP _
    rw [List.countP_append, ← h.thrown, ht]
    simp [List.countP_cons]
  · intro i hi h1 h2 h3
    change i ∈ s.sort ++ [n]
    rw [List.mem_append]
    by_cases hin : i = n
    · right; rw [hin]; simp
    · left; exact h.found i (by omega) h1 h2 h3

theorem looked_skip {n : Nat} {s : Cands} (h : Looked P L keep fixCont n s)
    (hn : ¬ ((P.isInt n = true ∨ fixCont = true) ∧ keepOf keep n ≠ 1 ∧
      (keepOf keep n = -1 ∨ L.solution n < P.colLower n + 1 / 10 ^ 8))) : Looked P L keep fixCont (n + 1) s := by
  refine ⟨h.short.trans (Nat.le_succ _), fun i hi => (h.below i hi).trans (Nat.lt_succ_self _), h.nodup, h.rest, h.keys,
    h.member, h.thrown, ?_⟩
  intro i hi h1 h2 h3
  by_cases hin : i = n
  · subst hin; exact absurd ⟨h1, h2, h3⟩ hn
  · exact h.found i (by omega) h1 h2 h3

theorem looked_step {n : Nat} {s : Cands} (h : Looked P L keep fixCont n s) :
    Looked P L keep fixCont (n + 1) (candStep P L keep fixCont s n) := by
  unfold candStep
  have hd : s.dj n = L.dj n := h.rest n h.short
  by_cases c0 : (P.isInt n || fixCont) = true
  · have c0' : P.isInt n = true ∨ fixCont = true := by simpa using c0
    rw [if_pos c0]
    by_cases c1 : keepOf keep n = 1
    · rw [if_pos c1]
      exact looked_skip h fun hc => hc.2.1 c1
    · rw [if_neg c1]
      by_cases c2 : keepOf keep n = -1
      · rw [if_pos c2]
        have := looked_push h c0' c1 (s.thrown + 1) (by rw [if_pos c2])
        unfold key at this
        rw [if_pos c2] at this
        exact this
      · rw [if_neg c2]
        have hp := looked_push h c0' c1 s.thrown (by rw [if_neg c2]; rfl)
        unfold key at hp
        rw [if_neg c2, ← hd] at hp
        by_cases c3 : L.solution n < P.colLower n + 1 / 10 ^ 8
        · rw [if_pos c3]; exact hp
        · rw [if_neg c3]
          split
          · exact hp
          · exact looked_skip h fun hc => by
              rcases hc.2.2 with h | h
              · exact c2 h
              · exact c3 h
  · rw [if_neg c0]
    exact looked_skip h fun hc => c0 (by simpa using hc.1)

theorem looked_all (P : Prob) (L : Answers) (keep : Option (Nat → ℤ)) (fixCont : Bool) :
    Looked P L keep fixCont P.nCols (cands P L keep fixCont) := by
  unfold cands
  induction P.nCols with
  | zero =>
    exact ⟨le_rfl, by simp, by simp, fun _ _ => rfl, rfl, by simp, by simp, fun i hi => absurd hi (by omega)⟩
  | succ n ih =>
    rw [List.range_succ, List.foldl_append]
    exact looked_step ih

theorem pairs_eq {n : Nat} {s : Cands} (h : Looked P L keep fixCont n s) :
    pairs s = s.sort.map fun i => (key L keep i, i) := by
  unfold pairs
  rw [h.keys, List.zip_map_left, List.zip_eq_zipWith, ← List.zip_eq_zipWith]
  induction s.sort with
  | nil => rfl
  | cons a l ih => simp only [List.zip_cons_cons, List.map_cons, ih]; rfl

/-! ### The second loop -/

/-- The new model: some columns have their upper bound replaced by the lower bound. -/
structure Fixed (P N : Prob) (A : Nat → Prop) : Prop where
  nCols : N.nCols = P.nCols
  inf : N.inf = P.inf
  isInt : N.isInt = P.isInt
  rows : N.rows = P.rows
  lower : N.colLower = P.colLower
  upper : ∀ j, (A j ∧ N.colUpper j = P.colLower j) ∨ (¬ A j ∧ N.colUpper j = P.colUpper j)

/-- The columns of a list that the second loop fixes. -/
def fixes (P : Prob) (L : Answers) (number : Nat) (l : List Nat) (j : Nat) : Prop :=
  j ∈ l ∧ (L.solution j < P.colLower j + 1 / 10 ^ 8 ∨ L.solution j ≤ P.colUpper number - 1 / 10 ^ 8)

theorem update_eq_self_of {f : Nat → ℚ} {j : Nat} {v : ℚ} (h : v = f j) : Function.update f j v = f := by
  rw [h]; exact Function.update_eq_self j f

theorem fixAll_fixed {number : Nat} : ∀ (l : List Nat) (A : Nat → Prop) (N N' : Prob), Fixed P N A →
    fixAll P L number l N = .ok N' → Fixed P N' fun j => A j ∨ fixes P L number l j := by
  intro l
  induction l with
  | nil =>
    intro A N N' h he
    rw [fixAll] at he
    obtain rfl := Except.ok.inj he
    have : (fun j => A j ∨ fixes P L number [] j) = A := by
      funext j
      simp [fixes]
    rw [this]; exact h
  | cons i l ih =>
    intro A N N' h he
    rw [fixAll] at he
    have up : ∀ (hf : fixes P L number [i] i), Fixed P (setUpper N i (P.colLower i)) fun j => A j ∨ fixes P L number [i] j := by
      intro hf
      refine ⟨h.nCols, h.inf, h.isInt, h.rows, h.lower, fun j => ?_⟩
      change (_ ∧ Function.update N.colUpper i (P.colLower i) j = _) ∨ (_ ∧ Function.update N.colUpper i (P.colLower i) j = _)
      by_cases hj : j = i
      · subst hj
        left
        exact ⟨Or.inr hf, Function.update_self _ _ _⟩
      · rw [Function.update_of_ne hj]
        have : ¬ fixes P L number [i] j := fun hc => hj (List.mem_singleton.1 hc.1)
        simpa [this] using h.upper j
    have step : ∀ N1, fixOne P L number N i = .ok N1 → Fixed P N1 fun j => A j ∨ fixes P L number [i] j := by
      intro N1 h1
      unfold fixOne at h1
      by_cases c1 : L.solution i < P.colLower i + 1 / 10 ^ 8
      · rw [if_pos c1] at h1
        obtain rfl := Except.ok.inj h1
        exact up ⟨by simp, Or.inl c1⟩
      · rw [if_neg c1] at h1
        by_cases c2 : number < P.nCols
        · rw [if_pos c2] at h1
          by_cases c3 : P.colUpper number - 1 / 10 ^ 8 < L.solution i
          · rw [if_pos c3] at h1
            obtain rfl := Except.ok.inj h1
            have hself : setLower N i (P.colLower i) = N := by
              unfold setLower
              rw [update_eq_self_of (by rw [h.lower])]
            rw [hself]
            have : (fun j => A j ∨ fixes P L number [i] j) = A := by
              funext j
              have : ¬ fixes P L number [i] j := by
                rintro ⟨ha, hb⟩
                rw [List.mem_singleton.1 ha] at hb
                rcases hb with hb | hb
                · exact c1 hb
                · linarith
              simp [this]
            rw [this]; exact h
          · rw [if_neg c3] at h1
            obtain rfl := Except.ok.inj h1
            exact up ⟨by simp, Or.inr (not_lt.1 c3)⟩
        · rw [if_neg c2] at h1
          cases h1
    cases h1 : fixOne P L number N i with
    | error e => rw [h1] at he; cases he
    | ok N1 =>
      rw [h1] at he
      have := ih _ N1 N' (step N1 h1) he
      have e : (fun j => A j ∨ fixes P L number (i :: l) j) =
          fun j => (A j ∨ fixes P L number [i] j) ∨ fixes P L number l j := by
        funext j
        simp only [fixes, List.mem_cons, List.not_mem_nil, or_false]
        apply propext
        tauto
      rw [e]; exact this

theorem someFixed_parts {order : List (ℚ × Nat) → List (ℚ × Nat)} {fraction : ℚ} {N : Prob}
    (h : someFixed order P L fraction fixCont keep = .ok N) :
    ∃ k : ℤ, toFix P fraction fixCont (cands P L keep fixCont) = .ok k ∧
      Fixed P N (fixes P L (cands P L keep fixCont).sort.length
        (((order (pairs (cands P L keep fixCont))).take k.toNat).map Prod.snd)) := by
  unfold someFixed at h
  cases h1 : toFix P fraction fixCont (cands P L keep fixCont) with
  | error e => rw [h1] at h; cases h
  | ok k =>
    rw [h1] at h
    refine ⟨k, rfl, ?_⟩
    have := fixAll_fixed _ (fun _ => False) P N
      ⟨rfl, rfl, rfl, rfl, rfl, fun j => Or.inr ⟨fun h => h, rfl⟩⟩ h
    simpa using this

theorem order_mem {order : List (ℚ × Nat) → List (ℚ × Nat)} (ho : Sorts order) {e : ℚ × Nat}
    (h : e ∈ order (pairs (cands P L keep fixCont))) :
    e.2 ∈ (cands P L keep fixCont).sort ∧ e.1 = key L keep e.2 := by
  have := (ho _).1.mem_iff.1 h
  rw [pairs_eq (looked_all P L keep fixCont)] at this
  obtain ⟨i, hi, rfl⟩ := List.mem_map.1 this
  exact ⟨hi, rfl⟩

/-! ### The theorems -/

/-- **`someFixed` only fixes columns at their lower bounds**: columns that are to be kept, and continuous columns unless
they are included, have their bounds; the new model has no other feasible points. -/
theorem someFixed_restricts {order : List (ℚ × Nat) → List (ℚ × Nat)} (ho : Sorts order) {fraction : ℚ} {N : Prob}
    (h : someFixed order P L fraction fixCont keep = .ok N) :
    (∀ j, N.colLower j = P.colLower j) ∧
    (∀ j, N.colUpper j = P.colUpper j ∨ (N.colUpper j = P.colLower j ∧ eligible P fixCont keep j)) ∧
    ((∀ j < P.nCols, P.colLower j ≤ P.colUpper j) → ∀ x, N.Feasible x → P.Feasible x) := by
  obtain ⟨k, -, hf⟩ := someFixed_parts h
  have hl := looked_all P L keep fixCont
  refine ⟨fun j => by rw [hf.lower], fun j => ?_, fun hb x hx => ⟨?_, ?_, ?_, ?_⟩⟩
  · rcases hf.upper j with ⟨⟨h1, -⟩, h2⟩ | ⟨-, h2⟩
    · right
      refine ⟨h2, ?_⟩
      obtain ⟨e, he, rfl⟩ := List.mem_map.1 h1
      have := (order_mem ho (List.mem_of_mem_take he)).1
      exact ⟨hl.below _ this, hl.member _ this⟩
    · exact Or.inl h2
  · have := hx.rows
    rwa [hf.rows, hf.inf] at this
  · intro j hj
    have := hx.lower j (by rw [hf.nCols]; exact hj)
    rwa [hf.lower, hf.inf] at this
  · intro j hj
    have := hx.upper j (by rw [hf.nCols]; exact hj)
    rw [hf.inf] at this
    rcases hf.upper j with ⟨-, h2⟩ | ⟨-, h2⟩
    · rw [h2] at this
      intro hi
      have h3 := hb j hj
      exact (this (by linarith)).trans h3
    · rwa [h2] at this
  · intro j hj hi
    exact hx.int j (by rw [hf.nCols]; exact hj) (by rw [hf.isInt]; exact hi)

theorem sort_count_le {order : List (ℚ × Nat) → List (ℚ × Nat)} (ho : Sorts order) :
    ((order (pairs (cands P L keep fixCont))).map Prod.snd).Nodup := by
  have h1 := (ho (pairs (cands P L keep fixCont))).1.map Prod.snd
  rw [h1.nodup_iff, pairs_eq (looked_all P L keep fixCont), List.map_map]
  have : (Prod.snd ∘ fun i => (key L keep i, i)) = id := rfl
  rw [this, List.map_id]
  exact (looked_all P L keep fixCont).nodup

theorem toFix_spec {fraction : ℚ} {s : Cands} {k : ℤ} (h : toFix P fraction fixCont s = .ok k) :
    k = min (s.sort.length : ℤ) (max (truncQ (((P.nCols : ℚ) - if fixCont then 0 else (contCount P : ℚ)) * (1 - fraction)))
      s.thrown) := by
  unfold toFix at h
  cases h1 : castInt ((P.nCols : ℚ) * (1 - fraction)) with
  | none => rw [h1] at h; cases h
  | some a =>
    rw [h1] at h
    have cast : ∀ {q : ℚ} {a : ℤ}, castInt q = some a → a = truncQ q := by
      intro q a hq
      unfold castInt at hq
      split at hq
      · exact (Option.some.inj hq).symm
      · cases hq
    dsimp only at h
    cases fixCont with
    | true =>
      rw [if_pos rfl] at h ⊢
      rw [← Except.ok.inj h, cast h1, sub_zero]
    | false =>
      rw [if_neg (by decide)] at h ⊢
      cases h2 : castInt (((P.nCols : ℚ) - contCount P) * (1 - fraction)) with
      | none => rw [h2] at h; cases h
      | some b =>
        rw [h2] at h
        rw [← Except.ok.inj h, cast h2]

/-- **`someFixed` fixes no more columns than asked for**: the given fraction of the columns, or the columns to be
discarded if these are more. -/
theorem someFixed_number {order : List (ℚ × Nat) → List (ℚ × Nat)} (ho : Sorts order) {fraction : ℚ} {N : Prob}
    (h : someFixed order P L fraction fixCont keep = .ok N) :
    (((List.range P.nCols).countP fun j => decide (N.colUpper j ≠ P.colUpper j) : Nat) : ℤ) ≤
      max (truncQ (((P.nCols : ℚ) - if fixCont then 0 else (contCount P : ℚ)) * (1 - fraction)))
        (((List.range P.nCols).countP fun j => decide (keepOf keep j = -1) : Nat) : ℤ) := by
  obtain ⟨k, hk, hf⟩ := someFixed_parts h
  have hl := looked_all P L keep fixCont
  have hk' := toFix_spec hk
  have h1 : (List.range P.nCols).countP (fun j => decide (N.colUpper j ≠ P.colUpper j)) ≤ k.toNat := by
    rw [List.countP_eq_length_filter]
    have hsub : ((List.range P.nCols).filter fun j => decide (N.colUpper j ≠ P.colUpper j)) ⊆
        ((order (pairs (cands P L keep fixCont))).take k.toNat).map Prod.snd := by
      intro j hj
      have := of_decide_eq_true (List.mem_filter.1 hj).2
      rcases hf.upper j with ⟨⟨h1, -⟩, -⟩ | ⟨-, h2⟩
      · exact h1
      · exact absurd h2 this
    have hn : ((List.range P.nCols).filter fun j => decide (N.colUpper j ≠ P.colUpper j)).Nodup :=
      List.nodup_range.filter _
    refine (List.subperm_of_subset hn hsub).length_le.trans ?_
    rw [List.length_map, List.length_take]
    exact min_le_left _ _
  have h2 : ((cands P L keep fixCont).thrown : ℤ) ≤
      (((List.range P.nCols).countP fun j => decide (keepOf keep j = -1) : Nat) : ℤ) := by
    rw [hl.thrown]
    have : (cands P L keep fixCont).sort.countP (fun i => decide (keepOf keep i = -1)) ≤
        (List.range P.nCols).countP fun j => decide (keepOf keep j = -1) := by
      rw [List.countP_eq_length_filter, List.countP_eq_length_filter]
      refine (List.subperm_of_subset (hl.nodup.filter _) ?_).length_le
      intro i hi
      obtain ⟨a, b⟩ := List.mem_filter.1 hi
      exact List.mem_filter.2 ⟨List.mem_range.2 (hl.below i a), b⟩
    exact_mod_cast this
  have h3 : (k.toNat : ℤ) ≤ max (truncQ (((P.nCols : ℚ) - if fixCont then 0 else (contCount P : ℚ)) * (1 - fraction)))
      (((List.range P.nCols).countP fun j => decide (keepOf keep j = -1) : Nat) : ℤ) := by
    have : k ≤ max (truncQ (((P.nCols : ℚ) - if fixCont then 0 else (contCount P : ℚ)) * (1 - fraction)))
        ((cands P L keep fixCont).thrown : ℤ) := by rw [hk']; exact min_le_right _ _
    omega
  omega

/-- The first elements of a sorted list. -/
theorem take_le {l : List (ℚ × Nat)} (hs : l.Pairwise fun a b => a.1 ≤ b.1) {k : Nat} {a b : ℚ × Nat} (ha : a ∈ l.take k)
    (hb : b ∈ l.drop k) : a.1 ≤ b.1 := by
  rw [← List.take_append_drop k l, List.pairwise_append] at hs
  exact hs.2.2 a ha b hb

/-- **`someFixed` prefers columns with large reduced costs**: if a column is fixed and another one that is at its lower
bound is not, then the reduced cost of the latter is no larger. -/
theorem someFixed_order {order : List (ℚ × Nat) → List (ℚ × Nat)} (ho : Sorts order) {fraction : ℚ} {N : Prob}
    (h : someFixed order P L fraction fixCont keep = .ok N) {a b : Nat} (ha : N.colUpper a ≠ P.colUpper a)
    (hka : keepOf keep a ≠ -1) (hb : eligible P fixCont keep b) (hkb : keepOf keep b ≠ -1)
    (hlb : L.solution b < P.colLower b + 1 / 10 ^ 8) (hne : N.colUpper b ≠ P.colLower b) : L.dj b ≤ L.dj a := by
  obtain ⟨k, -, hf⟩ := someFixed_parts h
  have hl := looked_all P L keep fixCont
  have h1 : a ∈ ((order (pairs (cands P L keep fixCont))).take k.toNat).map Prod.snd := by
    rcases hf.upper a with ⟨⟨h1, -⟩, -⟩ | ⟨-, h2⟩
    · exact h1
    · exact absurd h2 ha
  obtain ⟨ea, hea, rfl⟩ := List.mem_map.1 h1
  have hbs : b ∈ (cands P L keep fixCont).sort := hl.found b hb.1 hb.2.1 hb.2.2 (Or.inr hlb)
  have hbo : (key L keep b, b) ∈ order (pairs (cands P L keep fixCont)) := by
    rw [(ho _).1.mem_iff, pairs_eq hl]
    exact List.mem_map.2 ⟨b, hbs, rfl⟩
  have hbd : (key L keep b, b) ∈ (order (pairs (cands P L keep fixCont))).drop k.toNat := by
    rw [← List.take_append_drop k.toNat (order (pairs (cands P L keep fixCont))), List.mem_append] at hbo
    rcases hbo with hbo | hbo
    · exfalso
      rcases hf.upper b with ⟨-, h2⟩ | ⟨h2, -⟩
      · exact hne h2
      · exact h2 ⟨List.mem_map.2 ⟨_, hbo, rfl⟩, Or.inl hlb⟩
    · exact hbo
  have hle := take_le (ho _).2 hea hbd
  rw [(order_mem ho (List.mem_of_mem_take hea)).2] at hle
  unfold key at hle
  rw [if_neg hka, if_neg hkb] at hle
  linarith

/-- **A column to be discarded that is at its lower bound is fixed there**, if no reduced cost exceeds 1e30. -/
theorem someFixed_discards_partial {order : List (ℚ × Nat) → List (ℚ × Nat)} (ho : Sorts order) {fraction : ℚ} {N : Prob}
    (h : someFixed order P L fraction fixCont keep = .ok N) (hd : ∀ i < P.nCols, L.dj i < 10 ^ 30) {j : Nat}
    (hj : j < P.nCols) (he : P.isInt j = true ∨ fixCont = true) (hk : keepOf keep j = -1)
    (hl : L.solution j < P.colLower j + 1 / 10 ^ 8) : N.colUpper j = P.colLower j := by
  obtain ⟨k, hkk, hf⟩ := someFixed_parts h
  have hL := looked_all P L keep fixCont
  have hk' := toFix_spec hkk
  rcases hf.upper j with ⟨-, h2⟩ | ⟨h2, -⟩
  · exact h2
  · exfalso
    apply h2
    refine ⟨?_, Or.inl hl⟩
    have hjs : j ∈ (cands P L keep fixCont).sort := hL.found j hj he (by rw [hk]; decide) (Or.inl hk)
    have hjo : (key L keep j, j) ∈ order (pairs (cands P L keep fixCont)) := by
      rw [(ho _).1.mem_iff, pairs_eq hL]
      exact List.mem_map.2 ⟨j, hjs, rfl⟩
    rw [← List.take_append_drop k.toNat (order (pairs (cands P L keep fixCont))), List.mem_append] at hjo
    rcases hjo with hjo | hjo
    · exact List.mem_map.2 ⟨_, hjo, rfl⟩
    · exfalso
      -- all elements of the first part are discarded columns
      have hall : ∀ e ∈ (order (pairs (cands P L keep fixCont))).take k.toNat, keepOf keep e.2 = -1 := by
        intro e hee
        by_contra hne
        have hle := take_le (ho _).2 hee hjo
        obtain ⟨m1, m2⟩ := order_mem ho (List.mem_of_mem_take hee)
        rw [m2] at hle
        unfold key at hle
        rw [if_neg hne, if_pos hk] at hle
        have := hd e.2 (hL.below _ m1)
        linarith
      have hcount : (order (pairs (cands P L keep fixCont))).countP (fun e => decide (keepOf keep e.2 = -1)) =
          (cands P L keep fixCont).thrown := by
        rw [(ho _).1.countP_eq, pairs_eq hL, List.countP_map, hL.thrown]
        rfl
      have h3 : k.toNat < (cands P L keep fixCont).thrown := by
        rw [← hcount]
        conv_rhs => rw [← List.take_append_drop k.toNat (order (pairs (cands P L keep fixCont)))]
        rw [List.countP_append]
        have h4 : ((order (pairs (cands P L keep fixCont))).take k.toNat).countP
            (fun e => decide (keepOf keep e.2 = -1)) = ((order (pairs (cands P L keep fixCont))).take k.toNat).length := by
          rw [List.countP_eq_length]
          intro e hee
          exact decide_eq_true (hall e hee)
        have h5 : 0 < ((order (pairs (cands P L keep fixCont))).drop k.toNat).countP
            (fun e => decide (keepOf keep e.2 = -1)) := List.countP_pos_iff.2 ⟨_, hjo, decide_eq_true hk⟩
        have h6 : ((order (pairs (cands P L keep fixCont))).take k.toNat).length = k.toNat := by
          have h8 := (List.Perm.length_eq (ho (pairs (cands P L keep fixCont))).1)
          rw [pairs_eq hL, List.length_map, ← pairs_eq hL] at h8
          rw [List.length_take]
          apply min_eq_left
          have : k ≤ ((cands P L keep fixCont).sort.length : ℤ) := by rw [hk']; exact min_le_left _ _
          omega
        omega
      have h7 : (cands P L keep fixCont).thrown ≤ (cands P L keep fixCont).sort.length := by
        rw [hL.thrown]; exact List.countP_le_length
      omega

/-- **`someFixed` returns**, if all candidates are at their lower bounds or a column is no candidate, and the fraction is
between 0 and 1. -/
theorem someFixed_returns_partial (order : List (ℚ × Nat) → List (ℚ × Nat)) {fraction : ℚ}
    (h0 : 0 ≤ fraction) (h1 : fraction ≤ 1) (hn : (P.nCols : ℤ) ≤ intMax)
    (hc : (∃ j < P.nCols, keepOf keep j = 1 ∨ (P.isInt j = false ∧ fixCont = false)) ∨
      (Sorts order ∧ ∀ j < P.nCols, L.solution j < P.colLower j + 1 / 10 ^ 8)) :
    ∃ N, someFixed order P L fraction fixCont keep = .ok N := by
  have hL := looked_all P L keep fixCont
  have cast : ∀ q : ℚ, 0 ≤ q → q ≤ P.nCols → ∃ a, castInt q = some a := by
    intro q hq hq2
    have h2 : truncQ q ≤ P.nCols := by
      unfold truncQ
      rw [if_pos hq]
      have : ⌊q⌋ ≤ ⌊(P.nCols : ℚ)⌋ := Int.floor_mono hq2
      simpa using this
    have h3 : 0 ≤ truncQ q := by
      unfold truncQ
      rw [if_pos hq]
      exact Int.floor_nonneg.2 hq
    refine ⟨truncQ q, ?_⟩
    unfold castInt
    rw [if_pos ⟨by unfold intMin; omega, by omega⟩]
  have hN : (0 : ℚ) ≤ P.nCols := Nat.cast_nonneg _
  have hcc : contCount P ≤ P.nCols := by
    unfold contCount
    exact List.countP_le_length.trans (by rw [List.length_range])
  have hccq : (contCount P : ℚ) ≤ P.nCols := by exact_mod_cast hcc
  have hcc0 : (0 : ℚ) ≤ contCount P := Nat.cast_nonneg _
  have hk : ∃ k, toFix P fraction fixCont (cands P L keep fixCont) = .ok k := by
    unfold toFix
    obtain ⟨a, ha⟩ := cast ((P.nCols : ℚ) * (1 - fraction)) (by nlinarith) (by nlinarith)
    obtain ⟨b, hb⟩ := cast (((P.nCols : ℚ) - contCount P) * (1 - fraction)) (by nlinarith) (by nlinarith)
    rw [ha]
    dsimp only
    split
    · exact ⟨_, rfl⟩
    · rw [hb]; exact ⟨_, rfl⟩
  obtain ⟨k, hk⟩ := hk
  unfold someFixed
  rw [hk]
  change ∃ N, fixAll P L _ _ P = .ok N
  have key : ∀ (l : List Nat) (N : Prob), ((cands P L keep fixCont).sort.length < P.nCols ∨
      ∀ i ∈ l, L.solution i < P.colLower i + 1 / 10 ^ 8) →
      ∃ N', fixAll P L (cands P L keep fixCont).sort.length l N = .ok N' := by
    intro l
    induction l with
    | nil => exact fun N _ => ⟨N, rfl⟩
    | cons i l ih =>
      intro N hh
      have hone : ∃ N1, fixOne P L (cands P L keep fixCont).sort.length N i = .ok N1 := by
        unfold fixOne
        split
        · exact ⟨_, rfl⟩
        · rename_i hne
          rcases hh with hh | hh
          · rw [if_pos hh]
            split <;> exact ⟨_, rfl⟩
          · exact absurd (hh i List.mem_cons_self) hne
      obtain ⟨N1, h1⟩ := hone
      rw [fixAll, h1]
      refine ih N1 ?_
      rcases hh with hh | hh
      · exact Or.inl hh
      · exact Or.inr fun j hj => hh j (List.mem_cons_of_mem _ hj)
  apply key
  rcases hc with ⟨j, hj, hc⟩ | ⟨ho, hc⟩
  · left
    have hnot : j ∉ (cands P L keep fixCont).sort := by
      intro hjs
      obtain ⟨m1, m2⟩ := hL.member j hjs
      rcases hc with hc | ⟨hc1, hc2⟩
      · exact m2 hc
      · rw [hc1, hc2] at m1; simp at m1
    have hsub : (j :: (cands P L keep fixCont).sort) ⊆ List.range P.nCols := by
      intro i hi
      rcases List.mem_cons.1 hi with rfl | hi
      · exact List.mem_range.2 hj
      · exact List.mem_range.2 (hL.below i hi)
    have hnd : (j :: (cands P L keep fixCont).sort).Nodup := List.nodup_cons.2 ⟨hnot, hL.nodup⟩
    have := (List.subperm_of_subset hnd hsub).length_le
    rw [List.length_cons, List.length_range] at this
    omega
  · right
    intro i hi
    obtain ⟨e, he, rfl⟩ := List.mem_map.1 hi
    exact hc _ (hL.below _ (order_mem ho (List.mem_of_mem_take he)).1)

end Cgl.PreFix
