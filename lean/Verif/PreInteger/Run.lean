import Verif.PreInteger.Steps

/-! # The loops -/

namespace Cgl.PreInteger

variable {P : Prob} {O : Objective} {make : Bool}

/-! ### Invariants of the loops -/

theorem rowLoop_inv {J : State → Prop}
    (hrow : ∀ i r s s', P.rows[i]? = some r → J s → rowStep make P O i r s = .ok s' → J s') :
    ∀ (rs : List Row) (i : Nat) (s s' : State), (∀ k, rs[k]? = P.rows[i + k]?) → J s → rowLoop make P O i rs s = .ok s' →
      J s' := by
  intro rs
  induction rs with
  | nil =>
    intro i s s' _ hJ h
    rw [rowLoop] at h
    exact Except.ok.inj h ▸ hJ
  | cons r rs ih =>
    intro i s s' hr hJ h
    rw [rowLoop] at h
    cases h1 : rowStep make P O i r s with
    | error e => rw [h1] at h; cases h
    | ok s1 =>
      rw [h1] at h
      refine ih (i + 1) s1 s' ?_ (hrow i r s s1 ?_ hJ h1) h
      · intro k
        have := hr (k + 1)
        rw [List.getElem?_cons_succ] at this
        rw [this]; congr 1; omega
      · have := hr 0
        rw [List.getElem?_cons_zero] at this
        exact this.symm

theorem foldl_inv {J : State → Prop} (hcol : ∀ j s, j < P.nCols → J s → J (columnStep P s j)) :
    ∀ (l : List Nat) (s : State), (∀ j ∈ l, j < P.nCols) → J s → J (l.foldl (columnStep P) s) := by
  intro l
  induction l with
  | nil => intro s _ h; exact h
  | cons j l ih =>
    intro s hl h
    exact ih _ (fun k hk => hl k (List.mem_cons_of_mem _ hk)) (hcol j s (hl j List.mem_cons_self) h)

theorem round_inv {J : State → Prop}
    (hrow : ∀ i r s s', P.rows[i]? = some r → J s → rowStep make P O i r s = .ok s' → J s')
    (hcol : ∀ j s, j < P.nCols → J s → J (columnStep P s j)) {s s' : State} (hJ : J s)
    (h : round make P O s = .ok s') : J s' := by
  unfold round at h
  cases h1 : rowLoop make P O 0 P.rows s with
  | error e => rw [h1] at h; cases h
  | ok s1 =>
    rw [h1] at h
    rw [← Except.ok.inj h]
    refine foldl_inv hcol _ _ (fun j hj => List.mem_range.1 hj) ?_
    exact rowLoop_inv hrow P.rows 0 s s1 (fun k => by rw [zero_add]) hJ h1

theorem rounds_inv {J : State → Prop}
    (hrow : ∀ i r s s', P.rows[i]? = some r → J s → rowStep make P O i r s = .ok s' → J s')
    (hcol : ∀ j s, j < P.nCols → J s → J (columnStep P s j)) :
    ∀ (k : Nat) (s s' : State), J s → rounds make P O k s = .ok s' → J s' := by
  intro k
  induction k with
  | zero => intro s s' _ h; cases h
  | succ k ih =>
    intro s s' hJ h
    rw [rounds] at h
    cases h1 : round make P O s with
    | error e => rw [h1] at h; cases h
    | ok s1 =>
      rw [h1] at h
      have hJ1 := round_inv hrow hcol hJ h1
      change (if s1.count = s.count then Except.ok s1 else rounds make P O k s1) = .ok s' at h
      by_cases hc : s1.count = s.count
      · rw [if_pos hc] at h
        exact Except.ok.inj h ▸ hJ1
      · rw [if_neg hc] at h
        exact ih s1 s' hJ1 h

/-! ### What a step can do -/

/-- The results of a step for a row. -/
inductive Did (P : Prob) (O : Objective) (make : Bool) (i : Nat) (r : Row) (s : State) : State → Prop
  | nothing : Did P O make i r s s
  | one {p : Nat × ℚ} (ha : allInteger P s.isInt r = true) (hc : continuous P s.isInt r = [p])
      (hp : recip p.2 = true) (he : low P r = up P r) : Did P O make i r s (mark s p.1)
  | ignore {p : Nat × ℚ} (ha : allInteger P s.isInt r = true) (hc : continuous P s.isInt r = [p])
      (hp : recip p.2 = true) : Did P O make i r s (setIgnore s i)
  | two {p q : Nat × ℚ} (ha : allInteger P s.isInt r = true) (hc : continuous P s.isInt r = [p, q])
      (he : low P r = up P r) (ht : pairTest make P O i p q = .ok true) : Did P O make i r s (mark (mark s p.1) q.1)

theorem rowStep_did {i : Nat} {r : Row} {s s' : State} (h : rowStep make P O i r s = .ok s') :
    Did P O make i r s s' := by
  unfold rowStep at h
  by_cases ha : allInteger P s.isInt r = true
  · rw [if_pos ha] at h
    cases hc : continuous P s.isInt r with
    | nil => rw [hc] at h; exact Except.ok.inj h ▸ .nothing
    | cons p es =>
      cases es with
      | nil =>
        rw [hc] at h
        have h := Except.ok.inj h
        by_cases hp : recip p.2 = true
        · rw [if_pos hp] at h
          by_cases he : low P r = up P r
          · rw [if_pos he] at h
            exact h ▸ .one ha hc hp he
          · rw [if_neg he] at h
            exact h ▸ .ignore ha hc hp
        · rw [if_neg hp] at h
          exact h ▸ .nothing
      | cons q es =>
        cases es with
        | nil =>
          rw [hc] at h
          change (if low P r = up P r then
            (pairTest make P O i p q).bind fun b => .ok (if b then mark (mark s p.1) q.1 else s)
            else .ok s) = .ok s' at h
          by_cases he : low P r = up P r
          · rw [if_pos he] at h
            cases ht : pairTest make P O i p q with
            | error e => rw [ht] at h; cases h
            | ok b =>
              rw [ht] at h
              have h := Except.ok.inj h
              cases b with
              | true => exact h ▸ .two ha hc he ht
              | false => exact h ▸ .nothing
          · rw [if_neg he] at h
            exact Except.ok.inj h ▸ .nothing
        | cons e es => rw [hc] at h; exact Except.ok.inj h ▸ .nothing
  · rw [if_neg ha] at h
    exact Except.ok.inj h ▸ .nothing

theorem continuous_mem {I : Nat → Bool} {r : Row} {p : Nat × ℚ} (h : p ∈ continuous P I r) :
    p ∈ r.coefs ∧ free P p.1 = true ∧ I p.1 = false := by
  obtain ⟨h1, h2⟩ := List.mem_filter.1 h
  rw [Bool.and_eq_true] at h2
  exact ⟨h1, h2.1, by simpa using h2.2⟩

theorem continuous_ne (hW : P.WF) {I : Nat → Bool} {r : Row} (hr : r ∈ P.rows) {p q : Nat × ℚ}
    (h : continuous P I r = [p, q]) : p.1 ≠ q.1 := by
  have h1 : ((continuous P I r).map Prod.fst).Nodup := (List.filter_sublist.map Prod.fst).nodup (hW.nodup r hr)
  rw [h] at h1
  simpa using h1

/-! ### The number of changes -/

/-- The columns that have been declared integer. -/
def news (P : Prob) (s : State) : Nat := (List.range P.nCols).countP (isNew P s)

/-- The columns declared integer are counted, and were free and continuous. -/
structure Counted (P : Prob) (s : State) : Prop where
  grows : ∀ j, P.isInt j = true → s.isInt j = true
  fresh : ∀ j, s.isInt j = true → P.isInt j = true ∨ (j < P.nCols ∧ free P j = true)
  count : s.count = news P s

theorem countP_plus (I B : Nat → Bool) (j : Nat) (hI : I j = false) (hB : B j = false) (l : List Nat) (hn : l.Nodup)
    (hj : j ∈ l) : l.countP (fun k => plus I j k && !B k) = l.countP (fun k => I k && !B k) + 1 := by
  induction l with
  | nil => simp at hj
  | cons a l ih =>
    rw [List.nodup_cons] at hn
    rw [List.countP_cons, List.countP_cons]
    by_cases ha : a = j
    · subst ha
      have h1 : l.countP (fun k => plus I a k && !B k) = l.countP (fun k => I k && !B k) := by
        apply List.countP_congr
        intro k hk
        have : k ≠ a := by rintro rfl; exact hn.1 hk
        simp [plus, this]
      rw [h1]
      simp [plus, hI, hB]
    · rw [ih hn.2 (by simpa [Ne.symm ha] using hj)]
      have : plus I j a = I a := by simp [plus, ha]
      rw [this]
      omega

theorem counted_mark {s : State} (h : Counted P s) {j : Nat} (hj : j < P.nCols) (hf : free P j = true)
    (hI : s.isInt j = false) : Counted P (mark s j) := by
  have hB : P.isInt j = false := by
    by_contra hb
    rw [h.grows j (by simpa using hb)] at hI
    simp at hI
  refine ⟨fun k hk => ?_, fun k hk => ?_, ?_⟩
  · simp [mark, h.grows k hk]
  · change (decide (k = j) || s.isInt k) = true at hk
    rw [Bool.or_eq_true] at hk
    rcases hk with hk | hk
    · rw [of_decide_eq_true hk]
      exact Or.inr ⟨hj, hf⟩
    · exact h.fresh k hk
  · change s.count + 1 = _
    rw [h.count]
    exact (countP_plus s.isInt P.isInt j hI hB _ List.nodup_range (List.mem_range.2 hj)).symm

theorem plus_false {I : Nat → Bool} {j k : Nat} (hne : k ≠ j) (h : I k = false) : plus I j k = false := by
  simp [plus, hne, h]

theorem counted_row (hW : P.WF) {i : Nat} {r : Row} {s s' : State} (hr : P.rows[i]? = some r) (h : Counted P s)
    (hs : rowStep make P O i r s = .ok s') : Counted P s' := by
  have hm := List.mem_of_getElem? hr
  cases rowStep_did hs with
  | nothing => exact h
  | one ha hc hp he =>
    obtain ⟨h1, h2, h3⟩ := continuous_mem (P := P) (I := s.isInt) (r := r) (by rw [hc]; exact List.mem_singleton.2 rfl)
    exact counted_mark h (hW.cols r hm _ h1) h2 h3
  | ignore ha hc hp => exact ⟨h.grows, h.fresh, h.count⟩
  | two ha hc he ht =>
    rename_i p q
    obtain ⟨h1, h2, h3⟩ := continuous_mem (P := P) (I := s.isInt) (r := r) (p := p) (by rw [hc]; simp)
    obtain ⟨k1, k2, k3⟩ := continuous_mem (P := P) (I := s.isInt) (r := r) (p := q) (by rw [hc]; simp)
    refine counted_mark (counted_mark h (hW.cols r hm _ h1) h2 h3) (hW.cols r hm _ k1) k2 ?_
    exact plus_false (continuous_ne hW hm hc).symm k3

theorem columnGood_spec {s : State} {j : Nat} (h : columnGood P s j = true) : free P j = true ∧ s.isInt j = false := by
  unfold columnGood at h
  rw [Bool.and_eq_true, Bool.and_eq_true, Bool.and_eq_true, Bool.and_eq_true] at h
  exact ⟨h.1.1.1.1, by simpa using h.1.1.1.2⟩

theorem counted_column {j : Nat} {s : State} (hj : j < P.nCols) (h : Counted P s) : Counted P (columnStep P s j) := by
  unfold columnStep
  by_cases hg : columnGood P s j = true
  · rw [if_pos hg]
    obtain ⟨h1, h2⟩ := columnGood_spec hg
    exact counted_mark h hj h1 h2
  · rw [if_neg hg]; exact h

theorem counted_start (P : Prob) : Counted P ⟨P.isInt, fun _ => false, 0⟩ := by
  refine ⟨fun _ h => h, fun _ h => Or.inl h, ?_⟩
  unfold news isNew
  symm
  change (List.range P.nCols).countP _ = 0
  rw [List.countP_eq_zero]
  intro j _
  simp

/-! ### The loops grow and end -/

/-- The types and ignored rows only grow. -/
structure Grown (s s' : State) : Prop where
  isInt : ∀ j, s.isInt j = true → s'.isInt j = true
  ignore : ∀ i, s.ignore i = true → s'.ignore i = true
  count : s.count ≤ s'.count
  same : s'.count = s.count → s'.isInt = s.isInt

theorem Grown.refl (s : State) : Grown s s := ⟨fun _ h => h, fun _ h => h, le_rfl, fun _ => rfl⟩

theorem Grown.trans {a b c : State} (h : Grown a b) (k : Grown b c) : Grown a c := by
  refine ⟨fun j hj => k.isInt j (h.isInt j hj), fun j hj => k.ignore j (h.ignore j hj), h.count.trans k.count, ?_⟩
  intro hc
  have h1 := h.count
  have h2 := k.count
  rw [k.same (by omega), h.same (by omega)]

theorem grown_mark (s : State) (j : Nat) : Grown s (mark s j) := by
  refine ⟨fun k hk => by simp [mark, hk], fun _ h => h, Nat.le_succ _, fun h => ?_⟩
  change s.count + 1 = s.count at h
  omega

theorem grown_row {i : Nat} {r : Row} {s s' : State} (hs : rowStep make P O i r s = .ok s') : Grown s s' := by
  cases rowStep_did hs with
  | nothing => exact .refl s
  | one => exact grown_mark _ _
  | ignore => exact ⟨fun _ h => h, fun k hk => by simp [setIgnore, hk], le_rfl, fun _ => rfl⟩
  | two => exact (grown_mark _ _).trans (grown_mark _ _)

theorem grown_column (s : State) (j : Nat) : Grown s (columnStep P s j) := by
  unfold columnStep
  by_cases hg : columnGood P s j = true
  · rw [if_pos hg]; exact grown_mark _ _
  · rw [if_neg hg]; exact .refl _

theorem grown_columns (l : List Nat) : ∀ s, Grown s (l.foldl (columnStep P) s) := by
  induction l with
  | nil => exact fun s => .refl s
  | cons j l ih => exact fun s => (grown_column s j).trans (ih _)

theorem grown_rows {rs : List Row} : ∀ {i : Nat} {s s' : State}, rowLoop make P O i rs s = .ok s' → Grown s s' := by
  induction rs with
  | nil =>
    intro i s s' h
    rw [rowLoop] at h
    exact Except.ok.inj h ▸ .refl s
  | cons r rs ih =>
    intro i s s' h
    rw [rowLoop] at h
    cases h1 : rowStep make P O i r s with
    | error e => rw [h1] at h; cases h
    | ok s1 =>
      rw [h1] at h
      exact (grown_row h1).trans (ih h)

theorem round_parts {s s' : State} (h : round make P O s = .ok s') :
    ∃ s1, rowLoop make P O 0 P.rows s = .ok s1 ∧ s' = (List.range P.nCols).foldl (columnStep P) s1 := by
  unfold round at h
  cases h1 : rowLoop make P O 0 P.rows s with
  | error e => rw [h1] at h; cases h
  | ok s1 =>
    rw [h1] at h
    exact ⟨s1, rfl, (Except.ok.inj h).symm⟩

theorem grown_round {s s' : State} (h : round make P O s = .ok s') : Grown s s' := by
  obtain ⟨s1, h1, rfl⟩ := round_parts h
  exact (grown_rows h1).trans (grown_columns _ _)

theorem news_le (P : Prob) (s : State) : news P s ≤ P.nCols := by
  unfold news
  exact List.countP_le_length.trans (by rw [List.length_range])

/-- The step of a row ends, with a state if no array is too short. -/
theorem rowStep_result {i : Nat} {r : Row} {s : State} : (∃ s', rowStep make P O i r s = .ok s') ∨
    (rowStep make P O i r s = .error .outside ∧ ∃ p q, p ∈ r.coefs ∧ pairTest make P O i p q = .error .outside) := by
  unfold rowStep
  by_cases ha : allInteger P s.isInt r = true
  · rw [if_pos ha]
    cases hc : continuous P s.isInt r with
    | nil => exact Or.inl ⟨_, rfl⟩
    | cons p es =>
      cases es with
      | nil => exact Or.inl ⟨_, rfl⟩
      | cons q es =>
        cases es with
        | cons e es => exact Or.inl ⟨_, rfl⟩
        | nil =>
          change (∃ s', (if low P r = up P r then
            (pairTest make P O i p q).bind fun b => .ok (if b then mark (mark s p.1) q.1 else s)
            else .ok s) = .ok s') ∨ ((if low P r = up P r then
            (pairTest make P O i p q).bind fun b => .ok (if b then mark (mark s p.1) q.1 else s)
            else .ok s) = .error .outside ∧ _)
          by_cases he : low P r = up P r
          · rw [if_pos he]
            cases ht : pairTest make P O i p q with
            | ok b => exact Or.inl ⟨_, rfl⟩
            | error e =>
              right
              have : e = .outside := by
                unfold pairTest at ht
                split at ht
                · split at ht
                  · unfold pairMake at ht
                    dsimp only at ht
                    split at ht
                    · cases ht
                    · exact (Except.error.inj ht).symm
                  · cases ht
                · cases ht
              subst this
              exact ⟨rfl, p, q, (continuous_mem (P := P) (I := s.isInt) (by rw [hc]; simp)).1, ht⟩
          · rw [if_neg he]; exact Or.inl ⟨_, rfl⟩
  · rw [if_neg ha]; exact Or.inl ⟨_, rfl⟩

theorem rowLoop_result : ∀ (rs : List Row) (i : Nat) (s : State), (∃ s', rowLoop make P O i rs s = .ok s') ∨
    (rowLoop make P O i rs s = .error .outside ∧ ∃ k r p q, r ∈ rs ∧ p ∈ r.coefs ∧
      pairTest make P O k p q = .error .outside) := by
  intro rs
  induction rs with
  | nil => exact fun i s => Or.inl ⟨s, rfl⟩
  | cons r rs ih =>
    intro i s
    rcases rowStep_result (P := P) (O := O) (make := make) (i := i) (r := r) (s := s) with ⟨s1, h⟩ | ⟨h, p, q, h1, h2⟩
    · rw [rowLoop, h]
      change (∃ s', rowLoop make P O (i + 1) rs s1 = .ok s') ∨ (rowLoop make P O (i + 1) rs s1 = .error .outside ∧ _)
      rcases ih (i + 1) s1 with h1 | ⟨h1, k, r', p, q, h2, h3⟩
      · exact Or.inl h1
      · exact Or.inr ⟨h1, k, r', p, q, List.mem_cons_of_mem _ h2, h3⟩
    · right
      rw [rowLoop, h]
      exact ⟨rfl, i, r, p, q, List.mem_cons_self, h1, h2⟩

theorem round_result (s : State) : (∃ s', round make P O s = .ok s') ∨
    (round make P O s = .error .outside ∧ ∃ k r p q, r ∈ P.rows ∧ p ∈ r.coefs ∧
      pairTest make P O k p q = .error .outside) := by
  unfold round
  rcases rowLoop_result (P := P) (O := O) (make := make) P.rows 0 s with ⟨s1, h⟩ | ⟨h, h1⟩
  · rw [h]; exact Or.inl ⟨_, rfl⟩
  · rw [h]; exact Or.inr ⟨rfl, h1⟩

/-- The search ends, with a state if no array is too short. -/
theorem search_result (hW : P.WF) : (∃ s, search make P O = .ok s) ∨
    (search make P O = .error .outside ∧ ∃ k r p q, r ∈ P.rows ∧ p ∈ r.coefs ∧
      pairTest make P O k p q = .error .outside) := by
  unfold search
  have key : ∀ (k : Nat) (s : State), Counted P s → P.nCols + 1 ≤ k + s.count →
      (∃ s', rounds make P O k s = .ok s') ∨ (rounds make P O k s = .error .outside ∧ ∃ k r p q, r ∈ P.rows ∧
        p ∈ r.coefs ∧ pairTest make P O k p q = .error .outside) := by
    intro k
    induction k with
    | zero =>
      intro s h hk
      have := news_le P s
      rw [← h.count] at this
      omega
    | succ k ih =>
      intro s h hk
      rcases round_result (P := P) (O := O) (make := make) s with ⟨s1, h1⟩ | ⟨h1, h2⟩
      · have h2 := round_inv (J := Counted P) (fun i r s s' hr hs hd => counted_row hW hr hs hd)
          (fun j s hj hs => counted_column hj hs) h h1
        rw [rounds, h1]
        change (∃ s', (if s1.count = s.count then Except.ok s1 else rounds make P O k s1) = .ok s') ∨
          ((if s1.count = s.count then Except.ok s1 else rounds make P O k s1) = .error .outside ∧ _)
        by_cases hc : s1.count = s.count
        · rw [if_pos hc]; exact Or.inl ⟨_, rfl⟩
        · rw [if_neg hc]
          have := (grown_round h1).count
          exact ih s1 h2 (by omega)
      · right
        rw [rounds, h1]
        exact ⟨rfl, h2⟩
  exact key _ _ (counted_start P) (by omega)

theorem search_counted (hW : P.WF) {s : State} (h : search make P O = .ok s) : Counted P s :=
  rounds_inv (J := Counted P) (fun _ _ _ _ hr hs hd => counted_row hW hr hs hd)
    (fun _ _ hj hs => counted_column hj hs) _ _ _ (counted_start P) h

/-! ### The last round -/

theorem rounds_last : ∀ (k : Nat) (s s' : State), rounds make P O k s = .ok s' →
    ∃ s1, round make P O s1 = .ok s' ∧ s'.count = s1.count := by
  intro k
  induction k with
  | zero => intro s s' h; cases h
  | succ k ih =>
    intro s s' h
    rw [rounds] at h
    cases h1 : round make P O s with
    | error e => rw [h1] at h; cases h
    | ok s1 =>
      rw [h1] at h
      change (if s1.count = s.count then Except.ok s1 else rounds make P O k s1) = .ok s' at h
      by_cases hc : s1.count = s.count
      · rw [if_pos hc] at h
        obtain rfl := Except.ok.inj h
        exact ⟨s, h1, hc⟩
      · rw [if_neg hc] at h
        exact ih s1 s' h

/-- A row has nothing more to say. -/
def RowDone (make : Bool) (P : Prob) (O : Objective) (s : State) (i : Nat) (r : Row) : Prop :=
  allInteger P s.isInt r = true →
    (∀ p, continuous P s.isInt r = [p] → recip p.2 = true → low P r ≠ up P r ∧ s.ignore i = true) ∧
    ∀ p q, continuous P s.isInt r = [p, q] → low P r = up P r → pairTest make P O i p q ≠ .ok true

theorem rowDone_step {i : Nat} {r : Row} {s s' : State} (h : rowStep make P O i r s = .ok s')
    (hc : s'.count = s.count) : RowDone make P O s' i r := by
  have hI := (grown_row h).same hc
  intro ha
  rw [hI] at ha ⊢
  unfold rowStep at h
  rw [if_pos ha] at h
  refine ⟨fun p hp hr => ?_, fun p q hp he ht => ?_⟩
  · rw [hp] at h
    have h := Except.ok.inj h
    rw [if_pos hr] at h
    by_cases he : low P r = up P r
    · rw [if_pos he] at h
      rw [← h] at hc
      change s.count + 1 = s.count at hc
      omega
    · rw [if_neg he] at h
      refine ⟨he, ?_⟩
      rw [← h]
      simp [setIgnore]
  · rw [hp] at h
    change (if low P r = up P r then
      (pairTest make P O i p q).bind fun b => .ok (if b then mark (mark s p.1) q.1 else s)
      else .ok s) = .ok s' at h
    rw [if_pos he, ht] at h
    have h := Except.ok.inj h
    rw [if_pos rfl] at h
    rw [← h] at hc
    change s.count + 1 + 1 = s.count at hc
    omega

theorem RowDone.grown {s s' : State} {i : Nat} {r : Row} (h : RowDone make P O s i r) (hg : Grown s s')
    (hc : s'.count = s.count) : RowDone make P O s' i r := by
  have hI := hg.same hc
  intro ha
  rw [hI] at ha ⊢
  exact ⟨fun p hp hr => ⟨((h ha).1 p hp hr).1, hg.ignore i ((h ha).1 p hp hr).2⟩, (h ha).2⟩

theorem rowLoop_done : ∀ (rs : List Row) (i : Nat) (s s' : State), rowLoop make P O i rs s = .ok s' →
    s'.count = s.count → ∀ k r, rs[k]? = some r → RowDone make P O s' (i + k) r := by
  intro rs
  induction rs with
  | nil => intro i s s' _ _ k r h; simp at h
  | cons r rs ih =>
    intro i s s' h hc k r' hk
    rw [rowLoop] at h
    cases h1 : rowStep make P O i r s with
    | error e => rw [h1] at h; cases h
    | ok s1 =>
      rw [h1] at h
      have g1 := (grown_row h1).count
      have g2 := grown_rows (show rowLoop make P O (i + 1) rs s1 = .ok s' from h)
      have g3 := g2.count
      cases k with
      | zero =>
        rw [List.getElem?_cons_zero] at hk
        obtain rfl := Option.some.inj hk
        exact (rowDone_step h1 (by omega)).grown g2 (by omega)
      | succ k =>
        rw [List.getElem?_cons_succ] at hk
        have := ih (i + 1) s1 s' h (by omega) k r' hk
        rwa [show i + 1 + k = i + (k + 1) by omega] at this

theorem columns_done : ∀ (l : List Nat) (s : State), (l.foldl (columnStep P) s).count = s.count →
    l.foldl (columnStep P) s = s ∧ ∀ j ∈ l, columnGood P s j = false := by
  intro l
  induction l with
  | nil => intro s _; exact ⟨rfl, by simp⟩
  | cons j l ih =>
    intro s h
    rw [List.foldl_cons] at h ⊢
    have g1 := (grown_column (P := P) s j).count
    have g2 := (grown_columns (P := P) l (columnStep P s j)).count
    have hj : columnGood P s j = false := by
      by_contra hg
      have hg : columnGood P s j = true := by simpa using hg
      have : (columnStep P s j).count = s.count + 1 := by
        unfold columnStep
        rw [if_pos hg]; rfl
      omega
    have hs : columnStep P s j = s := by
      unfold columnStep
      rw [hj]; rfl
    rw [hs] at h ⊢
    obtain ⟨h1, h2⟩ := ih s h
    refine ⟨h1, fun k hk => ?_⟩
    rcases List.mem_cons.1 hk with rfl | hk
    · exact hj
    · exact h2 k hk

/-- Nothing is left to be found. -/
structure Done (make : Bool) (P : Prob) (O : Objective) (s : State) : Prop where
  rows : ∀ i r, P.rows[i]? = some r → RowDone make P O s i r
  columns : ∀ j < P.nCols, columnGood P s j = false

theorem search_done {s : State} (h : search make P O = .ok s) : Done make P O s := by
  obtain ⟨s0, h1, h2⟩ := rounds_last _ _ _ h
  obtain ⟨s1, h3, h4⟩ := round_parts h1
  have g1 := (grown_rows h3).count
  have g2 := (grown_columns (P := P) (List.range P.nCols) s1).count
  rw [← h4] at g2
  obtain ⟨h5, h6⟩ := columns_done (P := P) (List.range P.nCols) s1 (by rw [← h4]; omega)
  rw [h4, h5]
  rw [h4, h5] at h2
  refine ⟨fun i r hr => ?_, fun j hj => h6 j (List.mem_range.2 hj)⟩
  have := rowLoop_done P.rows 0 s0 s1 h3 h2 i r hr
  rwa [zero_add] at this

/-! ### Domination -/

/-- What holds of the state throughout. -/
structure Sound (P : Prob) (O : Objective) (s : State) : Prop where
  grows : ∀ j, P.isInt j = true → s.isInt j = true
  dom : Dom P O s.isInt
  ignore : ∀ i r, P.rows[i]? = some r → s.ignore i = true → IgnoreOk P s.isInt r

theorem IgnoreOk.mono {I I' : Nat → Bool} {r : Row} (h : IgnoreOk P I r) (hi : ∀ k, I k = true → I' k = true) :
    IgnoreOk P I' r := by
  obtain ⟨I0, p, h1, h2⟩ := h
  exact ⟨I0, p, fun k hk => hi k (h1 k hk), h2⟩

theorem sound_mark {s : State} (h : Sound P O s) {j : Nat} (hd : Dom P O (plus s.isInt j)) : Sound P O (mark s j) := by
  have hg := grown_mark s j
  exact ⟨fun k hk => hg.isInt k (h.grows k hk), hd, fun i r hr hi => (h.ignore i r hr hi).mono hg.isInt⟩

/-- The test for pairs accepts only columns in no other row whose simultaneous increase does not pay. -/
def PairsOk (make : Bool) (P : Prob) (O : Objective) : Prop :=
  ∀ i r p q, P.rows[i]? = some r → low P r = up P r → p ∈ r.coefs → q ∈ r.coefs → P.isInt p.1 = false →
    P.isInt q.1 = false → pairTest make P O i p q = .ok true → pairShape P p q = true ∧
      (colEntries P p.1).length = 1 ∧ (colEntries P q.1).length = 1 ∧ 0 ≤ O.direction * (O.coef p.1 + O.coef q.1)

theorem sound_row (hC : Clean P) (hO : PairsOk make P O) {i : Nat} {r : Row} {s s' : State}
    (hr : P.rows[i]? = some r) (h : Sound P O s) (hs : rowStep make P O i r s = .ok s') : Sound P O s' := by
  have hm := List.mem_of_getElem? hr
  have notP : ∀ k, s.isInt k = false → P.isInt k = false := by
    intro k hk
    by_contra hb
    rw [h.grows k (by simpa using hb)] at hk
    simp at hk
  cases rowStep_did hs with
  | nothing => exact h
  | one ha hc hp he => exact sound_mark h (dom_equation hC h.dom hm ha hc hp he)
  | ignore ha hc hp =>
    refine ⟨h.grows, h.dom, fun k r' hk hi => ?_⟩
    change (decide (k = i) || s.ignore k) = true at hi
    rw [Bool.or_eq_true] at hi
    rcases hi with hi | hi
    · rw [of_decide_eq_true hi, hr] at hk
      obtain rfl := Option.some.inj hk
      exact ⟨s.isInt, _, fun _ h => h, ha, hc, hp⟩
    · exact h.ignore k r' hk hi
  | two ha hc he ht =>
    rename_i p q
    obtain ⟨h1, -, h3⟩ := continuous_mem (P := P) (I := s.isInt) (r := r) (p := p) (by rw [hc]; simp)
    obtain ⟨k1, -, k3⟩ := continuous_mem (P := P) (I := s.isInt) (r := r) (p := q) (by rw [hc]; simp)
    obtain ⟨o1, o2, o3, o4⟩ := hO i r p q hr he h1 k1 (notP _ h3) (notP _ k3) ht
    have hd := dom_pair hC h.dom h.grows hr ha hc he o1 o2 o3 o4
    have hg := (grown_mark s p.1).trans (grown_mark (mark s p.1) q.1)
    exact ⟨fun k hk => hg.isInt k (h.grows k hk), hd, fun i r hr hi => (h.ignore i r hr hi).mono hg.isInt⟩

theorem sound_column (hC : Clean P) {j : Nat} {s : State} (hj : j < P.nCols) (h : Sound P O s) :
    Sound P O (columnStep P s j) := by
  unfold columnStep
  by_cases hg : columnGood P s j = true
  · rw [if_pos hg]
    exact sound_mark h (dom_column hC h.dom h.grows h.ignore hj hg)
  · rw [if_neg hg]; exact h

theorem sound_start (P : Prob) (O : Objective) : Sound P O ⟨P.isInt, fun _ => false, 0⟩ :=
  ⟨fun _ h => h, fun x hx => ⟨x, hx, fun j hj h => hx.int j hj h, le_rfl, fun _ _ _ => rfl⟩, fun _ _ _ h => by simp at h⟩

theorem search_sound (hC : Clean P) (hO : PairsOk make P O) {s : State} (h : search make P O = .ok s) : Sound P O s :=
  rounds_inv (J := Sound P O) (fun _ _ _ _ hr hs hd => sound_row hC hO hr hs hd)
    (fun _ _ hj hs => sound_column hC hj hs) _ _ _ (sound_start P O) h

theorem harmless_of_dom {I T : Nat → Bool} (hD : Dom P O I) (h1 : ∀ j, P.isInt j = true → T j = true)
    (h2 : ∀ j < P.nCols, T j = true → P.isInt j = true ∨ I j = true) : Harmless P O T := by
  refine ⟨fun x hx => ⟨hx.rows, hx.lower, hx.upper, fun j hj hi => hx.int j hj (h1 j hi)⟩, fun x hx => ?_⟩
  obtain ⟨y, a, b, c, d⟩ := hD x hx
  refine ⟨y, ⟨a.rows, a.lower, a.upper, fun j hj hi => ?_⟩, c, d⟩
  rcases h2 j hj hi with h | h
  · exact a.int j hj h
  · exact b j hj h

end Cgl.PreInteger
