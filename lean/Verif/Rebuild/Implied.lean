import Verif.Rebuild.Spec

/-! # Equations and bounds from implications; column cuts -/

namespace Cgl.Rebuild

open TreeInfo (Info implied sequence oneFixes bit)

theorem getD_of {l : List Nat} {i j : Nat} (h : l[i]? = some j) : l.getD i 0 = j := by
  rw [List.getD_eq_getElem?_getD, h]; rfl

/-- What is known of the collected cuts at a point. -/
structure Right (t : Info) (x : Nat → ℚ) (s : Pairs) : Prop where
  two : ∀ c ∈ s.two, c.lb = c.ub ∧ c.row.dot x = c.lb
  lb : ∀ k ∈ s.lb, k < t.numberIntegers ∧ x (t.integerVariable.getD k 0) = 1
  ub : ∀ k ∈ s.ub, k < t.numberIntegers ∧ x (t.integerVariable.getD k 0) = 0

theorem TrueOf.at {t : Info} {x : Nat → ℚ} (hC : Complete t) (h : TrueOf t x) {i : Nat} (hi : i < t.numberIntegers) :
    x (t.integerVariable.getD i 0) = 0 ∨ x (t.integerVariable.getD i 0) = 1 := by
  rw [hC.number] at hi
  rw [getD_of (List.getElem?_eq_getElem hi)]
  exact h.binary _ (List.getElem_mem hi)

theorem TrueOf.go {t : Info} {x : Nat → ℚ} (hC : Complete t) (h : TrueOf t x) {i : Nat} {up : Bool} {es : List TreeInfo.CliqueEntry}
    {e : TreeInfo.CliqueEntry} (hi : i < t.numberIntegers) (hes : implied t i up = some es) (he : e ∈ es) (hs : sequence e < t.numberIntegers)
    (hx : x (t.integerVariable.getD i 0) = bit up) : x (t.integerVariable.getD (sequence e) 0) = bit (oneFixes e) := by
  rw [hC.number] at hi hs
  rw [getD_of (List.getElem?_eq_getElem hi)] at hx
  rw [getD_of (List.getElem?_eq_getElem hs)]
  exact h.entry i _ _ up es e (List.getElem?_eq_getElem hi) hes he (List.getElem?_eq_getElem hs) hx

theorem pairEntry_right {t : Info} {x : Nat → ℚ} (hC : Complete t) (hT : TrueOf t x) {k v : Nat} {up one : Bool}
    {back : List TreeInfo.CliqueEntry} {s : Pairs} (hk : k < t.numberIntegers) (hv : v < t.numberIntegers)
    (hback : implied t v one = some back) (hgo : x (t.integerVariable.getD k 0) = bit up → x (t.integerVariable.getD v 0) = bit one)
    (hs : Right t x s) : Right t x (pairEntry t.integerVariable k v up one back s) := by
  unfold pairEntry
  split
  · exact hs
  · rename_i e he
    have hm := List.mem_of_find?_eq_some he
    have hseq : sequence e = k := by simpa using List.find?_some he
    have hret := fun hx => hT.go hC hv hback hm (by rw [hseq]; exact hk) hx
    rw [hseq] at hret
    have bk := hT.at hC hk
    have bv := hT.at hC hv
    by_cases h1 : oneFixes e = up
    · rw [if_pos (by simpa using h1)]
      rw [h1] at hret
      by_cases h2 : up = one
      · rw [if_pos (by simpa using h2)]
        subst h2
        refine ⟨fun c hc => ?_, hs.lb, hs.ub⟩
        rcases List.mem_append.mp hc with hc | hc
        · exact hs.two c hc
        · rw [List.mem_singleton.mp hc]
          refine ⟨rfl, ?_⟩
          simp only [SVec.dot_cons, SVec.dot_nil]
          have : x (t.integerVariable.getD k 0) = x (t.integerVariable.getD v 0) := by
            cases up <;> simp only [bit, if_true, if_false, Bool.false_eq_true] at hgo hret
            · rcases bk with a | a
              · rw [a, hgo a]
              · rcases bv with b | b
                · rw [b, hret b]
                · rw [a, b]
            · rcases bk with a | a
              · rcases bv with b | b
                · rw [a, b]
                · rw [b, hret b]
              · rw [a, hgo a]
          rw [this]; ring
      · rw [if_neg (by simpa using h2)]
        refine ⟨fun c hc => ?_, hs.lb, hs.ub⟩
        rcases List.mem_append.mp hc with hc | hc
        · exact hs.two c hc
        · rw [List.mem_singleton.mp hc]
          refine ⟨rfl, ?_⟩
          simp only [SVec.dot_cons, SVec.dot_nil]
          have h2 : one = !up := by cases up <;> cases one <;> simp_all
          subst h2
          have : x (t.integerVariable.getD k 0) + x (t.integerVariable.getD v 0) = 1 := by
            cases up <;> simp only [bit, if_true, if_false, Bool.false_eq_true, Bool.not_false, Bool.not_true] at hgo hret
            · rcases bk with a | a
              · rw [a, hgo a]; norm_num
              · rcases bv with b | b
                · rw [a, b]; norm_num
                · rw [b, hret b]; norm_num
            · rcases bk with a | a
              · rcases bv with b | b
                · rw [b, hret b]; norm_num
                · rw [a, b]; norm_num
              · rw [a, hgo a]; norm_num
          linarith
    · rw [if_neg (by simpa using h1)]
      have h1 : oneFixes e = !up := by cases up <;> cases hh : oneFixes e <;> simp_all
      rw [h1] at hret
      cases up <;> simp only [bit, if_true, if_false, Bool.false_eq_true, Bool.not_false, Bool.not_true] at hgo hret
      · rw [if_neg (by decide)]
        refine ⟨hs.two, fun j hj => ?_, hs.ub⟩
        rcases List.mem_cons.mp hj with rfl | hj
        · refine ⟨hk, bk.resolve_left fun a => ?_⟩
          have := hret (hgo a)
          rw [a] at this
          exact absurd this (by norm_num)
        · exact hs.lb j hj
      · rw [if_pos rfl]
        refine ⟨hs.two, hs.lb, fun j hj => ?_⟩
        rcases List.mem_cons.mp hj with rfl | hj
        · refine ⟨hk, bk.resolve_right fun a => ?_⟩
          have := hret (hgo a)
          rw [a] at this
          exact absurd this (by norm_num)
        · exact hs.ub j hj

theorem pairList_right {t : Info} {x : Nat → ℚ} (hC : Complete t) (hT : TrueOf t x) {k : Nat} {up : Bool} (hk : k < t.numberIntegers) :
    ∀ (es : List TreeInfo.CliqueEntry) (s s' : Pairs),
    (∀ e ∈ es, sequence e < t.numberIntegers → x (t.integerVariable.getD k 0) = bit up →
      x (t.integerVariable.getD (sequence e) 0) = bit (oneFixes e)) →
    Right t x s → pairList t k up es s = .ok s' → Right t x s' := by
  intro es
  induction es with
  | nil => intro s s' _ hs h; rw [← Except.ok.inj h]; exact hs
  | cons e es ih =>
    intro s s' hes hs h
    have hes' := fun e he => hes e (List.mem_cons_of_mem _ he)
    rw [pairList] at h
    split at h
    · exact ih s s' hes' hs h
    · rename_i hlt
      rw [not_le] at hlt
      split at h
      · cases h
      · rename_i back hb
        exact ih _ s' hes' (pairEntry_right hC hT hk hlt hb (hes e List.mem_cons_self hlt) hs) h

theorem pairColumn_right {t : Info} {x : Nat → ℚ} (hC : Complete t) (hT : TrueOf t x) {k : Nat} (hk : k < t.numberIntegers)
    {s s' : Pairs} (hs : Right t x s) (h : pairColumn t s k = .ok s') : Right t x s' := by
  unfold pairColumn at h
  split at h
  · rename_i zero' one' h0 h1
    split at h
    · cases h
    · rename_i s1 e1
      exact pairList_right hC hT hk _ _ _ (fun e he hs => hT.go hC hk h1 he hs)
        (pairList_right hC hT hk _ _ _ (fun e he hs => hT.go hC hk h0 he hs) hs e1) h
  · cases h

theorem pairColumns_right {t : Info} {x : Nat → ℚ} (hC : Complete t) (hT : TrueOf t x) : ∀ (l : List Nat) (s s' : Pairs),
    (∀ k ∈ l, k < t.numberIntegers) → Right t x s → pairColumns t l s = .ok s' → Right t x s' := by
  intro l
  induction l with
  | nil => intro s s' _ hs h; rw [← Except.ok.inj h]; exact hs
  | cons k l ih =>
    intro s s' hl hs h
    rw [pairColumns] at h
    split at h
    · cases h
    · rename_i s1 e1
      exact ih s1 s' (fun k hk => hl k (List.mem_cons_of_mem _ hk)) (pairColumn_right hC hT (hl k List.mem_cons_self) hs e1) h

theorem pairCut_right {t : Info} {x : Nat → ℚ} {s : Pairs} (hs : Right t x s) : ∀ l : List Nat,
    (pairCut t.integerVariable s.lb s.ub l).1.Sat x ∧ (pairCut t.integerVariable s.lb s.ub l).2 = true := by
  intro l
  induction l with
  | nil => exact ⟨⟨fun p hp => (by cases hp), fun p hp => (by cases hp)⟩, rfl⟩
  | cons k l ih =>
    obtain ⟨⟨i1, i2⟩, i3⟩ := ih
    rw [pairCut]
    by_cases h0 : k ∈ s.lb ∧ k ∈ s.ub
    · exfalso
      have a := (hs.lb k h0.1).2
      rw [(hs.ub k h0.2).2] at a
      exact absurd a (by norm_num)
    · rw [if_neg h0]
      dsimp only
      by_cases h1 : k ∈ s.lb
      · rw [if_pos h1]
        refine ⟨⟨fun p hp => ?_, i2⟩, i3⟩
        rcases List.mem_cons.mp hp with rfl | hp
        · exact (hs.lb k h1).2.ge
        · exact i1 p hp
      · rw [if_neg h1]
        by_cases h2 : k ∈ s.ub
        · rw [if_pos h2]
          refine ⟨⟨i1, fun p hp => ?_⟩, i3⟩
          rcases List.mem_cons.mp hp with rfl | hp
          · exact (hs.ub k h2).2.le
          · exact i2 p hp
        · rw [if_neg h2]
          exact ⟨⟨i1, i2⟩, i3⟩

theorem pairCut_bits (which lb ub : List Nat) : ∀ l : List Nat,
    (∀ p ∈ (pairCut which lb ub l).1.lbs, p.2 = 1 ∧ ∃ k ∈ l, p.1 = which.getD k 0) ∧
    ∀ p ∈ (pairCut which lb ub l).1.ubs, p.2 = 0 ∧ ∃ k ∈ l, p.1 = which.getD k 0 := by
  intro l
  induction l with
  | nil => exact ⟨fun p hp => (by cases hp), fun p hp => (by cases hp)⟩
  | cons k l ih =>
    have i1 := fun p hp => (ih.1 p hp).imp_right fun ⟨j, hj, e⟩ => (⟨j, List.mem_cons_of_mem k hj, e⟩ : ∃ j ∈ k :: l, p.1 = which.getD j 0)
    have i2 := fun p hp => (ih.2 p hp).imp_right fun ⟨j, hj, e⟩ => (⟨j, List.mem_cons_of_mem k hj, e⟩ : ∃ j ∈ k :: l, p.1 = which.getD j 0)
    rw [pairCut]
    by_cases h0 : k ∈ lb ∧ k ∈ ub
    · rw [if_pos h0]; exact ⟨fun p hp => (by cases hp), fun p hp => (by cases hp)⟩
    · rw [if_neg h0]
      dsimp only
      by_cases h1 : k ∈ lb
      · rw [if_pos h1]
        refine ⟨fun p hp => ?_, i2⟩
        rcases List.mem_cons.mp hp with rfl | hp
        · exact ⟨rfl, k, List.mem_cons_self, rfl⟩
        · exact i1 p hp
      · rw [if_neg h1]
        by_cases h2 : k ∈ ub
        · rw [if_pos h2]
          refine ⟨i1, fun p hp => ?_⟩
          rcases List.mem_cons.mp hp with rfl | hp
          · exact ⟨rfl, k, List.mem_cons_self, rfl⟩
          · exact i2 p hp
        · rw [if_neg h2]; exact ⟨i1, i2⟩

theorem getD_mem {t : Info} (hC : Complete t) {p : Nat} (h : ∃ k ∈ List.range t.numberIntegers, p = t.integerVariable.getD k 0) :
    p ∈ t.integerVariable := by
  obtain ⟨k, hk, rfl⟩ := h
  rw [List.mem_range, hC.number] at hk
  rw [getD_of (List.getElem?_eq_getElem hk)]
  exact List.getElem_mem hk

/-- **What is drawn from implications is true of every point of which they are true.** -/
theorem implications_right {t : Info} (hC : Complete t) {two : List RowCut} {cuts : List ColCut} {ok : Bool}
    (h : implications (some t) = .ok (two, cuts, ok)) :
    (∀ c ∈ two, ∀ x, TrueOf t x → c.row.dot x = c.lb ∧ c.row.dot x = c.ub) ∧
    (∀ c ∈ cuts, (∀ x, TrueOf t x → c.Sat x) ∧
      (∀ p ∈ c.lbs, p.2 = 1 ∧ p.1 ∈ t.integerVariable) ∧ ∀ p ∈ c.ubs, p.2 = 0 ∧ p.1 ∈ t.integerVariable) ∧
    (ok = false → ∀ x, ¬ TrueOf t x) := by
  unfold implications at h
  dsimp only at h
  cases e : pairColumns t (List.range t.numberIntegers) ⟨[], [], []⟩ with
  | error _ => rw [e] at h; cases h
  | ok s =>
    rw [e] at h
    have hR : ∀ x, TrueOf t x → Right t x s := fun x hx =>
      pairColumns_right hC hx _ _ _ (fun k hk => List.mem_range.mp hk)
        ⟨fun c hc => (by cases hc), fun k hk => (by cases hk), fun k hk => (by cases hk)⟩ e
    have h2 : ∀ c ∈ s.two, ∀ x, TrueOf t x → c.row.dot x = c.lb ∧ c.row.dot x = c.ub := fun c hc x hx =>
      ⟨((hR x hx).two c hc).2, by rw [← ((hR x hx).two c hc).1]; exact ((hR x hx).two c hc).2⟩
    dsimp only at h
    split at h
    · have h := Except.ok.inj h
      simp only [Prod.mk.injEq] at h
      obtain ⟨rfl, rfl, rfl⟩ := h
      exact ⟨h2, fun c hc => (by cases hc), fun h => (by cases h)⟩
    · have h := Except.ok.inj h
      simp only [Prod.mk.injEq] at h
      obtain ⟨rfl, rfl, hok⟩ := h
      refine ⟨h2, fun c hc => ?_, fun hf x hx => ?_⟩
      · rw [List.mem_singleton.mp hc]
        exact ⟨fun x hx => (pairCut_right (hR x hx) _).1,
          fun p hp => ((pairCut_bits _ _ _ _).1 p hp).imp_right (getD_mem hC),
          fun p hp => ((pairCut_bits _ _ _ _).2 p hp).imp_right (getD_mem hC)⟩
      · rw [← hok, (pairCut_right (hR x hx) _).2] at hf
        cases hf

/-! ## Column cuts -/

/-- A later state has the same solutions, and is declared infeasible only if there are none. -/
structure Same (P : Prob) (s : Prob × Bool) : Prop where
  inf : s.1.inf = P.inf
  iff : ∀ x, s.1.Feasible x ↔ P.Feasible x
  bad : s.2 = false → ∀ x, ¬ P.Feasible x

theorem applyLower_same {P : Prob} {s : Prob × Bool} {p : Nat × ℚ} (hs : Same P s) (hp : ∀ x, P.Feasible x → p.2 ≤ x p.1)
    (hc : p.1 < P.nCols) (hi : p.2 ≤ P.inf) (hn : s.1.nCols = P.nCols) :
    Same P (applyLower s p) ∧ (applyLower s p).1.nCols = P.nCols := by
  unfold applyLower
  split
  swap
  · exact ⟨hs, hn⟩
  rename_i hb
  refine ⟨⟨hs.inf, fun x => ?_, fun hf x hx => ?_⟩, hn⟩
  · rw [← hs.iff x]
    constructor
    · intro hx
      refine ⟨hx.rows, fun j hj => ?_, hx.upper, hx.int⟩
      have := hx.lower j hj
      dsimp only at this
      split at this
      · rename_i hj'
        intro hh
        rw [hj'] at hh ⊢
        rw [hj'] at this
        have := this (lt_trans hh hb.1)
        linarith [hb.1]
      · exact this
    · intro hx
      refine ⟨hx.rows, fun j hj => ?_, hx.upper, hx.int⟩
      dsimp only
      split
      · rename_i hj'
        rw [hj']
        exact fun _ => hp x ((hs.iff x).mp hx)
      · exact hx.lower j hj
  · dsimp only at hf
    split at hf
    · exact hs.bad hf x hx
    · rw [Bool.and_eq_false_iff] at hf
      rcases hf with hf | hf
      · exact hs.bad hf x hx
      · have hlt : s.1.colUpper p.1 + 1 / 10 ^ 12 < p.2 := by simpa using hf
        have h1 := hp x hx
        have h2 := ((hs.iff x).mpr hx).upper p.1 (by rw [hn]; exact hc) (by rw [hs.inf]; linarith)
        linarith

theorem applyUpper_same {P : Prob} {s : Prob × Bool} {p : Nat × ℚ} (hs : Same P s) (hp : ∀ x, P.Feasible x → x p.1 ≤ p.2)
    (hc : p.1 < P.nCols) (hi : -P.inf ≤ p.2) (hn : s.1.nCols = P.nCols) :
    Same P (applyUpper s p) ∧ (applyUpper s p).1.nCols = P.nCols := by
  unfold applyUpper
  split
  swap
  · exact ⟨hs, hn⟩
  rename_i hb
  refine ⟨⟨hs.inf, fun x => ?_, fun hf x hx => ?_⟩, hn⟩
  · rw [← hs.iff x]
    constructor
    · intro hx
      refine ⟨hx.rows, hx.lower, fun j hj => ?_, hx.int⟩
      have := hx.upper j hj
      dsimp only at this
      split at this
      · rename_i hj'
        intro hh
        rw [hj'] at hh ⊢
        rw [hj'] at this
        have := this (lt_trans hb.1 hh)
        linarith [hb.1]
      · exact this
    · intro hx
      refine ⟨hx.rows, hx.lower, fun j hj => ?_, hx.int⟩
      dsimp only
      split
      · rename_i hj'
        rw [hj']
        exact fun _ => hp x ((hs.iff x).mp hx)
      · exact hx.upper j hj
  · dsimp only at hf
    split at hf
    · exact hs.bad hf x hx
    · rw [Bool.and_eq_false_iff] at hf
      rcases hf with hf | hf
      · exact hs.bad hf x hx
      · have hlt : p.2 + 1 / 10 ^ 12 < s.1.colLower p.1 := by simpa using hf
        have h1 := hp x hx
        have h2 := ((hs.iff x).mpr hx).lower p.1 (by rw [hn]; exact hc) (by rw [hs.inf]; linarith)
        linarith

/-- What is assumed about a column cut. -/
def CutOk (P : Prob) (c : ColCut) : Prop :=
  c.Valid P ∧ (∀ p ∈ c.lbs, p.1 < P.nCols ∧ p.2 ≤ P.inf) ∧ ∀ p ∈ c.ubs, p.1 < P.nCols ∧ -P.inf ≤ p.2

theorem applyLowers_same {P : Prob} : ∀ (l : List (Nat × ℚ)) (s : Prob × Bool), Same P s → s.1.nCols = P.nCols →
    (∀ p ∈ l, (∀ x, P.Feasible x → p.2 ≤ x p.1) ∧ p.1 < P.nCols ∧ p.2 ≤ P.inf) →
    Same P (l.foldl applyLower s) ∧ (l.foldl applyLower s).1.nCols = P.nCols := by
  intro l
  induction l with
  | nil => intro s hs hn _; exact ⟨hs, hn⟩
  | cons p l ih =>
    intro s hs hn hl
    obtain ⟨a, b, c⟩ := hl p List.mem_cons_self
    obtain ⟨s1, n1⟩ := applyLower_same hs a b c hn
    exact ih _ s1 n1 fun q hq => hl q (List.mem_cons_of_mem _ hq)

theorem applyUppers_same {P : Prob} : ∀ (l : List (Nat × ℚ)) (s : Prob × Bool), Same P s → s.1.nCols = P.nCols →
    (∀ p ∈ l, (∀ x, P.Feasible x → x p.1 ≤ p.2) ∧ p.1 < P.nCols ∧ -P.inf ≤ p.2) →
    Same P (l.foldl applyUpper s) ∧ (l.foldl applyUpper s).1.nCols = P.nCols := by
  intro l
  induction l with
  | nil => intro s hs hn _; exact ⟨hs, hn⟩
  | cons p l ih =>
    intro s hs hn hl
    obtain ⟨a, b, c⟩ := hl p List.mem_cons_self
    obtain ⟨s1, n1⟩ := applyUpper_same hs a b c hn
    exact ih _ s1 n1 fun q hq => hl q (List.mem_cons_of_mem _ hq)

theorem applyCuts_same {P : Prob} : ∀ (l : List ColCut) (s : Prob × Bool), Same P s → s.1.nCols = P.nCols →
    (∀ c ∈ l, CutOk P c) → Same P (l.foldl applyCut s) ∧ (l.foldl applyCut s).1.nCols = P.nCols := by
  intro l
  induction l with
  | nil => intro s hs hn _; exact ⟨hs, hn⟩
  | cons c l ih =>
    intro s hs hn hl
    obtain ⟨a, b, d⟩ := hl c List.mem_cons_self
    obtain ⟨s1, n1⟩ := applyLowers_same c.lbs s hs hn fun p hp => ⟨fun x hx => (a x hx).1 p hp, b p hp⟩
    obtain ⟨s2, n2⟩ := applyUppers_same c.ubs _ s1 n1 fun p hp => ⟨fun x hx => (a x hx).2 p hp, d p hp⟩
    exact ih _ s2 n2 fun q hq => hl q (List.mem_cons_of_mem _ hq)

end Cgl.Rebuild
