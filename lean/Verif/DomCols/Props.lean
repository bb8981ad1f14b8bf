import Verif.DomCols.Move

/-! # What fixing dominated columns does to the problem -/

namespace Cgl.DomCols

/-- Every fixed column is a candidate for fixing, and a candidate that is not fixed is at least as good. -/
def Inv (I : Input) (f : Nat → Bool) : Prop :=
  ∀ q, f q = true → ∃ d ∈ cands I, d.col = q ∧ d.type < 2 ∧
    ∃ e ∈ cands I, f e.col = false ∧ e.int = d.int ∧ Dom I e.col q

theorem mark_true {f : Nat → Bool} {j k : Nat} : mark f j k = true ↔ k = j ∨ f k = true := by simp [mark]

theorem mark_false {f : Nat → Bool} {j k : Nat} : mark f j k = false ↔ k ≠ j ∧ f k = false := by simp [mark]

/-- A column goes, another that is at least as good and is not fixed stays. -/
theorem inv_mark {I : Input} {f : Nat → Bool} (h : Inv I f) {d e : Cand} (hd : d ∈ cands I) (he : e ∈ cands I)
    (ht : d.type < 2) (hf : f e.col = false) (hne : e.col ≠ d.col) (hint : e.int = d.int) (hdom : Dom I e.col d.col) :
    Inv I (mark f d.col) := by
  intro q hq
  rcases mark_true.mp hq with rfl | hq
  · exact ⟨d, hd, rfl, ht, e, he, mark_false.mpr ⟨hne, hf⟩, hint, hdom⟩
  · obtain ⟨k, hk, hkq, hkt, g, hg, hgf, hgi, hgd⟩ := h q hq
    by_cases hgd' : g.col = d.col
    · have := cand_col hg hd hgd'
      subst this
      exact ⟨k, hk, hkq, hkt, e, he, mark_false.mpr ⟨hne, hf⟩, hint.trans hgi, hdom.trans hgd⟩
    · exact ⟨k, hk, hkq, hkt, g, hg, mark_false.mpr ⟨hgd', hgf⟩, hgi, hgd⟩

theorem maybe_int {P : Prob} {c d : Cand} (h : maybe P c d = true) : c.int = d.int := by
  unfold maybe at h
  simp only [Bool.and_eq_true, decide_eq_true_eq] at h
  exact h.2

theorem mayFix_type {f : Nat → Bool} {c : Cand} (h : mayFix f c = true) : c.type < 2 := by
  unfold mayFix at h
  simp only [Bool.and_eq_true, decide_eq_true_eq] at h
  exact h.2

theorem inner_inv {I : Input} (ht : Tidy I.P) {c : Cand} (hc : c ∈ cands I) : ∀ (l : List Cand) (f : Nat → Bool),
    (∀ d ∈ l, d ∈ cands I ∧ d.col ≠ c.col) → Inv I f → Inv I (inner I c l f) := by
  intro l
  induction l with
  | nil => intro f _ h; exact h
  | cons d l ih =>
    intro f hl h
    have hl' : ∀ d ∈ l, d ∈ cands I ∧ d.col ≠ c.col := fun e he => hl e (List.mem_cons_of_mem _ he)
    obtain ⟨hd, hne⟩ := hl d List.mem_cons_self
    obtain ⟨hup, hdown⟩ := choose_spec I ht c.col d.col
    unfold inner
    split
    · exact ih f hl' h
    · rename_i hfc
      rw [Bool.not_eq_true] at hfc
      split
      · rename_i hm
        have hint := maybe_int hm
        split
        · rename_i h1
          exact ih _ hl' (inv_mark h hd hc (mayFix_type h1.2) hfc (Ne.symm hne) hint (hup (Or.inl h1.1)))
        · split
          · rename_i h1
            obtain ⟨hdc, hnd⟩ := hdown h1.1
            cases hfd : f d.col with
            | false => exact inv_mark h hc hd (mayFix_type h1.2) hfd hne hint.symm hdc
            | true =>
              obtain ⟨k, hk, hkq, hkt, g, hg, hgf, hgi, hgd⟩ := h d.col hfd
              have hkd := cand_col hk hd hkq
              subst hkd
              have hgc : g.col ≠ c.col := by
                intro hgc
                rw [hgc] at hgd
                exact hnd hgd
              exact inv_mark h hc hg (mayFix_type h1.2) hgf hgc (hgi.trans hint.symm) (hgd.trans hdc)
          · split
            · rename_i h1
              exact ih _ hl' (inv_mark h hd hc (mayFix_type h1.2) hfc (Ne.symm hne) hint (hup (Or.inr h1.1)))
            · exact ih f hl' h
      · exact ih f hl' h

theorem cands_nodup (I : Input) : ((cands I).map Cand.col).Nodup := by
  have hn : (cands I).Nodup := by
    unfold cands
    refine List.Nodup.filterMap ?_ List.nodup_range
    intro a a' b hb hb'
    have key : ∀ j, cand I j = some b → b.col = j := by
      intro j hj
      unfold cand at hj
      split at hj
      · split at hj
        · simp at hj
        · simp only [Option.some.injEq] at hj; subst hj; rfl
      · simp at hj
    rw [← key a hb, ← key a' hb']
  exact List.Nodup.map_on (fun c hc d hd h => cand_col hc hd h) hn

theorem outer_inv {I : Input} (ht : Tidy I.P) : ∀ (l done : List Cand) (f : Nat → Bool),
    done ++ l = cands I → Inv I f → Inv I (outer I done l f) := by
  intro l
  induction l with
  | nil => intro done f _ h; exact h
  | cons c l ih =>
    intro done f he h
    unfold outer
    refine ih _ _ (by rw [← he]; simp) ?_
    have hn := cands_nodup I
    rw [← he, List.map_append, List.map_cons] at hn
    refine inner_inv ht (by rw [← he]; simp) _ _ ?_ h
    intro d hd
    refine ⟨by rw [← he]; simp [hd], ?_⟩
    intro hdc
    have := (List.nodup_append.mp hn).2.2 d.col (List.mem_map_of_mem hd) c.col List.mem_cons_self
    exact this hdc

theorem dominated_inv {I : Input} (ht : Tidy I.P) : Inv I (dominated I) :=
  outer_inv ht _ _ _ rfl (fun q hq => by simp at hq)

/-- Columns of a list go to zero, one after the other. -/
theorem clear {I : Input} (ht : Tidy I.P) (hnn : NonNegative I.P) (hg : NoGain I.P I.cost) : ∀ (l : List Nat),
    ∀ x, I.P.Feasible x → ∃ y, I.P.Feasible y ∧ value I.P.nCols I.cost y ≤ value I.P.nCols I.cost x ∧
      ∀ q, dominated I q = true → (q ∈ l ∨ x q = 0) → y q = 0 := by
  intro l
  induction l with
  | nil => intro x hx; exact ⟨x, hx, le_refl _, fun q _ h => by simpa using h⟩
  | cons b l ih =>
    intro x hx
    cases hb : dominated I b with
    | false =>
      obtain ⟨y, h1, h2, h3⟩ := ih x hx
      refine ⟨y, h1, h2, fun q hq hor => h3 q hq ?_⟩
      rcases hor with h | h
      · rcases List.mem_cons.mp h with rfl | h
        · rw [hb] at hq; exact absurd hq (by decide)
        · exact Or.inl h
      · exact Or.inr h
    | true =>
      obtain ⟨d, hd, rfl, htype, e, he, hef, hint, hdom⟩ := dominated_inv ht b hb
      have hne : e.col ≠ d.col := by intro h; rw [h, hb] at hef; exact absurd hef (by decide)
      obtain ⟨m1, m2⟩ := move I ht hnn hg (cands_good he) (cands_good hd) hne hint hdom htype hx
      obtain ⟨y, h1, h2, h3⟩ := ih _ m1
      refine ⟨y, h1, le_trans h2 m2, fun q hq hor => h3 q hq ?_⟩
      by_cases hqd : q = d.col
      · right; rw [hqd]; unfold moved; rw [Function.update_self]
      · rcases hor with h | h
        · exact Or.inl ((List.mem_cons.mp h).resolve_left hqd)
        · right
          have hqe : q ≠ e.col := by intro h; rw [h, hef] at hq; exact absurd hq (by decide)
          unfold moved; rw [Function.update_of_ne hqd, Function.update_of_ne hqe]; exact h

/-- **C138.** If no column may be negative and every column with a negative cost is in a row with a continuous column, then for each
feasible point the problem after the block has one with an objective that is not larger.  (Missing: problems for which one of these
fails: `not_gain`, `not_negative`; and maximisation, `not_max`.) -/
theorem dominated_partial (I : Input) (ht : Tidy I.P) (hnn : NonNegative I.P) (hg : NoGain I.P I.cost) (x : Nat → ℚ)
    (hx : I.P.Feasible x) :
    ∃ y, (fixDominated I).Feasible y ∧ value I.P.nCols I.cost y ≤ value I.P.nCols I.cost x := by
  obtain ⟨y, h1, h2, h3⟩ := clear ht hnn hg (List.range I.P.nCols) x hx
  refine ⟨y, ⟨h1.rows, h1.lower, ?_, h1.int⟩, h2⟩
  intro j hj hu
  change y j ≤ if dominated I j = true then 0 else I.P.colUpper j
  change (if dominated I j = true then 0 else I.P.colUpper j) < I.P.inf at hu
  by_cases hd : dominated I j = true
  · rw [if_pos hd, h3 j hd (Or.inl (List.mem_range.mpr hj))]
  · rw [if_neg hd] at hu ⊢; exact h1.upper j hj hu

theorem inner_only {I : Input} {c : Cand} (hc : c ∈ cands I) : ∀ (l : List Cand) (f : Nat → Bool), (∀ d ∈ l, d ∈ cands I) →
    (∀ q, f q = true → ∃ d ∈ cands I, d.col = q) → ∀ q, inner I c l f q = true → ∃ d ∈ cands I, d.col = q := by
  intro l
  induction l with
  | nil => intro f _ h; exact h
  | cons d l ih =>
    intro f hl h
    have hl' : ∀ d ∈ l, d ∈ cands I := fun e he => hl e (List.mem_cons_of_mem _ he)
    have hm : ∀ e ∈ cands I, ∀ q, mark f e.col q = true → ∃ d ∈ cands I, d.col = q := by
      intro e he q hq
      rcases mark_true.mp hq with rfl | hq
      · exact ⟨e, he, rfl⟩
      · exact h q hq
    have hd := hm d (hl d List.mem_cons_self)
    unfold inner
    split
    · exact ih f hl' h
    · split
      · split
        · exact ih _ hl' hd
        · split
          · exact hm c hc
          · split
            · exact ih _ hl' hd
            · exact ih f hl' h
      · exact ih f hl' h

theorem outer_only {I : Input} : ∀ (l done : List Cand) (f : Nat → Bool), (∀ d ∈ done ++ l, d ∈ cands I) →
    (∀ q, f q = true → ∃ d ∈ cands I, d.col = q) → ∀ q, outer I done l f q = true → ∃ d ∈ cands I, d.col = q := by
  intro l
  induction l with
  | nil => intro done f _ h; exact h
  | cons c l ih =>
    intro done f hl h
    unfold outer
    exact ih _ _ (fun d hd => hl d (by simpa using hd))
      (inner_only (hl c (by simp)) _ _ (fun d hd => hl d (by simp [hd])) h)

/-- **C139.** Only upper bounds change, they become 0, and only those of columns that exist, have the lower bound 0, are not
prohibited and are in no row with two finite bounds. -/
theorem fix_only (I : Input) :
    (fixDominated I).nCols = I.P.nCols ∧ (fixDominated I).inf = I.P.inf ∧ (fixDominated I).rows = I.P.rows ∧
    (fixDominated I).colLower = I.P.colLower ∧ (fixDominated I).isInt = I.P.isInt ∧
    ∀ j, (fixDominated I).colUpper j ≠ I.P.colUpper j →
      (fixDominated I).colUpper j = 0 ∧ j < I.P.nCols ∧ I.P.colLower j = 0 ∧ I.prohibited j = false ∧
      ∀ r ∈ I.P.rows, (∃ p ∈ r.coefs, p.1 = j) → ¬ (-dblMax < r.lb ∧ r.ub < dblMax) := by
  refine ⟨rfl, rfl, rfl, rfl, rfl, ?_⟩
  intro j hj
  have hd : dominated I j = true := by
    by_contra hc
    apply hj
    change (if dominated I j = true then 0 else I.P.colUpper j) = _
    rw [if_neg hc]
  obtain ⟨c, hc, rfl⟩ := outer_only (I := I) (cands I) [] (fun _ => false) (by simp) (by simp) j hd
  have hg := cands_good hc
  refine ⟨?_, hg.lt, hg.lower, hg.allowed, ?_⟩
  · change (if dominated I c.col = true then 0 else I.P.colUpper c.col) = _
    rw [if_pos hd]
  · rintro r hr ⟨p, hp, hpc⟩ ⟨h1, h2⟩
    obtain ⟨i, hi⟩ := List.getElem?_of_mem hr
    have hmem : i ∈ rowsOf I.P c.col := by
      rw [mem_rowsOf]; unfold entry; rw [hi]; dsimp only
      cases hl : r.coefs.lookup c.col with
      | some v => rfl
      | none =>
        have := List.lookup_eq_none_iff.mp hl p hp
        simp [hpc] at this
    apply (hg.rows i hmem).1
    unfold flipAt; rw [hi]
    have hs : side r = 0 := by unfold side; rw [if_pos ⟨h2, h1⟩]
    unfold flip; dsimp only; rw [if_neg (by rw [hs]; simp), hs]

/-- **C139.** If no upper bound is negative, each feasible point of the problem after the block is feasible for the problem before. -/
theorem fix_feasible (I : Input) (hu : ∀ j < I.P.nCols, 0 ≤ I.P.colUpper j) (hinf : 0 < I.P.inf) (y : Nat → ℚ)
    (hy : (fixDominated I).Feasible y) : I.P.Feasible y := by
  refine ⟨hy.rows, hy.lower, ?_, hy.int⟩
  intro j hj hlt
  have h := hy.upper j hj
  change (if dominated I j = true then 0 else I.P.colUpper j) < I.P.inf →
    y j ≤ if dominated I j = true then 0 else I.P.colUpper j at h
  by_cases hd : dominated I j = true
  · rw [if_pos hd] at h; exact le_trans (h hinf) (hu j hj)
  · rw [if_neg hd] at h; exact h hlt

end Cgl.DomCols
