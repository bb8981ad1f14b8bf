import Verif.Rebuild.Props

/-! # When using the answers goes wrong, and when it does not; types of rows -/

namespace Cgl.Rebuild

open TreeInfo (Info implied sequence oneFixes bit)

/-! ## C121: no fault -/

/-- The size of coefficients is such that 120 times a coefficient fits into an `int`. -/
def Small (P : Prob) : Prop := ∀ r ∈ P.rows, ∀ p ∈ r.coefs, |p.2| * 120 + 1 / 2 < 2 ^ 31

theorem scan_returns {P : Prob} {m : ℚ} (hm : m = 1 ∨ m = -1) : ∀ (v : SVec) (s : Scan), (∀ p ∈ v, |p.2| * 120 + 1 / 2 < 2 ^ 31) →
    ∃ o, scan P m v s = .ok o := by
  intro v
  induction v with
  | nil => intro s _; exact ⟨_, rfl⟩
  | cons p v ih =>
    intro s hv
    have ih := fun s => ih s fun q hq => hv q (List.mem_cons_of_mem _ hq)
    have hp := hv p List.mem_cons_self
    rw [scan]
    have key : ∃ o, scanEntry P m s p = .ok o := by
      unfold scanEntry
      split
      · split
        · split <;> exact ⟨_, rfl⟩
        · split
          · exact ⟨_, rfl⟩
          · split
            · rename_i hb
              exfalso
              have h1 : ((2 ^ 31 : ℤ) : ℚ) ≤ m * p.2 * -120 + 1 / 2 := Int.le_floor.mp hb
              have h2 : m * p.2 * -120 ≤ |p.2| * 120 := by
                have a := le_abs_self p.2
                have b := neg_abs_le p.2
                rcases hm with rfl | rfl <;> linarith
              push_cast at h1
              linarith
            · exact ⟨_, rfl⟩
      · exact ⟨_, rfl⟩
    obtain ⟨o, ho⟩ := key
    rw [ho]
    cases o with
    | none => exact ⟨_, rfl⟩
    | some s' => exact ih s'

theorem single_returns {P : Prob} {r : Row} (hnz : ∀ p ∈ r.coefs, p.2 ≠ 0) (hs : ∀ p ∈ r.coefs, |p.2| * 120 + 1 / 2 < 2 ^ 31) :
    ∃ o, single P r = .ok o := by
  unfold single
  split
  · rename_i hc
    obtain ⟨p, hp⟩ := pos_one hnz hc.2
    dsimp only
    generalize hm : (if nNeg P r.coefs = 1 then (-1 : ℚ) else 1) = m at hp ⊢
    have hm' : m = 1 ∨ m = -1 := by rw [← hm]; split <;> simp
    obtain ⟨o, ho⟩ := scan_returns (P := P) hm' r.coefs ⟨none, 0, 0, 0⟩ hs
    rw [ho]
    cases o with
    | none => exact ⟨_, rfl⟩
    | some s =>
      dsimp only
      have := ((scan_single r.coefs _ s ho).2 p hp).1
      unfold strengthen
      rw [this]
      dsimp only
      split <;> exact ⟨_, rfl⟩
  · exact ⟨_, rfl⟩

theorem place_returns {P : Prob} {first probing ns : Bool} {r : Row} {c : Option RowCut} (hnz : ∀ p ∈ r.coefs, p.2 ≠ 0)
    (hs : ∀ p ∈ r.coefs, |p.2| * 120 + 1 / 2 < 2 ^ 31) : ∃ o, place first probing ns P r c = .ok o := by
  unfold place
  split
  · split
    · have : ∃ r', oldRow first P r = .ok r' := by
        unfold oldRow
        split
        · obtain ⟨o, ho⟩ := single_returns (P := P) hnz hs
          rw [ho]
          cases o with
          | none => exact ⟨_, rfl⟩
          | some w => exact ⟨_, rfl⟩
        · exact ⟨_, rfl⟩
      obtain ⟨r', hr'⟩ := this
      rw [hr']
      exact ⟨_, rfl⟩
    · split
      · exact ⟨_, rfl⟩
      · split
        · exact ⟨_, rfl⟩
        · split <;> exact ⟨_, rfl⟩
  · exact ⟨_, rfl⟩

theorem build_returns {P : Prob} (hN : Neat P) (hsm : Small P) (hf : ∃ x, P.Feasible x) {first probing ns : Bool} :
    ∀ l : List (Row × Option RowCut), (∀ q ∈ l, q.1 ∈ P.rows ∧ ∀ c, q.2 = some c → Good P q.1 c) →
    ∃ rows, build first probing ns P l = .ok (rows, true) ∧ rows.length = l.length := by
  intro l
  induction l with
  | nil => intro _; exact ⟨_, rfl, rfl⟩
  | cons q l ih =>
    intro hl
    obtain ⟨r, c⟩ := q
    obtain ⟨q1, q2⟩ := hl _ List.mem_cons_self
    obtain ⟨rows, hb, hlen⟩ := ih fun q hq => hl q (List.mem_cons_of_mem _ hq)
    obtain ⟨o, ho⟩ := place_returns (P := P) (first := first) (probing := probing) (ns := ns) (r := r) (c := c)
      (fun p hp => (hN.coefs r q1 p hp).1) (hsm r q1)
    obtain ⟨x, hx⟩ := hf
    rw [build, ho]
    cases o with
    | infeasible => exact absurd hx ((place_spec hN q1 q2 ho).2.2 rfl x)
    | gone => dsimp only; rw [hb]; exact ⟨_, rfl, by rw [List.length_cons, List.length_cons, hlen]⟩
    | put r' => dsimp only; rw [hb]; exact ⟨_, rfl, by rw [List.length_cons, List.length_cons, hlen]⟩

/-- The pairs of a row and its cut. -/
theorem pairs_good {P : Prob} {a : Answer} (hN : Neat (free P a.dup)) (hS : Sound P a) :
    ∀ q ∈ ((free P a.dup).rows.mapIdx fun i r => (r, a.cut i)),
      q.1 ∈ (free P a.dup).rows ∧ ∀ c, q.2 = some c → Good (free P a.dup) q.1 c := by
  intro q hq
  obtain ⟨i, hi, rfl⟩ := List.mem_mapIdx.mp hq
  refine ⟨List.getElem_mem hi, fun c hc hbnd => ?_⟩
  obtain ⟨r0, h0, e⟩ := free_row (List.getElem?_eq_getElem hi)
  dsimp only at hbnd hc ⊢
  rw [e] at hbnd ⊢
  have hd : (10 : ℚ) ^ 20 ≤ dblMax := le_trans hN.inf hN.infMax
  split
  · rename_i hdup
    rw [if_pos hdup] at hbnd
    dsimp only at hbnd
    rcases hbnd with hh | hh <;> exact absurd hh (by linarith)
  · obtain ⟨c1, c2⟩ := hS.cut i r0 c h0 hc
    exact ⟨fun x hx => c1 x (hS.dup x hx), fun x hx hh => c2 x ⟨hx.lower, hx.upper, hx.int⟩ hh⟩

/-- Coefficients are small in every problem that a generator is asked about. -/
def Smalls (constraints : Bool) : List Answer → St → Prop
  | [], _ => True
  | a :: l, s => Small s.P ∧ ∀ s', step constraints a s = .ok (s', true) → Smalls constraints l s'

theorem rebuild_returns {a : Answer} {s : St} (hN : Neat (free s.P a.dup)) (hS : Sound s.P a) (hsm : Small s.P)
    (hf : ∃ x, s.P.Feasible x) (ht : s.types = none) : ∃ s', rebuild a s = .ok (s', true) ∧ s'.types = none := by
  have hsm' : Small (free s.P a.dup) := by
    intro r hr p hp
    obtain ⟨i, hi⟩ := List.mem_iff_getElem?.mp hr
    obtain ⟨r0, h0, e⟩ := free_row hi
    have : r.coefs = r0.coefs := by rw [e]; split <;> rfl
    rw [this] at hp
    exact hsm r0 (List.mem_of_getElem? h0) p hp
  obtain ⟨x, hx⟩ := hf
  by_cases hc : changes s.P a = true
  · obtain ⟨rows, hb, -⟩ := build_returns (first := a.first) (probing := a.table.isSome) (ns := a.noStrengthening) hN hsm'
      ⟨x, free_feasible hN hx⟩ _ (pairs_good hN hS)
    refine ⟨⟨{ free s.P a.dup with rows := rows.filterMap id ++ if a.dupRow then a.rowCuts.map fun c => ⟨c.lb, c.ub, c.row⟩ else [] },
      s.two, none⟩, ?_, rfl⟩
    rw [rebuild, if_pos hc]
    dsimp only
    rw [hb, ht]
    rfl
  · exact ⟨s, by rw [rebuild, if_neg hc], ht⟩

theorem step_returns {constraints : Bool} {a : Answer} {s : St} (hN : Neat (free s.P a.dup)) (hS : Sound s.P a) (hsm : Small s.P)
    (hf : ∃ x, s.P.Feasible x) (ht : s.types = none) : ∃ s', step constraints a s = .ok (s', true) ∧ s'.types = none := by
  obtain ⟨s1, e1, t1⟩ := rebuild_returns (s := { s with two := s.two ++ if a.dupRow then a.rowCuts else [] }) hN hS hsm hf ht
  obtain ⟨x, hx⟩ := hf
  obtain ⟨w, hw⟩ := implications_return fun t h => (hS.table t h).1
  have : ∃ s' ok, step constraints a s = .ok (s', ok) ∧ s'.types = none := by
    unfold step
    rw [e1]
    dsimp only
    rw [if_pos rfl, hw]
    exact ⟨_, _, rfl, t1⟩
  obtain ⟨s', ok, e, t⟩ := this
  cases ok
  · exact absurd hx ((step_same hN hS e).2.1 rfl x)
  · exact ⟨s', e, t⟩

/-- **Nothing goes wrong** if there is a solution, coefficients are small and there are no types of rows; the new problem is
returned. -/
theorem useAnswers_returns_partial {constraints : Bool} {l : List Answer} {P : Prob} (hS : Sounds constraints l ⟨P, [], none⟩)
    (hsm : Smalls constraints l ⟨P, [], none⟩) (hf : ∃ x, P.Feasible x) : ∃ s, useAnswers constraints l P none = .ok (some s) := by
  have key : ∀ (l : List Answer) (s : St), Sounds constraints l s → Smalls constraints l s → (∃ x, s.P.Feasible x) → s.types = none →
      ∃ s', steps constraints l s = .ok (s', true) ∧ s'.types = none := by
    intro l
    induction l with
    | nil => intro s _ _ _ ht; exact ⟨s, rfl, ht⟩
    | cons a l ih =>
      intro s hS hsm hf ht
      obtain ⟨n, so, nx⟩ := hS
      obtain ⟨sm, nx'⟩ := hsm
      obtain ⟨s1, e1, t1⟩ := step_returns n so sm hf ht
      obtain ⟨x, hx⟩ := hf
      rw [steps, e1]
      dsimp only
      rw [if_pos rfl]
      exact ih s1 (nx s1 e1) (nx' s1 e1) ⟨x, ((step_same n so e1).2.2.1 rfl x).mpr hx⟩ t1
  obtain ⟨s, e, t⟩ := key l _ hS hsm hf rfl
  unfold useAnswers
  rw [e]
  dsimp only
  have : ∃ s', finish s = .ok s' := by
    unfold finish
    split
    · exact ⟨_, rfl⟩
    · dsimp only
      rw [t]
      exact ⟨_, rfl⟩
  obtain ⟨s', e'⟩ := this
  rw [e']
  exact ⟨s', rfl⟩

/-! ## C120: types of rows -/

/-- The types that rows should have: those of the rows that are kept. -/
def keptTypes : List (Option Row) → List ℤ → List ℤ
  | some _ :: rows, t :: ts => t :: keptTypes rows ts
  | none :: rows, _ :: ts => keptTypes rows ts
  | _, _ => []

/-- **The array has the types of the rows that are kept, in order** — the counter does not say how many there are
(`packed_counter`). -/
theorem packTypes_partial {t t' : Types} {rows : List (Option Row)} (hl : t.number ≤ t.type.length)
    (h : packTypes (some t) rows = .ok (some t')) :
    t'.type.take (rows.filterMap id).length = keptTypes rows t.type ∧ t'.number = t.number ∧ t.number = rows.length := by
  unfold packTypes at h
  dsimp only at h
  split at h
  · rename_i hn
    have h := Option.some.inj (Except.ok.inj h)
    subst h
    refine ⟨?_, rfl, hn⟩
    have key : ∀ (rows : List (Option Row)) (ts : List ℤ), rows.length ≤ ts.length →
        ((rows.zip ts).filter fun p => p.1.isSome).map Prod.snd = keptTypes rows ts ∧
        (keptTypes rows ts).length = (rows.filterMap id).length := by
      intro rows
      induction rows with
      | nil => intro ts _; exact ⟨by simp [keptTypes], by simp [keptTypes]⟩
      | cons r rows ih =>
        intro ts hts
        cases ts with
        | nil => simp at hts
        | cons u ts =>
          obtain ⟨i1, i2⟩ := ih ts (by simpa using hts)
          cases r with
          | none =>
            rw [keptTypes]
            refine ⟨?_, i2⟩
            rw [List.zip_cons_cons, List.filter_cons_of_neg (by simp)]
            exact i1
          | some r =>
            rw [keptTypes]
            refine ⟨?_, ?_⟩
            · rw [List.zip_cons_cons, List.filter_cons_of_pos (by simp), List.map_cons, i1]
            · rw [List.length_cons, i2]; rfl
    obtain ⟨k1, k2⟩ := key rows t.type (by omega)
    dsimp only
    rw [k1, ← k2, List.take_left]
  · cases h

/-- The counter is right exactly if no row was dropped. -/
theorem packed_counter {t t' : Types} {rows : List (Option Row)} (h : packTypes (some t) rows = .ok (some t')) :
    t'.number = (rows.filterMap id).length ↔ ∀ r ∈ rows, r.isSome = true := by
  unfold packTypes at h
  dsimp only at h
  split at h
  · rename_i hn
    have h := Option.some.inj (Except.ok.inj h)
    subst h
    dsimp only
    rw [hn]
    have : ∀ rows : List (Option Row), rows.length = (rows.filterMap id).length ↔ ∀ r ∈ rows, r.isSome = true := by
      intro rows
      induction rows with
      | nil => simp
      | cons r rows ih =>
        have hle := List.length_filterMap_le id rows
        cases r with
        | none =>
          have : ((none : Option Row) :: rows).filterMap id = rows.filterMap id := rfl
          rw [this]
          constructor
          · intro hh; rw [List.length_cons] at hh; omega
          · intro hh; exact absurd (hh none List.mem_cons_self) (by simp)
        | some r =>
          have : (some r :: rows).filterMap id = r :: rows.filterMap id := rfl
          rw [this, List.length_cons, List.length_cons, Nat.add_right_cancel_iff, ih]
          simp
    exact this rows
  · cases h

/-- **If the counter is right, the added equations get type -1 and the other rows keep their types.** -/
theorem finish_types_partial {s s' : St} {t : Types} (h : finish s = .ok s') (ht : s.types = some t) (hn : t.number = s.P.rows.length)
    (hl : t.type.length = t.number) :
    s'.types = some ⟨t.type ++ List.replicate s.two.length (-1), s.P.rows.length + s.two.length⟩ := by
  unfold finish at h
  split at h
  · rename_i h0
    have h := Except.ok.inj h
    subst h
    rw [ht, h0]
    cases t
    simp only at hn
    simp [hn]
  · dsimp only at h
    rw [ht] at h
    dsimp only at h
    split at h
    · cases h
    · have h := Except.ok.inj h
      subst h
      have : (s.P.rows ++ s.two.map fun c => (⟨c.lb, c.ub, c.row⟩ : Row)).length = s.P.rows.length + s.two.length := by simp
      dsimp only
      rw [this, hn, Nat.add_sub_cancel_left, ← hn, ← hl, List.take_length]

end Cgl.Rebuild
