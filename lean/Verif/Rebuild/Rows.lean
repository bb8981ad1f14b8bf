import Verif.Rebuild.Single

/-! # Building the rows again keeps the solutions -/

namespace Cgl.Rebuild

theorem Box.of {P : Prob} {x : Nat → ℚ} (h : P.Feasible x) : Box P x := ⟨h.lower, h.upper, h.int⟩

theorem oldRow_same {P : Prob} (hN : Neat P) {r r' : Row} (hr : r ∈ P.rows) {first : Bool} (h : oldRow first P r = .ok r')
    {x : Nat → ℚ} (hx : Box P x) : r'.Sat P.inf x ↔ r.Sat P.inf x := by
  unfold oldRow at h
  split at h
  · split at h
    · cases h
    · rw [← Except.ok.inj h]
    · rename_i k v e
      rw [← Except.ok.inj h]
      exact single_same hN hr e hx
  · rw [← Except.ok.inj h]

/-- What is known about a strengthened row. -/
def Good (P : Prob) (r : Row) (c : RowCut) : Prop :=
  (-10 ^ 20 < r.lb ∨ r.ub < 10 ^ 20) → c.ValidIn P ∧ ∀ x, Box P x → c.SatIn P.inf x → r.Sat P.inf x

theorem place_spec {P : Prob} (hN : Neat P) {first probing ns : Bool} {r : Row} {c : Option RowCut} {o : Out} (hr : r ∈ P.rows)
    (hc : ∀ c', c = some c' → Good P r c') (h : place first probing ns P r c = .ok o) :
    (∀ r', o = .put r' → (∀ x, P.Feasible x → r'.Sat P.inf x) ∧ ∀ x, Box P x → r'.Sat P.inf x → r.Sat P.inf x) ∧
    (o = .gone → ∀ x, Box P x → r.Sat P.inf x) ∧ (o = .infeasible → ∀ x, ¬ P.Feasible x) := by
  unfold place at h
  have hinf : (0 : ℚ) < P.inf := lt_of_lt_of_le (by norm_num) hN.inf
  split at h
  · rename_i hb
    split at h
    · split at h
      · cases h
      · rename_i r' e
        have h := Except.ok.inj h
        subst h
        refine ⟨fun r'' hh => ?_, (by intro hh; cases hh), (by intro hh; cases hh)⟩
        cases hh
        exact ⟨fun x hx => (oldRow_same hN hr e (Box.of hx)).mpr (hx.rows r hr), fun x hx => (oldRow_same hN hr e hx).mp⟩
    · rename_i c'
      obtain ⟨c1, c2⟩ := hc c' rfl hb
      split at h
      · have h := Except.ok.inj h
        subst h
        refine ⟨fun r'' hh => ?_, (by intro hh; cases hh), (by intro hh; cases hh)⟩
        cases hh
        exact ⟨fun x hx => hx.rows r hr, fun x _ hh => hh⟩
      · split at h
        · have h := Except.ok.inj h
          subst h
          refine ⟨fun r'' hh => ?_, (by intro hh; cases hh), (by intro hh; cases hh)⟩
          cases hh
          exact ⟨fun x hx => c1 x hx, fun x hx hh => c2 x hx hh⟩
        · rename_i hl
          have hl : c'.row = [] := List.length_eq_zero_iff.mp (by omega)
          split at h
          · rename_i hz
            have h := Except.ok.inj h
            subst h
            refine ⟨fun r'' hh => (by cases hh), fun _ x hx => c2 x hx ?_, (by intro hh; cases hh)⟩
            unfold RowCut.SatIn
            rw [hl]
            exact ⟨fun _ => hz.1, fun _ => hz.2⟩
          · rename_i hz
            have h := Except.ok.inj h
            subst h
            refine ⟨fun r'' hh => (by cases hh), (by intro hh; cases hh), fun _ x hx => hz ?_⟩
            have := c1 x hx
            unfold RowCut.SatIn lbOk ubOk at this
            rw [hl, SVec.dot_nil] at this
            constructor
            · by_contra hh
              exact hh (this.1 (by linarith [not_le.mp hh]))
            · by_contra hh
              exact hh (this.2 (by linarith [not_le.mp hh]))
  · rename_i hb
    have h := Except.ok.inj h
    subst h
    rw [not_or, not_lt, not_lt] at hb
    obtain ⟨b1, b2⟩ := hN.rowBounds r hr
    refine ⟨fun r'' hh => (by cases hh), fun _ x _ => ?_, (by intro hh; cases hh)⟩
    exact ⟨fun hh => absurd hh (not_lt.mpr (b1 hb.1)), fun hh => absurd hh (not_lt.mpr (b2 hb.2))⟩

theorem build_spec {P : Prob} (hN : Neat P) {first probing ns : Bool} : ∀ (l : List (Row × Option RowCut)) (rows : List (Option Row)) (ok : Bool),
    (∀ q ∈ l, q.1 ∈ P.rows ∧ ∀ c, q.2 = some c → Good P q.1 c) → build first probing ns P l = .ok (rows, ok) →
    (ok = false → ∀ x, ¬ P.Feasible x) ∧
    (∀ x, P.Feasible x → ∀ r ∈ rows.filterMap id, r.Sat P.inf x) ∧
    (ok = true → ∀ x, Box P x → (∀ r ∈ rows.filterMap id, r.Sat P.inf x) → ∀ q ∈ l, q.1.Sat P.inf x) := by
  intro l
  induction l with
  | nil =>
    intro rows ok _ h
    have h := Except.ok.inj h
    rw [Prod.mk.injEq] at h
    obtain ⟨rfl, rfl⟩ := h
    exact ⟨fun h => (by cases h), fun _ _ r hr => (by cases hr), fun _ _ _ _ q hq => (by cases hq)⟩
  | cons q l ih =>
    intro rows ok hl h
    obtain ⟨r, c⟩ := q
    obtain ⟨q1, q2⟩ := hl _ List.mem_cons_self
    have hl' := fun q hq => hl q (List.mem_cons_of_mem _ hq)
    rw [build] at h
    cases hp : place first probing ns P r c with
    | error e => rw [hp] at h; cases h
    | ok o =>
      rw [hp] at h
      obtain ⟨p1, p2, p3⟩ := place_spec hN q1 q2 hp
      cases o with
      | infeasible =>
        dsimp only at h
        split at h
        · have h := Except.ok.inj h
          rw [Prod.mk.injEq] at h
          obtain ⟨rfl, rfl⟩ := h
          exact ⟨fun _ => p3 rfl, fun _ _ r hr => (by cases hr), fun h => (by cases h)⟩
        · cases h
      | gone =>
        dsimp only at h
        cases hb : build first probing ns P l with
        | error e => rw [hb] at h; cases h
        | ok w =>
          rw [hb] at h
          obtain ⟨rows', ok'⟩ := w
          have h := Except.ok.inj h
          rw [Prod.mk.injEq] at h
          obtain ⟨rfl, rfl⟩ := h
          obtain ⟨i1, i2, i3⟩ := ih _ _ hl' hb
          refine ⟨i1, i2, fun hok x hx hh q hq => ?_⟩
          rcases List.mem_cons.mp hq with rfl | hq
          · exact p2 rfl x hx
          · exact i3 hok x hx hh q hq
      | put r' =>
        dsimp only at h
        cases hb : build first probing ns P l with
        | error e => rw [hb] at h; cases h
        | ok w =>
          rw [hb] at h
          obtain ⟨rows', ok'⟩ := w
          have h := Except.ok.inj h
          rw [Prod.mk.injEq] at h
          obtain ⟨rfl, rfl⟩ := h
          obtain ⟨i1, i2, i3⟩ := ih _ _ hl' hb
          obtain ⟨r1, r2⟩ := p1 r' rfl
          have hf : (some r' :: rows').filterMap id = r' :: rows'.filterMap id := rfl
          rw [hf]
          refine ⟨i1, fun x hx r'' hr'' => ?_, fun hok x hx hh q hq => ?_⟩
          · rcases List.mem_cons.mp hr'' with rfl | hr''
            · exact r1 x hx
            · exact i2 x hx r'' hr''
          · rcases List.mem_cons.mp hq with rfl | hq
            · exact r2 x hx (hh _ List.mem_cons_self)
            · exact i3 hok x hx (fun r hr => hh r (List.mem_cons_of_mem _ hr)) q hq

/-- A row of the problem with the duplicates made free. -/
theorem free_row {P : Prob} {dup : Nat → Bool} {r : Row} {i : Nat} (h : (free P dup).rows[i]? = some r) :
    ∃ r0, P.rows[i]? = some r0 ∧ r = if dup i then ⟨-dblMax, dblMax, r0.coefs⟩ else r0 := by
  unfold free at h
  dsimp only at h
  rw [List.getElem?_mapIdx] at h
  cases e : P.rows[i]? with
  | none => rw [e] at h; cases h
  | some r0 => rw [e] at h; exact ⟨r0, rfl, (Option.some.inj h).symm⟩

theorem free_feasible {P : Prob} {dup : Nat → Bool} (hN : Neat (free P dup)) {x : Nat → ℚ} (hx : P.Feasible x) :
    (free P dup).Feasible x := by
  refine ⟨fun r hr => ?_, hx.lower, hx.upper, hx.int⟩
  obtain ⟨i, hi⟩ := List.mem_iff_getElem?.mp hr
  obtain ⟨r0, h0, e⟩ := free_row hi
  split at e
  · rw [e]
    have := hN.infMax
    exact ⟨fun hh => absurd hh (by simpa using hN.infMax), fun hh => absurd hh (not_lt.mpr hN.infMax)⟩
  · rw [e]
    exact hx.rows r0 (List.mem_of_getElem? h0)

/-- **Building the rows again keeps the solutions.** -/
theorem rebuild_same {a : Answer} {s s' : St} {ok : Bool} (hN : Neat (free s.P a.dup)) (hS : Sound s.P a) (h : rebuild a s = .ok (s', ok)) :
    s'.P.inf = s.P.inf ∧ s'.two = s.two ∧ s'.P.nCols = s.P.nCols ∧
    (ok = false → ∀ x, ¬ s.P.Feasible x) ∧ (ok = true → ∀ x, s'.P.Feasible x ↔ s.P.Feasible x) := by
  unfold rebuild at h
  split at h
  · dsimp only at h
    split at h
    · cases h
    · rename_i rows ok' hb
      split at h
      · cases h
      · rename_i t ht
        have h := Except.ok.inj h
        rw [Prod.mk.injEq] at h
        obtain ⟨rfl, rfl⟩ := h
        have hq : ∀ q ∈ ((free s.P a.dup).rows.mapIdx fun i r => (r, a.cut i)),
            q.1 ∈ (free s.P a.dup).rows ∧ ∀ c, q.2 = some c → Good (free s.P a.dup) q.1 c := by
          intro q hq
          obtain ⟨i, hi, rfl⟩ := List.mem_mapIdx.mp hq
          refine ⟨List.getElem_mem hi, fun c hc hbnd => ?_⟩
          obtain ⟨r0, h0, e⟩ := free_row (List.getElem?_eq_getElem hi)
          dsimp only at hbnd hc ⊢
          rw [e] at hbnd ⊢
          have hd : (10 : ℚ) ^ 20 ≤ dblMax := le_trans hN.inf hN.infMax
          split
          · rename_i hdup
            rw [if_pos hdup] at hbnd
            dsimp only at hbnd
            rcases hbnd with hh | hh <;> exact absurd hh (by linarith)
          · obtain ⟨c1, c2⟩ := hS.cut i r0 c h0 hc
            exact ⟨fun x hx => c1 x (hS.dup x hx), fun x hx hh => c2 x ⟨hx.lower, hx.upper, hx.int⟩ hh⟩
        obtain ⟨b1, b2, b3⟩ := build_spec hN _ _ _ hq hb
        refine ⟨rfl, rfl, rfl, fun hok x hx => b1 hok x (free_feasible hN hx), fun hok x => ⟨fun hx => ?_, fun hx => ?_⟩⟩
        · have hbox : Box (free s.P a.dup) x := ⟨hx.lower, hx.upper, hx.int⟩
          apply hS.dup
          refine ⟨fun r hr => ?_, hx.lower, hx.upper, hx.int⟩
          obtain ⟨i, hi, rfl⟩ := List.mem_iff_getElem.mp hr
          exact b3 hok x hbox (fun r hr => hx.rows r (List.mem_append_left _ hr)) _ (List.mem_mapIdx.mpr ⟨i, hi, rfl⟩)
        · refine ⟨fun r hr => ?_, hx.lower, hx.upper, hx.int⟩
          rcases List.mem_append.mp hr with hr | hr
          · exact b2 x (free_feasible hN hx) r hr
          · split at hr
            · obtain ⟨c, hc, rfl⟩ := List.mem_map.mp hr
              exact hS.rowCuts c hc x hx
            · cases hr
  · have h := Except.ok.inj h
    rw [Prod.mk.injEq] at h
    obtain ⟨rfl, rfl⟩ := h
    exact ⟨rfl, rfl, rfl, fun h => (by cases h), fun _ x => Iff.rfl⟩

end Cgl.Rebuild
