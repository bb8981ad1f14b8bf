import Verif.DupRow.Model
import Verif.TreeInfo.AnalyzeDup

/-!
# Mode 8: which cliques go and which columns are fixed
-/

namespace Cgl.DupRow

open TreeInfo

/-! ### The subset test -/

/-- `k` sticks out of the longer clique `i`, but only beyond the last column of `i`. -/
def SticksOut (k i : List Nat) : Prop :=
  k.length < i.length ∧ ∃ m ∈ k, m ∈ i ∧ (∀ c ∈ i, c ≤ m) ∧ (∀ c ∈ k, c ≤ m → c ∈ i) ∧ ∃ c ∈ k, m < c

theorem skip8_spec {flat A : List Nat} {off kCol : Nat} (hA : ∀ (q : Nat), q < A.length → flat[off + q]? = A[q]?) (f : Nat) {p : Nat}
    (hp : p < A.length) {idx : Nat} {l : List Nat}
    (h : skip8 flat (off + A.length) kCol f (off + p) = some (some idx, l)) :
    ∃ p', idx = off + p' ∧ p ≤ p' ∧ p' < A.length ∧ (∀ c ∈ l, c ∈ A.drop p ∧ c < kCol) := by
  induction f generalizing p l with
  | zero => cases h
  | succ f ih =>
    unfold skip8 at h
    have hget : flat[off + p]? = some A[p] := by rw [hA p hp, List.getElem?_eq_getElem hp]
    rw [hget] at h
    dsimp only at h
    split at h
    · rename_i hlt
      split at h
      · rename_i hs
        rcases hr : skip8 flat (off + A.length) kCol f (off + p + 1) with _ | ⟨o, l'⟩
        · rw [hr] at h; cases h
        · rw [hr] at h
          simp only [Option.map_some, Option.some.injEq, Prod.mk.injEq] at h
          obtain ⟨rfl, rfl⟩ := h
          obtain ⟨p', h1, h2, h3, h4⟩ := ih (p := p + 1) (by omega) hr
          refine ⟨p', h1, by omega, h3, ?_⟩
          intro c hc
          rcases List.mem_cons.mp hc with rfl | hc
          · exact ⟨by rw [List.drop_eq_getElem_cons hp]; exact List.mem_cons_self, hlt⟩
          · exact ⟨by rw [List.drop_eq_getElem_cons hp]; exact List.mem_cons_of_mem _ (h4 c hc).1, (h4 c hc).2⟩
      · simp at h
    · simp only [Option.some.injEq, Prod.mk.injEq] at h
      obtain ⟨rfl, rfl⟩ := h
      exact ⟨p, rfl, le_refl _, hp, fun c hc => by cases hc⟩

theorem subset8_spec {flat A K : List Nat} {off : Nat} (hA : ∀ (q : Nat), q < A.length → flat[off + q]? = A[q]?)
    (hsA : A.Pairwise (· < ·)) (hlen : K.length < A.length) (hno : ¬ SticksOut K A) (ks : List Nat) {pre : List Nat}
    (hK : K = pre ++ ks) (hsK : K.Pairwise (· < ·)) (hpre : ∀ c ∈ pre, c ∈ A) {p : Nat} (hp : p < A.length ∨ ks = [])
    {passed : List Nat} (h : subset8 flat (off + A.length) ks (off + p) = some (true, passed)) :
    (∀ c ∈ ks, c ∈ A.drop p) ∧ (∀ c ∈ passed, c ∈ A.drop p ∧ c ∉ ks) := by
  induction ks generalizing pre p passed with
  | nil =>
    unfold subset8 at h
    simp only [Option.some.injEq, Prod.mk.injEq] at h
    obtain ⟨-, rfl⟩ := h
    exact ⟨fun c hc => absurd hc List.not_mem_nil, fun c hc => absurd hc List.not_mem_nil⟩
  | cons kCol ks ih =>
    have hp : p < A.length := by
      rcases hp with h | h
      · exact h
      · cases h
    have hsk : (kCol :: ks).Pairwise (· < ·) := by rw [hK] at hsK; exact (List.pairwise_append.mp hsK).2.1
    have hgt := (List.pairwise_cons.mp hsk).1
    unfold subset8 at h
    rcases hs : skip8 flat (off + A.length) kCol (flat.length + 1) (off + p) with _ | ⟨o, l⟩
    · rw [hs] at h; cases h
    · rcases o with _ | idx
      · rw [hs] at h
        simp at h
      · rw [hs] at h
        dsimp only at h
        obtain ⟨p', rfl, h2, h3, h4⟩ := skip8_spec hA _ hp hs
        have hget : flat[off + p']? = some A[p'] := by rw [hA p' h3, List.getElem?_eq_getElem h3]
        split at h
        · rename_i heq
          rw [hget] at heq
          have heq : A[p'] = kCol := Option.some.inj heq
          rcases hr : subset8 flat (off + A.length) ks (off + p' + 1) with _ | ⟨b, passed'⟩
          · rw [hr] at h; cases h
          · rw [hr] at h
            simp only [Option.map_some, Option.some.injEq, Prod.mk.injEq] at h
            obtain ⟨rfl, rfl⟩ := h
            have hkA : kCol ∈ A := by rw [← heq]; exact List.getElem_mem h3
            have hpre' : ∀ c ∈ pre ++ [kCol], c ∈ A := by
              intro c hc
              rcases List.mem_append.mp hc with hc | hc
              · exact hpre c hc
              · rw [List.mem_singleton] at hc; rw [hc]; exact hkA
            have hnext : p' + 1 < A.length ∨ ks = [] := by
              by_contra hcon
              push Not at hcon
              obtain ⟨hge, hne⟩ := hcon
              have hlast : p' + 1 = A.length := by omega
              apply hno
              refine ⟨hlen, kCol, by rw [hK]; simp, hkA, ?_, ?_, ?_⟩
              · intro c hc
                obtain ⟨q, hq, rfl⟩ := List.getElem_of_mem hc
                rw [← heq]
                rcases Nat.lt_or_ge q p' with hqp | hqp
                · exact (List.pairwise_iff_getElem.mp hsA q p' hq h3 hqp).le
                · have : q = p' := by omega
                  subst this; exact le_refl _
              · intro c hc hle
                rw [hK] at hc
                rcases List.mem_append.mp hc with hc | hc
                · exact hpre c hc
                · rcases List.mem_cons.mp hc with rfl | hc
                  · exact hkA
                  · exact absurd (hgt c hc) (by omega)
              · obtain ⟨c, hc⟩ := List.exists_mem_of_ne_nil _ hne
                exact ⟨c, by rw [hK]; simp [hc], hgt c hc⟩
            have ihh := ih (pre := pre ++ [kCol]) (p := p' + 1) (by rw [hK]; simp) hpre' hnext
              (by rw [← Nat.add_assoc]; exact hr)
            obtain ⟨i1, i2⟩ := ihh
            have hdrop : ∀ c, c ∈ A.drop (p' + 1) → c ∈ A.drop p ∧ kCol < c := by
              intro c hc
              constructor
              · have : p' + 1 = p + (p' + 1 - p) := by omega
                rw [this, ← List.drop_drop] at hc
                exact List.mem_of_mem_drop hc
              · obtain ⟨q, hq, he⟩ := List.getElem_of_mem hc
                rw [List.getElem_drop] at he
                rw [← he, ← heq]
                rw [List.length_drop] at hq
                exact List.pairwise_iff_getElem.mp hsA p' (p' + 1 + q) h3 (by omega) (by omega)
            have hkd : kCol ∈ A.drop p := by
              have : p' = p + (p' - p) := by omega
              rw [← heq]
              rw [List.mem_iff_getElem]
              refine ⟨p' - p, by rw [List.length_drop]; omega, ?_⟩
              rw [List.getElem_drop]
              congr 1
              omega
            refine ⟨?_, ?_⟩
            · intro c hc
              rcases List.mem_cons.mp hc with rfl | hc
              · exact hkd
              · exact (hdrop c (i1 c hc)).1
            · intro c hc
              rcases List.mem_append.mp hc with hc | hc
              · obtain ⟨a, b⟩ := h4 c hc
                refine ⟨a, fun hm => ?_⟩
                rcases List.mem_cons.mp hm with rfl | hm
                · omega
                · have := hgt c hm; omega
              · obtain ⟨a, b⟩ := i2 c hc
                obtain ⟨a1, a2⟩ := hdrop c a
                refine ⟨a1, fun hm => ?_⟩
                rcases List.mem_cons.mp hm with rfl | hm
                · omega
                · exact b hm
        · simp at h

/-! ### The loops -/

theorem flat_get (cs : List (List Nat)) (i q : Nat) (hq : q < (clAt cs i).length) :
    cs.flatten[startAt cs i + q]? = (clAt cs i)[q]? := by
  induction cs generalizing i with
  | nil => simp [clAt] at hq
  | cons c cs ih =>
    rcases i with _ | i
    · have e : startAt (c :: cs) 0 = 0 := rfl
      have e2 : clAt (c :: cs) 0 = c := rfl
      rw [e, e2, Nat.zero_add, List.flatten_cons]
      rw [e2] at hq
      rw [List.getElem?_append_left hq]
    · have e : startAt (c :: cs) (i + 1) = c.length + startAt cs i := by simp [startAt]
      have e2 : clAt (c :: cs) (i + 1) = clAt cs i := by simp [clAt]
      rw [e2] at hq ⊢
      rw [e, List.flatten_cons, List.getElem?_append_right (by omega), ← ih i hq]
      congr 1
      omega

theorem startAt_succ (cs : List (List Nat)) (i : Nat) : startAt cs (i + 1) = startAt cs i + (clAt cs i).length := by
  unfold startAt clAt
  rw [List.take_add_one]
  rcases h : cs[i]? with _ | c <;> simp

/-- What the cliques have to satisfy. -/
structure CliquesOK (cs : List (List Nat)) : Prop where
  sorted : ∀ c ∈ cs, c.Pairwise (· < ·)
  apart : ∀ k ∈ cs, ∀ i ∈ cs, ¬ SticksOut k i

theorem clAt_mem {cs : List (List Nat)} {k : Nat} (h : clAt cs k ≠ []) : clAt cs k ∈ cs := by
  unfold clAt at h ⊢
  rcases hk : cs[k]? with _ | c
  · rw [hk] at h; exact absurd rfl h
  · exact List.mem_of_getElem? hk

theorem clAt_sorted {cs : List (List Nat)} (h : CliquesOK cs) (k : Nat) : (clAt cs k).Pairwise (· < ·) := by
  by_cases he : clAt cs k = []
  · rw [he]; exact List.Pairwise.nil
  · exact h.sorted _ (clAt_mem he)

theorem clAt_apart {cs : List (List Nat)} (h : CliquesOK cs) (k i : Nat) : ¬ SticksOut (clAt cs k) (clAt cs i) := by
  by_cases hk : clAt cs k = []
  · rintro ⟨-, m, hm, -⟩
    rw [hk] at hm; cases hm
  · by_cases hi : clAt cs i = []
    · rintro ⟨hl, -⟩
      rw [hi] at hl; cases hl
    · exact h.apart _ (clAt_mem hk) _ (clAt_mem hi)

/-- The test says what it should. -/
theorem subset8_sound {cs : List (List Nat)} (h : CliquesOK cs) {k i : Nat} (hlen : (clAt cs k).length < (clAt cs i).length)
    {passed : List Nat} (hs : subset8 cs.flatten (startAt cs (i + 1)) (clAt cs k) (startAt cs i) = some (true, passed)) :
    (∀ c ∈ clAt cs k, c ∈ clAt cs i) ∧ ∀ c ∈ passed, c ∈ clAt cs i ∧ c ∉ clAt cs k := by
  rw [startAt_succ] at hs
  have := subset8_spec (p := 0) (pre := []) (fun q hq => flat_get cs i q hq) (clAt_sorted h i) hlen (clAt_apart h k i)
    (clAt cs k) rfl (clAt_sorted h k) (fun c hc => by cases hc) (Or.inl (by omega)) hs
  simpa using this

/-- What one clique leads to. -/
structure Effect (cs : List (List Nat)) (eq : Nat → Bool) (k : Nat) (l : List (Nat × Nat)) (s s' : Sub8) : Prop where
  others : ∀ j, j ≠ k → (s'.scan.val j = -2 ↔ s.scan.val j = -2)
  self : s'.scan.val k = -2 → s.scan.val k = -2 ∨ (eq k = false ∧ ∃ p ∈ l, s.scan.val p.2 ≠ -2 ∧ p.2 ≠ k ∧
    ∀ c ∈ clAt cs k, c ∈ clAt cs p.2)
  fixed : ∀ c ∈ s'.fixed, c ∈ s.fixed ∨ (eq k = true ∧ ∃ p ∈ l, (∀ c ∈ clAt cs k, c ∈ clAt cs p.2) ∧
    c ∈ clAt cs p.2 ∧ c ∉ clAt cs k)

theorem Effect.refl' {cs : List (List Nat)} {eq : Nat → Bool} {k : Nat} {l : List (Nat × Nat)} {s s' : Sub8}
    (hv : ∀ j, s'.scan.val j = -2 ↔ s.scan.val j = -2) (hf : s'.fixed = s.fixed) : Effect cs eq k l s s' :=
  ⟨fun j _ => hv j, fun h => Or.inl ((hv k).mp h), fun c hc => Or.inl (by rw [← hf]; exact hc)⟩

theorem Effect.trans {cs : List (List Nat)} {eq : Nat → Bool} {k : Nat} {l : List (Nat × Nat)} {p : Nat × Nat} {s s1 s' : Sub8}
    (hv : ∀ j, s1.scan.val j = -2 ↔ s.scan.val j = -2) (hf : s1.fixed = s.fixed) (h : Effect cs eq k l s1 s') :
    Effect cs eq k (p :: l) s s' := by
  refine ⟨fun j hj => (h.others j hj).trans (hv j), ?_, ?_⟩
  · intro hk
    rcases h.self hk with h1 | ⟨h1, q, hq, h2, h3⟩
    · exact Or.inl ((hv k).mp h1)
    · exact Or.inr ⟨h1, q, List.mem_cons_of_mem _ hq, fun e => h2 ((hv _).mpr e), h3⟩
  · intro c hc
    rcases h.fixed c hc with h1 | ⟨h1, q, hq, h2⟩
    · exact Or.inl (by rw [← hf]; exact h1)
    · exact Or.inr ⟨h1, q, List.mem_cons_of_mem _ hq, h2⟩

theorem subInner8_effect {N : Nat} {cs : List (List Nat)} (hcs : CliquesOK cs) {eq : Nat → Bool} {k : Nat} {kVal : ℤ}
    (l : List (Nat × Nat)) (hl : ∀ p ∈ l, p.2 ≠ k) {s s' : Sub8}
    (h : subInner8 N (clAt cs) eq cs.flatten (startAt cs) k kVal l s = some s') : Effect cs eq k l s s' := by
  induction l generalizing s with
  | nil =>
    obtain rfl := Option.some.inj h
    exact Effect.refl' (fun _ => Iff.rfl) rfl
  | cons p l ih =>
    obtain ⟨ii, i⟩ := p
    have ih := fun {s} => ih (fun p hp => hl p (List.mem_cons_of_mem _ hp)) (s := s)
    have hik : i ≠ k := hl _ List.mem_cons_self
    unfold subInner8 at h
    split at h
    · refine Effect.trans ?_ ?_ (ih h)
      · intro j; split <;> rfl
      · split <;> rfl
    · rename_i hval
      push Not at hval
      split at h
      · cases h
      · rename_i last hlast
        split at h
        · refine Effect.trans (s1 := { s with scan := { s.scan with val := setAt s.scan.val i N } }) ?_ rfl (ih h)
          intro j
          exact setAt_val (by omega) hval.1 j
        · have hca : (catchUp N (clAt cs i) kVal ((clAt cs i).length + 1) (s.scan.pos i, s.scan.val i)).2 ≠ -2 :=
            catchUp_ge N _ _ _ _ hval.1
          generalize catchUp N (clAt cs i) kVal ((clAt cs i).length + 1) (s.scan.pos i, s.scan.val i) = p at h hca
          dsimp only at h
          have hv1 : ∀ j, (setAt s.scan.val i p.2) j = -2 ↔ s.scan.val j = -2 := fun j => setAt_val hca hval.1 j
          split at h
          · exact Effect.trans (s1 := { s with scan := ⟨setAt s.scan.pos i p.1, setAt s.scan.val i p.2⟩ }) hv1 rfl (ih h)
          · split at h
            · rename_i hlen
              split at h
              · cases h
              · rename_i b passed hsub
                split at h
                · rename_i hb
                  obtain rfl := Option.some.inj h
                  have hb1 : b = true := hb.1
                  subst hb1
                  obtain ⟨h1, h2⟩ := subset8_sound hcs (by omega) hsub
                  unfold found8
                  split
                  · rename_i he
                    refine ⟨fun j _ => hv1 j, fun hk => Or.inl ((hv1 k).mp hk), ?_⟩
                    intro c hc
                    rcases List.mem_append.mp hc with hc | hc
                    · exact Or.inl hc
                    · exact Or.inr ⟨he, (ii, i), List.mem_cons_self, h1, h2 c hc⟩
                  · rename_i he
                    refine ⟨?_, ?_, fun c hc => Or.inl hc⟩
                    · intro j hj
                      show setAt (setAt s.scan.val i p.2) k (-2) j = -2 ↔ _
                      have : setAt (setAt s.scan.val i p.2) k (-2) j = setAt s.scan.val i p.2 j := by
                        show (if j = k then _ else _) = _
                        rw [if_neg hj]
                      rw [this]; exact hv1 j
                    · intro _
                      exact Or.inr ⟨by simpa using he, (ii, i), List.mem_cons_self, hval.1, hik, h1⟩
                · exact Effect.trans (s1 := { s with scan := ⟨setAt s.scan.pos i p.1, setAt s.scan.val i p.2⟩ }) hv1 rfl (ih h)
            · exact Effect.trans (s1 := { s with scan := ⟨setAt s.scan.pos i p.1, setAt s.scan.val i p.2⟩ }) hv1 rfl (ih h)

/-- What holds in the course of the outer loop. -/
structure Inv8 (cs : List (List Nat)) (eq : Nat → Bool) (out0 : Nat → Prop) (before : List (Nat × Nat)) (s : Sub8) : Prop where
  gone : ∀ k, s.scan.val k = -2 → out0 k ∨ (eq k = false ∧ ∃ p ∈ before, s.scan.val p.2 ≠ -2 ∧
    ∀ c ∈ clAt cs k, c ∈ clAt cs p.2)
  old : ∀ k, out0 k → s.scan.val k = -2
  fixed : ∀ c ∈ s.fixed, ∃ k i, eq k = true ∧ (∀ c ∈ clAt cs k, c ∈ clAt cs i) ∧ c ∈ clAt cs i ∧ c ∉ clAt cs k

theorem subOuter8_inv {N : Nat} {cs : List (List Nat)} (hcs : CliquesOK cs) {eq : Nat → Bool} {out0 : Nat → Prop}
    (l before : List (Nat × Nat)) (hnd : ((before ++ l).map Prod.snd).Nodup) {s s' : Sub8} (hi : Inv8 cs eq out0 before s)
    (h : subOuter8 N (clAt cs) eq cs.flatten (startAt cs) before l s = some s') :
    Inv8 cs eq out0 (before ++ l) s' := by
  induction l generalizing before s with
  | nil =>
    obtain rfl := Option.some.inj h
    rw [List.append_nil]; exact hi
  | cons p l ih =>
    obtain ⟨jj, k⟩ := p
    have happ : before ++ (jj, k) :: l = (before ++ [(jj, k)]) ++ l := by simp
    rw [happ] at hnd ⊢
    have hkb : ∀ p ∈ before, p.2 ≠ k := by
      intro p hp
      rw [List.map_append, List.map_append] at hnd
      have h1 := (List.nodup_append.mp hnd).1
      have h2 := (List.nodup_append.mp h1).2.2
      exact h2 p.2 (List.mem_map_of_mem hp) k (by simp)
    have grow : ∀ {s : Sub8}, Inv8 cs eq out0 before s → Inv8 cs eq out0 (before ++ [(jj, k)]) s := by
      intro s hi
      refine ⟨?_, hi.old, hi.fixed⟩
      intro j hj
      rcases hi.gone j hj with h1 | ⟨h1, p, hp, h2⟩
      · exact Or.inl h1
      · exact Or.inr ⟨h1, p, List.mem_append_left _ hp, h2⟩
    unfold subOuter8 at h
    split at h
    · refine ih _ hnd (s := _) ?_ h
      exact grow ⟨hi.gone, hi.old, hi.fixed⟩
    · rename_i hk
      split at h
      · cases h
      · rename_i s1 hin
        have he := subInner8_effect hcs _ (fun p hp => hkb p (List.mem_of_mem_drop hp)) hin
        refine ih _ hnd (grow ⟨?_, ?_, ?_⟩) h
        · intro j hj
          by_cases hjk : j = k
          · subst hjk
            rcases he.self hj with h1 | ⟨h1, p, hp, h2, h3, h4⟩
            · exact absurd h1 hk
            · exact Or.inr ⟨h1, p, List.mem_of_mem_drop hp, fun e => h2 ((he.others _ h3).mp e), h4⟩
          · rcases hi.gone j ((he.others j hjk).mp hj) with h1 | ⟨h1, p, hp, h2, h3⟩
            · exact Or.inl h1
            · exact Or.inr ⟨h1, p, hp, fun e => h2 ((he.others _ (hkb p hp)).mp e), h3⟩
        · intro j hj
          have := hi.old j hj
          have hjk : j ≠ k := by rintro rfl; exact hk this
          exact (he.others j hjk).mpr this
        · intro c hc
          rcases he.fixed c hc with h1 | ⟨h1, p, hp, h2⟩
          · exact hi.fixed c h1
          · exact ⟨k, p.2, h1, h2⟩

theorem pickE_picks (n : Nat) (eq : Nat → Bool) : Picks n (pickE n eq) := by
  have key : ∀ (l : List Nat) (p : Nat × Bool),
      (l.foldl (fun p k => if eq k then (min p.1 k, true) else if p.2 then p else (min p.1 k, false)) p).1 = p.1 ∨
      (l.foldl (fun p k => if eq k then (min p.1 k, true) else if p.2 then p else (min p.1 k, false)) p).1 ∈ l := by
    intro l
    induction l with
    | nil => exact fun p => Or.inl rfl
    | cons a l ih =>
      intro p
      rw [List.foldl_cons]
      rcases ih (if eq a then (min p.1 a, true) else if p.2 then p else (min p.1 a, false)) with h | h
      · rw [h]
        split
        · rcases min_choice p.1 a with e | e
          · exact Or.inl e
          · right; rw [e]; exact List.mem_cons_self
        · split
          · exact Or.inl rfl
          · rcases min_choice p.1 a with e | e
            · exact Or.inl e
            · right; rw [e]; exact List.mem_cons_self
      · exact Or.inr (List.mem_cons_of_mem _ h)
  intro l hne hlt
  unfold pickE
  rcases l with _ | ⟨a, l⟩
  · exact absurd rfl hne
  · rw [List.foldl_cons]
    have ha := hlt a List.mem_cons_self
    rcases key l (if eq a then (min n a, true) else if (n, false).2 then (n, false) else (min n a, false)) with h | h
    · rw [h]
      have : min n a = a := by omega
      split
      · simp [this]
      · simp [this]
    · exact List.mem_cons_of_mem _ h

/-- What `outDupsEtc` returns: a clique that goes is part of one that stays, and equal to one of the same type if it is an
equality; a fixed column lies in a clique, but not in an equality that is part of it. -/
theorem outDups8_sound {N : Nat} {cs : List (List Nat)} (hcs : CliquesOK cs) (hN : ∀ c ∈ cs, ∀ j ∈ c, j < N)
    {eq : Nat → Bool} (htype : ∀ k i, k < cs.length → i < cs.length → clAt cs k = clAt cs i → eq k = eq i)
    {gone : List Bool} {fixed : List Nat} (h : outDups8 N cs eq = some (gone, fixed)) :
    gone.length = cs.length ∧
    (∀ k, gone[k]? = some true → ∃ i, gone[i]? = some false ∧ (∀ c ∈ clAt cs k, c ∈ clAt cs i) ∧
      (eq k = true → clAt cs i = clAt cs k ∧ eq i = true)) ∧
    ∀ c ∈ fixed, ∃ k i, eq k = true ∧ (∀ c ∈ clAt cs k, c ∈ clAt cs i) ∧ c ∈ clAt cs i ∧ c ∉ clAt cs k := by
  have hcl : ∀ k, ∀ c ∈ clAt cs k, c < N := by
    intro k c hc
    have : clAt cs k ≠ [] := by intro he; rw [he] at hc; cases hc
    exact hN _ (clAt_mem this) c hc
  have hfirst : ∀ k, colAt N (clAt cs k) 0 ≠ -2 := by
    intro k
    have := (colAt_le (hcl k) 0).1
    omega
  unfold outDups8 at h
  split at h
  · cases h
  rename_i s hs
  obtain ⟨rfl, rfl⟩ := Prod.mk.inj (Option.some.inj h)
  replace h := hs
  unfold run8 at h
  dsimp only at h
  have hw : ((List.range cs.length).insertionSort fun a b => colAt N (clAt cs a) 0 ≤ colAt N (clAt cs b) 0).Perm
      (List.range cs.length) := List.perm_insertionSort _ _
  generalize hwd : ((List.range cs.length).insertionSort fun a b => colAt N (clAt cs a) 0 ≤ colAt N (clAt cs b) 0) = w0 at h hw
  have hinit : DupInv N cs.length (pickE cs.length eq) (clAt cs) [] w0 ⟨fun _ => 0, fun k => colAt N (clAt cs k) 0⟩ := by
    refine ⟨by simpa using hw, fun k _ => Nat.zero_le _, fun k _ => rfl, ?_, fun k hk => by cases hk⟩
    rw [← hwd]
    have : IsTrans Nat (fun a b => colAt N (clAt cs a) 0 ≤ colAt N (clAt cs b) 0) := ⟨fun a b c h1 h2 => le_trans h1 h2⟩
    have : Std.Total (fun a b : Nat => colAt N (clAt cs a) 0 ≤ colAt N (clAt cs b) 0) := ⟨fun a b => le_total _ _⟩
    exact (List.pairwise_insertionSort (fun a b : Nat => colAt N (clAt cs a) 0 ≤ colAt N (clAt cs b) 0) _).imp
      fun h => Or.inr ⟨rfl, rfl, h⟩
  split at h
  · cases h
  · rename_i w d hdl
    have hdi : DupInv N cs.length (pickE cs.length eq) (clAt cs) w [] d := by
      have hfuel : left (clAt cs) ⟨fun _ => 0, fun k => colAt N (clAt cs k) 0⟩ w0 ≤ cs.length + startAt cs cs.length + 1 := by
        rw [left_perm hw]
        have : ∀ n, n ≤ cs.length → left (clAt cs) ⟨fun _ => 0, fun k => colAt N (clAt cs k) 0⟩ (List.range n) = n + startAt cs n := by
          intro n
          induction n with
          | zero => intro _; rfl
          | succ n ih =>
            intro hn
            rw [List.range_succ, left_append, ih (by omega), startAt_succ]
            simp only [left, List.map_cons, List.map_nil, List.sum_cons, List.sum_nil, Nat.sub_zero]
            omega
        rw [this _ (le_refl _)]
        omega
      obtain ⟨w', d', h1, h2⟩ := dupLoop_spec (pickE_picks cs.length eq) hcl _ hinit hfuel
      rw [h1] at hdl
      obtain ⟨rfl, rfl⟩ := Prod.mk.inj (Option.some.inj hdl)
      exact h2
    · have hs := h
      have hperm : w.Perm (List.range cs.length) := by simpa using hdi.perm
      have hwl : w.length = cs.length := by rw [hperm.length_eq, List.length_range]
      have hzip : ((List.range cs.length).zip w).map Prod.snd = w := by
        rw [List.map_snd_zip]
        rw [List.length_range, hwl]
      have hfin := subOuter8_inv hcs (out0 := fun k => d.val k = -2) _ [] (by
          rw [List.nil_append, hzip]
          exact hperm.nodup_iff.mpr List.nodup_range) (s := ⟨⟨fun _ => 0, fun k => if d.val k = -2 then -2 else
            colAt N (clAt cs k) 0⟩, 0, 0, [], fun _ => cs.length⟩) (by
          refine ⟨?_, ?_, fun c hc => by cases hc⟩
          · intro k hk
            left
            change (if d.val k = -2 then -2 else colAt N (clAt cs k) 0) = -2 at hk
            by_contra hc
            rw [if_neg hc] at hk
            exact hfirst k hk
          · intro k hk
            show (if d.val k = -2 then -2 else colAt N (clAt cs k) 0) = -2
            rw [if_pos hk]) hs
      rw [List.nil_append] at hfin
      have hgone : ∀ (k : Nat) (b : Bool), ((List.range cs.length).map fun k => decide (s.scan.val k = -2))[k]? = some b ↔
          k < cs.length ∧ b = decide (s.scan.val k = -2) := by
        intro k b
        rw [List.getElem?_map]
        by_cases hk : k < cs.length
        · rw [List.getElem?_range hk]
          simp only [Option.map_some, Option.some.injEq]
          exact ⟨fun e => ⟨hk, e.symm⟩, fun e => e.2.symm⟩
        · rw [List.getElem?_eq_none (by rw [List.length_range]; omega)]
          simp [hk]
      have hmemz : ∀ p ∈ (List.range cs.length).zip w, p.2 < cs.length := by
        intro p hp
        exact List.mem_range.mp (hperm.mem_iff.mp (List.of_mem_zip hp).2)
      refine ⟨by simp, ?_, hfin.fixed⟩
      intro k hk
      obtain ⟨hklt, hkv⟩ := (hgone k true).mp hk
      have hkv := of_decide_eq_true hkv.symm
      rcases hfin.gone k hkv with h0 | ⟨h1, p, hp, h2, h3⟩
      · obtain ⟨k', hk', h1, h2, -⟩ := hdi.dup k (hperm.mem_iff.mpr (List.mem_range.mpr hklt)) h0
        have hk'lt : k' < cs.length := List.mem_range.mp (hperm.mem_iff.mp hk')
        have hty := htype k k' hklt hk'lt h2.symm
        by_cases hv' : s.scan.val k' = -2
        · rcases hfin.gone k' hv' with h3 | ⟨h3, p, hp, h4, h5⟩
          · exact absurd h3 h1
          · refine ⟨p.2, (hgone _ _).mpr ⟨hmemz p hp, (decide_eq_false h4).symm⟩, ?_, ?_⟩
            · rw [← h2]; exact h5
            · intro he; rw [hty, h3] at he; cases he
        · exact ⟨k', (hgone _ _).mpr ⟨hk'lt, (decide_eq_false hv').symm⟩, by rw [h2]; exact fun c hc => hc,
            fun he => ⟨h2, by rw [← hty]; exact he⟩⟩
      · exact ⟨p.2, (hgone _ _).mpr ⟨hmemz p hp, (decide_eq_false h2).symm⟩, h3, fun he => by rw [h1] at he; cases he⟩

end Cgl.DupRow
