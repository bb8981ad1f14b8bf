import Verif.DupRow.Exact8

/-!
# Mode 8 of the duplicate-row generator: which clique stands for which
-/

namespace Cgl.CutRows

open TreeInfo DupRow

/-- What the inner loop does to the numbers `used`. -/
structure Marks (cs : List (List Nat)) (eq : Nat → Bool) (k : Nat) (l : List (Nat × Nat)) (s s' : Sub8) : Prop where
  others : ∀ j, j ≠ k → (s'.scan.val j = -2 ↔ s.scan.val j = -2)
  self : (s'.used = s.used ∧ (s'.scan.val k = -2 ↔ s.scan.val k = -2)) ∨
    ∃ p ∈ l, s.scan.val p.2 ≠ -2 ∧ p.2 ≠ k ∧ (∀ c ∈ clAt cs k, c ∈ clAt cs p.2) ∧ s'.used = mark8 s.used k p.2 ∧
      (s'.scan.val k = -2 → eq k = false ∨ s.scan.val k = -2)

theorem Marks.same {cs : List (List Nat)} {eq : Nat → Bool} {k : Nat} {l : List (Nat × Nat)} {s s' : Sub8}
    (hv : ∀ j, s'.scan.val j = -2 ↔ s.scan.val j = -2) (hu : s'.used = s.used) : Marks cs eq k l s s' :=
  ⟨fun j _ => hv j, Or.inl ⟨hu, hv k⟩⟩

theorem Marks.trans {cs : List (List Nat)} {eq : Nat → Bool} {k : Nat} {l : List (Nat × Nat)} {p : Nat × Nat} {s s1 s' : Sub8}
    (hv : ∀ j, s1.scan.val j = -2 ↔ s.scan.val j = -2) (hu : s1.used = s.used) (h : Marks cs eq k l s1 s') :
    Marks cs eq k (p :: l) s s' := by
  refine ⟨fun j hj => (h.others j hj).trans (hv j), ?_⟩
  rcases h.self with ⟨h1, h2⟩ | ⟨q, hq, h1, h2, h3, h4, h5⟩
  · exact Or.inl ⟨h1.trans hu, h2.trans (hv k)⟩
  · exact Or.inr ⟨q, List.mem_cons_of_mem _ hq, fun e => h1 ((hv _).mpr e), h2, h3, by rw [h4, hu],
      fun e => (h5 e).imp id fun e => (hv k).mp e⟩

theorem subInner8_marks {N : Nat} {cs : List (List Nat)} (hcs : CliquesOK cs) {eq : Nat → Bool} {k : Nat} {kVal : ℤ}
    (l : List (Nat × Nat)) (hl : ∀ p ∈ l, p.2 ≠ k) {s s' : Sub8}
    (h : subInner8 N (clAt cs) eq cs.flatten (startAt cs) k kVal l s = some s') : Marks cs eq k l s s' := by
  induction l generalizing s with
  | nil =>
    obtain rfl := Option.some.inj h
    exact Marks.same (fun _ => Iff.rfl) rfl
  | cons p l ih =>
    obtain ⟨ii, i⟩ := p
    have ih := fun {s} => ih (fun p hp => hl p (List.mem_cons_of_mem _ hp)) (s := s)
    have hik : i ≠ k := hl _ List.mem_cons_self
    unfold subInner8 at h
    split at h
    · refine Marks.trans ?_ ?_ (ih h)
      · intro j; split <;> rfl
      · split <;> rfl
    · rename_i hval
      push Not at hval
      split at h
      · cases h
      · rename_i last hlast
        split at h
        · refine Marks.trans (s1 := { s with scan := { s.scan with val := setAt s.scan.val i N } }) ?_ rfl (ih h)
          intro j
          exact setAt_val (by omega) hval.1 j
        · have hca : (catchUp N (clAt cs i) kVal ((clAt cs i).length + 1) (s.scan.pos i, s.scan.val i)).2 ≠ -2 :=
            catchUp_ge N _ _ _ _ hval.1
          generalize catchUp N (clAt cs i) kVal ((clAt cs i).length + 1) (s.scan.pos i, s.scan.val i) = p at h hca
          dsimp only at h
          have hv1 : ∀ j, (setAt s.scan.val i p.2) j = -2 ↔ s.scan.val j = -2 := fun j => setAt_val hca hval.1 j
          split at h
          · exact Marks.trans (s1 := { s with scan := ⟨setAt s.scan.pos i p.1, setAt s.scan.val i p.2⟩ }) hv1 rfl (ih h)
          · split at h
            · rename_i hlen
              split at h
              · cases h
              · rename_i b passed hsub
                split at h
                · rename_i hb
                  obtain rfl := Option.some.inj h
                  have hb1 : b = true := hb.1
                  subst hb1
                  obtain ⟨h1, h2⟩ := subset8_sound hcs (by omega) hsub
                  unfold found8
                  split
                  · rename_i he
                    refine ⟨fun j _ => hv1 j, Or.inr ⟨(ii, i), List.mem_cons_self, hval.1, hik, h1, rfl, ?_⟩⟩
                    exact fun e => Or.inr ((hv1 k).mp e)
                  · rename_i he
                    refine ⟨?_, Or.inr ⟨(ii, i), List.mem_cons_self, hval.1, hik, h1, rfl, ?_⟩⟩
                    · intro j hj
                      show setAt (setAt s.scan.val i p.2) k (-2) j = -2 ↔ _
                      have : setAt (setAt s.scan.val i p.2) k (-2) j = setAt s.scan.val i p.2 j := by
                        show (if j = k then _ else _) = _
                        rw [if_neg hj]
                      rw [this]; exact hv1 j
                    · exact fun _ => Or.inl (by simpa using he)
                · exact Marks.trans (s1 := { s with scan := ⟨setAt s.scan.pos i p.1, setAt s.scan.val i p.2⟩ }) hv1 rfl (ih h)
            · exact Marks.trans (s1 := { s with scan := ⟨setAt s.scan.pos i p.1, setAt s.scan.val i p.2⟩ }) hv1 rfl (ih h)

/-- What holds of `used` in the course of the outer loop. -/
structure UsedInv (n : Nat) (cs : List (List Nat)) (eq : Nat → Bool) (out0 : Nat → Prop) (before : List (Nat × Nat)) (s : Sub8) :
    Prop where
  gone : ∀ k, s.scan.val k = -2 → (out0 k ∧ s.used k = n) ∨ (eq k = false ∧ ¬ out0 k ∧ ∃ p ∈ before, s.scan.val p.2 ≠ -2 ∧
    (∀ c ∈ clAt cs k, c ∈ clAt cs p.2) ∧ s.used p.2 ≤ k ∧ s.used k = p.2)
  old : ∀ k, out0 k → s.scan.val k = -2
  fresh : ∀ k, (∀ p ∈ before, p.2 ≠ k) → s.used k = n

theorem mark8_le (used : Nat → Nat) (k i j : Nat) : mark8 used k i j ≤ used j := by
  unfold mark8
  split
  · rename_i h; subst h; exact min_le_left _ _
  · split
    · rename_i h; subst h; exact min_le_left _ _
    · exact le_refl _

theorem mark8_other {used : Nat → Nat} {k i j : Nat} (h1 : j ≠ k) (h2 : j ≠ i) : mark8 used k i j = used j := by
  unfold mark8
  rw [if_neg h1, if_neg h2]

theorem subOuter8_used {N : Nat} {cs : List (List Nat)} (hcs : CliquesOK cs) {eq : Nat → Bool} {out0 : Nat → Prop} {n : Nat}
    (l before : List (Nat × Nat)) (hnd : ((before ++ l).map Prod.snd).Nodup) (hlt : ∀ p ∈ before ++ l, p.2 < n)
    {s s' : Sub8} (hi : UsedInv n cs eq out0 before s)
    (h : subOuter8 N (clAt cs) eq cs.flatten (startAt cs) before l s = some s') :
    UsedInv n cs eq out0 (before ++ l) s' := by
  induction l generalizing before s with
  | nil =>
    obtain rfl := Option.some.inj h
    rw [List.append_nil]; exact hi
  | cons p l ih =>
    obtain ⟨jj, k⟩ := p
    have happ : before ++ (jj, k) :: l = (before ++ [(jj, k)]) ++ l := by simp
    rw [happ] at hnd hlt ⊢
    have hkb : ∀ p ∈ before, p.2 ≠ k := by
      intro p hp
      rw [List.map_append, List.map_append] at hnd
      have h1 := (List.nodup_append.mp hnd).1
      have h2 := (List.nodup_append.mp h1).2.2
      exact h2 p.2 (List.mem_map_of_mem hp) k (by simp)
    have hkn : ∀ p ∈ before, p.2 < n := fun p hp => hlt p (List.mem_append_left _ (List.mem_append_left _ hp))
    unfold subOuter8 at h
    split at h
    · refine ih _ hnd hlt (s := _) ?_ h
      refine ⟨?_, hi.old, ?_⟩
      · intro j hj
        rcases hi.gone j hj with h1 | ⟨h1, h0, p, hp, h2⟩
        · exact Or.inl h1
        · exact Or.inr ⟨h1, h0, p, List.mem_append_left _ hp, h2⟩
      · exact fun j hj => hi.fresh j fun p hp => hj p (List.mem_append_left _ hp)
    · rename_i hk
      split at h
      · cases h
      · rename_i s1 hin
        have he := subInner8_marks hcs _ (fun p hp => hkb p (List.mem_of_mem_drop hp)) hin
        have hkout : ¬ out0 k := fun h0 => hk (hi.old k h0)
        have hfk : s.used k = n := hi.fresh k hkb
        have hs1le : ∀ j, s1.used j ≤ s.used j := by
          intro j
          rcases he.self with ⟨h1, -⟩ | ⟨p, -, -, -, -, h1, -⟩
          · exact le_of_eq (congrFun h1 j)
          · rw [h1]; exact mark8_le _ _ _ _
        have hsame : ∀ j, j ≠ k → s.scan.val j = -2 → s1.used j = s.used j := by
          intro j hj hv
          rcases he.self with ⟨h1, -⟩ | ⟨p, -, h2, -, -, h1, -⟩
          · exact congrFun h1 j
          · rw [h1]; exact mark8_other hj (by rintro rfl; exact h2 hv)
        refine ih _ hnd hlt ⟨?_, ?_, ?_⟩ h
        · intro j hj
          by_cases hjk : j = k
          · subst hjk
            right
            rcases he.self with ⟨-, h1⟩ | ⟨p, hp, h1, h2, h3, h4, h5⟩
            · exact absurd (h1.mp hj) hk
            · have hpb := List.mem_of_mem_drop hp
              refine ⟨(h5 hj).resolve_right hk, hkout, p, List.mem_append_left _ hpb, fun e => h1 ((he.others _ h2).mp e), h3, ?_, ?_⟩
              · rw [h4]
                unfold mark8
                rw [if_neg h2, if_pos rfl]
                exact min_le_right _ _
              · rw [h4]
                unfold mark8
                rw [if_pos rfl, hfk]
                have := hkn p hpb
                omega
          · have hjs := (he.others j hjk).mp hj
            rcases hi.gone j hjs with ⟨h1, h2⟩ | ⟨h1, h0, p, hp, h2, h3, h4, h5⟩
            · exact Or.inl ⟨h1, by rw [hsame j hjk hjs]; exact h2⟩
            · exact Or.inr ⟨h1, h0, p, List.mem_append_left _ hp, fun e => h2 ((he.others _ (hkb p hp)).mp e), h3,
                le_trans (hs1le _) h4, by rw [hsame j hjk hjs]; exact h5⟩
        · intro j hj
          have := hi.old j hj
          have hjk : j ≠ k := by rintro rfl; exact hk this
          exact (he.others j hjk).mpr this
        · intro j hj
          have hjk : j ≠ k := fun e => hj (jj, k) (by simp) e.symm
          have hjb : ∀ p ∈ before, p.2 ≠ j := fun p hp => hj p (List.mem_append_left _ hp)
          rcases he.self with ⟨h1, -⟩ | ⟨p, hp, -, -, -, h1, -⟩
          · rw [h1]; exact hi.fresh j hjb
          · rw [h1, mark8_other hjk (fun e => hjb p (List.mem_of_mem_drop hp) e.symm)]
            exact hi.fresh j hjb

/-- The choice among equal cliques, if the ones of type 'E' have low numbers and there is one with a low number. -/
theorem pickE_low {n : Nat} {eq : Nat → Bool} {D : Nat → Prop} (hD : ∀ a b, a ≤ b → D b → D a) (heq : ∀ k, eq k = true → D k)
    {g : List Nat} {k : Nat} (hk : k ∈ g) (hDk : D k) : D (pickE n eq g) := by
  have key : ∀ (l : List Nat) (p : Nat × Bool), (p.2 = true → D p.1) → (D p.1 ∨ ∃ a ∈ l, D a) →
      D (l.foldl (fun p k => if eq k then (min p.1 k, true) else if p.2 then p else (min p.1 k, false)) p).1 := by
    intro l
    induction l with
    | nil =>
      rintro p - (h | ⟨a, ha, -⟩)
      · exact h
      · cases ha
    | cons a l ih =>
      intro p hp h
      rw [List.foldl_cons]
      by_cases ha : eq a = true
      · rw [if_pos ha]
        have : D (min p.1 a) := hD _ a (min_le_right _ _) (heq a ha)
        exact ih _ (fun _ => this) (Or.inl this)
      · rw [if_neg ha]
        by_cases h2 : p.2 = true
        · rw [if_pos h2]
          exact ih _ hp (Or.inl (hp h2))
        · rw [if_neg h2]
          refine ih _ (fun h => by cases h) ?_
          rcases h with h | ⟨b, hb, h⟩
          · exact Or.inl (hD _ p.1 (min_le_left _ _) h)
          · rcases List.mem_cons.mp hb with rfl | hb
            · exact Or.inl (hD _ b (min_le_right _ _) h)
            · exact Or.inr ⟨b, hb, h⟩
  unfold pickE
  exact key g (n, false) (fun h => by cases h) (Or.inr ⟨k, hk, hDk⟩)

/-- The state at the end of `outDupsEtc`: a clique that goes is equal to one kept at first, or part of one that stays. -/
theorem run8_spec {N : Nat} {cs : List (List Nat)} (hcs : CliquesOK cs) (hN : ∀ c ∈ cs, ∀ j ∈ c, j < N) {eq : Nat → Bool}
    {s : Sub8} (h : run8 N cs eq = some s) :
    ∃ out0 : Nat → Prop,
      (∀ k < cs.length, out0 k → ∃ k' < cs.length, ¬ out0 k' ∧ clAt cs k' = clAt cs k ∧
        ∃ g, k' = pickE cs.length eq g ∧ k ∈ g ∧ ∀ a ∈ g, a < cs.length) ∧
      (∀ k, s.scan.val k = -2 → (out0 k ∧ s.used k = cs.length) ∨ (eq k = false ∧ ¬ out0 k ∧ ∃ i < cs.length, s.scan.val i ≠ -2 ∧
        (∀ c ∈ clAt cs k, c ∈ clAt cs i) ∧ s.used i ≤ k ∧ s.used k = i)) := by
  have hcl : ∀ k, ∀ c ∈ clAt cs k, c < N := by
    intro k c hc
    have : clAt cs k ≠ [] := by intro he; rw [he] at hc; cases hc
    exact hN _ (clAt_mem this) c hc
  have hfirst : ∀ k, colAt N (clAt cs k) 0 ≠ -2 := by
    intro k
    have := (colAt_le (hcl k) 0).1
    omega
  unfold run8 at h
  dsimp only at h
  have hw : ((List.range cs.length).insertionSort fun a b => colAt N (clAt cs a) 0 ≤ colAt N (clAt cs b) 0).Perm
      (List.range cs.length) := List.perm_insertionSort _ _
  generalize hwd : ((List.range cs.length).insertionSort fun a b => colAt N (clAt cs a) 0 ≤ colAt N (clAt cs b) 0) = w0 at h hw
  have hinit : DupInv N cs.length (pickE cs.length eq) (clAt cs) [] w0 ⟨fun _ => 0, fun k => colAt N (clAt cs k) 0⟩ := by
    refine ⟨by simpa using hw, fun k _ => Nat.zero_le _, fun k _ => rfl, ?_, fun k hk => by cases hk⟩
    rw [← hwd]
    have : IsTrans Nat (fun a b => colAt N (clAt cs a) 0 ≤ colAt N (clAt cs b) 0) := ⟨fun a b c h1 h2 => le_trans h1 h2⟩
    have : Std.Total (fun a b : Nat => colAt N (clAt cs a) 0 ≤ colAt N (clAt cs b) 0) := ⟨fun a b => le_total _ _⟩
    exact (List.pairwise_insertionSort (fun a b : Nat => colAt N (clAt cs a) 0 ≤ colAt N (clAt cs b) 0) _).imp
      fun h => Or.inr ⟨rfl, rfl, h⟩
  split at h
  · cases h
  · rename_i w d hdl
    have hdi : DupInv N cs.length (pickE cs.length eq) (clAt cs) w [] d := by
      have hfuel : left (clAt cs) ⟨fun _ => 0, fun k => colAt N (clAt cs k) 0⟩ w0 ≤ cs.length + startAt cs cs.length + 1 := by
        rw [left_perm hw]
        have : ∀ n, n ≤ cs.length → left (clAt cs) ⟨fun _ => 0, fun k => colAt N (clAt cs k) 0⟩ (List.range n) = n + startAt cs n := by
          intro n
          induction n with
          | zero => intro _; rfl
          | succ n ih =>
            intro hn
            rw [List.range_succ, left_append, ih (by omega), startAt_succ]
            simp only [left, List.map_cons, List.map_nil, List.sum_cons, List.sum_nil, Nat.sub_zero]
            omega
        rw [this _ (le_refl _)]
        omega
      obtain ⟨w', d', h1, h2⟩ := dupLoop_spec (pickE_picks cs.length eq) hcl _ hinit hfuel
      rw [h1] at hdl
      obtain ⟨rfl, rfl⟩ := Prod.mk.inj (Option.some.inj hdl)
      exact h2
    have hperm : w.Perm (List.range cs.length) := by simpa using hdi.perm
    have hwl : w.length = cs.length := by rw [hperm.length_eq, List.length_range]
    have hzip : ((List.range cs.length).zip w).map Prod.snd = w := by
      rw [List.map_snd_zip]
      rw [List.length_range, hwl]
    have hmemz : ∀ p ∈ (List.range cs.length).zip w, p.2 < cs.length := by
      intro p hp
      exact List.mem_range.mp (hperm.mem_iff.mp (List.of_mem_zip hp).2)
    have hfin := subOuter8_used hcs (out0 := fun k => d.val k = -2) (n := cs.length) _ [] (by
        rw [List.nil_append, hzip]
        exact hperm.nodup_iff.mpr List.nodup_range) (by rw [List.nil_append]; exact hmemz)
        (s := ⟨⟨fun _ => 0, fun k => if d.val k = -2 then -2 else
          colAt N (clAt cs k) 0⟩, 0, 0, [], fun _ => cs.length⟩) (by
        refine ⟨?_, ?_, fun _ _ => rfl⟩
        · intro k hk
          left
          change (if d.val k = -2 then -2 else colAt N (clAt cs k) 0) = -2 at hk
          refine ⟨?_, rfl⟩
          by_contra hc
          rw [if_neg hc] at hk
          exact hfirst k hk
        · intro k hk
          show (if d.val k = -2 then -2 else colAt N (clAt cs k) 0) = -2
          rw [if_pos hk]) h
    rw [List.nil_append] at hfin
    refine ⟨fun k => d.val k = -2, ?_, ?_⟩
    · intro k hk h0
      obtain ⟨k', hk', h1, h2, g, h3⟩ := hdi.dup k (hperm.mem_iff.mpr (List.mem_range.mpr hk)) h0
      exact ⟨k', List.mem_range.mp (hperm.mem_iff.mp hk'), h1, h2, g, h3⟩
    · intro k hk
      rcases hfin.gone k hk with h1 | ⟨h1, h0, p, hp, h2⟩
      · exact Or.inl h1
      · exact Or.inr ⟨h1, h0, p.2, hmemz p hp, h2⟩

end Cgl.CutRows
