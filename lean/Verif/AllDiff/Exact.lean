import Verif.AllDiff.Total

/-! ### What is left is supported, set by set -/

namespace Cgl.AllDiff

/-- Every fixed variable has exactly its value left. -/
def FixedOk (gap : Nat) (sets : List (List Nat)) (s : St) : Prop :=
  ∀ t ∈ sets, ∀ k ∈ t, 0 ≤ s.fixed k → s.fixed k < gap ∧ s.poss ((k * gap : Nat) + s.fixed k) = true ∧
    ∀ v < gap, s.poss (at' gap k v) = true → (v : Int) = s.fixed k

/-- A conflict that the next scan of the sets finds. -/
def Bad (gap : Nat) (sets : List (List Nat)) (s : St) : Prop :=
  (∃ t ∈ sets, ∃ k ∈ t, ∃ m ∈ t, k ≠ m ∧ 0 ≤ s.fixed k ∧ s.fixed m = s.fixed k) ∨
    ∃ t ∈ sets, ∃ k ∈ t, s.fixed k < 0 ∧ allowed gap s.poss k = []

theorem allowed_nil {gap : Nat} {poss : Int → Bool} {k : Nat} : allowed gap poss k = [] ↔ ∀ v < gap, poss (at' gap k v) = false := by
  rw [List.eq_nil_iff_forall_not_mem]
  constructor
  · intro h v hv; exact eq_false_of fun hp => h v (mem_allowed.mpr ⟨hv, hp⟩)
  · intro h v hm; rw [mem_allowed] at hm; rw [h v hm.1] at hm; exact absurd hm.2 (by simp)

theorem fix_J {gap : Nat} {sets : List (List Nat)} {s : St} (hJ : FixedOk gap sets s ∨ Bad gap sets s) {m : Nat} {f : Int} (hm : s.fixed m < 0)
    (hf : 0 ≤ f ∧ f < gap) (hrow : ∀ v < gap, s.poss (at' gap m v) = true → (v : Int) = f)
    (hbit : s.poss ((m * gap : Nat) + f) = true ∨ ∃ t ∈ sets, m ∈ t ∧ ∃ k ∈ t, k ≠ m ∧ s.fixed k = f) (c : Nat) :
    FixedOk gap sets ⟨takeOut gap sets m f s.poss, upd s.fixed m f, c⟩ ∨ Bad gap sets ⟨takeOut gap sets m f s.poss, upd s.fixed m f, c⟩ := by
  have hup : ∀ k, k ≠ m → upd s.fixed m f k = s.fixed k := fun k hk => by unfold upd; rw [if_neg hk]
  have hupm : upd s.fixed m f m = f := by unfold upd; rw [if_pos rfl]
  by_cases hconf : ∃ t ∈ sets, m ∈ t ∧ ∃ k ∈ t, k ≠ m ∧ s.fixed k = f
  · obtain ⟨t, ht, hmt, k, hk, hne, he⟩ := hconf
    right; left
    refine ⟨t, ht, m, hmt, k, hk, fun h => hne h.symm, ?_, ?_⟩
    · simp only [hupm]; exact hf.1
    · simp only [hupm, hup k hne]; exact he
  · have hpm := hbit.resolve_right hconf
    have fcast : ∀ k : Nat, ((k * gap : Nat) : Int) + f = at' gap k f.toNat := by
      intro k; unfold at'; rw [Int.toNat_of_nonneg hf.1]; push_cast; ring
    have hflt : f.toNat < gap := by omega
    rcases hJ with hJ | hB
    · left
      intro t ht k hkt h0
      by_cases hkm : k = m
      · subst hkm
        simp only [hupm] at h0 ⊢
        refine ⟨hf.2, ?_, fun v hv hp => hrow v hv (takeOut_iff.mp hp).1⟩
        rw [takeOut_iff]
        refine ⟨hpm, fun u hu hmu k' hk' hne he => ?_⟩
        rw [fcast, fcast] at he
        exact hne (at'_inj hflt hflt he).1.symm
      · simp only [hup k hkm] at h0 ⊢
        obtain ⟨h1, h2, h3⟩ := hJ t ht k hkt h0
        refine ⟨h1, ?_, fun v hv hp => h3 v hv (takeOut_iff.mp hp).1⟩
        rw [takeOut_iff]
        refine ⟨h2, fun u hu hmu k' hk' hne he => ?_⟩
        have hk0 : ((k * gap : Nat) : Int) + s.fixed k = at' gap k (s.fixed k).toNat := by
          unfold at'; rw [Int.toNat_of_nonneg h0]; push_cast; ring
        rw [hk0, fcast] at he
        obtain ⟨e1, e2⟩ := at'_inj (by omega) hflt he
        subst e1
        exact hconf ⟨u, hu, hmu, k, hk', hne, by omega⟩
    · right
      rcases hB with ⟨t, ht, k, hk, k', hk', hne, h0, he⟩ | ⟨t, ht, k, hk, h0, he⟩
      · left
        have h1 : k ≠ m := by rintro rfl; omega
        have h2 : k' ≠ m := by rintro rfl; omega
        refine ⟨t, ht, k, hk, k', hk', hne, ?_, ?_⟩
        · simp only [hup k h1]; exact h0
        · simp only [hup k h1, hup k' h2]; exact he
      · right
        have h1 : k ≠ m := by
          rintro rfl
          rw [allowed_nil] at he
          have := he f.toNat hflt
          rw [← fcast, hpm] at this; cases this
        refine ⟨t, ht, k, hk, by simp only [hup k h1]; exact h0, ?_⟩
        rw [allowed_nil] at he ⊢
        intro v hv
        apply eq_false_of
        intro hp
        have := (takeOut_iff.mp hp).1
        rw [he v hv] at this; cases this

theorem scanSet_J {gap : Nat} {sets : List (List Nat)} : ∀ (ks : List Nat) (s : St) (check : Nat → Nat),
    (FixedOk gap sets s ∨ Bad gap sets s) →
    FixedOk gap sets (scanSet gap sets ks s check).1 ∨ Bad gap sets (scanSet gap sets ks s check).1
  | [], s, _, h => h
  | m :: ks, s, check, h => by
    unfold scanSet
    split
    · split
      · exact scanSet_J ks s _ h
      · exact h
    · rename_i h0
      dsimp only
      cases hal : allowed gap s.poss m with
      | nil => exact h
      | cons f rest =>
        cases rest with
        | nil =>
          have hf : f ∈ allowed gap s.poss m := by rw [hal]; simp
          rw [mem_allowed] at hf
          refine scanSet_J ks _ _ (fix_J h (by omega) ⟨by omega, by exact_mod_cast hf.1⟩ (fun v hv hp => ?_) (Or.inl ?_) _)
          · have : v ∈ allowed gap s.poss m := mem_allowed.mpr ⟨hv, hp⟩
            rw [hal, List.mem_singleton] at this
            exact_mod_cast this
          · have := hf.2
            unfold at' at this
            rw [show ((m * gap : Nat) : Int) + (f : Int) = m * gap + f by push_cast; ring]
            exact this
        | cons g rest => exact scanSet_J ks s _ h

theorem filter_J {gap : Nat} {sets : List (List Nat)} {s : St} (hJ : FixedOk gap sets s ∨ Bad gap sets s) {t : List Nat} (ht : t ∈ sets)
    (hnd : t.Nodup) {p : Int → Bool} {removed : Bool} (h : filterSet gap t s.poss = some (p, removed)) :
    FixedOk gap sets { s with poss := p } ∨ Bad gap sets { s with poss := p } := by
  obtain ⟨bm, p', r', f1, f2, f3, f4, f5⟩ := filterSet_spec gap t s.poss
  rw [h] at f1
  simp only [Option.some.injEq, Prod.mk.injEq] at f1
  obtain ⟨rfl, rfl⟩ := f1
  by_cases hB : Bad gap sets s
  · right
    rcases hB with h1 | ⟨u, hu, k, hk, h0, he⟩
    · exact Or.inl h1
    · right
      refine ⟨u, hu, k, hk, h0, ?_⟩
      rw [allowed_nil] at he ⊢
      intro v hv
      apply eq_false_of
      intro hp
      have := ((f2 _).mp hp).1
      rw [he v hv] at this; cases this
  · have hJ := hJ.resolve_right hB
    unfold Bad at hB
    push Not at hB
    obtain ⟨hB1, hB2⟩ := hB
    have fcast : ∀ k, 0 ≤ s.fixed k → ((k * gap : Nat) : Int) + s.fixed k = at' gap k (s.fixed k).toNat := by
      intro k h0; unfold at'; rw [Int.toNat_of_nonneg h0]; push_cast; ring
    by_cases hkeep : ∀ u ∈ sets, ∀ k ∈ u, 0 ≤ s.fixed k → p ((k * gap : Nat) + s.fixed k) = true
    · left
      intro u hu k hk h0
      obtain ⟨h1, _, h3⟩ := hJ u hu k hk h0
      exact ⟨h1, hkeep u hu k hk h0, fun v hv hp => h3 v hv ((f2 _).mp hp).1⟩
    · right
      push Not at hkeep
      obtain ⟨u, hu, k, hk, h0, hp⟩ := hkeep
      obtain ⟨h1, h2, h3⟩ := hJ u hu k hk h0
      have hex : ∃ j < t.length, ∃ v < gap, ((k * gap : Nat) : Int) + s.fixed k = at' gap (t.getD j 0) v ∧ bm j v ≠ true := by
        by_contra hcon
        push Not at hcon
        exact hp ((f2 _).mpr ⟨h2, fun j hj v hv he => hcon j hj v hv he⟩)
      obtain ⟨j, hj, v, hv, he, hbm⟩ := hex
      rw [fcast k h0] at he
      obtain ⟨e1, e2⟩ := at'_inj (by omega) hv he
      have hnofull : ∀ a, ¬ Full gap (fun j v => s.poss (at' gap (t.getD j 0) v)) t.length a := by
        intro a hf
        have ha := h3 (a j) (hf.lt j hj) (by have := hf.al j hj; rwa [e1])
        apply hbm
        have : a j = v := by omega
        rw [← this]
        exact f4 a hf j hj
      have hrows : ∀ j < t.length, ∃ v < gap, s.poss (at' gap (t.getD j 0) v) = true := by
        intro i hi
        by_cases hfi : 0 ≤ s.fixed (t.getD i 0)
        · obtain ⟨g1, g2, _⟩ := hJ t ht _ (getD_mem' hi) hfi
          rw [fcast _ hfi] at g2
          exact ⟨_, by omega, g2⟩
        · have := hB2 t ht _ (getD_mem' hi) (by omega)
          rw [Ne, allowed_nil] at this
          push Not at this
          obtain ⟨v, hv, hp⟩ := this
          exact ⟨v, hv, by simpa using hp⟩
      have hbmf : ∀ i < t.length, ∀ v, bm i v = false := by
        intro i hi v
        apply eq_false_of
        intro hb
        obtain ⟨a, ha, _⟩ := f5 hrows i hi v hb
        exact hnofull a ha
      by_cases hall : ∀ m ∈ t, 0 ≤ s.fixed m
      · exfalso
        refine hnofull (fun i => (s.fixed (t.getD i 0)).toNat) ⟨fun i hi => ?_, fun i hi => ?_, fun i hi i' hi' he => ?_⟩
        · have := (hJ t ht _ (getD_mem' hi) (hall _ (getD_mem' hi))).1
          have := hall _ (getD_mem' hi)
          omega
        · have := (hJ t ht _ (getD_mem' hi) (hall _ (getD_mem' hi))).2.1
          rw [fcast _ (hall _ (getD_mem' hi))] at this
          exact this
        · by_contra hne
          have g1 := hall _ (getD_mem' hi)
          have g2 := hall _ (getD_mem' hi')
          refine hB1 t ht _ (getD_mem' hi) _ (getD_mem' hi') (fun h => hne (getD_inj' hnd hi hi' h)) g1 ?_
          omega
      · push Not at hall
        obtain ⟨m, hm, hm0⟩ := hall
        right
        refine ⟨t, ht, m, hm, hm0, ?_⟩
        rw [allowed_nil]
        intro w hw
        apply eq_false_of
        intro hpw
        obtain ⟨i, hi⟩ := List.getElem?_of_mem hm
        have hil : i < t.length := (List.getElem?_eq_some_iff.mp hi).1
        have hg : t.getD i 0 = m := by simp [hi]
        have := ((f2 _).mp hpw).2 i hil w hw (by rw [hg])
        rw [hbmf i hil w] at this; cases this

theorem scanSet_same {gap nDiff : Nat} {sets : List (List Nat)} : ∀ (ks : List Nat) (s : St) (check : Nat → Nat), (∀ k ∈ ks, k < nDiff) →
    (scanSet gap sets ks s check).1.nFixed = s.nFixed → (scanSet gap sets ks s check).1 = s ∧
      ((scanSet gap sets ks s check).2 = false →
        (∀ k ∈ ks, s.fixed k < 0 → allowed gap s.poss k ≠ []) ∧ (∀ k ∈ ks, 0 ≤ s.fixed k → check (s.fixed k).toNat = 0) ∧
        ks.Pairwise fun a b => ¬ (0 ≤ s.fixed a ∧ s.fixed b = s.fixed a))
  | [], s, _, _, _ => ⟨rfl, fun _ => ⟨by simp, by simp, by simp⟩⟩
  | m :: ks, s, check, hlt, h => by
    have hlt' := fun k h => hlt k (List.mem_cons_of_mem m h)
    unfold scanSet at h ⊢
    by_cases h0 : 0 ≤ s.fixed m
    · rw [if_pos h0] at h ⊢
      by_cases hc : check (s.fixed m).toNat = 0
      · rw [if_pos hc] at h ⊢
        obtain ⟨e1, e2⟩ := scanSet_same ks s _ hlt' h
        refine ⟨e1, fun hf => ?_⟩
        obtain ⟨g1, g2, g3⟩ := e2 hf
        have key : ∀ k ∈ ks, 0 ≤ s.fixed k → s.fixed k ≠ s.fixed m ∧ check (s.fixed k).toNat = 0 := by
          intro k hk hk0
          have := g2 k hk hk0
          unfold upd at this
          split at this
          · cases this
          · rename_i hne; exact ⟨fun he => hne (by rw [he]), this⟩
        refine ⟨fun k hk hk0 => ?_, fun k hk hk0 => ?_, ?_⟩
        · rcases List.mem_cons.mp hk with rfl | hk
          · omega
          · exact g1 k hk hk0
        · rcases List.mem_cons.mp hk with rfl | hk
          · exact hc
          · exact (key k hk hk0).2
        · rw [List.pairwise_cons]
          exact ⟨fun k hk hh => (key k hk (by omega)).1 hh.2, g3⟩
      · rw [if_neg hc] at h ⊢
        exact ⟨rfl, fun h => by cases h⟩
    · rw [if_neg h0] at h ⊢
      dsimp only at h ⊢
      cases hal : allowed gap s.poss m with
      | nil => exact ⟨rfl, fun h => by cases h⟩
      | cons f rest =>
        rw [hal] at h
        cases rest with
        | nil =>
          exfalso
          dsimp only at h
          have := (scanSet_down gap nDiff sets ks ⟨takeOut gap sets m f s.poss, upd s.fixed m f, s.nFixed + 1⟩
            (upd (fun v => if v ∈ [f] then check v + 1 else check v) f 1) hlt').mono
          dsimp only at this
          omega
        | cons g rest =>
          dsimp only at h ⊢
          obtain ⟨e1, e2⟩ := scanSet_same ks s _ hlt' h
          refine ⟨e1, fun hf => ?_⟩
          obtain ⟨g1, g2, g3⟩ := e2 hf
          refine ⟨fun k hk hk0 => ?_, fun k hk hk0 => ?_, ?_⟩
          · rcases List.mem_cons.mp hk with rfl | hk
            · rw [hal]; simp
            · exact g1 k hk hk0
          · rcases List.mem_cons.mp hk with rfl | hk
            · exact absurd hk0 h0
            · have := g2 k hk hk0
              split at this
              · omega
              · exact this
          · rw [List.pairwise_cons]
            exact ⟨fun k hk hh => h0 hh.1, g3⟩

/-- Every remaining value of a member is part of an assignment of different remaining values to the members. -/
def Supported (gap : Nat) (t : List Nat) (poss : Int → Bool) : Prop :=
  ∀ k ∈ t, ∀ v < gap, poss (at' gap k v) = true →
    ∃ a : Nat → Nat, (∀ m ∈ t, a m < gap ∧ poss (at' gap m (a m)) = true) ∧ (t.map a).Nodup ∧ a k = v

theorem supported_of_filter {gap : Nat} {t : List Nat} {poss : Int → Bool} (hnd : t.Nodup) {p : Int → Bool}
    (h : filterSet gap t poss = some (p, false)) (hrows : ∀ k ∈ t, allowed gap poss k ≠ []) : Supported gap t poss ∧ p = poss := by
  obtain ⟨bm, p', r', f1, f2, f3, f4, f5⟩ := filterSet_spec gap t poss
  rw [h] at f1
  simp only [Option.some.injEq, Prod.mk.injEq] at f1
  obtain ⟨rfl, rfl⟩ := f1
  have hb := f3.mp rfl
  constructor
  · intro k hk v hv hp
    obtain ⟨j, hj⟩ := List.getElem?_of_mem hk
    have hjl : j < t.length := (List.getElem?_eq_some_iff.mp hj).1
    have hg : t.getD j 0 = k := by simp [hj]
    obtain ⟨a, ha, hav⟩ := f5 (fun i hi => by
      have := hrows _ (getD_mem' hi)
      rw [Ne, allowed_nil] at this
      push Not at this
      obtain ⟨v, hv, hp⟩ := this
      exact ⟨v, hv, by simpa using hp⟩) j hjl v (hb j hjl v hv (by rw [hg]; exact hp))
    have hidx : ∀ i < t.length, t.idxOf (t.getD i 0) = i := by
      intro i hi
      have h1 : t.getD i 0 = t[i] := by simp [hi]
      rw [h1]
      exact List.Nodup.idxOf_getElem hnd i hi
    refine ⟨fun m => a (t.idxOf m), fun m hm => ?_, ?_, ?_⟩
    · obtain ⟨i, hi⟩ := List.getElem?_of_mem hm
      have hil : i < t.length := (List.getElem?_eq_some_iff.mp hi).1
      have hgi : t.getD i 0 = m := by simp [hi]
      rw [← hgi]
      beta_reduce
      rw [hidx i hil]
      exact ⟨ha.lt i hil, ha.al i hil⟩
    · rw [List.nodup_map_iff_inj_on hnd]
      intro x hx y hy he
      have h1 := List.idxOf_lt_length_of_mem hx
      have h2 := List.idxOf_lt_length_of_mem hy
      have := ha.inj _ h1 _ h2 he
      have e1 : t[t.idxOf x] = x := List.getElem_idxOf h1
      have e2 : t[t.idxOf y] = y := List.getElem_idxOf h2
      rw [← e1, ← e2]
      simp only [this]
    · rw [← hg]
      beta_reduce
      rw [hidx j hjl]; exact hav
  · funext q
    rw [Bool.eq_iff_iff, f2]
    exact ⟨fun h => h.1, fun h => ⟨h, fun j hj v hv he => hb j hj v hv (by rw [← he]; exact h)⟩⟩

theorem pass_inf {gap nDiff : Nat} {sets : List (List Nat)} : ∀ (ts : List (List Nat)) (s : St) (fin : Bool) (r : St × Bool × Bool),
    pass gap nDiff sets ts s true fin = .ok r → r.2.1 = true
  | [], s, fin, r, h => by
    simp only [pass, Except.ok.injEq] at h
    subst h; rfl
  | t :: ts, s, fin, r, h => by
    unfold pass at h
    dsimp only at h
    split at h
    · simp only [Except.ok.injEq] at h
      subst h; rfl
    · rw [if_neg (by simp)] at h
      exact pass_inf ts _ fin r h

theorem passes_inf {gap nDiff : Nat} {sets : List (List Nat)} : ∀ (fuel : Nat) (s : St) (r : St × Bool),
    passes gap nDiff sets fuel s true = .ok r → r.2 = true
  | 0, s, r, h => by simp [passes] at h
  | fuel + 1, s, r, h => by
    unfold passes at h
    cases hp : pass gap nDiff sets sets s true true with
    | error e => rw [hp] at h; cases h
    | ok q =>
      obtain ⟨s', inf', fin⟩ := q
      have := pass_inf _ _ _ _ hp
      dsimp only at this
      subst this
      rw [hp] at h
      dsimp only at h
      split at h
      · simp only [Except.ok.injEq] at h
        subst h; rfl
      · exact passes_inf fuel s' r h

/-- A round that finds nothing wrong keeps the invariant; if it also changed nothing, every set is as it should be. -/
theorem pass_exact {gap nDiff : Nat} {sets : List (List Nat)} (hgap : gap < 30) (hnd : ∀ t ∈ sets, t.Nodup) (hlt : ∀ t ∈ sets, ∀ k ∈ t, k < nDiff) :
    ∀ (ts : List (List Nat)) (s : St) (fin : Bool) (s' : St) (fin' : Bool), (∀ t ∈ ts, t ∈ sets) → (FixedOk gap sets s ∨ Bad gap sets s) →
      pass gap nDiff sets ts s false fin = .ok (s', false, fin') →
      (FixedOk gap sets s' ∨ Bad gap sets s') ∧ Down gap nDiff s s' ∧ (fin = false → fin' = false) ∧
      (fin' = true → s'.nFixed = s.nFixed → s' = s ∧ ∀ t ∈ ts,
        (∀ k ∈ t, s.fixed k < 0 → allowed gap s.poss k ≠ []) ∧ (t.Pairwise fun a b => ¬ (0 ≤ s.fixed a ∧ s.fixed b = s.fixed a)) ∧
        ((∀ k ∈ t, allowed gap s.poss k ≠ []) → Supported gap t s.poss))
  | [], s, fin, s', fin', _, hJ, h => by
    simp only [pass, Except.ok.injEq, Prod.mk.injEq] at h
    obtain ⟨rfl, _, rfl⟩ := h
    exact ⟨hJ, Down.refl .., fun h => h, fun _ _ => ⟨rfl, by simp⟩⟩
  | t :: ts, s, fin, s', fin', hsub, hJ, h => by
    have ht := hsub t (List.mem_cons_self ..)
    have hsub' := fun u hu => hsub u (List.mem_cons_of_mem t hu)
    have hd := scanSet_down gap nDiff sets t s (fun _ => 0) (hlt t ht)
    have hJ1 := scanSet_J t s (fun _ => 0) hJ
    have hsame := scanSet_same (gap := gap) (nDiff := nDiff) (sets := sets) t s (fun _ => 0) (hlt t ht)
    unfold pass at h
    dsimp only at h
    generalize scanSet gap sets t s (fun _ => 0) = r at hd hJ1 hsame h
    obtain ⟨r1, r2⟩ := r
    dsimp only at hd hJ1 hsame h
    cases r2 with
    | true => simp at h
    | false =>
      rw [if_neg (by simp), if_pos ⟨hgap, rfl⟩] at h
      split at h
      · cases h
      · obtain ⟨bm, p, removed, f1, f2, f3, _⟩ := filterSet_spec gap t r1.poss
        rw [f1] at h
        dsimp only at h
        have hJ2 := filter_J hJ1 ht (hnd t ht) f1
        have hd2 : Down gap nDiff r1 { r1 with poss := p } := ⟨fun q h => ((f2 q).mp h).1, fun _ _ => rfl, le_refl _, le_refl _⟩
        obtain ⟨e1, e2, e3, e4⟩ := pass_exact hgap hnd hlt ts _ _ s' fin' hsub' hJ2 h
        refine ⟨e1, (hd.trans hd2).trans e2, fun hfin => e3 (by simp [hfin]), fun hfin' hnf => ?_⟩
        have m1 := hd.mono
        have m2 := e2.mono
        simp only at m2
        obtain ⟨g1, g2⟩ := hsame (by omega)
        obtain ⟨k1, k2, k3⟩ := g2 rfl
        have hrem : removed = false := by
          cases hr : removed with
          | false => rfl
          | true => have := e3 (by simp [hr]); rw [hfin'] at this; cases this
        subst hrem
        obtain ⟨c1, c2⟩ := e4 hfin' (by simp only; omega)
        subst g1
        have hp : p = r1.poss := by
          funext q
          rw [Bool.eq_iff_iff, f2]
          refine ⟨fun h => h.1, fun h => ⟨h, fun j hj v hv he => f3.mp rfl j hj v hv (by rw [← he]; exact h)⟩⟩
        subst hp
        refine ⟨c1, fun u hu => ?_⟩
        rcases List.mem_cons.mp hu with rfl | hu
        · exact ⟨k1, k3, fun hrows => (supported_of_filter (hnd u ht) f1 hrows).1⟩
        · exact c2 u hu

theorem pairwise_not_bad {sets : List (List Nat)} {f : Nat → Int} (h : ∀ t ∈ sets, t.Pairwise fun a b => ¬ (0 ≤ f a ∧ f b = f a)) :
    ¬ ∃ t ∈ sets, ∃ k ∈ t, ∃ m ∈ t, k ≠ m ∧ 0 ≤ f k ∧ f m = f k := by
  rintro ⟨t, ht, k, hk, m, hm, hne, h0, he⟩
  have key : ∀ l : List Nat, (l.Pairwise fun a b => ¬ (0 ≤ f a ∧ f b = f a)) → k ∈ l → m ∈ l → False := by
    intro l
    induction l with
    | nil => intro _ h; simp at h
    | cons x xs ih =>
      intro hp hk hm
      rw [List.pairwise_cons] at hp
      rcases List.mem_cons.mp hk with rfl | hk1 <;> rcases List.mem_cons.mp hm with rfl | hm1
      · exact hne rfl
      · exact hp.1 m hm1 ⟨h0, he⟩
      · exact hp.1 k hk1 ⟨by omega, he.symm⟩
      · exact ih hp.2 hk1 hm1
  exact key t (h t ht) hk hm

theorem passes_exact {gap nDiff : Nat} {sets : List (List Nat)} (hgap : gap < 30) (hnd : ∀ t ∈ sets, t.Nodup) (hlt : ∀ t ∈ sets, ∀ k ∈ t, k < nDiff) :
    ∀ (fuel : Nat) (s s' : St), (FixedOk gap sets s ∨ Bad gap sets s) → passes gap nDiff sets fuel s false = .ok (s', false) →
      (∀ q, s'.poss q = true → s.poss q = true) ∧ ∀ t ∈ sets, (∀ k ∈ t, allowed gap s'.poss k ≠ []) ∧ Supported gap t s'.poss
  | 0, s, s', _, h => by simp [passes] at h
  | fuel + 1, s, s', hJ, h => by
    unfold passes at h
    cases hp : pass gap nDiff sets sets s false true with
    | error e => rw [hp] at h; cases h
    | ok q =>
      obtain ⟨s1, inf1, fin1⟩ := q
      rw [hp] at h
      dsimp only at h
      cases inf1 with
      | true =>
        exfalso
        split at h
        · simp at h
        · have := passes_inf _ _ _ h; cases this
      | false =>
        obtain ⟨e1, e2, e3, e4⟩ := pass_exact hgap hnd hlt sets s true s1 fin1 (fun t h => h) hJ hp
        split at h
        · rename_i hc
          simp only [Except.ok.injEq, Prod.mk.injEq, and_true] at h
          subst h
          simp only [Bool.and_eq_true, Bool.not_eq_true', decide_eq_false_iff_not, not_lt] at hc
          have m := e2.mono
          obtain ⟨c1, c2⟩ := e4 hc.1 (by omega)
          subst c1
          refine ⟨fun q h => h, ?_⟩
          have hnb : ¬ Bad gap sets s1 := by
            rintro (hb | ⟨t, ht, k, hk, h0, he⟩)
            · exact pairwise_not_bad (fun t ht => (c2 t ht).2.1) hb
            · exact (c2 t ht).1 k hk h0 he
          have hfx := e1.resolve_right hnb
          have hrows : ∀ t ∈ sets, ∀ k ∈ t, allowed gap s1.poss k ≠ [] := by
            intro t ht k hk
            by_cases h0 : 0 ≤ s1.fixed k
            · obtain ⟨g1, g2, _⟩ := hfx t ht k hk h0
              rw [Ne, allowed_nil]
              intro hall
              have := hall (s1.fixed k).toNat (by omega)
              have hc : ((k * gap : Nat) : Int) + s1.fixed k = at' gap k (s1.fixed k).toNat := by
                unfold at'; rw [Int.toNat_of_nonneg h0]; push_cast; ring
              rw [← hc, g2] at this; cases this
            · exact (c2 t ht).1 k hk (by omega)
          exact fun t ht => ⟨hrows t ht, (c2 t ht).2.2 (hrows t ht)⟩
        · obtain ⟨d1, d2⟩ := passes_exact hgap hnd hlt fuel s1 s' e1 h
          exact ⟨fun q hq => e2.poss q (d1 q hq), d2⟩

/-! #### The starting state -/

theorem initPoss_iff {gap nDiff : Nat} {lo up : Nat → Int} {offset : Int} (hr : ∀ i < nDiff, offset ≤ lo i ∧ up i - offset < gap) {k v : Nat}
    (hk : k < nDiff) (hv : v < gap) : initPoss gap nDiff lo up offset (at' gap k v) = true ↔ lo k ≤ v + offset ∧ (v : Int) + offset ≤ up k := by
  unfold initPoss
  rw [List.any_eq_true]
  constructor
  · rintro ⟨i, hi, h⟩
    rw [List.mem_range] at hi
    rw [decide_eq_true_eq] at h
    obtain ⟨r1, r2⟩ := hr i hi
    have h1 : 0 ≤ at' gap k v - (i * gap : Nat) := by omega
    have hat : at' gap k v = at' gap i (at' gap k v - (i * gap : Nat)).toNat := by
      generalize at' gap k v = w at h1 ⊢
      unfold at'
      rw [Int.toNat_of_nonneg h1]
      push_cast
      ring
    have hlt : (at' gap k v - (i * gap : Nat)).toNat < gap := by omega
    obtain ⟨e1, e2⟩ := at'_inj hv hlt hat
    subst e1
    unfold at' at h
    push_cast at h
    omega
  · intro h
    refine ⟨k, List.mem_range.mpr hk, ?_⟩
    rw [decide_eq_true_eq]
    unfold at'
    push_cast
    omega

/-- A bit inside the bounds is only missing because some variable of a common set is fixed there. -/
def Missing (gap nDiff : Nat) (sets : List (List Nat)) (lo up : Nat → Int) (offset : Int) (s : St) : Prop :=
  ∀ i < nDiff, ∀ v < gap, lo i ≤ (v : Int) + offset → (v : Int) + offset ≤ up i →
    s.poss (at' gap i v) = true ∨ ∃ t ∈ sets, i ∈ t ∧ ∃ k ∈ t, k ≠ i ∧ s.fixed k = v

theorem initFix_J {gap nDiff : Nat} {sets : List (List Nat)} {lo up : Nat → Int} {offset : Int}
    (hr : ∀ i < nDiff, offset ≤ lo i ∧ up i - offset < gap) :
    ∀ (is : List Nat) (s : St), (∀ i ∈ is, i < nDiff) → is.Nodup → (∀ i ∈ is, s.fixed i = -1) → (∀ k v, k < nDiff → v < gap →
        s.poss (at' gap k v) = true → lo k ≤ (v : Int) + offset ∧ (v : Int) + offset ≤ up k) →
      Missing gap nDiff sets lo up offset s → (FixedOk gap sets s ∨ Bad gap sets s) →
      (FixedOk gap sets (initFix gap sets lo up offset is s) ∨ Bad gap sets (initFix gap sets lo up offset is s)) ∧
      ∀ q, (initFix gap sets lo up offset is s).poss q = true → s.poss q = true
  | [], s, _, _, _, _, _, hJ => ⟨hJ, fun q h => h⟩
  | i :: is, s, hlt, hnd, hun, hin, hmis, hJ => by
    rw [List.nodup_cons] at hnd
    have hi := hlt i (List.mem_cons_self ..)
    have hlt' := fun k h => hlt k (List.mem_cons_of_mem i h)
    unfold initFix
    by_cases h1 : up i - lo i + 1 = 1
    · rw [if_pos h1]
      obtain ⟨r1, r2⟩ := hr i hi
      have hfc : ((i * gap : Nat) : Int) + (lo i - offset) = at' gap i (lo i - offset).toNat := by
        unfold at'; rw [Int.toNat_of_nonneg (by omega)]; push_cast; ring
      have hJ' := fix_J hJ (m := i) (f := lo i - offset) (by rw [hun i (List.mem_cons_self ..)]; omega) ⟨by omega, by omega⟩
        (fun v hv hp => by have := hin i v hi hv hp; omega)
        (by
          rcases hmis i hi (lo i - offset).toNat (by omega) (by omega) (by omega) with h | ⟨t, ht, hit, k, hk, hne, he⟩
          · left; rw [hfc]; exact h
          · right; exact ⟨t, ht, hit, k, hk, hne, by omega⟩) (s.nFixed + 1)
      obtain ⟨g1, g2⟩ := initFix_J hr is ⟨takeOut gap sets i (lo i - offset) s.poss, upd s.fixed i (lo i - offset), s.nFixed + 1⟩ hlt' hnd.2
        (fun k hk => by
          simp only [upd]
          rw [if_neg (by rintro rfl; exact hnd.1 hk)]
          exact hun k (List.mem_cons_of_mem _ hk))
        (fun k v hk hv hp => hin k v hk hv (takeOut_iff.mp hp).1)
        (fun k hk v hv hl hu => by
          simp only [upd]
          rcases hmis k hk v hv hl hu with h | ⟨t, ht, hit, m, hm, hne, he⟩
          · by_cases hto : takeOut gap sets i (lo i - offset) s.poss (at' gap k v) = true
            · exact Or.inl hto
            · right
              rw [takeOut_iff] at hto
              push Not at hto
              obtain ⟨t, ht, hit, m, hm, hne, he⟩ := hto h
              have hmc : ((m * gap : Nat) : Int) + (lo i - offset) = at' gap m (lo i - offset).toNat := by
                unfold at'; rw [Int.toNat_of_nonneg (by omega)]; push_cast; ring
              rw [hmc] at he
              obtain ⟨e1, e2⟩ := at'_inj hv (by omega) he
              subst e1
              exact ⟨t, ht, hm, i, hit, fun h => hne h.symm, by rw [if_pos rfl]; omega⟩
          · right
            refine ⟨t, ht, hit, m, hm, hne, ?_⟩
            rw [if_neg]
            · exact he
            · rintro rfl
              rw [hun m (List.mem_cons_self ..)] at he
              omega) hJ'
      exact ⟨g1, fun q hq => (takeOut_iff.mp (g2 q hq)).1⟩
    · rw [if_neg h1]
      exact initFix_J hr is s hlt' hnd.2 (fun k hk => hun k (List.mem_cons_of_mem _ hk)) hin hmis hJ

theorem start_J {gap nDiff : Nat} {sets : List (List Nat)} {lo up : Nat → Int} {offset : Int}
    (hr : ∀ i < nDiff, offset ≤ lo i ∧ up i - offset < gap) :
    (FixedOk gap sets (start gap nDiff sets lo up offset) ∨ Bad gap sets (start gap nDiff sets lo up offset)) ∧
      ∀ k v, k < nDiff → v < gap → (start gap nDiff sets lo up offset).poss (at' gap k v) = true →
        lo k ≤ (v : Int) + offset ∧ (v : Int) + offset ≤ up k := by
  obtain ⟨h1, h2⟩ := initFix_J (sets := sets) hr (List.range nDiff) ⟨initPoss gap nDiff lo up offset, fun _ => -1, 0⟩
    (fun i hi => List.mem_range.mp hi) List.nodup_range (fun _ _ => rfl) (fun k v hk hv hp => (initPoss_iff hr hk hv).mp hp)
    (fun i hi v hv hl hu => Or.inl ((initPoss_iff hr hi hv).mpr ⟨hl, hu⟩)) (Or.inl (fun t _ k _ h0 => by simp at h0))
  exact ⟨h1, fun k v hk hv hp => (initPoss_iff hr hk hv).mp (h2 _ hp)⟩

end Cgl.AllDiff
