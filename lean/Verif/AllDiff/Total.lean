import Verif.AllDiff.Lemmas

/-! ### Termination of the rounds -/

namespace Cgl.AllDiff

/-- Number of ones in `possible`. -/
def ones (gap nDiff : Nat) (p : Int → Bool) : Nat := ((List.range (gap * nDiff)).filter fun (i : Nat) => p i).length

/-- Number of variables that are not fixed. -/
def unfixed (nDiff : Nat) (f : Nat → Int) : Nat := ((List.range nDiff).filter fun k => decide (f k < 0)).length

theorem filter_length_le {l : List Nat} {p q : Nat → Bool} (h : ∀ i ∈ l, p i = true → q i = true) : (l.filter p).length ≤ (l.filter q).length := by
  induction l with
  | nil => simp
  | cons a l ih =>
    have ih' := ih fun i hi => h i (List.mem_cons_of_mem _ hi)
    have ha := h a (List.mem_cons_self ..)
    rw [List.filter_cons, List.filter_cons]
    split
    · rename_i hp
      rw [if_pos (ha hp)]
      simp only [List.length_cons]; omega
    · split
      · simp only [List.length_cons]; omega
      · exact ih'

theorem filter_length_lt {l : List Nat} {p q : Nat → Bool} (h : ∀ i ∈ l, p i = true → q i = true) {a : Nat} (ha : a ∈ l) (hp : p a = false)
    (hq : q a = true) : (l.filter p).length < (l.filter q).length := by
  induction l with
  | nil => cases ha
  | cons b l ih =>
    have hl := filter_length_le fun i hi => h i (List.mem_cons_of_mem b hi)
    rw [List.filter_cons, List.filter_cons]
    rcases List.mem_cons.mp ha with rfl | ha'
    · rw [if_pos hq, if_neg (by simp [hp])]
      simp only [List.length_cons]; omega
    · have ih' := ih (fun i hi => h i (List.mem_cons_of_mem _ hi)) ha'
      have hb := h b (List.mem_cons_self ..)
      split
      · rename_i hpb
        rw [if_pos (hb hpb)]
        simp only [List.length_cons]; omega
      · split
        · simp only [List.length_cons]; omega
        · exact ih'

theorem ones_le {gap nDiff : Nat} {p q : Int → Bool} (h : ∀ i, p i = true → q i = true) : ones gap nDiff p ≤ ones gap nDiff q :=
  filter_length_le fun i _ => h i

theorem unfixed_upd {nDiff : Nat} {f : Nat → Int} {k : Nat} (hk : k < nDiff) (h : f k < 0) {v : Int} (hv : 0 ≤ v) :
    unfixed nDiff (upd f k v) < unfixed nDiff f := by
  refine filter_length_lt (fun i _ hi => ?_) (List.mem_range.mpr hk) ?_ (by simpa using h)
  · rw [decide_eq_true_eq] at hi ⊢
    unfold upd at hi
    split at hi
    · omega
    · exact hi
  · simp only [upd, if_true, decide_eq_false_iff_not]; omega

/-- Nothing grows back. -/
structure Down (gap nDiff : Nat) (s s' : St) : Prop where
  poss : ∀ q, s'.poss q = true → s.poss q = true
  fixed : ∀ k, 0 ≤ s.fixed k → s'.fixed k = s.fixed k
  mono : s.nFixed ≤ s'.nFixed
  count : unfixed nDiff s'.fixed + s'.nFixed ≤ unfixed nDiff s.fixed + s.nFixed

theorem Down.refl (gap nDiff : Nat) (s : St) : Down gap nDiff s s := ⟨fun _ h => h, fun _ _ => rfl, le_refl _, le_refl _⟩

theorem Down.trans {gap nDiff : Nat} {a b c : St} (h1 : Down gap nDiff a b) (h2 : Down gap nDiff b c) : Down gap nDiff a c :=
  ⟨fun q h => h1.poss q (h2.poss q h), fun k h => by rw [h2.fixed k (by rw [h1.fixed k h]; exact h), h1.fixed k h],
    le_trans h1.mono h2.mono, le_trans h2.count h1.count⟩

theorem scanSet_down (gap nDiff : Nat) (sets : List (List Nat)) : ∀ (ks : List Nat) (s : St) (check : Nat → Nat), (∀ k ∈ ks, k < nDiff) →
    Down gap nDiff s (scanSet gap sets ks s check).1
  | [], s, _, _ => Down.refl ..
  | m :: ks, s, check, hlt => by
    have hlt' := fun k h => hlt k (List.mem_cons_of_mem m h)
    unfold scanSet
    split
    · split
      · exact scanSet_down gap nDiff sets ks s _ hlt'
      · exact Down.refl ..
    · rename_i h0
      dsimp only
      generalize allowed gap s.poss m = al
      match al with
      | [] => exact Down.refl ..
      | [f] =>
        refine Down.trans ?_ (scanSet_down gap nDiff sets ks _ _ hlt')
        refine ⟨fun q h => (takeOut_iff.mp h).1, fun k hk => ?_, by simp, ?_⟩
        · simp only [upd]
          rw [if_neg]
          rintro rfl
          exact h0 hk
        · have := unfixed_upd (hlt m (List.mem_cons_self ..)) (by omega : s.fixed m < 0) (v := f) (by omega)
          simp only
          omega
      | f :: g :: rest => exact scanSet_down gap nDiff sets ks s _ hlt'

theorem at'_mem {gap nDiff k v : Nat} (hk : k < nDiff) (hv : v < gap) : (at' gap k v).toNat < gap * nDiff ∧ ((at' gap k v).toNat : Int) = at' gap k v := by
  have h : at' gap k v = ((k * gap + v : Nat) : Int) := by unfold at'; push_cast; ring
  rw [h, Int.toNat_natCast]
  refine ⟨?_, rfl⟩
  calc k * gap + v < k * gap + gap := by omega
    _ = gap * (k + 1) := by ring
    _ ≤ gap * nDiff := Nat.mul_le_mul_left _ hk

theorem pass_down (gap nDiff : Nat) (sets : List (List Nat)) : ∀ (ts : List (List Nat)) (s : St) (inf fin : Bool),
    (∀ t ∈ ts, t.length ≤ nDiff ∧ ∀ k ∈ t, k < nDiff) →
    ∃ s' inf' fin', pass gap nDiff sets ts s inf fin = .ok (s', inf', fin') ∧ Down gap nDiff s s' ∧
      (fin = true → fin' = false → ones gap nDiff s'.poss < ones gap nDiff s.poss) ∧ (fin = false → fin' = false)
  | [], s, inf, fin, _ => ⟨s, inf, fin, rfl, Down.refl .., fun h1 h2 => (by rw [h1] at h2; cases h2), fun h => h⟩
  | t :: ts, s, inf, fin, hlt => by
    have hlt' := fun u hu => hlt u (List.mem_cons_of_mem t hu)
    obtain ⟨ht1, ht2⟩ := hlt t (List.mem_cons_self ..)
    have hd := scanSet_down gap nDiff sets t s (fun _ => 0) ht2
    unfold pass
    dsimp only
    generalize scanSet gap sets t s (fun _ => 0) = r at hd
    split
    · exact ⟨r.1, true, fin, rfl, hd, fun h1 h2 => (by rw [h1] at h2; cases h2), fun h => h⟩
    · split
      · rw [if_neg (by omega)]
        obtain ⟨bm, p, removed, f1, f2, f3, _⟩ := filterSet_spec gap t r.1.poss
        rw [f1]
        dsimp only
        obtain ⟨s', inf', fin', e1, e2, e3, e4⟩ := pass_down gap nDiff sets ts { r.1 with poss := p } inf (fin && !removed) hlt'
        have hd2 : Down gap nDiff r.1 { r.1 with poss := p } := ⟨fun q h => ((f2 q).mp h).1, fun _ _ => rfl, le_refl _, le_refl _⟩
        refine ⟨s', inf', fin', e1, (hd.trans hd2).trans e2, fun h1 h2 => ?_, fun h => e4 (by simp [h])⟩
        have hle := ones_le (gap := gap) (nDiff := nDiff) hd.poss
        have hle' := ones_le (gap := gap) (nDiff := nDiff) e2.poss
        cases hr : removed with
        | false =>
          have := e3 (by simp [h1, hr]) h2
          have h3 := ones_le (gap := gap) (nDiff := nDiff) hd2.poss
          simp only at this h3 ⊢
          omega
        | true =>
          have hnot : ¬ ∀ j < t.length, ∀ v < gap, r.1.poss (at' gap (t.getD j 0) v) = true → bm j v = true := by
            intro h; rw [f3.mpr h] at hr; cases hr
          push Not at hnot
          obtain ⟨j, hj, v, hv, hp, hb⟩ := hnot
          have hm := at'_mem (ht2 _ (getD_mem' hj)) hv
          have hlt2 : ones gap nDiff p < ones gap nDiff r.1.poss := by
            refine filter_length_lt (fun i _ h => ((f2 _).mp h).1) (List.mem_range.mpr hm.1) ?_ ?_
            · rw [hm.2]
              apply eq_false_of
              rw [f2]
              rintro ⟨_, h⟩
              exact hb (h j hj v hv rfl)
            · rw [hm.2]; exact hp
          simp only at hle'
          omega
      · obtain ⟨s', inf', fin', e1, e2, e3, e4⟩ := pass_down gap nDiff sets ts r.1 inf fin hlt'
        refine ⟨s', inf', fin', e1, hd.trans e2, fun h1 h2 => ?_, e4⟩
        have := e3 h1 h2
        have hle := ones_le (gap := gap) (nDiff := nDiff) hd.poss
        omega

theorem passes_total (gap nDiff : Nat) (sets : List (List Nat)) (hlt : ∀ t ∈ sets, t.length ≤ nDiff ∧ ∀ k ∈ t, k < nDiff) :
    ∀ (fuel : Nat) (s : St) (inf : Bool), ones gap nDiff s.poss + unfixed nDiff s.fixed < fuel →
      ∃ r, passes gap nDiff sets fuel s inf = .ok r
  | 0, s, inf, h => by omega
  | fuel + 1, s, inf, h => by
    obtain ⟨s', inf', fin', e1, e2, e3, _⟩ := pass_down gap nDiff sets sets s inf true hlt
    unfold passes
    rw [e1]
    dsimp only
    split
    · exact ⟨_, rfl⟩
    · rename_i hc
      refine passes_total gap nDiff sets hlt fuel s' inf' ?_
      have hle := ones_le (gap := gap) (nDiff := nDiff) e2.poss
      have hcnt := e2.count
      have hm := e2.mono
      cases hfin : fin' with
      | false => have := e3 rfl hfin; omega
      | true =>
        rw [hfin] at hc
        simp only [Bool.true_and, Bool.not_eq_true', decide_eq_false_iff_not, not_not] at hc
        omega

theorem ones_bound (gap nDiff : Nat) (p : Int → Bool) : ones gap nDiff p ≤ gap * nDiff := by
  unfold ones
  exact le_trans (List.length_filter_le _ _) (by simp)

theorem unfixed_bound (nDiff : Nat) (f : Nat → Int) : unfixed nDiff f ≤ nDiff := by
  unfold unfixed
  exact le_trans (List.length_filter_le _ _) (by simp)

end Cgl.AllDiff
