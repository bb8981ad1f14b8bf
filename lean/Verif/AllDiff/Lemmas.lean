import Verif.AllDiff.Search

namespace Cgl.AllDiff

theorem at'_inj {gap k v k' v' : Nat} (hv : v < gap) (hv' : v' < gap) (h : at' gap k v = at' gap k' v') : k = k' ∧ v = v' := by
  unfold at' at h
  have h' : k * gap + v = k' * gap + v' := by exact_mod_cast h
  have hk : k = k' := by
    have h1 : (k * gap + v) / gap = k := by
      rw [Nat.mul_comm, Nat.mul_add_div (by omega), Nat.div_eq_of_lt hv]; omega
    have h2 : (k' * gap + v') / gap = k' := by
      rw [Nat.mul_comm, Nat.mul_add_div (by omega), Nat.div_eq_of_lt hv']; omega
    rw [← h1, h', h2]
  subst hk
  exact ⟨rfl, by omega⟩

theorem foldl_upd (g : Nat → Int) (i : Nat) (l : List Nat) (p : Int → Bool) (q : Int) :
    (l.foldl (fun p k => if k ≠ i then upd p (g k) false else p) p) q = true ↔ p q = true ∧ ∀ k ∈ l, k ≠ i → q ≠ g k := by
  induction l generalizing p with
  | nil => simp
  | cons k l ih =>
    rw [List.foldl_cons, ih]
    constructor
    · rintro ⟨h1, h2⟩
      by_cases hk : k ≠ i
      · rw [if_pos hk] at h1
        unfold upd at h1
        by_cases hq : q = g k
        · rw [if_pos hq] at h1; cases h1
        · rw [if_neg hq] at h1
          refine ⟨h1, fun m hm hne => ?_⟩
          rcases List.mem_cons.mp hm with rfl | hm
          · exact hq
          · exact h2 m hm hne
      · rw [if_neg hk] at h1
        refine ⟨h1, fun m hm hne => ?_⟩
        rcases List.mem_cons.mp hm with rfl | hm
        · exact absurd hne hk
        · exact h2 m hm hne
    · rintro ⟨h1, h2⟩
      refine ⟨?_, fun m hm => h2 m (List.mem_cons_of_mem _ hm)⟩
      split
      · rename_i hk
        unfold upd
        rw [if_neg (h2 k (List.mem_cons_self ..) hk)]; exact h1
      · exact h1

theorem takeOut_iff {gap : Nat} {sets : List (List Nat)} {i : Nat} {f : Int} {p : Int → Bool} {q : Int} :
    takeOut gap sets i f p q = true ↔
      p q = true ∧ ∀ s ∈ sets, i ∈ s → ∀ k ∈ s, k ≠ i → q ≠ (k * gap : Nat) + f := by
  unfold takeOut
  have key : ∀ (l : List (List Nat)) (p : Int → Bool),
      (l.foldl (fun p s => s.foldl (fun p k => if k ≠ i then upd p ((k * gap : Nat) + f) false else p) p) p) q = true ↔
        p q = true ∧ ∀ s ∈ l, ∀ k ∈ s, k ≠ i → q ≠ (k * gap : Nat) + f := by
    intro l
    induction l with
    | nil => simp
    | cons s l ih =>
      intro p
      rw [List.foldl_cons, ih, foldl_upd (fun k => ((k * gap : Nat) : Int) + f) i s p q]
      constructor
      · rintro ⟨⟨h1, h2⟩, h3⟩
        refine ⟨h1, fun t ht => ?_⟩
        rcases List.mem_cons.mp ht with rfl | ht
        · exact h2
        · exact h3 t ht
      · rintro ⟨h1, h2⟩
        exact ⟨⟨h1, h2 s (List.mem_cons_self ..)⟩, fun t ht => h2 t (List.mem_cons_of_mem _ ht)⟩
  rw [key]
  constructor
  · rintro ⟨h1, h2⟩
    refine ⟨h1, fun s hs hi => h2 s (List.mem_filter.mpr ⟨hs, by simpa using hi⟩)⟩
  · rintro ⟨h1, h2⟩
    refine ⟨h1, fun s hs => ?_⟩
    rw [List.mem_filter] at hs
    exact h2 s hs.1 (by simpa using hs.2)

theorem mem_allowed {gap : Nat} {poss : Int → Bool} {k v : Nat} : v ∈ allowed gap poss k ↔ v < gap ∧ poss (at' gap k v) = true := by
  unfold allowed; rw [List.mem_filter, List.mem_range]

/-! ### Soundness with respect to one solution -/

/-- `val` is a solution: values below `gap`, different inside each set. -/
structure Sol (gap : Nat) (sets : List (List Nat)) (val : Nat → Nat) : Prop where
  lt : ∀ s ∈ sets, ∀ k ∈ s, val k < gap
  diff : ∀ s ∈ sets, (s.map val).Nodup

/-- The state is consistent with the solution. -/
structure Keeps (gap : Nat) (sets : List (List Nat)) (val : Nat → Nat) (s : St) : Prop where
  poss : ∀ t ∈ sets, ∀ k ∈ t, s.poss (at' gap k (val k)) = true
  fix : ∀ t ∈ sets, ∀ k ∈ t, 0 ≤ s.fixed k → s.fixed k = val k
  zero : ∀ t ∈ sets, ∀ k ∈ t, 0 ≤ s.fixed k → ∀ m ∈ t, m ≠ k → s.poss ((m * gap : Nat) + s.fixed k) = false

theorem Sol.inj {gap : Nat} {sets : List (List Nat)} {val : Nat → Nat} (h : Sol gap sets val) {t : List Nat} (ht : t ∈ sets)
    {a b : Nat} (ha : a ∈ t) (hb : b ∈ t) (he : val a = val b) : a = b :=
  List.inj_on_of_nodup_map (h.diff t ht) ha hb he

theorem eq_false_of {b : Bool} (h : ¬ b = true) : b = false := by simpa using h

/-- Fixing a variable at its value. -/
theorem Keeps.fixVar {gap : Nat} {sets : List (List Nat)} {val : Nat → Nat} {s : St} (hsol : Sol gap sets val) (hk : Keeps gap sets val s) {i : Nat}
    {f : Int} (hf : ∀ t ∈ sets, i ∈ t → f = val i) (c : Nat) :
    Keeps gap sets val ⟨takeOut gap sets i f s.poss, upd s.fixed i f, c⟩ := by
  refine ⟨fun t ht k hkt => ?_, fun t ht k hkt h0 => ?_, fun t ht k hkt h0 m hm hne => ?_⟩
  · show takeOut gap sets i f s.poss _ = true
    rw [takeOut_iff]
    refine ⟨hk.poss t ht k hkt, fun u hu hi m hm hne he => ?_⟩
    rw [hf u hu hi] at he
    have := at'_inj (hsol.lt t ht k hkt) (hsol.lt u hu i hi) (k' := m) (by rw [he]; unfold at'; push_cast; ring)
    obtain ⟨e1, e2⟩ := this
    subst e1
    exact hne (hsol.inj hu hm hi e2)
  · simp only [upd] at h0 ⊢
    split
    · rename_i e; subst e; exact hf t ht hkt
    · rename_i e; rw [if_neg e] at h0; exact hk.fix t ht k hkt h0
  · simp only [upd] at h0 ⊢
    apply eq_false_of
    rw [takeOut_iff]
    rintro ⟨h1, h2⟩
    by_cases e : k = i
    · subst e
      rw [if_pos rfl] at h2
      exact h2 t ht hkt m hm hne rfl
    · rw [if_neg e] at h0 h1
      rw [hk.zero t ht k hkt h0 m hm hne] at h1; cases h1

theorem scanSet_keeps {gap : Nat} {sets : List (List Nat)} {val : Nat → Nat} (hsol : Sol gap sets val) {t : List Nat} (ht : t ∈ sets) :
    ∀ (ks : List Nat) (s : St) (check : Nat → Nat), Keeps gap sets val s → (∀ k ∈ ks, k ∈ t) → ks.Nodup →
      (∀ k ∈ ks, 0 ≤ s.fixed k → check (s.fixed k).toNat = 0) →
      Keeps gap sets val (scanSet gap sets ks s check).1 ∧ (scanSet gap sets ks s check).2 = false
  | [], s, check, hk, _, _, _ => ⟨hk, rfl⟩
  | m :: ks, s, check, hk, hsub, hnd, hch => by
    have hmt := hsub m (List.mem_cons_self ..)
    have hsub' := fun k h => hsub k (List.mem_cons_of_mem m h)
    rw [List.nodup_cons] at hnd
    unfold scanSet
    split
    · rename_i h0
      rw [if_pos (hch m (List.mem_cons_self ..) h0)]
      refine scanSet_keeps hsol ht ks s _ hk hsub' hnd.2 fun k hks h0' => ?_
      unfold upd
      rw [if_neg]
      · exact hch k (List.mem_cons_of_mem _ hks) h0'
      · rw [hk.fix t ht m hmt h0, hk.fix t ht k (hsub' k hks) h0']
        intro he
        simp only [Int.toNat_natCast] at he
        have := hsol.inj ht (hsub' k hks) hmt he
        subst this
        exact hnd.1 hks
    · rename_i h0
      have hval : val m ∈ allowed gap s.poss m := mem_allowed.mpr ⟨hsol.lt t ht m hmt, hk.poss t ht m hmt⟩
      have hnot : ∀ k ∈ ks, 0 ≤ s.fixed k → (s.fixed k).toNat ∉ allowed gap s.poss m := by
        intro k hks h0' hin
        rw [mem_allowed] at hin
        have hz := hk.zero t ht k (hsub' k hks) h0' m hmt (by rintro rfl; exact hnd.1 hks)
        have : at' gap m (s.fixed k).toNat = ((m * gap : Nat) : Int) + s.fixed k := by
          unfold at'; rw [Int.toNat_of_nonneg h0']; push_cast; ring
        rw [this, hz] at hin
        exact absurd hin.2 (by simp)
      dsimp only
      generalize hal : allowed gap s.poss m = al at hval hnot
      match al, hval, hnot, hal with
      | [f], hval, hnot, hal =>
        dsimp only
        rw [List.mem_singleton] at hval
        refine scanSet_keeps hsol ht ks _ _ (hk.fixVar hsol (fun u _ _ => by rw [hval]) _) hsub' hnd.2 fun k hks h0' => ?_
        have hkm : k ≠ m := by rintro rfl; exact hnd.1 hks
        simp only [upd, if_neg hkm] at h0' ⊢
        have hn := hnot k hks h0'
        rw [if_neg (by simpa using hn), if_neg hn]
        exact hch k (List.mem_cons_of_mem _ hks) h0'
      | f :: g :: rest, hval, hnot, hal =>
        dsimp only
        refine scanSet_keeps hsol ht ks s _ hk hsub' hnd.2 fun k hks h0' => ?_
        rw [if_neg (hnot k hks h0')]
        exact hch k (List.mem_cons_of_mem _ hks) h0'

theorem getD_mem' {l : List Nat} {i : Nat} (h : i < l.length) : l.getD i 0 ∈ l := by simp [h]

theorem getD_inj' {l : List Nat} (hn : l.Nodup) {i j : Nat} (hi : i < l.length) (hj : j < l.length) (h : l.getD i 0 = l.getD j 0) :
    i = j := by
  simp [hi, hj] at h
  exact (List.Nodup.getElem_inj_iff hn).mp h

/-- What `filterSet` gives: `bm` of the search, `possible` restricted to it. -/
theorem filterSet_spec (gap : Nat) (set : List Nat) (poss : Int → Bool) :
    ∃ (bm : Nat → Nat → Bool) (p : Int → Bool) (removed : Bool), filterSet gap set poss = some (p, removed) ∧
      (∀ q, p q = true ↔ poss q = true ∧ ∀ j < set.length, ∀ v < gap, q = at' gap (set.getD j 0) v → bm j v = true) ∧
      (removed = false ↔ ∀ j < set.length, ∀ v < gap, poss (at' gap (set.getD j 0) v) = true → bm j v = true) ∧
      (∀ a, Full gap (fun j v => poss (at' gap (set.getD j 0) v)) set.length a → ∀ j < set.length, bm j (a j) = true) ∧
      ((∀ j < set.length, ∃ v < gap, poss (at' gap (set.getD j 0) v) = true) → ∀ j < set.length, ∀ v, bm j v = true →
        ∃ a, Full gap (fun j v => poss (at' gap (set.getD j 0) v)) set.length a ∧ a j = v) := by
  obtain ⟨bm, b1, b2, b3⟩ := search_spec gap (fun j v => poss (at' gap (set.getD j 0) v)) set.length
  unfold filterSet
  dsimp only
  rw [b1]
  refine ⟨bm, _, _, rfl, fun q => ?_, ?_, b2, b3⟩
  · rw [Bool.and_eq_true, Bool.not_eq_true', List.any_eq_false]
    refine and_congr_right fun _ => ?_
    constructor
    · intro h j hj v hv hq
      have := h j (List.mem_range.mpr hj)
      rw [Bool.not_eq_true, List.any_eq_false] at this
      have := this v (List.mem_range.mpr hv)
      simpa [hq] using this
    · intro h j hj
      rw [Bool.not_eq_true, List.any_eq_false]
      intro v hv hh
      rw [Bool.and_eq_true, decide_eq_true_eq, Bool.not_eq_true'] at hh
      rw [h j (List.mem_range.mp hj) v (List.mem_range.mp hv) hh.1] at hh
      exact absurd hh.2 (by simp)
  · rw [List.any_eq_false]
    constructor
    · intro h j hj v hv hq
      have := h j (List.mem_range.mpr hj)
      rw [Bool.not_eq_true, List.any_eq_false] at this
      have := this v (List.mem_range.mpr hv)
      rw [hq] at this
      simpa using this
    · intro h j hj
      rw [Bool.not_eq_true, List.any_eq_false]
      intro v hv hh
      rw [Bool.and_eq_true, Bool.not_eq_true'] at hh
      rw [h j (List.mem_range.mp hj) v (List.mem_range.mp hv) hh.1] at hh
      exact absurd hh.2 (by simp)

theorem Keeps.shrink {gap : Nat} {sets : List (List Nat)} {val : Nat → Nat} {s : St} (hk : Keeps gap sets val s) {p : Int → Bool}
    (hp : ∀ q, p q = true → s.poss q = true) (hv : ∀ t ∈ sets, ∀ k ∈ t, p (at' gap k (val k)) = true) :
    Keeps gap sets val { s with poss := p } :=
  ⟨hv, hk.fix, fun t ht k hkt h0 m hm hne => eq_false_of fun h => by
    have := hp _ h; rw [hk.zero t ht k hkt h0 m hm hne] at this; cases this⟩

theorem filterSet_keeps {gap : Nat} {sets : List (List Nat)} {val : Nat → Nat} (hsol : Sol gap sets val) {t : List Nat} (ht : t ∈ sets) {s : St}
    (hk : Keeps gap sets val s) {p : Int → Bool} {removed : Bool} (h : filterSet gap t s.poss = some (p, removed)) :
    Keeps gap sets val { s with poss := p } := by
  obtain ⟨bm, p', r', h1, h2, _, h4, _⟩ := filterSet_spec gap t s.poss
  rw [h] at h1
  simp only [Option.some.injEq, Prod.mk.injEq] at h1
  obtain ⟨rfl, rfl⟩ := h1
  refine hk.shrink (fun q hq => ((h2 q).mp hq).1) fun u hu k hku => ?_
  rw [h2]
  refine ⟨hk.poss u hu k hku, fun j hj v hv he => ?_⟩
  obtain ⟨e1, e2⟩ := at'_inj (hsol.lt u hu k hku) hv he
  subst e1
  subst e2
  refine h4 (fun j => val (t.getD j 0)) ⟨fun i hi => hsol.lt t ht _ (getD_mem' hi), fun i hi => hk.poss t ht _ (getD_mem' hi),
    fun i hi i' hi' he => ?_⟩ j hj
  have := hsol.inj ht (getD_mem' hi) (getD_mem' hi') he
  exact getD_inj' (List.Nodup.of_map _ (hsol.diff t ht)) hi hi' this

theorem pass_keeps {gap nDiff : Nat} {sets : List (List Nat)} {val : Nat → Nat} (hsol : Sol gap sets val) :
    ∀ (ts : List (List Nat)) (s : St) (fin : Bool), (∀ t ∈ ts, t ∈ sets) → Keeps gap sets val s → ∀ r,
      pass gap nDiff sets ts s false fin = .ok r → Keeps gap sets val r.1 ∧ r.2.1 = false
  | [], s, fin, _, hk, r, h => by
    simp only [pass, Except.ok.injEq] at h
    subst h
    exact ⟨hk, rfl⟩
  | t :: ts, s, fin, hsub, hk, r, h => by
    have ht := hsub t (List.mem_cons_self ..)
    have hsub' := fun u hu => hsub u (List.mem_cons_of_mem t hu)
    obtain ⟨k1, k2⟩ := scanSet_keeps hsol ht t s (fun _ => 0) hk (fun k h => h) (List.Nodup.of_map _ (hsol.diff t ht)) (fun _ _ _ => rfl)
    unfold pass at h
    dsimp only at h
    rw [k2] at h
    simp only [Bool.false_eq_true, if_false] at h
    split at h
    · split at h
      · cases h
      · cases hf : filterSet gap t (scanSet gap sets t s fun _ => 0).1.poss with
        | none => rw [hf] at h; cases h
        | some pr =>
          rw [hf] at h
          obtain ⟨p, removed⟩ := pr
          exact pass_keeps hsol ts _ _ hsub' (filterSet_keeps hsol ht k1 hf) r h
    · exact pass_keeps hsol ts _ _ hsub' k1 r h

theorem passes_keeps {gap nDiff : Nat} {sets : List (List Nat)} {val : Nat → Nat} (hsol : Sol gap sets val) :
    ∀ (fuel : Nat) (s : St), Keeps gap sets val s → ∀ r, passes gap nDiff sets fuel s false = .ok r →
      Keeps gap sets val r.1 ∧ r.2 = false
  | 0, s, _, r, h => by simp [passes] at h
  | fuel + 1, s, hk, r, h => by
    unfold passes at h
    cases hp : pass gap nDiff sets sets s false true with
    | error e => rw [hp] at h; cases h
    | ok q =>
      obtain ⟨s', inf', fin⟩ := q
      obtain ⟨k1, k2⟩ := pass_keeps hsol sets s true (fun t h => h) hk _ hp
      dsimp only at k1 k2
      subst k2
      rw [hp] at h
      dsimp only at h
      split at h
      · simp only [Except.ok.injEq] at h
        subst h
        exact ⟨k1, rfl⟩
      · exact passes_keeps hsol fuel s' k1 r h

theorem initFix_keeps {gap : Nat} {sets : List (List Nat)} {val : Nat → Nat} (hsol : Sol gap sets val) {lo up : Nat → Int} {offset : Int}
    (hval : ∀ t ∈ sets, ∀ k ∈ t, lo k ≤ val k + offset ∧ val k + offset ≤ up k) :
    ∀ (is : List Nat) (s : St), Keeps gap sets val s → Keeps gap sets val (initFix gap sets lo up offset is s)
  | [], s, hk => hk
  | i :: is, s, hk => by
    unfold initFix
    refine initFix_keeps hsol hval is _ ?_
    split
    · rename_i h
      refine hk.fixVar hsol (fun t ht hi => ?_) _
      have := hval t ht i hi
      omega
    · exact hk

theorem start_keeps {gap nDiff : Nat} {sets : List (List Nat)} {val : Nat → Nat} (hsol : Sol gap sets val) {lo up : Nat → Int} {offset : Int}
    (hval : ∀ t ∈ sets, ∀ k ∈ t, lo k ≤ val k + offset ∧ val k + offset ≤ up k) (hlt : ∀ t ∈ sets, ∀ k ∈ t, k < nDiff) :
    Keeps gap sets val (start gap nDiff sets lo up offset) := by
  unfold start
  refine initFix_keeps hsol hval _ _ ⟨fun t ht k hkt => ?_, fun t ht k _ h0 => ?_, fun t ht k _ h0 => ?_⟩
  · unfold initPoss
    rw [List.any_eq_true]
    refine ⟨k, List.mem_range.mpr (hlt t ht k hkt), ?_⟩
    have := hval t ht k hkt
    rw [decide_eq_true_eq]
    unfold at'
    push_cast
    constructor <;> omega
  · simp at h0
  · simp at h0

theorem allowed_sorted (gap : Nat) (poss : Int → Bool) (k : Nat) : (allowed gap poss k).Pairwise (· < ·) :=
  List.Pairwise.filter _ List.pairwise_lt_range

theorem firstLo_le {gap : Nat} {poss : Int → Bool} {k v : Nat} (hv : v < gap) (h : poss (at' gap k v) = true) : firstLo gap poss k ≤ v := by
  have hm := mem_allowed.mpr ⟨hv, h⟩
  have hs := allowed_sorted gap poss k
  unfold firstLo
  generalize allowed gap poss k = l at hm hs
  cases l with
  | nil => cases hm
  | cons a t =>
    simp only [List.head?_cons]
    rw [List.pairwise_cons] at hs
    rcases List.mem_cons.mp hm with rfl | h
    · exact le_refl _
    · exact_mod_cast le_of_lt (hs.1 v h)

theorem le_lastUp {gap : Nat} {poss : Int → Bool} {k v : Nat} (hv : v < gap) (h : poss (at' gap k v) = true) : (v : Int) ≤ lastUp gap poss k := by
  have hm := mem_allowed.mpr ⟨hv, h⟩
  have hs := allowed_sorted gap poss k
  unfold lastUp
  generalize allowed gap poss k = l at hm hs
  rcases List.eq_nil_or_concat l with rfl | ⟨q, a, rfl⟩
  · cases hm
  · rw [List.concat_eq_append] at *
    rw [List.getLast?_append_of_ne_nil _ (by simp), List.getLast?_singleton]
    rw [List.pairwise_append] at hs
    show (v : Int) ≤ a
    rcases List.mem_append.mp hm with h | h
    · exact_mod_cast le_of_lt (hs.2.2 v h a (by simp))
    · rw [List.mem_singleton] at h; subst h; exact le_refl _

end Cgl.AllDiff
