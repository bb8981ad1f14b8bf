import Verif.AllDiff.Setup

/-! # Properties of `CglAllDifferent` -/

namespace Cgl.AllDiff

theorem intMax_eq : intMax = 2147483647 := rfl
theorem intMin_eq : intMin = -2147483648 := rfl

/-- The column cuts after a run that found no infeasibility. -/
def addCols (cs : Cuts) (lbs ubs : SVec) : Cuts := if lbs = [] ∧ ubs = [] then cs else { cs with cols := cs.cols ++ [⟨lbs, ubs⟩] }

/-- What a run that returns did. -/
theorem generateCuts_run {o : Obj} {P : Prob} {cs out : Cuts} (h : generateCuts o P cs = .ok out) :
    o.sets ≠ [] ∧ (∀ i < o.nDiff, readable o P i = true) ∧ ∃ r l s inf, look (loOf o P) (upOf o P) o.nDiff o.sets (intMax, -intMax) = .ok (r, l) ∧
      (∀ i < o.nDiff, memOk (gapOf r) o.nDiff (loOf o P) (upOf o P) r.1 i = true) ∧
      passes (gapOf r) o.nDiff l (passFuel (gapOf r) o.nDiff) (start (gapOf r) o.nDiff l (loOf o P) (upOf o P) r.1) false = .ok (s, inf) ∧
      (inf = true → out = { cs with rows := insertIfNotDuplicate cs.rows ⟨dblMax, 0, []⟩ }) ∧
      (inf = false → ((newLower (gapOf r) o.nDiff o.orig (loOf o P) r.1 s.poss).map Prod.fst).Nodup ∧
        ((newUpper (gapOf r) o.nDiff o.orig (upOf o P) r.1 s.poss).map Prod.fst).Nodup ∧
        out = addCols cs (newLower (gapOf r) o.nDiff o.orig (loOf o P) r.1 s.poss) (newUpper (gapOf r) o.nDiff o.orig (upOf o P) r.1 s.poss)) := by
  unfold generateCuts at h
  by_cases h1 : o.sets = []
  · rw [if_pos h1] at h; cases h
  · rw [if_neg h1] at h
    cases h2 : (List.range o.nDiff).all (readable o P) with
    | false => rw [h2] at h; simp at h
    | true =>
      rw [h2] at h
      rw [if_neg (by simp)] at h
      dsimp only at h
      cases h3 : look (loOf o P) (upOf o P) o.nDiff o.sets (intMax, -intMax) with
      | error e => rw [h3] at h; cases h
      | ok p =>
        obtain ⟨r, l⟩ := p
        rw [h3] at h
        dsimp only at h
        split at h
        · cases h
        · cases h4 : (List.range o.nDiff).all (memOk (gapOf r) o.nDiff (loOf o P) (upOf o P) r.1) with
          | false => rw [h4] at h; simp at h
          | true =>
            rw [h4] at h
            rw [if_neg (by simp)] at h
            cases h5 : passes (gapOf r) o.nDiff l (passFuel (gapOf r) o.nDiff) (start (gapOf r) o.nDiff l (loOf o P) (upOf o P) r.1) false with
            | error e => rw [h5] at h; cases h
            | ok q =>
              obtain ⟨s, inf⟩ := q
              rw [h5] at h
              rw [List.all_eq_true] at h2 h4
              refine ⟨h1, fun i hi => h2 i (List.mem_range.mpr hi), r, l, s, inf, rfl, fun i hi => h4 i (List.mem_range.mpr hi), h5, ?_, ?_⟩
              · rintro rfl
                simp only [Except.ok.injEq] at h
                exact h.symm
              · rintro rfl
                dsimp only at h
                split at h
                · cases h
                · rename_i hnd
                  push Not at hnd
                  refine ⟨hnd.1, hnd.2, ?_⟩
                  unfold addCols
                  split at h
                  · rename_i he
                    rw [if_pos he]
                    simp only [Except.ok.injEq] at h
                    exact h.symm
                  · rename_i he
                    rw [if_neg he]
                    simp only [Except.ok.injEq] at h
                    exact h.symm

/-- The ranges, once the mix-up of columns is harmless. -/
theorem bounds_of_small {sets : List (List Nat)} {P : Prob} {a b : ℤ} (hf : Faithful sets) (hs : Small P sets a b) :
    ∀ t ∈ (ofSets sets).sets, ∀ k ∈ t, a ≤ loOf (ofSets sets) P k ∧ upOf (ofSets sets) P k ≤ b := by
  intro t ht k hk
  obtain ⟨s, hsm, rfl⟩ := mem_sets.mp ht
  rw [List.mem_map] at hk
  obtain ⟨c, hc, rfl⟩ := hk
  have := hs.1 _ (taken_mem hf hsm hc)
  unfold loOf upOf
  rw [orig_getD]
  exact ⟨le_truncQ this.1, truncQ_le this.2⟩

theorem small_mul {sets : List (List Nat)} {P : Prob} {a b : ℤ} (hs : Small P sets a b) : (b - a + 1) * ((ofSets sets).nDiff : ℤ) ≤ 10 ^ 7 := by
  obtain ⟨_, hab, _, _, h⟩ := hs
  refine le_trans (mul_le_mul_of_nonneg_left ?_ (by omega)) h
  exact_mod_cast nDiff_le sets

theorem look_small {sets : List (List Nat)} {P : Prob} {a b : ℤ} (hf : Faithful sets) (hs : Small P sets a b) {r : Int × Int} {l : List (List Nat)}
    (h : look (loOf (ofSets sets) P) (upOf (ofSets sets) P) (ofSets sets).nDiff (ofSets sets).sets (intMax, -intMax) = .ok (r, l)) :
    l = (ofSets sets).sets ∧ a ≤ r.1 ∧ r.2 ≤ b ∧
      ∀ i < (ofSets sets).nDiff, r.1 ≤ loOf (ofSets sets) P i ∧ upOf (ofSets sets) P i ≤ r.2 := by
  have hm := small_mul hs
  have hb := bounds_of_small hf hs
  obtain ⟨_, hab, h1, h2, _⟩ := hs
  obtain ⟨e1, e2, e3, _, _, e6⟩ := look_all hab hm _ _ r l (by rw [intMax_eq]; simp only; omega) (by rw [intMax_eq]; simp only; omega) hb h
  refine ⟨e1, e2, e3, fun i hi => ?_⟩
  obtain ⟨s, hsm, c, hc, rfl⟩ := var_mem sets hi
  exact e6 _ (mem_sets.mpr ⟨s, hsm, rfl⟩) _ (List.mem_map_of_mem hc)

/-- **C19 (partial).** If the code's mix-up of column numbers is harmless and the ranges are small enough for all sets to
be looked at, every accepted assignment satisfies every bound change, and there is no infeasibility cut if there is an
accepted assignment. Missing: sets whose columns are mixed up (false, `generateCuts_mixup_invalid`) and large ranges
(false, `generateCuts_large_invalid`). -/
theorem generateCuts_valid_partial {sets : List (List Nat)} {P : Prob} {a b : ℤ} {cs out : Cuts} (hf : Faithful sets) (hs : Small P sets a b)
    (hinf : 2 ^ 31 - 1 < P.inf) (h : generateCuts (ofSets sets) P cs = .ok out) (x : Nat → ℚ) (hx : Assignment P sets x) :
    out.rows = cs.rows ∧ ∃ new, out.cols = cs.cols ++ new ∧ ∀ c ∈ new, c.Sat x := by
  obtain ⟨_, hrd, r, l, s, inf, hl, _, hp, hi, hc⟩ := generateCuts_run h
  obtain ⟨rfl, ha, hb, hrange⟩ := look_small hf hs hl
  -- the point in dense numbers
  have hxi : ∀ c ∈ sets.flatten, x c = ⌊x c⌋ := by
    intro c hc
    obtain ⟨z, hz⟩ := hx.int c hc
    rw [hz]; simp
  have hvar : ∀ i < (ofSets sets).nDiff, (ofSets sets).orig.getD i 0 ∈ sets.flatten := by
    intro i hi
    obtain ⟨t, ht, c, hc, rfl⟩ := var_mem sets hi
    rw [orig_getD]; exact taken_mem hf ht hc
  have hbd : ∀ i < (ofSets sets).nDiff, loOf (ofSets sets) P i ≤ ⌊x ((ofSets sets).orig.getD i 0)⌋ ∧
      ⌊x ((ofSets sets).orig.getD i 0)⌋ ≤ upOf (ofSets sets) P i := by
    intro i hi
    have hm := hvar i hi
    have hsm := hs.1 _ hm
    have h1 := hx.lower _ hm
    have h2 := hx.upper _ hm
    rw [hxi _ hm] at h1 h2
    obtain ⟨_, hab, ha', hb', _⟩ := hs
    have ha'' : (-(2 ^ 31 - 1) : ℚ) ≤ a := by exact_mod_cast ha'
    have hb'' : (b : ℚ) ≤ 2 ^ 31 - 1 := by exact_mod_cast hb'
    exact ⟨truncQ_le (h1 (by linarith [hsm.1])), le_truncQ (h2 (by linarith [hsm.2]))⟩
  let val : Nat → Nat := fun i => (⌊x ((ofSets sets).orig.getD i 0)⌋ - r.1).toNat
  have hval : ∀ i < (ofSets sets).nDiff, (val i : Int) + r.1 = ⌊x ((ofSets sets).orig.getD i 0)⌋ := by
    intro i hi
    have := hbd i hi
    have := hrange i hi
    show ((⌊x ((ofSets sets).orig.getD i 0)⌋ - r.1).toNat : Int) + r.1 = _
    omega
  have hlt := sets_lt sets
  have hvlt : ∀ i < (ofSets sets).nDiff, val i < gapOf r := by
    intro i hi
    have h1 := hval i hi
    have := hbd i hi
    have := hrange i hi
    unfold gapOf
    omega
  have hsol : Sol (gapOf r) (ofSets sets).sets val := by
    refine ⟨fun t ht k hk => hvlt k (hlt t ht k hk), fun t ht => ?_⟩
    obtain ⟨u, hu, rfl⟩ := mem_sets.mp ht
    obtain ⟨u', hu', hperm⟩ := hf.1 u hu
    have hd := ((hperm.map x).nodup_iff).mp (hx.diff u' hu')
    rw [List.map_map] at hd ⊢
    refine List.Nodup.of_map (fun n : Nat => ((n : ℚ) + r.1)) ?_
    rw [List.map_map]
    convert hd using 1
    apply List.map_congr_left
    intro c hc
    have hcl := translate_lt_nDiff sets (mem_flat hu hc)
    have h1 := hval _ hcl
    have h2 := hxi _ (hvar _ hcl)
    simp only [Function.comp]
    rw [orig_getD] at h1 h2
    rw [h2, ← h1]
    push_cast
    ring
  have hk := start_keeps hsol (nDiff := (ofSets sets).nDiff) (lo := loOf (ofSets sets) P) (up := upOf (ofSets sets) P) (offset := r.1)
    (fun t ht k hk => by
      have h1 := hval k (hlt t ht k hk)
      have h2 := hbd k (hlt t ht k hk)
      omega) hlt
  obtain ⟨k1, k2⟩ := passes_keeps hsol _ _ hk _ hp
  dsimp only at k1 k2
  obtain ⟨_, _, rfl⟩ := hc k2
  have hposs : ∀ i < (ofSets sets).nDiff, s.poss (at' (gapOf r) i (val i)) = true := by
    intro i hi
    obtain ⟨t, ht, c, hc, rfl⟩ := var_mem sets hi
    exact k1.poss _ (mem_sets.mpr ⟨t, ht, rfl⟩) _ (List.mem_map_of_mem hc)
  have hsat : (ColCut.mk (newLower (gapOf r) (ofSets sets).nDiff (ofSets sets).orig (loOf (ofSets sets) P) r.1 s.poss)
      (newUpper (gapOf r) (ofSets sets).nDiff (ofSets sets).orig (upOf (ofSets sets) P) r.1 s.poss)).Sat x := by
    constructor
    · intro p hp
      simp only [newLower, List.mem_map, List.mem_filter, List.mem_range] at hp
      obtain ⟨i, ⟨hi, _⟩, rfl⟩ := hp
      have h1 := firstLo_le (hvlt i hi) (hposs i hi)
      have h2 := hval i hi
      dsimp only
      rw [hxi _ (hvar i hi)]
      exact_mod_cast (by omega : firstLo (gapOf r) s.poss i + r.1 ≤ ⌊x ((ofSets sets).orig.getD i 0)⌋)
    · intro p hp
      simp only [newUpper, List.mem_map, List.mem_filter, List.mem_range] at hp
      obtain ⟨i, ⟨hi, _⟩, rfl⟩ := hp
      have h1 := le_lastUp (hvlt i hi) (hposs i hi)
      have h2 := hval i hi
      dsimp only
      rw [hxi _ (hvar i hi)]
      exact_mod_cast (by omega : ⌊x ((ofSets sets).orig.getD i 0)⌋ ≤ lastUp (gapOf r) s.poss i + r.1)
  unfold addCols
  split
  · exact ⟨rfl, [], by simp, by simp⟩
  · refine ⟨rfl, [_], rfl, fun c hc => ?_⟩
    rw [List.mem_singleton] at hc
    subst hc
    exact hsat

/-- The generator always returns normally: no endless loop, no access outside its arrays. -/
theorem generateCuts_total_partial {sets : List (List Nat)} {P : Prob} {a b : ℤ} (cs : Cuts) (hf : Faithful sets) (hs : Small P sets a b)
    (hcol : ∀ c ∈ sets.flatten, c < P.nCols ∧ P.colLower c ≤ P.colUpper c) (hne : sets ≠ []) (hset : ∀ s ∈ sets, s ≠ [] ∧ s.Nodup) :
    ∃ out, generateCuts (ofSets sets) P cs = .ok out := by
  have hn : 0 < (ofSets sets).nDiff := by
    obtain ⟨s, hs⟩ := List.exists_mem_of_ne_nil sets hne
    obtain ⟨c, hc⟩ := List.exists_mem_of_ne_nil s (hset s hs).1
    have := translate_lt_nDiff sets (mem_flat hs hc)
    omega
  have hm := small_mul hs
  have hb := bounds_of_small hf hs
  have hvar : ∀ i < (ofSets sets).nDiff, (ofSets sets).orig.getD i 0 ∈ sets.flatten := by
    intro i hi
    obtain ⟨t, ht, c, hc, rfl⟩ := var_mem sets hi
    rw [orig_getD]; exact taken_mem hf ht hc
  have hle : ∀ i < (ofSets sets).nDiff, loOf (ofSets sets) P i ≤ upOf (ofSets sets) P i :=
    fun i hi => truncQ_mono (hcol _ (hvar i hi)).2
  obtain ⟨r, l, hl⟩ := look_ok hn hs.2.1 hm (ofSets sets).sets (intMax, -intMax)
    (by have := hs.2; rw [intMax_eq]; simp only; omega) (by have := hs.2; rw [intMax_eq]; simp only; omega)
    (fun t ht k hk => ⟨(hb t ht k hk).1, (hb t ht k hk).2, hle k (sets_lt sets t ht k hk)⟩)
    (fun t ht => by
      obtain ⟨s, hs, rfl⟩ := mem_sets.mp ht
      simpa using (hset s hs).1)
  obtain ⟨rfl, ha, hb', hrange⟩ := look_small hf hs hl
  have hread : (List.range (ofSets sets).nDiff).all (readable (ofSets sets) P) = true := by
    rw [List.all_eq_true]
    intro i hi
    rw [List.mem_range] at hi
    have h1 := hvar i hi
    have hlen : i < (ofSets sets).orig.length := by
      have h2 := nDiff_le sets
      have h3 : sets.flatten.dedup.length ≤ sets.flatten.length := (List.dedup_sublist _).length_le
      show i < sets.flatten.length
      omega
    have hg : (ofSets sets).orig[i]? = some ((ofSets sets).orig.getD i 0) := by simp [hlen]
    unfold readable
    rw [hg]
    have h2 := hrange i hi
    have h3 := hle i hi
    unfold loOf upOf at h2 h3
    have h4 := hs.2
    simp only [castInt, Bool.and_eq_true, decide_eq_true_eq]
    rw [intMax_eq, intMin_eq]
    refine ⟨⟨(hcol _ h1).1, ?_⟩, ?_⟩
    · rw [if_pos (by omega)]; rfl
    · rw [if_pos (by omega)]; rfl
  have hr12 : r.1 ≤ r.2 := by have := hrange 0 hn; have := hle 0 hn; omega
  have hgap : (gapOf r : Int) = r.2 - r.1 + 1 := by unfold gapOf; omega
  have hmul : ((gapOf r * (ofSets sets).nDiff : Nat) : Int) ≤ 10 ^ 7 := by
    push_cast
    refine le_trans (mul_le_mul_of_nonneg_right ?_ (by omega)) hm
    omega
  have hmem : (List.range (ofSets sets).nDiff).all (memOk (gapOf r) (ofSets sets).nDiff (loOf (ofSets sets) P) (upOf (ofSets sets) P) r.1) = true := by
    rw [List.all_eq_true]
    intro i hi
    rw [List.mem_range] at hi
    have h1 := hrange i hi
    have h2 := hle i hi
    unfold memOk
    rw [decide_eq_true_eq]
    have h3 : (i + 1) * gapOf r ≤ (ofSets sets).nDiff * gapOf r := Nat.mul_le_mul_right _ (by omega)
    have h4 : (i + 1) * gapOf r = i * gapOf r + gapOf r := by ring
    have h5 : gapOf r * (ofSets sets).nDiff = (ofSets sets).nDiff * gapOf r := Nat.mul_comm _ _
    omega
  obtain ⟨⟨s, inf⟩, hp⟩ := passes_total (gapOf r) (ofSets sets).nDiff (ofSets sets).sets
    (fun t ht => by
      refine ⟨?_, sets_lt sets t ht⟩
      have hnd : t.Nodup := by
        obtain ⟨u, hu, rfl⟩ := mem_sets.mp ht
        rw [List.nodup_map_iff_inj_on (hset u hu).2]
        exact fun c hc d hd he => translate_inj (mem_flat hu hc) (mem_flat hu hd) he
      have := (List.Nodup.subperm hnd (l₂ := List.range (ofSets sets).nDiff) fun k hk => List.mem_range.mpr (sets_lt sets t ht k hk)).length_le
      simpa using this)
    (passFuel (gapOf r) (ofSets sets).nDiff) (start (gapOf r) (ofSets sets).nDiff (ofSets sets).sets (loOf (ofSets sets) P) (upOf (ofSets sets) P) r.1) false
    (by
      have h1 := ones_bound (gapOf r) (ofSets sets).nDiff (start (gapOf r) (ofSets sets).nDiff (ofSets sets).sets (loOf (ofSets sets) P) (upOf (ofSets sets) P) r.1).poss
      have h2 := unfixed_bound (ofSets sets).nDiff (start (gapOf r) (ofSets sets).nDiff (ofSets sets).sets (loOf (ofSets sets) P) (upOf (ofSets sets) P) r.1).fixed
      unfold passFuel
      omega)
  have hnodup : ∀ (p : Nat → Bool) (f : Nat → ℚ),
      ((((List.range (ofSets sets).nDiff).filter p).map fun i => ((ofSets sets).orig.getD i 0, f i)).map Prod.fst).Nodup := by
    intro p f
    rw [List.map_map, List.nodup_map_iff_inj_on (List.Nodup.filter _ List.nodup_range)]
    intro i hi j hj he
    rw [List.mem_filter, List.mem_range] at hi hj
    exact orig_inj hf hi.1 hj.1 he
  unfold generateCuts
  have h0 : (ofSets sets).sets ≠ [] := by unfold ofSets; simpa using hne
  rw [if_neg h0, hread, if_neg (by simp)]
  dsimp only
  rw [hl]
  dsimp only
  rw [if_neg (by rw [intMax_eq]; omega), hmem, if_neg (by simp), hp]
  cases inf with
  | true => exact ⟨_, rfl⟩
  | false =>
    dsimp only
    rw [if_neg (by rintro (h | h); exacts [h (hnodup _ _), h (hnodup _ _)])]
    split <;> exact ⟨_, rfl⟩

/-! #### Tightness -/

theorem firstLo_mem {gap : Nat} {poss : Int → Bool} {k : Nat} (h : allowed gap poss k ≠ []) :
    ∃ v < gap, poss (at' gap k v) = true ∧ firstLo gap poss k = v := by
  unfold firstLo
  cases hal : allowed gap poss k with
  | nil => exact absurd hal h
  | cons v rest =>
    have := mem_allowed.mp (hal ▸ List.mem_cons_self .. : v ∈ allowed gap poss k)
    exact ⟨v, this.1, this.2, rfl⟩

theorem lastUp_mem {gap : Nat} {poss : Int → Bool} {k : Nat} (h : allowed gap poss k ≠ []) :
    ∃ v < gap, poss (at' gap k v) = true ∧ lastUp gap poss k = v := by
  unfold lastUp
  have h1 := List.getLast?_eq_some_getLast h
  have := mem_allowed.mp (List.getLast_mem h)
  rw [h1]
  exact ⟨_, this.1, this.2, rfl⟩

theorem find_map_key {α : Type} {l : List Nat} {key : Nat → Nat} (hinj : ∀ i ∈ l, ∀ j ∈ l, key i = key j → i = j) (f : Nat → α) (p : Nat → Bool) {i : Nat}
    (hi : i ∈ l) : (((l.filter p).map fun i => (key i, f i)).find? fun q => decide (q.1 = key i)) = if p i then some (key i, f i) else none := by
  split
  · rename_i hp
    rw [List.find?_map]
    cases hfd : List.find? ((fun q : Nat × α => decide (q.1 = key i)) ∘ fun i => (key i, f i)) (l.filter p) with
    | none =>
      rw [List.find?_eq_none] at hfd
      exact absurd (by simp) (hfd i (List.mem_filter.mpr ⟨hi, hp⟩))
    | some j =>
      have h1 := List.find?_some hfd
      have h2 := List.mem_of_find?_eq_some hfd
      simp only [Function.comp, decide_eq_true_eq] at h1
      have := hinj j (List.mem_filter.mp h2).1 i hi h1
      subst this
      rfl
  · rename_i hp
    rw [List.find?_eq_none]
    intro q hq
    rw [List.mem_map] at hq
    obtain ⟨j, hj, rfl⟩ := hq
    rw [List.mem_filter] at hj
    rw [decide_eq_true_eq]
    intro he
    have := hinj j hj.1 i hi he
    subst this
    exact hp hj.2

/-- **C38 (partial).** When the ranges have at most 29 values in common and the mix-up of columns is harmless, the bounds
after the run are the best one set can give: for each column of a declared set and each of its two bounds there is an
assignment of integers within the (original) bounds, different inside that set, attaining it. Missing: the other cases. -/
theorem generateCuts_tight_partial {sets : List (List Nat)} {P : Prob} {a b : ℤ} {out : Cuts} (hf : Faithful sets) (hs : Small P sets a b)
    (hgap : b - a < 29) (hset : ∀ s ∈ sets, s.Nodup)
    (hint : ∀ c ∈ sets.flatten, IsInteger (P.colLower c) ∧ IsInteger (P.colUpper c))
    (h : generateCuts (ofSets sets) P ⟨[], []⟩ = .ok out) (hrows : out.rows = []) :
    ∀ s ∈ sets, ∀ c ∈ s,
      (∃ y, Assignment P [s] y ∧ y c = lowerAfter out.cols P.colLower c) ∧ ∃ y, Assignment P [s] y ∧ y c = upperAfter out.cols P.colUpper c := by
  obtain ⟨_, hrd, r, l, st, inf, hl, _, hp, hi, hc⟩ := generateCuts_run h
  obtain ⟨rfl, ha, hb, hrange⟩ := look_small hf hs hl
  cases inf with
  | true =>
    rw [hi rfl] at hrows
    simp [insertIfNotDuplicate] at hrows
  | false =>
  obtain ⟨_, _, hout⟩ := hc rfl
  have hgap' : gapOf r < 30 := by unfold gapOf; omega
  have hvar : ∀ i < (ofSets sets).nDiff, (ofSets sets).orig.getD i 0 ∈ sets.flatten := by
    intro i hi
    obtain ⟨t, ht, c, hc, rfl⟩ := var_mem sets hi
    rw [orig_getD]; exact taken_mem hf ht hc
  have hnd : ∀ t ∈ (ofSets sets).sets, t.Nodup := by
    intro t ht
    obtain ⟨u, hu, rfl⟩ := mem_sets.mp ht
    rw [List.nodup_map_iff_inj_on (hset u hu)]
    exact fun c hc d hd he => translate_inj (mem_flat hu hc) (mem_flat hu hd) he
  have hlo : ∀ i < (ofSets sets).nDiff, P.colLower ((ofSets sets).orig.getD i 0) = loOf (ofSets sets) P i := by
    intro i hi
    obtain ⟨z, hz⟩ := (hint _ (hvar i hi)).1
    unfold loOf
    rw [hz, truncQ_int]
  have hup : ∀ i < (ofSets sets).nDiff, P.colUpper ((ofSets sets).orig.getD i 0) = upOf (ofSets sets) P i := by
    intro i hi
    obtain ⟨z, hz⟩ := (hint _ (hvar i hi)).2
    unfold upOf
    rw [hz, truncQ_int]
  obtain ⟨j1, j2⟩ := start_J (gap := gapOf r) (sets := (ofSets sets).sets) (lo := loOf (ofSets sets) P) (up := upOf (ofSets sets) P) (offset := r.1)
    (nDiff := (ofSets sets).nDiff) (fun i hi => ⟨(hrange i hi).1, by have := (hrange i hi).2; unfold gapOf; omega⟩)
  obtain ⟨p1, p2⟩ := passes_exact hgap' hnd (sets_lt sets) _ _ _ j1 hp
  have hin : ∀ k v, k < (ofSets sets).nDiff → v < gapOf r → st.poss (at' (gapOf r) k v) = true →
      loOf (ofSets sets) P k ≤ (v : Int) + r.1 ∧ (v : Int) + r.1 ≤ upOf (ofSets sets) P k := fun k v hk hv hpo => j2 k v hk hv (p1 _ hpo)
  have hcols : out.cols.flatMap ColCut.lbs = newLower (gapOf r) (ofSets sets).nDiff (ofSets sets).orig (loOf (ofSets sets) P) r.1 st.poss ∧
      out.cols.flatMap ColCut.ubs = newUpper (gapOf r) (ofSets sets).nDiff (ofSets sets).orig (upOf (ofSets sets) P) r.1 st.poss := by
    rw [hout]
    unfold addCols
    split
    · rename_i he; simp [he.1, he.2]
    · simp
  have horig : ∀ i ∈ List.range (ofSets sets).nDiff, ∀ j ∈ List.range (ofSets sets).nDiff,
      (ofSets sets).orig.getD i 0 = (ofSets sets).orig.getD j 0 → i = j :=
    fun i hi j hj => orig_inj hf (List.mem_range.mp hi) (List.mem_range.mp hj)
  intro s hsm c hcs
  -- the set whose dense copy stands for `s`
  obtain ⟨u, hu, hperm⟩ := hf.2 s hsm
  obtain ⟨d, hd, rfl⟩ := List.mem_map.mp (hperm.mem_iff.mp hcs)
  have hdl := translate_lt_nDiff sets (mem_flat hu hd)
  have hdm := List.mem_range.mpr hdl
  have ht : u.map (translate sets.flatten) ∈ (ofSets sets).sets := mem_sets.mpr ⟨u, hu, rfl⟩
  obtain ⟨q1, q2⟩ := p2 _ ht
  have hdt : translate sets.flatten d ∈ u.map (translate sets.flatten) := List.mem_map_of_mem hd
  -- an assignment for each supported value
  have hassign : ∀ v < gapOf r, st.poss (at' (gapOf r) (translate sets.flatten d) v) = true →
      ∃ y, Assignment P [s] y ∧ y (taken sets d) = ((v + r.1 : Int) : ℚ) := by
    intro v hv hpo
    obtain ⟨w, w1, w2, w3⟩ := q2 _ hdt v hv hpo
    have hinv : ∀ e ∈ sets.flatten, (ofSets sets).orig.idxOf (taken sets e) < (ofSets sets).orig.length → True := fun _ _ _ => trivial
    -- read the value back through the numbering
    have hback : ∃ y : Nat → ℚ, ∀ e ∈ u, y (taken sets e) = ((w (translate sets.flatten e) + r.1 : Int) : ℚ) := by
      refine ⟨fun c => match u.find? fun e => decide (taken sets e = c) with
        | some e => ((w (translate sets.flatten e) + r.1 : Int) : ℚ)
        | none => 0, fun e he => ?_⟩
      cases hfd : u.find? fun e' => decide (taken sets e' = taken sets e) with
      | none =>
        rw [List.find?_eq_none] at hfd
        exact absurd (by simp) (hfd e he)
      | some e' =>
        have h1 := List.find?_some hfd
        have h2 := List.mem_of_find?_eq_some hfd
        rw [decide_eq_true_eq] at h1
        rw [taken_inj hf (mem_flat hu h2) (mem_flat hu he) h1] at hfd
        dsimp only
        rw [hfd]
    obtain ⟨y, hy⟩ := hback
    have hmem : ∀ c ∈ s, ∃ e ∈ u, taken sets e = c := fun c hc => List.mem_map.mp (hperm.mem_iff.mp hc)
    have hb2 : ∀ e ∈ u, (loOf (ofSets sets) P (translate sets.flatten e) : Int) ≤ w (translate sets.flatten e) + r.1 ∧
        (w (translate sets.flatten e) : Int) + r.1 ≤ upOf (ofSets sets) P (translate sets.flatten e) := by
      intro e he
      have := w1 _ (List.mem_map_of_mem he)
      exact hin _ _ (translate_lt_nDiff sets (mem_flat hu he)) this.1 this.2
    refine ⟨y, ⟨fun c hc => ?_, fun c hc => ?_, fun c hc => ?_, fun t ht => ?_⟩, ?_⟩
    · rw [List.flatten_cons, List.flatten_nil, List.append_nil] at hc
      obtain ⟨e, he, rfl⟩ := hmem c hc
      intro _
      have h1 := hlo _ (translate_lt_nDiff sets (mem_flat hu he))
      rw [orig_getD] at h1
      rw [h1, hy e he]
      exact_mod_cast (hb2 e he).1
    · rw [List.flatten_cons, List.flatten_nil, List.append_nil] at hc
      obtain ⟨e, he, rfl⟩ := hmem c hc
      intro _
      have h1 := hup _ (translate_lt_nDiff sets (mem_flat hu he))
      rw [orig_getD] at h1
      rw [h1, hy e he]
      exact_mod_cast (hb2 e he).2
    · rw [List.flatten_cons, List.flatten_nil, List.append_nil] at hc
      obtain ⟨e, he, rfl⟩ := hmem c hc
      exact ⟨_, hy e he⟩
    · rw [List.mem_singleton] at ht
      subst ht
      rw [(hperm.map y).nodup_iff, List.map_map, List.nodup_map_iff_inj_on (hset u hu)]
      intro e he e' he' heq
      simp only [Function.comp] at heq
      rw [hy e he, hy e' he'] at heq
      have h1 : w (translate sets.flatten e) = w (translate sets.flatten e') := by
        have : (w (translate sets.flatten e) : Int) + r.1 = w (translate sets.flatten e') + r.1 := by exact_mod_cast heq
        omega
      have h2 := List.inj_on_of_nodup_map w2 (List.mem_map_of_mem he) (List.mem_map_of_mem he') h1
      exact translate_inj (mem_flat hu he) (mem_flat hu he') h2
    · rw [hy d hd, w3]
  constructor
  · obtain ⟨v, hv, hpo, hfl⟩ := firstLo_mem (q1 _ hdt)
    obtain ⟨y, hy1, hy2⟩ := hassign v hv hpo
    refine ⟨y, hy1, ?_⟩
    rw [hy2]
    unfold lowerAfter
    rw [hcols.1]
    unfold newLower
    rw [← orig_getD, find_map_key horig _ _ hdm]
    by_cases hg : firstLo (gapOf r) st.poss (translate sets.flatten d) + r.1 > loOf (ofSets sets) P (translate sets.flatten d)
    · rw [if_pos (by simpa using hg)]
      dsimp only
      rw [hfl]
    · rw [if_neg (by simpa using hg)]
      dsimp only
      rw [hlo _ hdl]
      have := hin _ v hdl hv hpo
      exact_mod_cast (by omega : (v : Int) + r.1 = loOf (ofSets sets) P (translate sets.flatten d))
  · obtain ⟨v, hv, hpo, hfl⟩ := lastUp_mem (q1 _ hdt)
    obtain ⟨y, hy1, hy2⟩ := hassign v hv hpo
    refine ⟨y, hy1, ?_⟩
    rw [hy2]
    unfold upperAfter
    rw [hcols.2]
    unfold newUpper
    rw [← orig_getD, find_map_key horig _ _ hdm]
    by_cases hg : lastUp (gapOf r) st.poss (translate sets.flatten d) + r.1 < upOf (ofSets sets) P (translate sets.flatten d)
    · rw [if_pos (by simpa using hg)]
      dsimp only
      rw [hfl]
    · rw [if_neg (by simpa using hg)]
      dsimp only
      rw [hup _ hdl]
      have := hin _ v hdl hv hpo
      exact_mod_cast (by omega : (v : Int) + r.1 = upOf (ofSets sets) P (translate sets.flatten d))

end Cgl.AllDiff
