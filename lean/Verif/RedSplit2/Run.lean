import Verif.RedSplit2.Reduce

/-!
# Where the cuts of a call come from
-/

namespace Cgl.RedSplit2

open RedSplit (stat indices nonBasic goodModel flip tabv Dense BasicSolution TableauRow)

/-- A combination a cut can be made from in a round on the columns `W`: row `i` alone, if that is not to be skipped, or
multipliers that shorten row `i` on `W`. -/
def Source (c : Call) (W : List Nat) (i : Nat) (m : Nat → ℤ) : Prop :=
  (c.par .skipGomory = 0 ∧ m = unit i) ∨ (Better c W i m ∧ m i ≠ 0)

theorem Source.small {c : Call} {W : List Nat} {i : Nat} {m : Nat → ℤ} (h : Source c W i m) : Small c m := by
  rcases h with ⟨_, rfl⟩ | ⟨h, _⟩
  · exact unit_small c i
  · exact le_trans h.sum (le_max_right _ _)

/-- What was found, and what it was made from. -/
def Made (c : Call) (f : Found) : Prop :=
  ∃ s ∈ c.strat.cols, ∃ i < mTab c, ∃ m d es rhs, Source c (workCols c s) i m ∧ mTab c ≤ (slots c).length ∧
    cgCut c (flipped c m) = some d ∧ packRow c (eliminate c (unflip c d)) = .ok (some (es, rhs)) ∧
    f = ⟨⟨- c.par .INFINIT, rhs + adjust c rhs, es⟩, qualityOf c es rhs, lambdaOf c m⟩

/-- What holds of the buffer and of what was found, throughout the loops that started with the buffer `buf`. -/
structure Inv (c : Call) (w : Wanted) (buf : List RowCut) (a : Acc) : Prop where
  made : ∀ f ∈ a.found, Made c f
  cuts : w.cuts = true → a.cuts = buf ++ a.found.map Found.cut ∧ (∀ f ∈ a.found, f.cut ∉ buf) ∧
    (a.found.map Found.cut).Nodup
  none : w.cuts = false → a.cuts = buf
  lambda : w.lambda = true → (a.found.map Found.lambda).Nodup
  num : (a.found.length : ℚ) < c.par .maxNumComputedCuts + 1

theorem chosen_source {c : Call} {W : List Nat} {i : Nat} {m m' : Nat → ℤ} {d : Dense} (h : RowOk c W i m) (h0 : m i ≠ 0)
    (hc : chosen c m i = some (m', d)) : Source c W i m' ∧ cgCut c (flipped c m') = some d := by
  unfold chosen at hc
  split at hc
  · rename_i d' hd
    cases hc
    refine ⟨?_, hd⟩
    rcases h with h | h
    · left
      rcases startPi_eq c i with h' | h'
      · refine ⟨?_, by rw [h, h']⟩
        by_contra hs
        rw [h] at h0
        exact h0 (by unfold startPi; simp [hs])
      · rw [h, h'] at h0; exact absurd rfl h0
    · exact Or.inr ⟨h, h0⟩
  · split at hc
    · rename_i hs
      rw [Option.map_eq_some_iff] at hc
      obtain ⟨d', hd, he⟩ := hc
      cases he
      exact ⟨Or.inl ⟨hs, rfl⟩, hd⟩
    · cases hc

theorem record_inv {c : Call} {w : Wanted} {buf : List RowCut} {a : Acc} {f : Found} (ha : Inv c w buf a) (hf : Made c f)
    (hn : (a.found.length : ℚ) < c.par .maxNumComputedCuts)
    (hl : w.lambda = true → ∀ g ∈ a.found, g.lambda ≠ f.lambda) : Inv c w buf (record w a f) := by
  have hmade : ∀ g ∈ a.found ++ [f], Made c g := by
    intro g hg
    rcases List.mem_append.mp hg with hg | hg
    · exact ha.made g hg
    · rw [List.mem_singleton.mp hg]; exact hf
  have hlam : w.lambda = true → ((a.found ++ [f]).map Found.lambda).Nodup := by
    intro hw
    rw [List.map_append, List.nodup_append]
    refine ⟨ha.lambda hw, by simp, ?_⟩
    rintro x hx y hy rfl
    obtain ⟨g, hg, rfl⟩ := List.mem_map.mp hx
    rw [List.map_cons, List.map_nil, List.mem_singleton] at hy
    exact hl hw g hg hy
  have hnum : ((a.found ++ [f]).length : ℚ) < c.par .maxNumComputedCuts + 1 := by
    rw [List.length_append, List.length_singleton]; push_cast; linarith
  unfold record
  by_cases hw : w.cuts = true
  · rw [if_pos hw]
    by_cases hm : f.cut ∈ a.cuts
    · rw [if_pos hm]; exact ha
    · rw [if_neg hm]
      obtain ⟨h1, h2, h3⟩ := ha.cuts hw
      rw [h1, List.mem_append, not_or] at hm
      refine ⟨hmade, fun _ => ⟨?_, ?_, ?_⟩, fun h => absurd hw (by simp [h]), hlam, hnum⟩
      · dsimp only
        unfold insertIfNotDuplicate
        rw [h1, if_neg (by rw [List.mem_append, not_or]; exact hm), List.map_append, List.append_assoc]
        rfl
      · intro g hg
        rcases List.mem_append.mp hg with hg | hg
        · exact h2 g hg
        · rw [List.mem_singleton.mp hg]; exact hm.1
      · dsimp only
        rw [List.map_append, List.nodup_append]
        refine ⟨h3, by simp, ?_⟩
        rintro x hx y hy rfl
        rw [List.map_cons, List.map_nil, List.mem_singleton] at hy
        exact hm.2 (hy ▸ hx)
  · rw [if_neg hw]
    refine ⟨hmade, fun h => absurd h hw, ha.none, hlam, hnum⟩

theorem oneCut_inv {c : Call} {w : Wanted} {buf : List RowCut} {s : Param.Strat.CS} (hs : s ∈ c.strat.cols) {i : Nat}
    (hi : i < mTab c) {m : Nat → ℤ} (hm : RowOk c (workCols c s) i m) {a b : Acc} (ha : Inv c w buf a)
    (hn : (a.found.length : ℚ) < c.par .maxNumComputedCuts) (h : oneCut c w m i a = .ok b) : Inv c w buf b := by
  unfold oneCut at h
  split at h
  · cases h; exact ha
  rename_i h0
  split at h
  · cases h
  rename_i hlen
  split at h
  · cases h; exact ha
  rename_i m' d hch
  obtain ⟨hsrc, hd⟩ := chosen_source hm h0 hch
  split at h
  · cases h; exact ha
  rename_i hdup
  split at h
  · cases h
  · cases h; exact ha
  · rename_i es rhs hp
    cases h
    refine record_inv ha ⟨s, hs, i, hi, m', d, es, rhs, hsrc, not_lt.mp hlen, hd, hp, rfl⟩ hn ?_
    intro hw g hg he
    exact hdup ⟨hw, g, hg, he⟩

theorem cutLoop_inv {c : Call} {w : Wanted} {buf : List RowCut} {s : Param.Strat.CS} (hs : s ∈ c.strat.cols)
    {pi : Nat → Nat → ℤ} (hpi : ∀ k, RowOk c (workCols c s) k (pi k)) : ∀ (l : List Nat) (a b : Acc),
    (∀ i ∈ l, i < mTab c) → Inv c w buf a → cutLoop c w pi l a = .ok b → Inv c w buf b := by
  intro l
  induction l with
  | nil => intro a b _ ha h; cases h; exact ha
  | cons i l ih =>
    intro a b hl ha h
    unfold cutLoop at h
    split at h
    · rename_i hn
      split at h
      · cases h
      · rename_i e he
        exact ih _ _ (fun k hk => hl k (List.mem_cons_of_mem _ hk))
          (oneCut_inv hs (hl i (List.mem_cons_self ..)) (hpi i) ha hn he) h
    · cases h; exact ha

theorem mainLoop_inv {c : Call} {w : Wanted} {buf : List RowCut} : ∀ (l : List (Param.Strat.CS × ℤ × Param.Strat.RS))
    (a b : Acc), (∀ e ∈ l, e.1 ∈ c.strat.cols) → Inv c w buf a → mainLoop c w l a = .ok b → Inv c w buf b := by
  intro l
  induction l with
  | nil => intro a b _ ha h; cases h; exact ha
  | cons e l ih =>
    obtain ⟨s, n, r⟩ := e
    intro a b hl ha h
    unfold mainLoop at h
    split at h
    · split at h
      · cases h
      rename_i pi hpi
      split at h
      · cases h
      rename_i a' ha'
      refine ih _ _ (fun k hk => hl k (List.mem_cons_of_mem _ hk)) ?_ h
      exact cutLoop_inv (hl _ (List.mem_cons_self ..)) (fun k => reduce_ok hpi k) _ _ _
        (fun i hi => List.mem_range.mp hi) ha ha'
    · cases h; exact ha

theorem rounds_cols {c : Call} : ∀ e ∈ rounds c, e.1 ∈ c.strat.cols := by
  intro e he
  unfold rounds at he
  obtain ⟨s, hs, he⟩ := List.mem_flatMap.mp he
  obtain ⟨n, _, he⟩ := List.mem_flatMap.mp he
  obtain ⟨r, _, rfl⟩ := List.mem_map.mp he
  exact hs

/-! ### The choice of the best -/

theorem map_getD_range {α : Type} (l : List α) (z : α) : (List.range l.length).map (fun i => l.getD i z) = l := by
  apply List.ext_getElem
  · simp
  · intro i h1 h2
    simp [List.getD, h2]

/-- What is left when only the best `n` are wanted is a part of what was found. -/
theorem best_subperm (fs : List Found) (n : Nat) : (best fs n).Subperm fs := by
  unfold best
  split
  · set z : Found := ⟨⟨0, 0, []⟩, 0, []⟩
    set q := (List.range fs.length).map fun i => (i, (fs.getD i z).quality)
    have h1 : ((qsort q).map fun e => fs.getD e.1 z).Perm fs := by
      refine ((qsort_perm q).map _).trans ?_
      rw [List.map_map]
      have : ((fun e : Nat × ℚ => fs.getD e.1 z) ∘ fun i => (i, (fs.getD i z).quality)) = fun i => fs.getD i z := rfl
      rw [this, map_getD_range]
    exact ((List.take_sublist n _).map _).subperm.trans h1.subperm
  · exact List.Subperm.refl _

theorem best_length (fs : List Found) (n : Nat) : (best fs n).length = min n fs.length := by
  unfold best
  split
  · rename_i h
    rw [List.length_map, List.length_take, (qsort_perm _).length_eq, List.length_map, List.length_range]
  · omega

instance : Std.Total before := ⟨fun a b => by
  unfold before
  rcases lt_trichotomy a.2 b.2 with h | h | h
  · exact Or.inl (Or.inl h)
  · rcases le_total a.1 b.1 with h' | h'
    · exact Or.inl (Or.inr ⟨h, h'⟩)
    · exact Or.inr (Or.inr ⟨h.symm, h'⟩)
  · exact Or.inr (Or.inl h)⟩

instance : IsTrans (Nat × ℚ) before := ⟨fun a b d h1 h2 => by
  unfold before at *
  rcases h1 with h1 | ⟨h1, h1'⟩ <;> rcases h2 with h2 | ⟨h2, h2'⟩
  · exact Or.inl (h1.trans h2)
  · exact Or.inl (h2 ▸ h1)
  · exact Or.inl (h1 ▸ h2)
  · exact Or.inr ⟨h1.trans h2, h1'.trans h2'⟩⟩

theorem qsort_sorted (l : List (Nat × ℚ)) : (qsort l).Pairwise before := List.pairwise_insertionSort before l

theorem before_le {a b : Nat × ℚ} (h : before a b) : a.2 ≤ b.2 := by
  rcases h with h | ⟨h, _⟩
  · exact h.le
  · exact h.le

/-- Each one that is kept is at least as good as each one that is not. -/
theorem best_quality {fs : List Found} {n : Nat} : ∃ rest, (best fs n ++ rest).Perm fs ∧
    ∀ f ∈ best fs n, ∀ g ∈ rest, f.quality ≤ g.quality := by
  unfold best
  split
  · set z : Found := ⟨⟨0, 0, []⟩, 0, []⟩
    set q := (List.range fs.length).map fun i => (i, (fs.getD i z).quality) with hq
    refine ⟨((qsort q).drop n).map fun e => fs.getD e.1 z, ?_, ?_⟩
    · rw [← List.map_append, List.take_append_drop]
      refine ((qsort_perm q).map _).trans ?_
      rw [List.map_map]
      have : ((fun e : Nat × ℚ => fs.getD e.1 z) ∘ fun i => (i, (fs.getD i z).quality)) = fun i => fs.getD i z := rfl
      rw [this, map_getD_range]
    · intro f hf g hg
      obtain ⟨e1, he1, rfl⟩ := List.mem_map.mp hf
      obtain ⟨e2, he2, rfl⟩ := List.mem_map.mp hg
      have hs := qsort_sorted q
      rw [← List.take_append_drop n (qsort q), List.pairwise_append] at hs
      have hle := before_le (hs.2.2 e1 he1 e2 he2)
      have key : ∀ e ∈ qsort q, e.2 = (fs.getD e.1 z).quality := by
        intro e he
        obtain ⟨i, _, rfl⟩ := List.mem_map.mp ((qsort_perm q).mem_iff.mp he)
        rfl
      rw [← key e1 (List.mem_of_mem_take he1), ← key e2 (List.mem_of_mem_drop he2)]
      exact hle
  · exact ⟨[], by simp, by simp⟩

theorem foldl_insert {fs : List Found} {cs : List RowCut} : ∃ new : List RowCut,
    fs.foldl (fun l f => insertIfNotDuplicate l f.cut) cs = cs ++ new ∧ new.Sublist (fs.map Found.cut) ∧
      ∀ f ∈ fs, f.cut ∈ cs ∨ f.cut ∈ new := by
  induction fs generalizing cs with
  | nil => exact ⟨[], by simp, by simp, by simp⟩
  | cons f fs ih =>
    rw [List.foldl_cons]
    obtain ⟨new, h1, h2, h3⟩ := ih (cs := insertIfNotDuplicate cs f.cut)
    rw [h1]
    by_cases hm : f.cut ∈ cs
    · have he : insertIfNotDuplicate cs f.cut = cs := if_pos hm
      rw [he] at h3 ⊢
      refine ⟨new, rfl, h2.cons _, fun g hg => ?_⟩
      rcases List.mem_cons.mp hg with rfl | hg
      · exact Or.inl hm
      · exact h3 g hg
    · have he : insertIfNotDuplicate cs f.cut = cs ++ [f.cut] := if_neg hm
      rw [he] at h3 ⊢
      refine ⟨f.cut :: new, by simp, h2.cons_cons _, fun g hg => ?_⟩
      rcases List.mem_cons.mp hg with rfl | hg
      · exact Or.inr (List.mem_cons_self ..)
      · rcases h3 g hg with h | h
        · rcases List.mem_append.mp h with h | h
          · exact Or.inl h
          · exact Or.inr (by rw [List.mem_singleton.mp h]; exact List.mem_cons_self ..)
        · exact Or.inr (List.mem_cons_of_mem _ h)

/-! ### A whole call -/

/-- What a call delivers. -/
structure Result (c : Call) (w : Wanted) (maxNum : Nat) (cs cs' : List RowCut) (fs : List Found) : Prop where
  made : ∀ f ∈ fs, Made c f
  slots : fs ≠ [] → (slots c).length = mTab c ∧ goodModel c.P c.lp.toLp = true
  cuts : ∃ new, cs' = cs ++ new ∧ new.length ≤ fs.length ∧ (∀ d ∈ new, ∃ f ∈ fs, f.cut = d) ∧
    (w.cuts = true → ∀ f ∈ fs, f.cut ∈ cs') ∧ (w.cuts = false → new = [])
  lambda : w.lambda = true → (fs.map Found.lambda).Nodup
  num : (fs.length : ℚ) < c.par .maxNumComputedCuts + 1
  limit : fs.length ≤ maxNum

theorem run_result {c : Call} (hr : Reached c.prm) {w : Wanted} {maxNum : Nat} {cs cs' : List RowCut} {fs : List Found}
    (h : run c w maxNum cs = .ok (cs', fs)) : Result c w maxNum cs cs' fs := by
  have h0 : 0 ≤ c.par .maxNumComputedCuts := hr.range .maxNumComputedCuts
  unfold run at h
  split at h
  · cases h
  split at h
  · cases h
    exact ⟨by simp, by simp, ⟨[], by simp⟩, by simp, by push_cast [List.length_nil]; linarith, by simp⟩
  rename_i hgood
  split at h
  · cases h
  rename_i hlen
  split at h
  · cases h
  split at h
  · cases h
  rename_i a ha
  rw [Except.ok.injEq] at h
  set buf := if (maxNum : ℚ) < c.par .maxNumComputedCuts then [] else cs with hbuf
  have hinv := mainLoop_inv (c := c) (w := w) (buf := buf) _ _ _ rounds_cols
    ⟨by simp, by simp, by simp, by simp, by push_cast [List.length_nil]; linarith⟩ ha
  have hslots : ∀ fs : List Found, (∀ f ∈ fs, Made c f) → fs ≠ [] → (slots c).length = mTab c ∧
      goodModel c.P c.lp.toLp = true := by
    intro fs hm hne
    obtain ⟨f, hf⟩ := List.exists_mem_of_ne_nil _ hne
    obtain ⟨s, _, i, _, m, d, es, rhs, _, hle, _⟩ := hm f hf
    refine ⟨le_antisymm (not_lt.mp hlen) hle, ?_⟩
    by_contra hg
    exact hgood (Or.inr (Or.inr (by simpa using hg)))
  unfold finish at h
  split at h
  · rename_i hlim
    have hsub := best_subperm a.found maxNum
    cases h
    have hmade : ∀ f ∈ best a.found maxNum, Made c f := fun f hf => hinv.made f (hsub.subset hf)
    refine ⟨hmade, hslots _ hmade, ?_, fun hw => ?_, ?_, ?_⟩
    · by_cases hw : w.cuts = true
      · obtain ⟨new, h1, h2, h3⟩ := foldl_insert (fs := best a.found maxNum) (cs := cs)
        rw [if_pos hw]
        refine ⟨new, h1, ?_, fun d hd => ?_, fun _ f hf => ?_, fun h => absurd hw (by simp [h])⟩
        · have := h2.length_le; rwa [List.length_map] at this
        · obtain ⟨f, hf, he⟩ := List.mem_map.mp (h2.subset hd)
          exact ⟨f, hf, he⟩
        · rw [h1]; exact List.mem_append.mpr (h3 f hf)
      · rw [if_neg hw]
        exact ⟨[], by simp, by simp, by simp, fun h => absurd h hw, fun _ => rfl⟩
    · obtain ⟨rest, hp, _⟩ := best_quality (fs := a.found) (n := maxNum)
      have := ((hp.map Found.lambda).nodup_iff).mpr (hinv.lambda hw)
      rw [List.map_append, List.nodup_append] at this
      exact this.1
    · have h1 := hsub.length_le
      have h2 := hinv.num
      have : ((best a.found maxNum).length : ℚ) ≤ a.found.length := by exact_mod_cast h1
      linarith
    · rw [best_length]; exact min_le_left _ _
  · rename_i hlim
    cases h
    have hb : buf = cs := if_neg hlim
    rw [hb] at hinv
    refine ⟨hinv.made, hslots _ hinv.made, ?_, hinv.lambda, hinv.num, ?_⟩
    · by_cases hw : w.cuts = true
      · obtain ⟨h1, h2, h3⟩ := hinv.cuts hw
        refine ⟨_, h1, by simp, fun d hd => ?_, fun _ f hf => ?_, fun h => absurd hw (by simp [h])⟩
        · obtain ⟨f, hf, he⟩ := List.mem_map.mp hd
          exact ⟨f, hf, he⟩
        · rw [h1]; exact List.mem_append_right _ (List.mem_map_of_mem hf)
      · have h1 := hinv.none (by simpa using hw)
        exact ⟨[], by simp [h1], by simp, by simp, fun h => absurd h hw, fun _ => rfl⟩
    · have h2 := hinv.num
      have : (a.found.length : ℚ) < (maxNum : ℚ) + 1 := by linarith [not_lt.mp hlim]
      have : a.found.length < maxNum + 1 := by exact_mod_cast this
      omega

end Cgl.RedSplit2
