import Verif.Knapsack.UpDown

/-!
# The cover searches
-/

namespace Cgl.Knapsack

/-- `q` is a multiple of `δ`. -/
def Grid (δ q : ℚ) : Prop := ∃ n : ℤ, q = n * δ

theorem Grid.zero (δ : ℚ) : Grid δ 0 := ⟨0, by simp⟩
theorem Grid.add {δ a b : ℚ} (ha : Grid δ a) (hb : Grid δ b) : Grid δ (a + b) := by
  obtain ⟨m, rfl⟩ := ha; obtain ⟨n, rfl⟩ := hb; exact ⟨m + n, by push_cast; ring⟩
theorem Grid.neg {δ a : ℚ} (ha : Grid δ a) : Grid δ (-a) := by
  obtain ⟨m, rfl⟩ := ha; exact ⟨-m, by push_cast; ring⟩
theorem Grid.sub {δ a b : ℚ} (ha : Grid δ a) (hb : Grid δ b) : Grid δ (a - b) := by
  rw [sub_eq_add_neg]; exact ha.add hb.neg
theorem Grid.imul {δ a n : ℚ} (hn : IsInteger n) (ha : Grid δ a) : Grid δ (n * a) := by
  obtain ⟨m, rfl⟩ := ha; obtain ⟨k, rfl⟩ := hn; exact ⟨k * m, by push_cast; ring⟩

theorem Grid.le {δ a b : ℚ} (hδ : 0 < δ) (ha : Grid δ a) (hb : Grid δ b) (h : a < b + δ) : a ≤ b := by
  obtain ⟨m, rfl⟩ := ha
  obtain ⟨n, rfl⟩ := hb
  have h1 : ((m : ℚ)) < n + 1 := by
    have : (m : ℚ) * δ < (n + 1) * δ := by linarith
    exact lt_of_mul_lt_mul_right this hδ.le
  have h2 : m ≤ n := by exact_mod_cast Int.lt_add_one_iff.mp (by exact_mod_cast h1)
  have : (m : ℚ) ≤ n := by exact_mod_cast h2
  exact mul_le_mul_of_nonneg_right this hδ.le

theorem Grid.total {δ : ℚ} : ∀ (v : SVec), (∀ p ∈ v, Grid δ p.2) → Grid δ (total v)
  | [], _ => by simpa [Knapsack.total] using Grid.zero δ
  | p :: t, h => by
    have : Knapsack.total (p :: t) = p.2 + Knapsack.total t := by simp [Knapsack.total]
    rw [this]
    exact (h p List.mem_cons_self).add (Grid.total t fun q hq => h q (List.mem_cons_of_mem _ hq))

theorem total_append (v w : SVec) : total (v ++ w) = total v + total w := by simp [total]
theorem total_perm {v w : SVec} (h : v.Perm w) : total v = total w := (h.map _).sum_eq
theorem total_nil : total [] = 0 := by simp [total]
theorem total_cons (p : Nat × ℚ) (t : SVec) : total (p :: t) = p.2 + total t := by simp [total]
theorem total_reverse (v : SVec) : total v.reverse = total v := total_perm (List.reverse_perm v)

theorem total_sub {v : SVec} : ∀ {w : SVec}, v.Sublist w → (∀ p ∈ w, 0 ≤ p.2) → total v ≤ total w := by
  intro w h
  induction h with
  | slnil => intro _; exact le_refl _
  | @cons l m p _ ih =>
    intro hp
    rw [total_cons]
    have := ih fun q hq => hp q (List.mem_cons_of_mem _ hq)
    have := hp p List.mem_cons_self
    linarith
  | @cons_cons l m p _ ih =>
    intro hp
    rw [total_cons, total_cons]
    have := ih fun q hq => hp q (List.mem_cons_of_mem _ hq)
    linarith

/-- A canonical knapsack row with data on a grid and a clean LP point that satisfies it. -/
structure KOk (δ : ℚ) (k : Knap) : Prop where
  dge : 1 / 10000 ≤ δ
  pos : ∀ p ∈ k.krow, 0 < p.2
  grid : ∀ p ∈ k.krow, Grid δ p.2
  bgrid : Grid δ k.b
  x0 : ∀ p ∈ k.krow, 0 ≤ k.xs p.1
  x1 : ∀ p ∈ k.krow, k.xs p.1 ≤ 1
  cleanOne : ∀ p ∈ k.krow, onetol < k.xs p.1 → k.xs p.1 = 1
  sat : k.krow.dot k.xs ≤ k.b

/-- The cut holds at every 0-1 point of the knapsack row. -/
def KValid (k : Knap) (c : RowCut) : Prop :=
  ∀ x y : Nat → ℚ, (∀ j, y j = if j ∈ k.comp then 1 - x j else x j) → Bin k.krow y → k.krow.dot y ≤ k.b →
    c.lb = -dblMax ∧ c.row.dot x ≤ c.ub

theorem KOk.dpos {δ : ℚ} {k : Knap} (ok : KOk δ k) : 0 < δ := by have := ok.dge; linarith

theorem KOk.big {δ : ℚ} {k : Knap} (ok : KOk δ k) : ∀ p ∈ k.krow, δ ≤ p.2 := by
  intro p hp
  by_contra h
  have : p.2 ≤ 0 := Grid.le ok.dpos (ok.grid p hp) (Grid.zero δ) (by linarith)
  have := ok.pos p hp
  linarith

theorem KOk.eps {δ : ℚ} {k : Knap} (ok : KOk δ k) : ∀ p ∈ k.krow, eps < p.2 := by
  intro p hp
  have h1 := ok.big p hp
  have h2 := ok.dge
  have h3 : Knapsack.eps < 1 / 10000 := by norm_num [Knapsack.eps]
  linarith

theorem dot_nonneg : ∀ (v : SVec) (y : Nat → ℚ), (∀ p ∈ v, 0 ≤ p.2) → (∀ p ∈ v, 0 ≤ y p.1) → 0 ≤ v.dot y
  | [], y, _, _ => by simp
  | p :: t, y, h1, h2 => by
    rw [SVec.dot_cons]
    have := dot_nonneg t y (fun q hq => h1 q (List.mem_cons_of_mem _ hq)) (fun q hq => h2 q (List.mem_cons_of_mem _ hq))
    have := mul_nonneg (h1 p List.mem_cons_self) (h2 p List.mem_cons_self)
    linarith

theorem dot_pos {v : SVec} {y : Nat → ℚ} (hne : v ≠ []) (h1 : ∀ p ∈ v, 0 < p.2) (h2 : ∀ p ∈ v, 0 < y p.1) : 0 < v.dot y := by
  cases v with
  | nil => exact absurd rfl hne
  | cons p t =>
    rw [SVec.dot_cons]
    have := dot_nonneg t y (fun q hq => (h1 q (List.mem_cons_of_mem _ hq)).le) (fun q hq => (h2 q (List.mem_cons_of_mem _ hq)).le)
    have := mul_pos (h1 p List.mem_cons_self) (h2 p List.mem_cons_self)
    linarith

theorem dot_ones : ∀ (v : SVec) (y : Nat → ℚ), (∀ p ∈ v, y p.1 = 1) → v.dot y = total v
  | [], y, _ => by simp [total]
  | p :: t, y, h => by
    rw [SVec.dot_cons, dot_ones t y fun q hq => h q (List.mem_cons_of_mem _ hq), h p List.mem_cons_self, total_cons, mul_one]

theorem KOk.bnonneg {δ : ℚ} {k : Knap} (ok : KOk δ k) : 0 ≤ k.b :=
  le_trans (dot_nonneg _ _ (fun p hp => (ok.pos p hp).le) ok.x0) ok.sat

/-- Lifting a minimal cover. -/
theorem liftAndUncomp_valid {δ : ℚ} {k : Knap} (ok : KOk δ k) {cover rem : SVec} (hperm : (cover ++ rem).Perm k.krow)
    (hs : cover.Pairwise fun p q => q.2 ≤ p.2) (hne : cover ≠ []) (hmin : ∀ p ∈ cover, total cover - p.2 ≤ k.b + eps2)
    (hcov : rem = [] → k.b < total cover) {c : RowCut} (h : liftAndUncomp k cover rem = some (some c)) : KValid k c := by
  intro x y hxy hbin hk
  have hmem : ∀ p ∈ cover, p ∈ k.krow := fun p hp => hperm.mem_iff.mp (List.mem_append_left _ hp)
  have hmemr : ∀ p ∈ rem, p ∈ k.krow := fun p hp => hperm.mem_iff.mp (List.mem_append_right _ hp)
  have hb := hbin.perm hperm.symm
  obtain ⟨hbc, hbr⟩ := Bin.append.mp hb
  rw [← SVec.dot_perm hperm, SVec.dot_append] at hk
  have heps : eps2 < δ := by
    have := ok.dge
    have : eps2 < 1 / 10000 := by norm_num [eps2]
    linarith
  have hgt : Grid δ (total cover) := Grid.total _ fun p hp => ok.grid p (hmem p hp)
  have hmin' : ∀ p ∈ cover, total cover - p.2 ≤ k.b := by
    intro p hp
    refine Grid.le ok.dpos (hgt.sub (ok.grid p (hmem p hp))) ok.bgrid ?_
    have := hmin p hp
    linarith
  have hfirst : total cover - k.b ≤ seqOf cover 0 := by
    cases cover with
    | nil => exact absurd rfl hne
    | cons p t =>
      rw [seqOf_cons_zero]
      have := hmin' p List.mem_cons_self
      linarith
  have fin : ∀ cut : SVec, cut.dot y ≤ (cover.length : ℚ) - 1 →
      some (some (match uncomp k.comp cut ((cover.length : ℚ) - 1) with | (v, r) => (⟨-dblMax, r, v⟩ : RowCut))) = some (some c) →
      c.lb = -dblMax ∧ c.row.dot x ≤ c.ub := by
    intro cut hle hc
    have hu := uncomp_spec k.comp hxy cut ((cover.length : ℚ) - 1)
    generalize uncomp k.comp cut ((cover.length : ℚ) - 1) = q at hc hu
    obtain ⟨v, r⟩ := q
    simp only [Option.some.injEq] at hc
    subst hc
    refine ⟨rfl, ?_⟩
    show v.dot x ≤ r
    simp only at hu
    linarith
  unfold liftAndUncomp at h
  simp only at h
  split at h
  · split at h
    · cases h
    · cases h
    · rename_i cut hcut
      refine fin cut ?_ h
      have hlam : ¬ total cover - k.b < eps2 := by
        intro hl
        unfold liftCoverCut at hcut
        simp only [if_pos hl] at hcut
        cases hcut
      have ok' : LiftOk k.b cover rem := ⟨hs, fun p hp => (ok.pos p (hmem p hp)).le, fun p hp => (ok.pos p (hmemr p hp)).le,
        by have := eps2_pos; linarith, hfirst⟩
      refine liftCoverCut_valid ok' ?_ hcut hbc hbr hk
      intro he
      -- on the grid
      match cover, hmem, hgt with
      | [], _, _ => exact absurd rfl hne
      | [p], hmem, hgt =>
        have h1 : seqOf [p] 1 = 0 := by simp [seqOf]
        rw [h1]
        rw [seqOf_cons_zero] at he ⊢
        simp only [total_cons, total_nil, h1] at he ⊢
        have := ok.bnonneg
        linarith
      | p :: q :: t, hmem, hgt =>
        have h1 : seqOf (p :: q :: t) 1 = q.2 := by simp [seqOf]
        rw [h1] at he ⊢
        rw [seqOf_cons_zero] at he ⊢
        refine Grid.le ok.dpos (ok.grid q (hmem q (by simp))) ((ok.grid p (hmem p (by simp))).sub (hgt.sub ok.bgrid)) ?_
        have h3 : eps < δ := by have := ok.dge; have : eps < 1 / 10000 := by norm_num [eps]
                                linarith
        linarith
  · rename_i hr
    have hr' : rem = [] := List.length_eq_zero_iff.mp (by omega)
    refine fin _ ?_ h
    have ok' : LiftOk k.b cover rem := ⟨hs, fun p hp => (ok.pos p (hmem p hp)).le, fun p hp => (ok.pos p (hmemr p hp)).le,
      hcov hr', hfirst⟩
    have := lifts_valid ok' (l := []) (by rw [hr']; exact .nil) hbc hbr hk
    simpa using this

/-! ## Greedy -/

theorem greedyLoop_spec {xs : Nat → ℚ} {b : ℚ} : ∀ (todo cover rem : SVec) (asum xsum : ℚ) (got : Bool) (done : SVec),
    (done ++ todo).Pairwise (fun p q => q.2 ≤ p.2) → cover.Sublist done → (cover ++ rem).Perm done → asum = total cover →
    (got = false → asum ≤ b + eps2) → (got = true → b + eps2 < asum ∧ ∀ p ∈ cover, total cover - p.2 ≤ b + eps2) →
    ∀ xsum' got' cover' rem', greedyLoop xs b todo asum xsum got cover rem = (xsum', got', cover', rem') →
    cover'.Sublist (done ++ todo) ∧ (cover' ++ rem').Perm (done ++ todo) ∧
      (got' = true → b + eps2 < total cover' ∧ ∀ p ∈ cover', total cover' - p.2 ≤ b + eps2) := by
  intro todo
  induction todo with
  | nil =>
    intro cover rem asum xsum got done hs h1 h2 h3 h4 h5 xsum' got' cover' rem' h
    simp only [greedyLoop, Prod.mk.injEq] at h
    obtain ⟨rfl, rfl, rfl, rfl⟩ := h
    rw [List.append_nil]
    refine ⟨h1, h2, fun hg => ?_⟩
    rw [← h3]; rw [h3] at h5 ⊢; exact h5 hg
  | cons q t ih =>
    obtain ⟨j, a⟩ := q
    intro cover rem asum xsum got done hs h1 h2 h3 h4 h5 xsum' got' cover' rem' h
    have hassoc : done ++ (j, a) :: t = (done ++ [(j, a)]) ++ t := by simp
    rw [hassoc] at hs ⊢
    unfold greedyLoop at h
    split at h
    · rename_i hc
      have hle : ∀ p ∈ cover, a ≤ p.2 := by
        intro p hp
        have hp' := h1.subset hp
        have := (List.pairwise_append.mp (List.pairwise_append.mp hs).1).2.2 p hp' (j, a) (by simp)
        exact this
      refine ih (cover ++ [(j, a)]) rem (asum + a) _ _ (done ++ [(j, a)]) hs (h1.append (List.Sublist.refl _)) ?_ ?_ ?_ ?_ _ _ _ _ h
      · have : ((cover ++ [(j, a)]) ++ rem).Perm ((cover ++ rem) ++ [(j, a)]) := by
          rw [List.append_assoc, List.append_assoc]
          exact List.Perm.append_left _ List.perm_append_comm
        exact this.trans (h2.append_right _)
      · rw [total_append, h3]; simp [total]
      · intro hf; simpa using hf
      · intro hg
        simp only [decide_eq_true_eq] at hg
        refine ⟨hg, ?_⟩
        intro p hp
        have htot : total (cover ++ [(j, a)]) = total cover + a := by rw [total_append]; simp [total]
        have hold := h4 hc.2.2
        rw [h3] at hold
        rw [htot]
        rcases List.mem_append.mp hp with hp | hp
        · have := hle p hp; linarith
        · simp only [List.mem_singleton] at hp; subst hp; simp only; linarith
    · refine ih cover (rem ++ [(j, a)]) asum _ _ (done ++ [(j, a)]) hs (h1.trans (List.sublist_append_left _ _)) ?_ h3 h4 h5 _ _ _ _ h
      rw [← List.append_assoc]
      exact h2.append_right _

theorem findGreedy_spec (S : Sorter) {krow : SVec} {b : ℚ} {xs : Nat → ℚ} (hb : 0 ≤ b) :
    (findGreedy S krow b xs).1.Perm krow ∧ ∀ cover rem, (findGreedy S krow b xs).2 = some (cover, rem) →
      (cover ++ rem).Perm krow ∧ cover.Pairwise (fun p q => q.2 ≤ p.2) ∧ cover ≠ [] ∧ b < total cover ∧
      ∀ p ∈ cover, total cover - p.2 ≤ b + eps2 := by
  unfold findGreedy
  simp only
  have hsort := S.sorted Prod.snd krow
  generalize hg : greedyLoop xs b (S.run Prod.snd krow) 0 0 false [] [] = q
  obtain ⟨xsum', got', cover', rem'⟩ := q
  have e2 := eps2_pos
  obtain ⟨g1, g2, g3⟩ := greedyLoop_spec (S.run Prod.snd krow) [] [] 0 0 false [] (by simpa using hsort) (List.Sublist.refl _) (by simp)
    (by simp [total]) (by intro _; linarith) (by intro h; cases h) _ _ _ _ hg
  rw [List.nil_append] at g1 g2
  refine ⟨S.perm _ _, ?_⟩
  intro cover rem h
  simp only at h
  split at h
  · cases h
  · rename_i hn
    push Not at hn
    simp only [Option.some.injEq, Prod.mk.injEq] at h
    obtain ⟨rfl, rfl⟩ := h
    obtain ⟨k1, k2⟩ := g3 (by simpa using hn.2.1)
    refine ⟨g2.trans (S.perm _ _), hsort.sublist g1, ?_, by linarith, k2⟩
    rintro rfl
    simp at hn

/-! ## Minimal covers -/

theorem tossSmallest_spec {lim : ℚ} : ∀ (rcover : SVec) (one : ℚ) (rem c rm : SVec), one = total rcover.tail →
    rcover.Pairwise (fun p q => p.2 ≤ q.2) → tossSmallest lim rcover one rem = some (c, rm) →
    (c ++ rm).Perm (rcover ++ rem) ∧ c.reverse.Sublist rcover ∧ c ≠ [] ∧ (∀ p ∈ c, total c - p.2 ≤ lim) ∧
      (lim < total c ∨ (c = rcover.reverse ∧ rm = rem)) := by
  intro rcover
  induction rcover with
  | nil => intro one rem c rm _ _ h; simp [tossSmallest] at h
  | cons p t ih =>
    intro one rem c rm hone hs h
    unfold tossSmallest at h
    simp only [List.tail_cons] at hone
    split at h
    · rename_i hlt
      cases t with
      | nil => simp at h
      | cons q t' =>
        simp only at h
        obtain ⟨h1, h2, h3, h4, h5⟩ := ih (one - q.2) (rem ++ [p]) c rm
          (by simp only [List.tail_cons]; rw [hone, total_cons]; ring) (List.pairwise_cons.mp hs).2 h
        refine ⟨?_, h2.cons _, h3, h4, ?_⟩
        · refine h1.trans ?_
          rw [← List.append_assoc]
          refine List.perm_append_comm.trans ?_
          simp
        · left
          rcases h5 with h5 | ⟨h5, _⟩
          · exact h5
          · rw [h5, total_reverse, ← hone]; exact hlt
    · rename_i hle
      simp only [Option.some.injEq, Prod.mk.injEq] at h
      obtain ⟨rfl, rfl⟩ := h
      refine ⟨(List.reverse_perm _).append_right _, by simp, by simp, ?_, Or.inr ⟨rfl, rfl⟩⟩
      intro q hq
      have hq' : q ∈ p :: t := List.mem_reverse.mp hq
      have hpq : p.2 ≤ q.2 := by
        rcases List.mem_cons.mp hq' with rfl | hq'
        · exact le_refl _
        · exact (List.pairwise_cons.mp hs).1 q hq'
      rw [total_reverse, total_cons, ← hone]
      linarith

theorem minimise_spec (S : Sorter) {lim : ℚ} {cover rem c rm : SVec} {sum : ℚ} (hsum : sum = total cover)
    (h : minimise S lim sum cover rem = some (c, rm)) :
    (c ++ rm).Perm (cover ++ rem) ∧ c.Pairwise (fun p q => q.2 ≤ p.2) ∧ c ≠ [] ∧ (∀ p ∈ c, total c - p.2 ≤ lim) ∧
      (∀ p ∈ c, p ∈ cover) ∧ (lim < total c ∨ (total c = total cover ∧ rm = rem)) := by
  unfold minimise at h
  have hperm : (S.run Prod.snd cover).reverse.Perm cover := (List.reverse_perm _).trans (S.perm _ _)
  have hsort : (S.run Prod.snd cover).reverse.Pairwise (fun p q => p.2 ≤ q.2) := List.pairwise_reverse.mpr (S.sorted _ _)
  generalize hr : (S.run Prod.snd cover).reverse = r at h hperm hsort
  cases r with
  | nil => simp at h
  | cons p t =>
    simp only at h
    obtain ⟨h1, h2, h3, h4, h5⟩ := tossSmallest_spec (p :: t) _ rem c rm
      (by rw [hsum, ← total_perm hperm, total_cons]; simp) hsort h
    refine ⟨h1.trans (hperm.append_right _), ?_, h3, h4, ?_, ?_⟩
    · have := hsort.sublist h2
      have := List.pairwise_reverse.mp this
      simpa using this
    · intro q hq
      exact hperm.mem_iff.mp (h2.subset (List.mem_reverse.mpr hq))
    · rcases h5 with h5 | ⟨h5, h6⟩
      · exact Or.inl h5
      · right
        refine ⟨?_, h6⟩
        rw [h5, total_reverse, total_perm hperm]

/-! ## Most violated covers -/

theorem pick_perm : ∀ (k : SVec) (sol : List Bool), sol.length = k.length → (pick false k sol ++ pick true k sol).Perm k
  | [], [], _ => by simp [pick]
  | [], _ :: _, h => by simp at h
  | _ :: _, [], h => by simp at h
  | p :: t, b :: sol, h => by
    have ih := pick_perm t sol (by simpa using h)
    cases b
    · simp only [pick, if_true, Bool.false_eq_true, if_false, List.cons_append]
      exact ih.cons p
    · simp only [pick, if_true, Bool.true_eq_false, if_false]
      exact List.perm_middle.trans (ih.cons p)

theorem pick_weight (xs : Nat → ℚ) : ∀ (k : SVec) (sol : List Bool), sol.length = k.length →
    total (pick true k sol) = weight (k.map fun p => (1 - xs p.1, p.2)) sol
  | [], [], _ => by simp [pick, weight, total]
  | [], _ :: _, h => by simp at h
  | _ :: _, [], h => by simp at h
  | p :: t, b :: sol, h => by
    have ih := pick_weight xs t sol (by simpa using h)
    cases b
    · simp only [pick, List.map_cons, weight, Bool.false_eq_true, if_false, zero_add]
      exact ih
    · simp only [pick, List.map_cons, weight, if_true, total_cons, ih]

theorem findExact_spec (S : Sorter) {krow : SVec} {b : ℚ} {xs : Nat → ℚ} (hpos : ∀ p ∈ krow, 0 ≤ p.2) {kr cover rem : SVec}
    (h : findExact S krow b xs = some (kr, some (cover, rem))) :
    (cover ++ rem).Perm krow ∧ cover.Pairwise (fun p q => q.2 ≤ p.2) ∧ cover ≠ [] ∧ (rem = [] → b < total cover) ∧
      ∀ p ∈ cover, total cover - p.2 ≤ b := by
  unfold findExact at h
  split at h
  · simp at h
  · rename_i htot
    push Not at htot
    simp only at h
    have hperm := S.perm (coverRatio xs) krow
    set k := S.run (coverRatio xs) krow with hk
    have e1 := eps_pos
    have e2 := eps2_pos
    obtain ⟨z, best, e, hl, hf, _⟩ := exactSolve_fit (items := k.map fun p => (1 - xs p.1, p.2))
      (fun q hq => by obtain ⟨p, hp, rfl⟩ := List.mem_map.mp hq; exact hpos p (hperm.mem_iff.mp hp))
      (c := total krow - b - eps) (by linarith)
    rw [e] at h
    simp only at h
    split at h
    · split at h
      · cases h
      · rename_i c rm hm
        simp only [Option.some.injEq, Prod.mk.injEq] at h
        obtain ⟨_, rfl, rfl⟩ := h
        obtain ⟨g1, g2, g3, g4, g5, g6⟩ := minimise_spec S rfl hm
        have hl' : best.length = k.length := by simpa using hl
        refine ⟨g1.trans ((pick_perm k best hl').trans hperm), g2, g3, ?_, g4⟩
        intro hr
        subst hr
        rcases g6 with g6 | ⟨g6, g7⟩
        · exact g6
        · rw [g6]
          have h1 := total_perm ((pick_perm k best hl').trans hperm)
          rw [total_append, ← g7, total_nil] at h1
          linarith
    · simp at h

theorem findLP_spec (S : Sorter) {krow : SVec} {b : ℚ} {xs : Nat → ℚ} {kr cover rem : SVec}
    (h : findLP S krow b xs = some (kr, some (cover, rem))) :
    (cover ++ rem).Perm krow ∧ cover.Pairwise (fun p q => q.2 ≤ p.2) ∧ cover ≠ [] ∧ b < total cover ∧
      ∀ p ∈ cover, total cover - p.2 ≤ b + eps2 := by
  unfold findLP at h
  split at h
  · simp at h
  · simp only at h
    split at h
    · cases h
    · rename_i r hr
      split at h
      · simp at h
      · split at h
        · simp at h
        · rename_i hc
          push Not at hc
          split at h
          · cases h
          · rename_i c rm hm
            simp only [Option.some.injEq, Prod.mk.injEq] at h
            obtain ⟨_, h⟩ := h
            split at h
            · cases h
            · simp only [Option.some.injEq, Prod.mk.injEq] at h
              obtain ⟨rfl, rfl⟩ := h
              obtain ⟨g1, g2, g3, g4, g5, g6⟩ := minimise_spec S rfl hm
              have hb : b < total (List.drop r (S.run (coverRatio xs) krow)) := by
                have := abs_nonneg b
                have : 0 < 1 / 100000000 * (1 + |b|) := by positivity
                linarith
              refine ⟨?_, g2, g3, ?_, ?_⟩
              · refine g1.trans (List.perm_append_comm.trans ?_)
                rw [List.take_append_drop]
                exact S.perm _ _
              · rcases g6 with g6 | ⟨g6, _⟩
                · have : (0 : ℚ) < 1 / 1000000000000 := by norm_num
                  linarith
                · rw [g6]; exact hb
              · intro p hp
                have := g4 p hp
                have : (1 : ℚ) / 1000000000000 ≤ eps2 := by norm_num [eps2]
                linarith

/-! ## John and Ellis -/

theorem bigFrom_spec : ∀ (l : SVec) (k : Nat) (c : ℚ) (i : Nat), c ≤ (bigFrom l k c i).1 ∧ ∀ p ∈ l, p.2 ≤ (bigFrom l k c i).1
  | [], k, c, i => by simp [bigFrom]
  | p :: t, k, c, i => by
    unfold bigFrom
    split
    · rename_i h
      obtain ⟨h1, h2⟩ := bigFrom_spec t (k + 1) p.2 k
      refine ⟨le_trans h.le h1, ?_⟩
      intro q hq
      rcases List.mem_cons.mp hq with rfl | hq
      · exact h1
      · exact h2 q hq
    · rename_i h
      obtain ⟨h1, h2⟩ := bigFrom_spec t (k + 1) c i
      refine ⟨h1, ?_⟩
      intro q hq
      rcases List.mem_cons.mp hq with rfl | hq
      · exact le_trans (not_lt.mp h) h1
      · exact h2 q hq

theorem scanCover_spec : ∀ (l : SVec) (i : Nat) (margin big : ℚ) (bigI n : Nat) (m : ℚ), (∀ p ∈ l, p.2 ≤ big) →
    scanCover l i margin big bigI = some (n, m) →
    i + 1 ≤ n ∧ n ≤ i + l.length ∧ m = margin - total (l.take (n - i)) ∧ (big ≤ margin + eps2 → -eps2 ≤ m) ∧ (-eps2 ≤ m ∨ n = i + 1) := by
  intro l
  induction l with
  | nil => intro i margin big bigI n m _ h; simp [scanCover] at h
  | cons p t ih =>
    intro i margin big bigI n m hbig h
    unfold scanCover at h
    simp only at h
    have hbig' : ∀ q ∈ t, q.2 ≤ (if i = bigI then bigFrom t (i + 1) 0 0 else (big, bigI)).1 := by
      intro q hq
      split
      · exact (bigFrom_spec t (i + 1) 0 0).2 q hq
      · exact hbig q (List.mem_cons_of_mem _ hq)
    generalize (if i = bigI then bigFrom t (i + 1) 0 0 else (big, bigI)) = bb at h hbig'
    obtain ⟨big', bigI'⟩ := bb
    simp only at h hbig'
    have hp := hbig p List.mem_cons_self
    split at h
    · simp only [Option.some.injEq, Prod.mk.injEq] at h
      obtain ⟨rfl, rfl⟩ := h
      refine ⟨le_refl _, by simp, ?_, ?_, Or.inr rfl⟩
      · rw [Nat.add_sub_cancel_left]; simp [total]
      · intro hm; linarith
    · rename_i hc
      push Not at hc
      obtain ⟨h1, h2, h3, h4, h5⟩ := ih (i + 1) (margin - p.2) big' bigI' n m hbig' h
      refine ⟨by omega, by simp only [List.length_cons]; omega, ?_, fun _ => h4 hc, Or.inl (h4 hc)⟩
      have : n - i = (n - (i + 1)) + 1 := by omega
      rw [this, List.take_succ_cons, total_cons, h3]
      ring

theorem firstFill_spec {margin : ℚ} : ∀ (l a : SVec) (q : Nat × ℚ) (r : SVec), firstFill margin l = some (a, q, r) → l = a ++ q :: r
  | [], a, q, r, h => by simp [firstFill] at h
  | p :: t, a, q, r, h => by
    unfold firstFill at h
    split at h
    · split at h
      · cases h
      · rename_i l' q' r' hf
        simp only [Option.some.injEq, Prod.mk.injEq] at h
        obtain ⟨rfl, rfl, rfl⟩ := h
        rw [firstFill_spec t l' q' r' hf]
        simp
    · simp only [Option.some.injEq, Prod.mk.injEq] at h
      obtain ⟨rfl, rfl, rfl⟩ := h
      simp

theorem swapFirst_spec (l : SVec) (q : Nat × ℚ) (r : SVec) : ∃ rest, swapFirst l q r = q :: rest ∧ rest.Perm (l ++ r) := by
  cases l with
  | nil => exact ⟨r, rfl, by simp⟩
  | cons p l => exact ⟨l ++ p :: r, rfl, by simp⟩

theorem johnEllis_spec (S : Sorter) {xs : Nat → ℚ} {us : SVec} {U : ℚ} {c r : SVec} (h : johnEllis S xs us U = some (some (c, r))) :
    (c ++ r).Perm us ∧ (2 ≤ c.length → U + eps2 < total c → (∃ q ∈ c, total c - q.2 ≤ U + eps2) ∨ ∃ p q, c = [p, q] ∧ U < p.2 ∧ U < q.2) := by
  unfold johnEllis at h
  simp only at h
  have hperm := S.perm (fun p : Nat × ℚ => xs p.1) us
  generalize hun : S.run (fun p : Nat × ℚ => xs p.1) us = un at h hperm
  have hbig := (bigFrom_spec un 0 0 0).2
  generalize bigFrom un 0 0 0 = bb at h hbig
  obtain ⟨big, bigI⟩ := bb
  simp only at h hbig
  split at h
  · cases h
  · rename_i n m hsc
    obtain ⟨h1, h2, h3, _, h5⟩ := scanCover_spec un 0 U big bigI n m hbig hsc
    simp only [Nat.sub_zero, zero_add] at h1 h2 h3 h5
    have e2 := eps2_pos
    split at h
    · rename_i hn
      split at h
      · cases h
      · rename_i l q r' hf
        have hd := firstFill_spec _ _ _ _ hf
        obtain ⟨rest, hsw, hrest⟩ := swapFirst_spec l q r'
        have hlen : (un.take n).length = n := by rw [List.length_take]; omega
        have hc : (List.take n un ++ swapFirst l q r').take (n + 1) = un.take n ++ [q] := by
          rw [hsw, List.take_append, hlen]; simp
        have hr : (List.take n un ++ swapFirst l q r').drop (n + 1) = rest := by
          rw [hsw, List.drop_append, hlen]; simp
        simp only [Option.some.injEq, Prod.mk.injEq] at h
        rw [hc, hr] at h
        obtain ⟨rfl, rfl⟩ := h
        refine ⟨?_, ?_⟩
        · refine List.Perm.trans ?_ hperm
          conv => rhs; rw [← List.take_append_drop n un, hd]
          rw [List.append_assoc]
          refine List.Perm.append_left _ ?_
          simp only [List.singleton_append]
          exact (hrest.cons q).trans List.perm_middle.symm
        · intro _ _
          have htot : total (un.take n ++ [q]) = total (un.take n) + q.2 := by rw [total_append]; simp [total]
          rcases h5 with h5 | h5
          · left
            refine ⟨q, by simp, ?_⟩
            rw [htot]; linarith
          · subst h5
            cases un with
            | nil => simp at hn
            | cons p t =>
              simp only [List.take_succ_cons, List.take_zero, List.cons_append, List.nil_append]
              by_cases hp : p.2 ≤ U
              · left
                refine ⟨q, by simp, ?_⟩
                simp only [total_cons, total_nil]; linarith
              · by_cases hq : q.2 ≤ U
                · left
                  refine ⟨p, by simp, ?_⟩
                  simp only [total_cons, total_nil]; linarith
                · right
                  exact ⟨p, q, rfl, not_le.mp hp, not_le.mp hq⟩
    · rename_i hn
      simp only [Option.some.injEq, Prod.mk.injEq] at h
      obtain ⟨rfl, rfl⟩ := h
      refine ⟨by rw [List.take_append_drop]; exact hperm, ?_⟩
      intro hl ht
      exfalso
      rcases h5 with h5 | h5
      · linarith
      · rw [List.length_take] at hl
        omega

theorem split_perm (xs : Nat → ℚ) (k : SVec) : (fracs xs k ++ (atOnes xs k ++ zeros xs k)).Perm k := by
  have h1 : (atOnes xs k ++ k.filter fun p => !decide (onetol < xs p.1)).Perm k := List.filter_append_perm _ _
  have h2 : (fracs xs k ++ zeros xs k).Perm (k.filter fun p => !decide (onetol < xs p.1)) := by
    have := List.filter_append_perm (fun p : Nat × ℚ => decide (eps ≤ xs p.1)) (k.filter fun p => !decide (onetol < xs p.1))
    rw [List.filter_filter, List.filter_filter] at this
    unfold fracs zeros
    refine List.Perm.trans (List.Perm.of_eq ?_) this
    congr 1
    · apply List.filter_congr; intro p _; exact Bool.and_comm _ _
    · apply List.filter_congr; intro p _; exact Bool.and_comm _ _
  refine List.Perm.trans ?_ h1
  refine List.Perm.trans ?_ (h2.append_left _)
  rw [← List.append_assoc, ← List.append_assoc]
  exact List.perm_append_comm.append_right _

theorem pseudo_valid (S : Sorter) {δ : ℚ} {k : Knap} (ok : KOk δ k) {krow : SVec} (hkr : krow.Perm k.krow) {cover rem : SVec}
    (h : findPseudoJE S krow k.b k.xs = some (some (cover, rem))) {c : RowCut}
    (hc : liftUpDown S k (cover.filter fun p => decide (k.xs p.1 < 1)) (cover.filter fun p => !decide (k.xs p.1 < 1)) rem = some (some c)) :
    KValid k c := by
  unfold findPseudoJE at h
  simp only at h
  split at h
  · cases h
  · cases h
  · rename_i c0 r0 hje
    obtain ⟨j1, _⟩ := johnEllis_spec S hje
    split at h
    · rename_i hcov
      split at h
      · cases h
      · rename_i cv rm hm
        simp only [Option.some.injEq] at h
        split at h
        · cases h
        · simp only [Option.some.injEq, Prod.mk.injEq] at h
          obtain ⟨rfl, rfl⟩ := h
          obtain ⟨g1, g2, g3, g4, g5, g6⟩ := minimise_spec S (by rw [total_append]) hm
          have e2 := eps2_pos
          have hperm : (cv ++ rm).Perm k.krow := by
            refine g1.trans (List.Perm.trans ?_ hkr)
            refine List.Perm.trans ?_ (split_perm k.xs krow)
            refine List.Perm.trans ?_ (j1.append_right _)
            rw [List.append_assoc, List.append_assoc]
            refine List.Perm.append_left _ ?_
            have : (r0 ++ (atOnes k.xs krow ++ zeros k.xs krow)).Perm ((atOnes k.xs krow ++ zeros k.xs krow) ++ r0) := List.perm_append_comm
            refine List.Perm.trans ?_ this.symm
            rw [List.append_assoc]
          have hcv : ∀ p ∈ cv, p ∈ k.krow := fun p hp => hperm.mem_iff.mp (List.mem_append_left _ hp)
          have hrm : ∀ p ∈ rm, p ∈ k.krow := fun p hp => hperm.mem_iff.mp (List.mem_append_right _ hp)
          set fr := cv.filter fun p => decide (k.xs p.1 < 1) with hfr
          set on := cv.filter fun p => !decide (k.xs p.1 < 1) with hon
          have hfo : (fr ++ on).Perm cv := List.filter_append_perm _ _
          have hfrm : ∀ p ∈ fr, p ∈ cv := fun p hp => (List.mem_filter.mp hp).1
          have honm : ∀ p ∈ on, p ∈ cv := fun p hp => (List.mem_filter.mp hp).1
          have hon1 : ∀ p ∈ on, k.xs p.1 = 1 := by
            intro p hp
            have h1 := (List.mem_filter.mp hp).2
            have h2 := ok.x1 p (hcv p (honm p hp))
            simp at h1
            linarith
          have htot : k.b < total cv := by
            rcases g6 with g6 | ⟨g6, _⟩
            · exact g6
            · rw [g6, total_append]; linarith [hcov.2]
          have htot2 : total cv = total fr + total on := by rw [← total_perm hfo, total_append]
          have hx0 : ∀ p ∈ cv, 0 < k.xs p.1 := by
            intro p hp
            have e1 := eps_pos
            rcases List.mem_append.mp (g5 p hp) with hp' | hp'
            · have := j1.mem_iff.mp (List.mem_append_left r0 hp')
              have := (List.mem_filter.mp this).2
              simp at this
              linarith
            · have := (List.mem_filter.mp hp').2
              simp at this
              have : (0 : ℚ) < onetol := by norm_num [onetol, eps]
              linarith
          have hsat : SVec.dot fr k.xs + total on ≤ k.b := by
            have h1 := ok.sat
            rw [← SVec.dot_perm hperm, SVec.dot_append, ← SVec.dot_perm hfo, SVec.dot_append, dot_ones on k.xs hon1] at h1
            have h2 := dot_nonneg rm k.xs (fun p hp => (ok.pos p (hrm p hp)).le) (fun p hp => ok.x0 p (hrm p hp))
            linarith
          have hne : fr ≠ [] := by
            intro he
            rw [he] at htot2 hsat
            simp [total] at htot2 hsat
            simp only [total] at htot
            linarith
          have hU : 0 < k.b - total on := by
            have := dot_pos hne (fun p hp => ok.pos p (hcv p (hfrm p hp))) (fun p hp => hx0 p (hfrm p hp))
            linarith
          intro x y hxy hbin hk
          have hb := hbin.perm hperm.symm
          obtain ⟨hbc, hbr⟩ := Bin.append.mp hb
          obtain ⟨hbf, hbo⟩ := Bin.append.mp (hbc.perm hfo.symm)
          rw [← SVec.dot_perm hperm, SVec.dot_append, ← SVec.dot_perm hfo, SVec.dot_append] at hk
          refine liftUpDown_valid S (fun p hp => ok.eps p (hcv p (hfrm p hp))) (fun p hp => ⟨ok.pos p (hcv p (honm p hp)), hon1 p hp⟩)
            (fun p hp => ok.pos p (hrm p hp)) hU (by linarith) (Or.inl ?_) hc hxy hbf hbo hbr hk
          cases hf : fr with
          | nil => exact absurd hf hne
          | cons q t =>
            refine ⟨t, (List.sublist_cons_self q t).subperm, by simp, ?_⟩
            have h1 := g4 q (hfrm q (by rw [hf]; exact List.mem_cons_self))
            rw [htot2, hf, total_cons] at h1
            linarith
    · cases h

theorem je_valid (S : Sorter) {δ : ℚ} {k : Knap} (ok : KOk δ k) {krow : SVec} (hkr : krow.Perm k.krow) {frac one rem : SVec}
    (h : findJE S krow k.b k.xs = some (some (frac, one, rem))) {c : RowCut} (hc : liftUpDown S k frac one rem = some (some c)) :
    KValid k c := by
  unfold findJE at h
  simp only at h
  split at h
  · cases h
  · cases h
  · rename_i c0 r0 hje
    obtain ⟨j1, j2⟩ := johnEllis_spec S hje
    split at h
    · rename_i hcov
      simp only [Option.some.injEq] at h
      split at h
      · cases h
      · rename_i hlen
        simp only [Option.some.injEq, Prod.mk.injEq] at h
        obtain ⟨rfl, rfl, rfl⟩ := h
        have e2 := eps2_pos
        have hpc := S.perm Prod.snd c0
        have hperm : (c0 ++ (atOnes k.xs krow ++ (zeros k.xs krow ++ r0))).Perm k.krow := by
          refine List.Perm.trans ?_ hkr
          refine List.Perm.trans ?_ (split_perm k.xs krow)
          refine List.Perm.trans ?_ (j1.append_right _)
          rw [List.append_assoc]
          refine List.Perm.append_left _ ?_
          have : (r0 ++ (atOnes k.xs krow ++ zeros k.xs krow)).Perm ((atOnes k.xs krow ++ zeros k.xs krow) ++ r0) := List.perm_append_comm
          refine List.Perm.trans ?_ this.symm
          rw [List.append_assoc]
        have hc0 : ∀ p ∈ c0, p ∈ k.krow := fun p hp => hperm.mem_iff.mp (List.mem_append_left _ hp)
        have hon : ∀ p ∈ atOnes k.xs krow, p ∈ k.krow := fun p hp =>
          hperm.mem_iff.mp (List.mem_append_right _ (List.mem_append_left _ hp))
        have hrm : ∀ p ∈ zeros k.xs krow ++ r0, p ∈ k.krow := fun p hp =>
          hperm.mem_iff.mp (List.mem_append_right _ (List.mem_append_right _ hp))
        have hon1 : ∀ p ∈ atOnes k.xs krow, k.xs p.1 = 1 := by
          intro p hp
          have h1 := (List.mem_filter.mp hp).2
          simp at h1
          exact ok.cleanOne p (hon p hp) h1
        have hx0 : ∀ p ∈ c0, 0 < k.xs p.1 := by
          intro p hp
          have e1 := eps_pos
          have := j1.mem_iff.mp (List.mem_append_left r0 hp)
          have := (List.mem_filter.mp this).2
          simp at this
          linarith
        have hsat : c0.dot k.xs + total (atOnes k.xs krow) ≤ k.b := by
          have h1 := ok.sat
          rw [← SVec.dot_perm hperm, SVec.dot_append, SVec.dot_append, dot_ones _ k.xs hon1] at h1
          have h2 := dot_nonneg (zeros k.xs krow ++ r0) k.xs (fun p hp => (ok.pos p (hrm p hp)).le) (fun p hp => ok.x0 p (hrm p hp))
          linarith
        have hne : c0 ≠ [] := by rintro rfl; simp at hlen
        have hU : 0 < k.b - total (atOnes k.xs krow) := by
          have := dot_pos hne (fun p hp => ok.pos p (hc0 p hp)) (fun p hp => hx0 p hp)
          linarith
        intro x y hxy hbin hk
        have hb := hbin.perm hperm.symm
        obtain ⟨hbc, hb'⟩ := Bin.append.mp hb
        obtain ⟨hbo, hbr⟩ := Bin.append.mp hb'
        rw [← SVec.dot_perm hperm, SVec.dot_append, SVec.dot_append] at hk
        have hlen2 : (S.run Prod.snd c0).length = c0.length := hpc.length_eq
        refine liftUpDown_valid S (fun p hp => ok.eps p (hc0 p (hpc.mem_iff.mp hp))) (fun p hp => ⟨ok.pos p (hon p hp), hon1 p hp⟩)
          (fun p hp => ok.pos p (hrm p hp)) hU (by rw [total_perm hpc]; linarith) ?_ hc hxy (hbc.perm hpc.symm) hbo hbr
          (by rw [SVec.dot_perm hpc]; linarith)
        rcases j2 (by omega) hcov with ⟨q, hq, hle⟩ | ⟨p, q, rfl, hp, hq⟩
        · left
          obtain ⟨l1, l2, rfl⟩ := List.append_of_mem hq
          refine ⟨l1 ++ l2, ?_, ?_, ?_⟩
          · exact (List.Sublist.append (List.Sublist.refl l1) (List.sublist_cons_self q l2)).subperm.trans hpc.symm.subperm
          · rw [hlen2]; simp; omega
          · rw [total_append, total_cons] at hle
            rw [total_append]
            linarith
        · right
          rw [hlen2]
          have hs : ((S.run Prod.snd [p, q]).map fun p => k.xs p.1).sum = k.xs p.1 + k.xs q.1 := by
            rw [(hpc.map _).sum_eq]; simp
          rw [hs]
          have hx : p.2 * k.xs p.1 + q.2 * k.xs q.1 ≤ k.b - total (atOnes k.xs krow) := by
            simp only [SVec.dot_cons, SVec.dot_nil] at hsat
            linarith
          have hxp := hx0 p (by simp)
          have hxq := hx0 q (by simp)
          have h1 := mul_lt_mul_of_pos_right hp hxp
          have h2 := mul_lt_mul_of_pos_right hq hxq
          have h3 : (k.b - total (atOnes k.xs krow)) * (k.xs p.1 + k.xs q.1) < (k.b - total (atOnes k.xs krow)) * 1 := by
            rw [mul_add, mul_one]; linarith
          have := lt_of_mul_lt_mul_left h3 hU.le
          simp
          linarith
    · cases h

/-! ## One canonical row -/

/-- All cuts that the searches add are valid. -/
theorem coverRow_valid (S : Sorter) {δ : ℚ} {k : Knap} (ok : KOk δ k) {longRow : Nat} {expensive : Bool} {cs cs' : Cuts}
    (h : coverRow S longRow expensive k cs = some cs') : cs'.cols = cs.cols ∧ ∀ c ∈ cs'.rows, c ∈ cs.rows ∨ KValid k c := by
  have hadd : ∀ (cs : Cuts) (o : Option RowCut), (∀ c, o = some c → KValid k c) →
      (cs.add o).cols = cs.cols ∧ ∀ c ∈ (cs.add o).rows, c ∈ cs.rows ∨ KValid k c := by
    intro cs o ho
    cases o with
    | none => exact ⟨rfl, fun c hc => Or.inl hc⟩
    | some d =>
      refine ⟨rfl, fun c hc => ?_⟩
      rcases mem_insertIfNotDuplicate.mp hc with hc | rfl
      · exact Or.inl hc
      · exact Or.inr (ho _ rfl)
  have trans : ∀ a b c : Cuts, (b.cols = a.cols ∧ ∀ c ∈ b.rows, c ∈ a.rows ∨ KValid k c) →
      (c.cols = b.cols ∧ ∀ d ∈ c.rows, d ∈ b.rows ∨ KValid k d) → c.cols = a.cols ∧ ∀ d ∈ c.rows, d ∈ a.rows ∨ KValid k d := by
    rintro a b c ⟨h1, h2⟩ ⟨h3, h4⟩
    refine ⟨h3.trans h1, fun d hd => ?_⟩
    rcases h4 d hd with h | h
    · exact h2 d h
    · exact Or.inr h
  have rest : ∀ (krow : SVec), krow.Perm k.krow → ∀ cs cs' : Cuts,
      ((pseudoStep S longRow k krow cs).bind fun cs => (jeStep S longRow expensive k krow cs).bind fun cs => mostStep S k krow cs) = some cs' →
      cs'.cols = cs.cols ∧ ∀ c ∈ cs'.rows, c ∈ cs.rows ∨ KValid k c := by
    intro krow hkr cs cs' h
    obtain ⟨c1, h1, h⟩ := Option.bind_eq_some_iff.mp h
    obtain ⟨c2, h2, h3⟩ := Option.bind_eq_some_iff.mp h
    refine trans cs c1 cs' ?_ (trans c1 c2 cs' ?_ ?_)
    · unfold pseudoStep at h1
      split at h1
      · cases h1
      · simp only [Option.some.injEq] at h1; subst h1; exact ⟨rfl, fun c hc => Or.inl hc⟩
      · rename_i cover rem hf
        split at h1
        · obtain ⟨o, ho, rfl⟩ := Option.map_eq_some_iff.mp h1
          refine hadd cs o fun c hc => ?_
          subst hc
          exact pseudo_valid S ok hkr hf ho
        · simp only [Option.some.injEq] at h1; subst h1; exact ⟨rfl, fun c hc => Or.inl hc⟩
    · unfold jeStep at h2
      split at h2
      · split at h2
        · cases h2
        · simp only [Option.some.injEq] at h2; subst h2; exact ⟨rfl, fun c hc => Or.inl hc⟩
        · rename_i frac one rem hf
          obtain ⟨o, ho, rfl⟩ := Option.map_eq_some_iff.mp h2
          refine hadd c1 o fun c hc => ?_
          subst hc
          exact je_valid S ok hkr hf ho
      · simp only [Option.some.injEq] at h2; subst h2; exact ⟨rfl, fun c hc => Or.inl hc⟩
    · unfold mostStep at h3
      split at h3
      · cases h3
      · simp only [Option.some.injEq] at h3; subst h3; exact ⟨rfl, fun c hc => Or.inl hc⟩
      · rename_i kr cover rem hf
        obtain ⟨o, ho, rfl⟩ := Option.map_eq_some_iff.mp h3
        refine hadd c2 o fun c hc => ?_
        subst hc
        have e2 := eps2_pos
        split at hf
        · obtain ⟨g1, g2, g3, g4, g5⟩ := findExact_spec S (fun p hp => (ok.pos p (hkr.mem_iff.mp hp)).le) hf
          exact liftAndUncomp_valid ok (g1.trans hkr) g2 g3 (fun p hp => by have := g5 p hp; linarith) g4 ho
        · obtain ⟨g1, g2, g3, g4, g5⟩ := findLP_spec S hf
          exact liftAndUncomp_valid ok (g1.trans hkr) g2 g3 g5 (fun _ => g4) ho
  unfold coverRow at h
  simp only at h
  obtain ⟨hp, hg⟩ := findGreedy_spec S (krow := k.krow) (xs := k.xs) ok.bnonneg
  generalize findGreedy S k.krow k.b k.xs = q at h hp hg
  obtain ⟨krow, o⟩ := q
  cases o with
  | none => exact rest krow hp cs cs' h
  | some cr =>
    obtain ⟨cover, rem⟩ := cr
    simp only at h
    obtain ⟨g1, g2, g3, g4, g5⟩ := hg cover rem rfl
    split at h
    · cases h
    · simp only [Option.some.injEq] at h; subst h; exact ⟨rfl, fun c hc => Or.inl hc⟩
    · rename_i c hc
      refine trans cs (cs.add (some c)) cs' (hadd cs (some c) ?_) (rest krow hp _ _ h)
      intro d hd
      simp only [Option.some.injEq] at hd
      subst hd
      exact liftAndUncomp_valid ok g1 g2 g3 g5 (fun _ => g4) hc

end Cgl.Knapsack
