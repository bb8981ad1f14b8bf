import Verif.Knapsack.Super

/-!
# `liftCoverCut` gives valid inequalities
-/

namespace Cgl.Knapsack

open Super

/-- `y` is 0-1 on the columns of `v`. -/
def Bin (v : SVec) (y : Nat → ℚ) : Prop := ∀ p ∈ v, y p.1 = 0 ∨ y p.1 = 1

theorem Bin.append {v w : SVec} {y : Nat → ℚ} : Bin (v ++ w) y ↔ Bin v y ∧ Bin w y := by
  unfold Bin
  constructor
  · intro h; exact ⟨fun p hp => h p (List.mem_append_left _ hp), fun p hp => h p (List.mem_append_right _ hp)⟩
  · rintro ⟨h1, h2⟩ p hp
    rcases List.mem_append.mp hp with h | h
    · exact h1 p h
    · exact h2 p h

theorem Bin.perm {v w : SVec} {y : Nat → ℚ} (h : v.Perm w) (hb : Bin v y) : Bin w y := fun p hp => hb p (h.mem_iff.mpr hp)

/-- Cover coefficients as a sequence. -/
def seqOf (cover : SVec) (k : ℕ) : ℚ := (cover.map Prod.snd).getD k 0

theorem seqOf_nil (k : ℕ) : seqOf [] k = 0 := by simp [seqOf]
theorem seqOf_cons_zero (p : Nat × ℚ) (t : SVec) : seqOf (p :: t) 0 = p.2 := by simp [seqOf]
theorem seqOf_cons_succ (p : Nat × ℚ) (t : SVec) (k : ℕ) : seqOf (p :: t) (k + 1) = seqOf t k := by simp [seqOf]

theorem seqOf_le : ∀ (cover : SVec) (M : ℚ), 0 ≤ M → (∀ p ∈ cover, p.2 ≤ M) → ∀ k, seqOf cover k ≤ M
  | [], _, h, _, k => by rw [seqOf_nil]; exact h
  | p :: t, M, h, hh, 0 => by rw [seqOf_cons_zero]; exact hh p List.mem_cons_self
  | p :: t, M, h, hh, k + 1 => by rw [seqOf_cons_succ]; exact seqOf_le t M h (fun q hq => hh q (List.mem_cons_of_mem _ hq)) k

theorem seqOf_anti : ∀ (cover : SVec), cover.Pairwise (fun p q => q.2 ≤ p.2) → (∀ p ∈ cover, 0 ≤ p.2) → Antitone (seqOf cover) := by
  intro cover
  induction cover with
  | nil => intro _ _ i j _; simp [seqOf_nil]
  | cons p t ih =>
    intro hs hp
    have h1 := List.pairwise_cons.mp hs
    have ht := ih h1.2 (fun q hq => hp q (List.mem_cons_of_mem _ hq))
    apply antitone_nat_of_succ_le
    intro n
    cases n with
    | zero =>
      rw [seqOf_cons_succ, seqOf_cons_zero]
      exact seqOf_le t _ (hp p List.mem_cons_self) h1.1 0
    | succ n =>
      rw [seqOf_cons_succ, seqOf_cons_succ]
      exact ht (Nat.le_succ n)

theorem mu_seqOf : ∀ (cover : SVec) (h : ℕ), mu (seqOf cover) h = total (cover.take h) := by
  intro cover
  induction cover with
  | nil => intro h; simp [mu, seqOf_nil, total]
  | cons p t ih =>
    intro h
    cases h with
    | zero => simp [mu, total]
    | succ h =>
      have := ih h
      unfold mu at this ⊢
      rw [Finset.sum_range_succ', seqOf_cons_zero]
      simp only [seqOf_cons_succ]
      rw [this]
      simp [total]
      ring

theorem muML_eq (lam : ℚ) (cover : SVec) (i : ℕ) : muML lam cover i = mu (seqOf cover) i - lam := by
  unfold muML; rw [mu_seqOf]

theorem mu_one (a : ℕ → ℚ) : mu a 1 = a 0 := by simp [mu]

theorem rho_eq {lam : ℚ} {cover : SVec} (hl : lam ≤ seqOf cover 0) {i : ℕ} (h1 : 1 ≤ i) (_h2 : i ≤ cover.length) :
    rho lam cover i = rh (seqOf cover) lam i := by
  unfold rho rh
  rw [if_neg (by omega), muML_eq, mu_one]
  split
  · rename_i h
    have : seqOf cover i = 0 := by simp [seqOf, h]
    rw [this]
    exact (max_eq_left (by linarith)).symm
  · rfl

/-- What has to be known of a cover for lifting. -/
structure LiftOk (b : ℚ) (cover rem : SVec) : Prop where
  sorted : cover.Pairwise fun p q => q.2 ≤ p.2
  pos : ∀ p ∈ cover, 0 ≤ p.2
  posr : ∀ p ∈ rem, 0 ≤ p.2
  lam : b < total cover
  first : total cover - b ≤ seqOf cover 0

theorem seqOf_nonneg : ∀ (cover : SVec), (∀ p ∈ cover, 0 ≤ p.2) → ∀ k, 0 ≤ seqOf cover k
  | [], _, k => by rw [seqOf_nil]
  | p :: t, h, 0 => by rw [seqOf_cons_zero]; exact h p List.mem_cons_self
  | p :: t, h, k + 1 => by rw [seqOf_cons_succ]; exact seqOf_nonneg t (fun q hq => h q (List.mem_cons_of_mem _ hq)) k

/-- The lifted coefficients of `f` are allowed. -/
theorem fCoef_R {lam : ℚ} {cover : SVec} (hρ : ∀ i, 1 ≤ i → rh (seqOf cover) lam i = 0) (a : ℚ) :
    ∀ (k i : ℕ) (c : ℚ), 2 ≤ i → mu (seqOf cover) (i - 1) - lam < a → fCoef lam cover a k i = some c → R (seqOf cover) lam a c := by
  intro k
  induction k with
  | zero => intro i c _ _ h; simp [fCoef] at h
  | succ k ih =>
    intro i c hi ha h
    unfold fCoef at h
    split at h
    · simp only [Option.some.injEq] at h
      subst h
      refine R_of (h := i - 1) (T := 0) (by omega) (le_refl _) ?_ ha ?_
      · rw [hρ _ (by omega)]; linarith
      · rw [zero_div, sub_zero, Nat.cast_sub (by omega)]; simp
    · rename_i hn
      rw [muML_eq] at hn
      exact ih (i + 1) c (by omega) (by simpa using not_le.mp hn) h

/-- The lifted coefficients of `g` are allowed. -/
theorem gCoef_R {lam : ℚ} {cover : SVec} (hl : lam ≤ seqOf cover 0) (a : ℚ) :
    ∀ (k i : ℕ), i + k = cover.length → 1 ≤ cover.length →
      (1 ≤ i → mu (seqOf cover) i - lam < a ∧ mu (seqOf cover) i - lam + rh (seqOf cover) lam i ≤ a) →
      R (seqOf cover) lam a (gCoef lam cover a k i) := by
  intro k
  induction k with
  | zero => intro i _ _ _; unfold gCoef; exact Or.inl (le_refl _)
  | succ k ih =>
    intro i hik hlen hprev
    unfold gCoef
    split
    · rcases Nat.eq_zero_or_pos i with h | h
      · subst h; exact Or.inl (by simp)
      · obtain ⟨g1, g2⟩ := hprev h
        refine R_of (h := i) (T := 0) h (le_refl _) (by linarith) g1 (by simp)
    · rename_i hn
      rw [muML_eq] at hn
      push Not at hn
      have e1 : rho lam cover (i + 1) = rh (seqOf cover) lam (i + 1) := rho_eq hl (by omega) (by omega)
      have e2 : rho lam cover 1 = rh (seqOf cover) lam 1 := rho_eq hl (by omega) hlen
      split
      · rename_i hs
        rw [muML_eq, e1] at hs
        simp only
        have key : R (seqOf cover) lam a ((i : ℚ) + 1 - (muML lam cover (i + 1) + rho lam cover (i + 1) - a) / rho lam cover 1) := by
          rw [muML_eq, e1, e2]
          refine R_of (h := i + 1) (T := mu (seqOf cover) (i + 1) - lam + rh (seqOf cover) lam (i + 1) - a) (by omega)
            (by linarith) (by linarith) hn ?_
          push_cast
          exact le_refl _
        split
        · exact key
        · exact Or.inl (le_refl _)
      · rename_i hs
        rw [muML_eq, e1] at hs
        push Not at hs
        exact ih (i + 1) (by omega) hlen (fun _ => ⟨hn, hs⟩)

/-- A list of entries each of which is allowed for the coefficient of the same column. -/
inductive Lifts (a : ℕ → ℚ) (lam : ℚ) : SVec → SVec → Prop
  | nil : Lifts a lam [] []
  | skip {p : Nat × ℚ} {r l : SVec} : Lifts a lam r l → Lifts a lam (p :: r) l
  | take {p : Nat × ℚ} {r l : SVec} {c : ℚ} : R a lam p.2 c → Lifts a lam r l → Lifts a lam (p :: r) ((p.1, c) :: l)

theorem Lifts.dot {a : ℕ → ℚ} {lam : ℚ} (ha : Antitone a) (hl : lam ≤ a 0) {r l : SVec} (h : Lifts a lam r l) {y : Nat → ℚ}
    (hy : Bin r y) (hp : ∀ p ∈ r, 0 ≤ p.2) : 0 ≤ r.dot y ∧ R a lam (r.dot y) (l.dot y) := by
  induction h with
  | nil => exact ⟨by simp, by simpa using R_zero⟩
  | @skip p r l _ ih =>
    obtain ⟨g1, g2⟩ := ih (fun q hq => hy q (List.mem_cons_of_mem _ hq)) (fun q hq => hp q (List.mem_cons_of_mem _ hq))
    have h0 : 0 ≤ p.2 * y p.1 := by
      have := hp p List.mem_cons_self
      rcases hy p List.mem_cons_self with h | h <;> rw [h] <;> simp [this]
    simp only [SVec.dot_cons]
    exact ⟨by linarith, R_mono g2 (by linarith)⟩
  | @take p r l c hc _ ih =>
    obtain ⟨g1, g2⟩ := ih (fun q hq => hy q (List.mem_cons_of_mem _ hq)) (fun q hq => hp q (List.mem_cons_of_mem _ hq))
    have h0 := hp p List.mem_cons_self
    simp only [SVec.dot_cons]
    rcases hy p List.mem_cons_self with h | h
    · rw [h]; simp only [mul_zero, zero_add]; exact ⟨g1, g2⟩
    · rw [h]; simp only [mul_one]
      exact ⟨by linarith, R_add ha hl h0 g1 hc g2⟩

theorem fLift_lifts {lam : ℚ} {cover : SVec} (hρ : ∀ i, 1 ≤ i → rh (seqOf cover) lam i = 0) : ∀ (rem l : SVec),
    fLift lam cover rem = some l → Lifts (seqOf cover) lam rem l
  | [], l, h => by simp [fLift] at h; subst h; exact .nil
  | (j, a) :: t, l, h => by
    unfold fLift at h
    cases ht : fLift lam cover t with
    | none => rw [ht] at h; simp at h
    | some l' =>
      rw [ht] at h
      simp only at h
      have ih := fLift_lifts hρ t l' ht
      split at h
      · simp only [Option.some.injEq] at h; subst h; exact .skip ih
      · rename_i hn
        cases hc : fCoef lam cover a (cover.length - 1) 2 with
        | none => rw [hc] at h; simp at h
        | some c =>
          rw [hc] at h
          simp only [Option.some.injEq] at h
          subst h
          refine .take (p := (j, a)) (fCoef_R hρ a _ 2 c (le_refl _) ?_ hc) ih
          rw [muML_eq] at hn
          push Not at hn
          have : (0 : ℚ) < eps := by norm_num [eps]
          show mu (seqOf cover) 1 - lam < a
          linarith

theorem gLift_lifts {lam : ℚ} {cover : SVec} (hl : lam ≤ seqOf cover 0) (hlen : 1 ≤ cover.length) : ∀ (rem : SVec),
    Lifts (seqOf cover) lam rem (gLift lam cover rem)
  | [] => by unfold gLift; exact .nil
  | (j, a) :: t => by
    unfold gLift
    simp only
    split
    · exact .skip (gLift_lifts hl hlen t)
    · exact .take (p := (j, a)) (gCoef_R hl a cover.length 0 (by omega) hlen (by omega)) (gLift_lifts hl hlen t)

/-- The count behind a cover inequality. -/
theorem cover_count : ∀ (cover : SVec) (y : Nat → ℚ), Bin cover y →
    SVec.dot (cover.map fun p => (p.1, (1 : ℚ))) y = (cover.length : ℚ) - (((cover.map fun p => decide (y p.1 = 0)).count true : ℕ) : ℚ) ∧
    total cover - cover.dot y = (((cover.map Prod.snd).zip (cover.map fun p => decide (y p.1 = 0))).map fun q => if q.2 then q.1 else 0).sum
  | [], y, _ => by simp [total]
  | p :: t, y, h => by
    obtain ⟨g1, g2⟩ := cover_count t y (fun q hq => h q (List.mem_cons_of_mem _ hq))
    constructor
    · simp only [List.map_cons, SVec.dot_cons, g1, List.length_cons]
      rcases h p List.mem_cons_self with h | h
      · simp [h]
      · simp [h]; ring
    · have : total (p :: t) = p.2 + total t := by simp [total]
      simp only [SVec.dot_cons, List.map_cons, List.zip_cons_cons, List.sum_cons, ← g2, this]
      rcases h p List.mem_cons_self with h | h
      · simp [h]; ring
      · simp [h]

/-- The lifted cover inequality is valid. -/
theorem lifts_valid {b : ℚ} {cover rem l : SVec} (ok : LiftOk b cover rem)
    (hl : Lifts (seqOf cover) (total cover - b) rem l) {y : Nat → ℚ} (hy : Bin cover y) (hyr : Bin rem y)
    (hk : cover.dot y + rem.dot y ≤ b) :
    SVec.dot (cover.map fun p => (p.1, (1 : ℚ))) y + l.dot y ≤ (cover.length : ℚ) - 1 := by
  have ha := seqOf_anti cover ok.sorted ok.pos
  obtain ⟨z0, hR⟩ := hl.dot ha ok.first hyr ok.posr
  obtain ⟨c1, c2⟩ := cover_count cover y hy
  set Z := cover.map fun p => decide (y p.1 = 0) with hZ
  have hsel := sum_sel_le (cover.map Prod.snd) Z (by simp [hZ])
    (List.pairwise_map.mpr ok.sorted) (by intro q hq; obtain ⟨p, hp, rfl⟩ := List.mem_map.mp hq; exact ok.pos p hp)
  rw [← c2] at hsel
  have htot : ∀ n, ((cover.map Prod.snd).take n).sum = mu (seqOf cover) n := by
    intro n; rw [mu_seqOf]; simp [total, List.map_take]
  rw [htot] at hsel
  rw [c1]
  have mono : ∀ m n : ℕ, m ≤ n → mu (seqOf cover) m ≤ mu (seqOf cover) n := by
    intro m n hmn
    unfold mu
    refine Finset.sum_le_sum_of_subset_of_nonneg (Finset.range_subset_range.mpr hmn) fun k _ _ => seqOf_nonneg cover ok.pos k
  have hlam := ok.lam
  rcases hR with h | ⟨h, h1, t, t0, _, _, t3, t4⟩
  · -- at least one cover column is zero
    have : 1 ≤ Z.count true := by
      by_contra hc
      have hz : Z.count true = 0 := by omega
      rw [hz] at hsel
      simp only [mu, Finset.range_zero, Finset.sum_empty] at hsel
      linarith
    have : (1 : ℚ) ≤ ((Z.count true : ℕ) : ℚ) := by exact_mod_cast this
    linarith
  · have : h + 1 ≤ Z.count true := by
      by_contra hc
      have := mono (Z.count true) h (by omega)
      linarith
    have : ((h : ℚ) + 1) ≤ ((Z.count true : ℕ) : ℚ) := by exact_mod_cast this
    have hd : 0 ≤ t / rh (seqOf cover) (total cover - b) 1 := div_nonneg t0 (rh_nonneg _)
    linarith

/-- `liftCoverCut` is valid for a minimal cover when the comparison of line 3226 is exact. -/
theorem liftCoverCut_valid {b : ℚ} {cover rem cut : SVec} (ok : LiftOk b cover rem)
    (hex : seqOf cover 1 - eps ≤ seqOf cover 0 - (total cover - b) → seqOf cover 1 ≤ seqOf cover 0 - (total cover - b))
    (h : liftCoverCut b cover rem = some (some cut)) {y : Nat → ℚ} (hy : Bin cover y) (hyr : Bin rem y)
    (hk : cover.dot y + rem.dot y ≤ b) : cut.dot y ≤ (cover.length : ℚ) - 1 := by
  unfold liftCoverCut at h
  simp only at h
  split at h
  · simp at h
  · match cover, ok, hex, hy, hk, h with
    | p0 :: p1 :: t, ok, hex, hy, hk, h =>
      simp only at h
      split at h
      · rename_i hf
        have hm : muML (total (p0 :: p1 :: t) - b) (p0 :: p1 :: t) 1 = seqOf (p0 :: p1 :: t) 0 - (total (p0 :: p1 :: t) - b) := by
          rw [muML_eq, mu_one]
        rw [hm] at hf
        have hs1 : seqOf (p0 :: p1 :: t) 1 = p1.2 := by simp [seqOf]
        have hle := hex (by rw [hs1]; exact hf)
        cases hl : fLift (total (p0 :: p1 :: t) - b) (p0 :: p1 :: t) rem with
        | none => rw [hl] at h; simp at h
        | some l =>
          rw [hl] at h
          simp only [Option.some.injEq] at h
          subst h
          rw [SVec.dot_append]
          refine lifts_valid ok (fLift_lifts ?_ rem l hl) hy hyr hk
          intro i hi
          unfold rh
          refine max_eq_left ?_
          have := seqOf_anti _ ok.sorted ok.pos hi
          linarith
      · simp only [Option.some.injEq] at h
        subst h
        rw [SVec.dot_append]
        exact lifts_valid ok (gLift_lifts ok.first (by simp) rem) hy hyr hk
    | [_], _, _, _, _, h => simp at h
    | [], _, _, _, _, h => simp at h

/-- Uncomplementing: the result at `x` is the cut at the complemented point. -/
theorem uncomp_spec (comp : List Nat) {x y : Nat → ℚ} (hxy : ∀ j, y j = if j ∈ comp then 1 - x j else x j) : ∀ (cut : SVec) (rhs : ℚ),
    (uncomp comp cut rhs).1.dot x - (uncomp comp cut rhs).2 = cut.dot y - rhs
  | [], rhs => by simp [uncomp]
  | (j, c) :: t, rhs => by
    unfold uncomp
    split
    · rename_i hj
      have ih := uncomp_spec comp hxy t (rhs + -c)
      simp only [SVec.dot_cons]
      rw [hxy j, if_pos hj]
      linarith
    · rename_i hj
      have ih := uncomp_spec comp hxy t rhs
      simp only [SVec.dot_cons]
      rw [hxy j, if_neg hj]
      linarith

end Cgl.Knapsack
