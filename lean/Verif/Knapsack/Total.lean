import Verif.Knapsack.Props

/-!
# The cover searches terminate and stay inside their arrays
-/

namespace Cgl.Knapsack

/-- What `derive` guarantees about a canonical row (apart from the size of the right-hand side). -/
structure CapOk (k : Knap) : Prop where
  pos : ∀ p ∈ k.krow, 0 < p.2
  le : ∀ p ∈ k.krow, p.2 ≤ k.b
  big : eps2 < k.b

theorem tossSmallest_total {lim : ℚ} (hl : 0 ≤ lim) : ∀ (rc : SVec) (one : ℚ) (rem : SVec), rc ≠ [] → one = total rc.tail →
    ∃ c rm, tossSmallest lim rc one rem = some (c, rm) := by
  intro rc
  induction rc with
  | nil => intro one rem h; exact absurd rfl h
  | cons p t ih =>
    intro one rem _ he
    unfold tossSmallest
    split
    · rename_i hlt
      cases t with
      | nil => simp only [List.tail_cons, total_nil] at he; linarith
      | cons q t' =>
        simp only
        refine ih _ _ (by simp) ?_
        rw [he]
        simp only [List.tail_cons, total_cons]
        ring
    · exact ⟨_, _, rfl⟩

theorem minimise_total (S : Sorter) {lim : ℚ} (hl : 0 ≤ lim) {sum : ℚ} {cover rem : SVec} (hs : sum = total cover) (hne : cover ≠ []) :
    ∃ c rm, minimise S lim sum cover rem = some (c, rm) := by
  unfold minimise
  have hperm : (S.run Prod.snd cover).reverse.Perm cover := (List.reverse_perm _).trans (S.perm _ _)
  cases h : (S.run Prod.snd cover).reverse with
  | nil => rw [h] at hperm; exact absurd (List.nil_perm.mp hperm) hne
  | cons p t =>
    simp only
    rw [h] at hperm
    refine tossSmallest_total hl _ _ _ (by simp) ?_
    rw [hs, ← total_perm hperm, total_cons]
    simp

theorem critical_total {lim : ℚ} : ∀ (l : SVec) (sum : ℚ) (r : Nat), lim < sum + total l → sum ≤ lim → ∃ n, critical lim l sum r = some n
  | [], sum, r, h, h' => by rw [total_nil] at h; linarith
  | p :: t, sum, r, h, h' => by
    unfold critical
    rw [total_cons] at h
    split
    · rename_i hc
      exact critical_total t _ _ (by linarith) hc
    · exact ⟨r, rfl⟩

theorem findLP_total (S : Sorter) {krow : SVec} {b : ℚ} (hb : 0 ≤ b) (xs : Nat → ℚ) : ∃ r, findLP S krow b xs = some r := by
  unfold findLP
  split
  · exact ⟨_, rfl⟩
  · rename_i ht
    push Not at ht
    simp only
    have e1 := eps_pos
    obtain ⟨n, hn⟩ := critical_total (lim := total krow - b - eps) (S.run (coverRatio xs) krow) 0 0
      (by rw [total_perm (S.perm (coverRatio xs) krow)]; linarith) (by linarith)
    rw [hn]
    simp only
    split
    · exact ⟨_, rfl⟩
    · split
      · exact ⟨_, rfl⟩
      · rename_i hc
        push Not at hc
        have hne : (S.run (coverRatio xs) krow).drop n ≠ [] := by
          intro h
          rw [h, total_nil] at hc
          have := abs_nonneg b
          linarith
        have hl : (0 : ℚ) ≤ b + 1 / 1000000000000 := by
          have : (0 : ℚ) < 1 / 1000000000000 := by norm_num
          linarith
        obtain ⟨c, rm, h⟩ := minimise_total S hl (rem := (S.run (coverRatio xs) krow).take n) rfl hne
        rw [h]
        exact ⟨_, rfl⟩

theorem findLP_two (S : Sorter) {krow : SVec} {b : ℚ} {xs : Nat → ℚ} {kr cover rem : SVec}
    (h : findLP S krow b xs = some (kr, some (cover, rem))) : 2 ≤ cover.length := by
  unfold findLP at h
  split at h
  · simp at h
  · simp only at h
    split at h
    · cases h
    · split at h
      · simp at h
      · split at h
        · simp at h
        · split at h
          · cases h
          · simp only [Option.some.injEq, Prod.mk.injEq] at h
            obtain ⟨_, h⟩ := h
            split at h
            · cases h
            · rename_i hc
              simp only [Option.some.injEq, Prod.mk.injEq] at h
              obtain ⟨rfl, rfl⟩ := h
              omega

theorem findExact_total (S : Sorter) {krow : SVec} {b : ℚ} (hb : eps2 < b) (xs : Nat → ℚ) (hpos : ∀ p ∈ krow, 0 ≤ p.2) :
    ∃ r, findExact S krow b xs = some r := by
  unfold findExact
  split
  · exact ⟨_, rfl⟩
  · rename_i ht
    push Not at ht
    simp only
    have hperm := S.perm (coverRatio xs) krow
    have e1 := eps_pos
    have e2 := eps2_pos
    generalize S.run (coverRatio xs) krow = k at hperm
    obtain ⟨z, best, e, hl, hf, _⟩ := exactSolve_fit (items := k.map fun p => (1 - xs p.1, p.2))
      (fun q hq => by obtain ⟨p, hp, rfl⟩ := List.mem_map.mp hq; exact hpos p (hperm.mem_iff.mp hp))
      (c := total krow - b - eps) (by linarith)
    rw [e]
    simp only
    split
    · have hl' : best.length = k.length := by simpa using hl
      have hne : pick false k best ≠ [] := by
        intro h
        have h1 := total_perm ((pick_perm k best hl').trans hperm)
        rw [h, List.nil_append, pick_weight xs k best hl'] at h1
        linarith
      obtain ⟨c, rm, h⟩ := minimise_total S (by linarith : 0 ≤ b) (rem := pick true k best) rfl hne
      rw [h]
      exact ⟨_, rfl⟩
    · exact ⟨_, rfl⟩

/-- The largest entry of the list is where `bigI` says. -/
theorem bigFrom_at : ∀ (l : SVec) (k : Nat) (c : ℚ) (i : Nat), (∀ p ∈ l, c < p.2) → l ≠ [] →
    ∃ p, k ≤ (bigFrom l k c i).2 ∧ l[(bigFrom l k c i).2 - k]? = some p ∧ p.2 = (bigFrom l k c i).1 := by
  -- generalised: either the running maximum survives or the position is inside the list
  have gen : ∀ (l : SVec) (k : Nat) (c : ℚ) (i : Nat), bigFrom l k c i = (c, i) ∨
      ∃ p, k ≤ (bigFrom l k c i).2 ∧ l[(bigFrom l k c i).2 - k]? = some p ∧ p.2 = (bigFrom l k c i).1 := by
    intro l
    induction l with
    | nil => intro k c i; left; rfl
    | cons p t ih =>
      intro k c i
      unfold bigFrom
      split
      · right
        rcases ih (k + 1) p.2 k with h | ⟨q, h1, h2, h3⟩
        · rw [h]; exact ⟨p, le_refl _, by simp, rfl⟩
        · refine ⟨q, by omega, ?_, h3⟩
          have : (bigFrom t (k + 1) p.2 k).2 - k = ((bigFrom t (k + 1) p.2 k).2 - (k + 1)) + 1 := by omega
          rw [this, List.getElem?_cons_succ]; exact h2
      · rcases ih (k + 1) c i with h | ⟨q, h1, h2, h3⟩
        · left; exact h
        · right
          refine ⟨q, by omega, ?_, h3⟩
          have : (bigFrom t (k + 1) c i).2 - k = ((bigFrom t (k + 1) c i).2 - (k + 1)) + 1 := by omega
          rw [this, List.getElem?_cons_succ]; exact h2
  intro l k c i hl hne
  cases l with
  | nil => exact absurd rfl hne
  | cons p t =>
    rcases gen (p :: t) k c i with h | h
    · exfalso
      have h1 := (bigFrom_spec (p :: t) k c i).2 p List.mem_cons_self
      rw [h] at h1
      have := hl p List.mem_cons_self
      simp only at h1
      linarith
    · exact h

theorem scanCover_pos : ∀ (l : SVec) (i : Nat) (margin big : ℚ) (bigI n : Nat) (m : ℚ), scanCover l i margin big bigI = some (n, m) →
    i + 1 ≤ n ∧ l ≠ []
  | [], i, margin, big, bigI, n, m, h => by simp [scanCover] at h
  | p :: t, i, margin, big, bigI, n, m, h => by
    refine ⟨?_, by simp⟩
    unfold scanCover at h
    simp only at h
    generalize (if i = bigI then bigFrom t (i + 1) 0 0 else (big, bigI)) = bb at h
    split at h
    · simp only [Option.some.injEq, Prod.mk.injEq] at h; omega
    · have := (scanCover_pos t _ _ _ _ _ _ h).1
      omega

/-- When the search stops before the end, what is left holds an entry above the margin. -/
theorem scanCover_fill : ∀ (l : SVec) (i : Nat) (margin big : ℚ) (bigI n : Nat) (m : ℚ), (∀ p ∈ l, 0 < p.2) →
    (l ≠ [] → ∃ p, i ≤ bigI ∧ l[bigI - i]? = some p ∧ p.2 = big) → scanCover l i margin big bigI = some (n, m) →
    n < i + l.length → ∃ p ∈ l.drop (n - i), m ≤ p.2 := by
  intro l
  induction l with
  | nil => intro i margin big bigI n m _ _ h; simp [scanCover] at h
  | cons p t ih =>
    intro i margin big bigI n m hpos hinv h hn
    unfold scanCover at h
    simp only at h
    have hinv' : t ≠ [] → ∃ q, i + 1 ≤ (if i = bigI then bigFrom t (i + 1) 0 0 else (big, bigI)).2 ∧
        t[(if i = bigI then bigFrom t (i + 1) 0 0 else (big, bigI)).2 - (i + 1)]? = some q ∧
        q.2 = (if i = bigI then bigFrom t (i + 1) 0 0 else (big, bigI)).1 := by
      intro hne
      split
      · exact bigFrom_at t (i + 1) 0 0 (fun q hq => hpos q (List.mem_cons_of_mem _ hq)) hne
      · rename_i hi
        obtain ⟨q, h1, h2, h3⟩ := hinv (by simp)
        refine ⟨q, by simp only; omega, ?_, h3⟩
        simp only
        have : bigI - i = (bigI - (i + 1)) + 1 := by omega
        rw [this, List.getElem?_cons_succ] at h2
        exact h2
    generalize (if i = bigI then bigFrom t (i + 1) 0 0 else (big, bigI)) = bb at h hinv'
    obtain ⟨big', bigI'⟩ := bb
    simp only at h hinv'
    split at h
    · rename_i hc
      simp only [Option.some.injEq, Prod.mk.injEq] at h
      obtain ⟨rfl, rfl⟩ := h
      have hne : t ≠ [] := by rintro rfl; simp at hn
      obtain ⟨q, h1, h2, h3⟩ := hinv' hne
      refine ⟨q, ?_, ?_⟩
      · rw [Nat.add_sub_cancel_left]
        simpa using List.mem_of_getElem? h2
      · have := eps2_pos
        linarith
    · have hlen : i + 1 ≤ n := by have := (scanCover_pos t _ _ _ _ _ _ h).1; omega
      obtain ⟨q, hq, hm⟩ := ih (i + 1) _ _ _ n m (fun q hq => hpos q (List.mem_cons_of_mem _ hq)) hinv' h
        (by simp only [List.length_cons] at hn; omega)
      have e : n - i = (n - (i + 1)) + 1 := by omega
      exact ⟨q, by rw [e, List.drop_succ_cons]; exact hq, hm⟩

theorem firstFill_total {margin : ℚ} : ∀ (l : SVec), (∃ p ∈ l, margin ≤ p.2) → ∃ r, firstFill margin l = some r
  | [], h => by simp at h
  | p :: t, h => by
    unfold firstFill
    split
    · rename_i hp
      have : ∃ q ∈ t, margin ≤ q.2 := by
        obtain ⟨q, hq, hm⟩ := h
        rcases List.mem_cons.mp hq with rfl | hq
        · linarith
        · exact ⟨q, hq, hm⟩
      obtain ⟨⟨a, b, c⟩, hr⟩ := firstFill_total t this
      rw [hr]
      exact ⟨_, rfl⟩
    · exact ⟨_, rfl⟩

theorem johnEllis_total (S : Sorter) (xs : Nat → ℚ) {us : SVec} (hpos : ∀ p ∈ us, 0 < p.2) (U : ℚ) : ∃ r, johnEllis S xs us U = some r := by
  unfold johnEllis
  simp only
  have hperm := S.perm (fun p : Nat × ℚ => xs p.1) us
  generalize S.run (fun p : Nat × ℚ => xs p.1) us = un at hperm
  have hp : ∀ p ∈ un, 0 < p.2 := fun p h => hpos p (hperm.mem_iff.mp h)
  cases hs : scanCover un 0 U (bigFrom un 0 0 0).1 (bigFrom un 0 0 0).2 with
  | none => exact ⟨_, rfl⟩
  | some im =>
    obtain ⟨i, m⟩ := im
    simp only
    split
    · rename_i hi
      have := scanCover_fill un 0 U _ _ i m hp (fun hne => by simpa using bigFrom_at un 0 0 0 hp hne) hs (by simpa using hi)
      obtain ⟨⟨a, b, c⟩, hr⟩ := firstFill_total _ this
      simp only [Nat.sub_zero] at hr
      rw [hr]
      exact ⟨_, rfl⟩
    · exact ⟨_, rfl⟩

theorem johnEllis_ne (S : Sorter) {xs : Nat → ℚ} {us : SVec} {U : ℚ} {c r : SVec} (h : johnEllis S xs us U = some (some (c, r))) : c ≠ [] := by
  unfold johnEllis at h
  simp only at h
  generalize S.run (fun p : Nat × ℚ => xs p.1) us = un at h
  split at h
  · simp at h
  · rename_i i m hs
    have hi := scanCover_pos _ _ _ _ _ _ _ hs
    have hun : un ≠ [] := hi.2
    split at h
    · split at h
      · cases h
      · simp only [Option.some.injEq, Prod.mk.injEq] at h
        obtain ⟨rfl, _⟩ := h
        cases un with
        | nil => exact absurd rfl hun
        | cons u t =>
          cases i with
          | zero => omega
          | succ i => simp
    · simp only [Option.some.injEq, Prod.mk.injEq] at h
      obtain ⟨rfl, _⟩ := h
      cases un with
      | nil => exact absurd rfl hun
      | cons u t =>
        cases i with
        | zero => omega
        | succ i => simp

theorem findPseudoJE_total (S : Sorter) {krow : SVec} {b : ℚ} (hb : 0 ≤ b) (xs : Nat → ℚ) (hpos : ∀ p ∈ krow, 0 < p.2) :
    ∃ r, findPseudoJE S krow b xs = some r := by
  unfold findPseudoJE
  simp only
  obtain ⟨r, hr⟩ := johnEllis_total S xs (us := fracs xs krow) (fun p hp => hpos p (List.mem_of_mem_filter hp)) (b - total (atOnes xs krow))
  rw [hr]
  cases r with
  | none => exact ⟨_, rfl⟩
  | some cr =>
    obtain ⟨c, r⟩ := cr
    simp only
    split
    · have hne := johnEllis_ne S hr
      obtain ⟨c', rm, h⟩ := minimise_total S hb (sum := total c + total (atOnes xs krow)) (cover := c ++ atOnes xs krow)
        (rem := zeros xs krow ++ r) (by rw [total_append]) (by simp [hne])
      rw [h]
      exact ⟨_, rfl⟩
    · exact ⟨_, rfl⟩

theorem findJE_total (S : Sorter) {krow : SVec} (b : ℚ) (xs : Nat → ℚ) (hpos : ∀ p ∈ krow, 0 < p.2) :
    ∃ r, findJE S krow b xs = some r := by
  unfold findJE
  simp only
  obtain ⟨r, hr⟩ := johnEllis_total S xs (us := fracs xs krow) (fun p hp => hpos p (List.mem_of_mem_filter hp)) (b - total (atOnes xs krow))
  rw [hr]
  cases r with
  | none => exact ⟨_, rfl⟩
  | some cr =>
    simp only
    split <;> exact ⟨_, rfl⟩

theorem psi_total {items : List Lifted} (hi : ∀ i ∈ items, 0 ≤ i.a) {c : ℚ} (hc : 0 ≤ c) : ∃ z, psi items c = some z := by
  unfold psi
  have := eps2_pos
  obtain ⟨z, best, e, _⟩ := exactSolve_fit (items := items.map fun i => (i.alpha, i.a))
    (fun q hq => by obtain ⟨i, h, rfl⟩ := List.mem_map.mp hq; exact hi i h) (c := c) (by linarith)
  rw [e]
  exact ⟨z, rfl⟩

theorem liftUp_total (S : Sorter) : ∀ (l : SVec) (s : LS), (∀ p ∈ l, 0 ≤ p.2) → (∀ i ∈ s.items, 0 ≤ i.a) →
    ∃ s', liftUp S l s = some s' ∧ s'.unsatRhs = s.unsatRhs ∧ ∀ i ∈ s'.items, 0 ≤ i.a := by
  intro l
  induction l with
  | nil => intro s _ hi; exact ⟨s, rfl, rfl, hi⟩
  | cons p t ih =>
    obtain ⟨j, a⟩ := p
    intro s hl hi
    have hl' : ∀ p ∈ t, 0 ≤ p.2 := fun p hp => hl p (List.mem_cons_of_mem _ hp)
    have ha : 0 ≤ a := hl (j, a) List.mem_cons_self
    have hps : ∃ ps, (if eps ≤ s.unsatRhs - a then psi s.items (s.unsatRhs - a) else some s.rhs) = some ps := by
      split
      · rename_i h
        exact psi_total hi (by have := eps_pos; linarith)
      · exact ⟨_, rfl⟩
    obtain ⟨ps, hps⟩ := hps
    unfold liftUp
    rw [hps]
    simp only
    split
    · refine ih _ hl' ?_
      intro i hi'
      rcases List.mem_append.mp ((S.perm _ _).mem_iff.mp hi') with h | h
      · exact hi i h
      · simp only [List.mem_singleton] at h; subst h; exact ha
    · exact ih s hl' hi

theorem liftDown_total (S : Sorter) : ∀ (l : SVec) (s : LS), (∀ p ∈ l, 0 ≤ p.2) → (∀ i ∈ s.items, 0 ≤ i.a) → 0 ≤ s.unsatRhs →
    ∃ r, liftDown S l s = some r := by
  intro l
  induction l with
  | nil => intro s _ hi _; exact ⟨_, rfl⟩
  | cons p t ih =>
    obtain ⟨j, a⟩ := p
    intro s hl hi hu
    have hl' : ∀ p ∈ t, 0 ≤ p.2 := fun p hp => hl p (List.mem_cons_of_mem _ hp)
    have ha : 0 ≤ a := hl (j, a) List.mem_cons_self
    obtain ⟨ps, hps⟩ := psi_total hi (c := s.unsatRhs + a) (by linarith)
    unfold liftDown
    rw [hps]
    simp only
    split
    · exact ⟨_, rfl⟩
    · refine ih _ hl' ?_ (by simp only; linarith)
      intro i hi'
      rcases List.mem_append.mp ((S.perm _ _).mem_iff.mp hi') with h | h
      · exact hi i h
      · simp only [List.mem_singleton] at h; subst h; exact ha

theorem liftUpDown_total (S : Sorter) (k : Knap) {frac one rem : SVec} (h1 : ∀ p ∈ frac, 0 ≤ p.2) (h2 : ∀ p ∈ one, 0 ≤ p.2)
    (h3 : ∀ p ∈ rem, 0 ≤ p.2) : ∃ r, liftUpDown S k frac one rem = some r := by
  unfold liftUpDown
  simp only
  have hfi : ∀ i ∈ firstItems S frac, 0 ≤ i.a := by
    intro i hi
    unfold firstItems at hi
    obtain ⟨p, hp, rfl⟩ := List.mem_map.mp ((S.perm _ _).mem_iff.mp hi)
    exact h1 p hp
  split
  · rename_i heq
    exfalso
    split at heq
    · rename_i hc
      obtain ⟨s', e, hu, hi⟩ := liftUp_total S (S.run (fun p => k.xs p.1) rem)
        ⟨firstItems S frac, frac.map (fun p => (p.1, 1)), (frac.length : ℚ) - 1, k.b - total one⟩
        (fun p hp => h3 p ((S.perm _ _).mem_iff.mp hp)) hfi
      rw [e] at heq
      obtain ⟨r, hr⟩ := liftDown_total S one s' h2 hi (by rw [hu]; exact hc.1.le)
      simp only at heq
      rw [hr] at heq
      cases heq
    · cases heq
  · exact ⟨_, rfl⟩
  · split <;> exact ⟨_, rfl⟩

theorem liftCoverCut_total {b : ℚ} {cover rem : SVec} (h : 2 ≤ cover.length ∨ total cover - b < eps2) :
    ∃ r, liftCoverCut b cover rem = some r := by
  unfold liftCoverCut
  simp only
  split
  · exact ⟨_, rfl⟩
  · rename_i hl
    rcases h with h | h
    · match cover, h with
      | _ :: p1 :: _, _ =>
        simp only
        split
        · split <;> exact ⟨_, rfl⟩
        · exact ⟨_, rfl⟩
    · exact absurd h hl

theorem liftAndUncomp_total {k : Knap} {cover rem : SVec} (h : 2 ≤ cover.length ∨ total cover - k.b < eps2) :
    ∃ r, liftAndUncomp k cover rem = some r := by
  unfold liftAndUncomp
  simp only
  split
  · obtain ⟨r, hr⟩ := liftCoverCut_total (rem := rem) h
    rw [hr]
    cases r <;> exact ⟨_, rfl⟩
  · exact ⟨_, rfl⟩

theorem findGreedy_two (S : Sorter) {krow : SVec} {b : ℚ} {xs : Nat → ℚ} {cover rem : SVec}
    (h : (findGreedy S krow b xs).2 = some (cover, rem)) : 2 ≤ cover.length := by
  unfold findGreedy at h
  simp only at h
  split at h
  · cases h
  · rename_i hc
    push Not at hc
    simp only [Option.some.injEq, Prod.mk.injEq] at h
    rw [← h.1]
    exact hc.2.2

/-- All the cover searches on one canonical row terminate without leaving their arrays. -/
theorem coverRow_total (S : Sorter) {k : Knap} (ok : CapOk k) (longRow : Nat) (expensive : Bool) (cs : Cuts) :
    ∃ cs', coverRow S longRow expensive k cs = some cs' := by
  have e2 := eps2_pos
  have hb : 0 ≤ k.b := by have := ok.big; linarith
  have hrest : ∀ krow : SVec, krow.Perm k.krow → ∀ cs, ∃ cs', ((pseudoStep S longRow k krow cs).bind fun cs =>
      (jeStep S longRow expensive k krow cs).bind fun cs => mostStep S k krow cs) = some cs' := by
    intro krow hp cs
    have hpos : ∀ p ∈ krow, 0 < p.2 := fun p h => ok.pos p (hp.mem_iff.mp h)
    have hpseudo : ∀ cs, ∃ cs', pseudoStep S longRow k krow cs = some cs' := by
      intro cs
      unfold pseudoStep
      obtain ⟨r, hr⟩ := findPseudoJE_total S hb k.xs hpos
      rw [hr]
      cases r with
      | none => exact ⟨_, rfl⟩
      | some cr =>
        obtain ⟨cover, rem⟩ := cr
        simp only
        split
        · -- the parts of the cover are parts of the row
          have hmem : ∀ p ∈ cover ++ rem, p ∈ krow := by
            unfold findPseudoJE at hr
            simp only at hr
            split at hr
            · cases hr
            · cases hr
            · rename_i c r' hje
              split at hr
              · split at hr
                · cases hr
                · rename_i cover' rem' hm
                  simp only [Option.some.injEq] at hr
                  split at hr
                  · cases hr
                  · simp only [Option.some.injEq, Prod.mk.injEq] at hr
                    obtain ⟨rfl, rfl⟩ := hr
                    have g1 := (minimise_spec S (by rw [total_append]) hm).1
                    have g2 := (johnEllis_spec S hje).1
                    intro p hp
                    have := g1.mem_iff.mp hp
                    simp only [List.mem_append] at this
                    rcases this with (h | h) | h | h
                    · exact List.mem_of_mem_filter (g2.mem_iff.mp (List.mem_append_left _ h))
                    · exact List.mem_of_mem_filter h
                    · exact List.mem_of_mem_filter h
                    · exact List.mem_of_mem_filter (g2.mem_iff.mp (List.mem_append_right _ h))
              · cases hr
          obtain ⟨r, h⟩ := liftUpDown_total S k (frac := cover.filter fun p => decide (k.xs p.1 < 1))
            (one := cover.filter fun p => !decide (k.xs p.1 < 1)) (rem := rem)
            (fun p h => (hpos p (hmem p (List.mem_append_left _ (List.mem_of_mem_filter h)))).le)
            (fun p h => (hpos p (hmem p (List.mem_append_left _ (List.mem_of_mem_filter h)))).le)
            (fun p h => (hpos p (hmem p (List.mem_append_right _ h))).le)
          rw [h]
          exact ⟨_, rfl⟩
        · exact ⟨_, rfl⟩
    have hje : ∀ cs, ∃ cs', jeStep S longRow expensive k krow cs = some cs' := by
      intro cs
      unfold jeStep
      split
      · obtain ⟨r, hr⟩ := findJE_total S k.b k.xs hpos
        rw [hr]
        cases r with
        | none => exact ⟨_, rfl⟩
        | some cr =>
          obtain ⟨frac, one, rem⟩ := cr
          simp only
          have hmem : (∀ p ∈ frac, p ∈ krow) ∧ (∀ p ∈ one, p ∈ krow) ∧ ∀ p ∈ rem, p ∈ krow := by
            unfold findJE at hr
            simp only at hr
            split at hr
            · cases hr
            · cases hr
            · rename_i c r' hje
              split at hr
              · simp only [Option.some.injEq] at hr
                split at hr
                · cases hr
                · simp only [Option.some.injEq, Prod.mk.injEq] at hr
                  obtain ⟨rfl, rfl, rfl⟩ := hr
                  have g2 := (johnEllis_spec S hje).1
                  refine ⟨?_, fun p h => List.mem_of_mem_filter h, ?_⟩
                  · intro p h
                    exact List.mem_of_mem_filter (g2.mem_iff.mp (List.mem_append_left _ ((S.perm _ _).mem_iff.mp h)))
                  · intro p h
                    rcases List.mem_append.mp h with h | h
                    · exact List.mem_of_mem_filter h
                    · exact List.mem_of_mem_filter (g2.mem_iff.mp (List.mem_append_right _ h))
              · cases hr
          obtain ⟨r, h⟩ := liftUpDown_total S k (fun p h => (hpos p (hmem.1 p h)).le) (fun p h => (hpos p (hmem.2.1 p h)).le)
            (fun p h => (hpos p (hmem.2.2 p h)).le)
          rw [h]
          exact ⟨_, rfl⟩
      · exact ⟨_, rfl⟩
    have hmost : ∀ cs, ∃ cs', mostStep S k krow cs = some cs' := by
      intro cs
      unfold mostStep
      by_cases hlen : krow.length ≤ 20
      · rw [if_pos hlen]
        obtain ⟨⟨kr, o⟩, hr⟩ := findExact_total S ok.big k.xs fun p h => (hpos p h).le
        rw [hr]
        cases o with
        | none => exact ⟨_, rfl⟩
        | some cr =>
          obtain ⟨cover, rem⟩ := cr
          simp only
          obtain ⟨g1, _, g3, _, _⟩ := findExact_spec S (fun p h => (hpos p h).le) hr
          obtain ⟨r, h⟩ := liftAndUncomp_total (k := k) (cover := cover) (rem := rem) (by
            match cover, g3 with
            | [p], _ =>
              right
              have : p ∈ k.krow := hp.mem_iff.mp (g1.mem_iff.mp (by simp))
              have := ok.le p this
              rw [total_cons, total_nil]
              linarith
            | _ :: _ :: _, _ => left; simp)
          rw [h]
          exact ⟨_, rfl⟩
      · rw [if_neg hlen]
        obtain ⟨⟨kr, o⟩, hr⟩ := findLP_total S (krow := krow) hb k.xs
        rw [hr]
        cases o with
        | none => exact ⟨_, rfl⟩
        | some cr =>
          obtain ⟨cover, rem⟩ := cr
          simp only
          obtain ⟨r, h⟩ := liftAndUncomp_total (k := k) (rem := rem) (Or.inl (findLP_two S hr))
          rw [h]
          exact ⟨_, rfl⟩
    obtain ⟨c1, h1⟩ := hpseudo cs
    obtain ⟨c2, h2⟩ := hje c1
    obtain ⟨c3, h3⟩ := hmost c2
    exact ⟨c3, by rw [h1, Option.bind_some, h2, Option.bind_some, h3]⟩
  unfold coverRow
  simp only
  have hg := (findGreedy_spec S (krow := k.krow) (b := k.b) (xs := k.xs) hb).1
  have h2 := fun cover rem => findGreedy_two S (krow := k.krow) (b := k.b) (xs := k.xs) (cover := cover) (rem := rem)
  generalize findGreedy S k.krow k.b k.xs = gr at hg h2
  obtain ⟨krow, o⟩ := gr
  cases o with
  | none => exact hrest krow hg cs
  | some cr =>
    obtain ⟨cover, rem⟩ := cr
    simp only
    obtain ⟨r, h⟩ := liftAndUncomp_total (k := k) (rem := rem) (Or.inl (h2 cover rem rfl))
    rw [h]
    cases r with
    | none => exact ⟨_, rfl⟩
    | some c => exact hrest krow hg _

end Cgl.Knapsack
