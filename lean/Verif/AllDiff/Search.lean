import Verif.AllDiff.Model
import Mathlib.Data.List.Nodup

/-! ### The backtracking search of `CglAllDifferent` -/

namespace Cgl.AllDiff

/-- `a` gives the `n` members allowed, different values. -/
structure Full (gap : Nat) (al : Nat → Nat → Bool) (n : Nat) (a : Nat → Nat) : Prop where
  lt : ∀ j < n, a j < gap
  al : ∀ j < n, al j (a j) = true
  inj : ∀ i < n, ∀ j < n, a i = a j → i = j

/-- `st` is the beginning of `a`. -/
def Begins (st : List Nat) (a : Nat → Nat) : Prop := ∀ j < st.length, st[j]? = some (a j)

/-- `covered` is the set of values on the stack, which are different. -/
structure StOk (st : List Nat) (cov : Nat → Bool) : Prop where
  nodup : st.Nodup
  cov : ∀ v, cov v = true ↔ v ∈ st

theorem StOk.push {st : List Nat} {cov : Nat → Bool} (h : StOk st cov) {v : Nat} (hv : cov v = false) : StOk (st ++ [v]) (upd cov v true) := by
  constructor
  · rw [List.nodup_append]
    refine ⟨h.nodup, by simp, fun a ha b hb => ?_⟩
    rw [List.mem_singleton] at hb
    subst hb
    rintro rfl
    rw [(h.cov a).mpr ha] at hv; cases hv
  · intro w
    unfold upd
    by_cases hw : w = v
    · subst hw; simp
    · rw [if_neg hw, h.cov w]; simp [hw]

theorem StOk.pop {q : List Nat} {jj : Nat} {cov : Nat → Bool} (h : StOk (q ++ [jj]) cov) : StOk q (upd cov jj false) := by
  have hn := List.nodup_append.mp h.nodup
  refine ⟨hn.1, fun v => ?_⟩
  unfold upd
  by_cases hv : v = jj
  · subst hv
    rw [if_pos rfl]
    constructor
    · intro h; cases h
    · intro h; exact absurd rfl (hn.2.2 v h v (by simp))
  · rw [if_neg hv, h.cov v]; simp [hv]

theorem nextFree_some {gap : Nat} {al : Nat → Nat → Bool} {j : Nat} {cov : Nat → Bool} {a v : Nat}
    (h : nextFree gap al j cov a = some v) : v < gap ∧ a ≤ v ∧ al j v = true ∧ cov v = false := by
  unfold nextFree at h
  have h1 := List.mem_of_find?_eq_some h
  have h2 := List.find?_some h
  simp only [Bool.and_eq_true, decide_eq_true_eq, Bool.not_eq_true'] at h2
  exact ⟨List.mem_range.mp h1, h2.1.1, h2.1.2, h2.2⟩

theorem find_range_le {n : Nat} {p : Nat → Bool} {v w : Nat} (h : (List.range n).find? p = some v) (hw : w < n) (hp : p w = true) : v ≤ w := by
  rw [List.find?_range_eq_some] at h
  by_contra hlt
  have := h.2.2 w (by omega)
  rw [hp] at this; cases this

theorem nextFree_le {gap : Nat} {al : Nat → Nat → Bool} {j : Nat} {cov : Nat → Bool} {a v w : Nat}
    (h : nextFree gap al j cov a = some v) (hw : w < gap) (ha : a ≤ w) (hal : al j w = true) (hc : cov w = false) : v ≤ w :=
  find_range_le h hw (by simp [ha, hal, hc])

theorem nextFree_ne_none {gap : Nat} {al : Nat → Nat → Bool} {j : Nat} {cov : Nat → Bool} {a w : Nat}
    (hw : w < gap) (ha : a ≤ w) (hal : al j w = true) (hc : cov w = false) : nextFree gap al j cov a ≠ none := by
  intro h
  unfold nextFree at h
  rw [List.find?_eq_none] at h
  exact h w (List.mem_range.mpr hw) (by simp [ha, hal, hc])

theorem firstOf_le {gap : Nat} {al : Nat → Nat → Bool} {j w : Nat} (hw : w < gap) (hal : al j w = true) : firstOf gap al j ≤ w := by
  unfold firstOf
  cases h : (List.range gap).find? fun v => al j v with
  | none => rw [List.find?_eq_none] at h; exact absurd hal (h w (List.mem_range.mpr hw))
  | some v => exact find_range_le h hw hal

theorem firstOf_spec {gap : Nat} {al : Nat → Nat → Bool} {j w : Nat} (hw : w < gap) (hal : al j w = true) :
    firstOf gap al j < gap ∧ al j (firstOf gap al j) = true := by
  unfold firstOf
  cases h : (List.range gap).find? fun v => al j v with
  | none => rw [List.find?_eq_none] at h; exact absurd hal (h w (List.mem_range.mpr hw))
  | some v => exact ⟨List.mem_range.mp (List.mem_of_find?_eq_some h), List.find?_some h⟩

theorem firstOf_le_gap (gap : Nat) (al : Nat → Nat → Bool) (j : Nat) : firstOf gap al j ≤ gap := by
  unfold firstOf
  cases h : (List.range gap).find? fun v => al j v with
  | none => simp
  | some v => have := List.mem_range.mp (List.mem_of_find?_eq_some h); simp; omega

/-- `a` is still to come: it is the stack itself and not recorded yet, or it comes later in lexicographic order. -/
def Rem (n : Nat) (a : Nat → Nat) (st : List Nat) (good : Bool) : Prop :=
  (good = true ∧ st.length = n ∧ Begins st a) ∨ ∃ i < st.length, (∀ j < i, st[j]? = some (a j)) ∧ st.getD i 0 < a i

theorem notCov {gap n : Nat} {al : Nat → Nat → Bool} {a : Nat → Nat} (hf : Full gap al n a) {st : List Nat} {cov : Nat → Bool} (hs : StOk st cov)
    (hb : Begins st a) (hlt : st.length < n) : cov (a st.length) = false := by
  cases h : cov (a st.length) with
  | false => rfl
  | true =>
    exfalso
    rw [hs.cov] at h
    obtain ⟨j, hj⟩ := List.getElem?_of_mem h
    have hjl : j < st.length := (List.getElem?_eq_some_iff.mp hj).1
    rw [hb j hjl] at hj
    simp only [Option.some.injEq] at hj
    have := hf.inj j (by omega) st.length hlt hj
    omega

theorem Begins.push {st : List Nat} {a : Nat → Nat} (h : Begins st a) : Begins (st ++ [a st.length]) a := by
  intro j hj
  rw [List.length_append, List.length_singleton] at hj
  by_cases hlt : j < st.length
  · rw [List.getElem?_append_left hlt]; exact h j hlt
  · have : j = st.length := by omega
    subst this
    simp

theorem Begins.of_prefix {st st' : List Nat} {a : Nat → Nat} (hp : st <+: st') (h : Begins st a) : ∀ j < st.length, st'[j]? = some (a j) := by
  obtain ⟨t, rfl⟩ := hp
  intro j hj
  rw [List.getElem?_append_left hj]; exact h j hj

/-- What a pass that extends the stack gives. -/
structure Ext (gap : Nat) (n : Nat) (st : List Nat) (e : List Nat × (Nat → Bool) × Bool) : Prop where
  ok : StOk e.1 e.2.1
  pre : st <+: e.1
  len : e.1.length ≤ n
  good : e.2.2 = true → e.1.length = n
  bad : e.2.2 = false → e.1.length < n

theorem getD_of_prefix {st st' : List Nat} (hp : st <+: st') {j : Nat} (hj : j < st.length) : st'.getD j 0 = st.getD j 0 := by
  obtain ⟨t, rfl⟩ := hp
  simp [List.getElem?_append_left hj]

theorem extend_spec (gap : Nat) (al : Nat → Nat → Bool) (n : Nat) : ∀ (k a0 : Nat) (st : List Nat) (cov : Nat → Bool), StOk st cov →
    st.length + k = n → Ext gap n st (extend gap al k a0 st cov) ∧
    (∀ j, st.length ≤ j → j < (extend gap al k a0 st cov).1.length →
      al j ((extend gap al k a0 st cov).1.getD j 0) = true ∧ (extend gap al k a0 st cov).1.getD j 0 < gap) ∧
    (st.length < (extend gap al k a0 st cov).1.length → a0 ≤ (extend gap al k a0 st cov).1.getD st.length 0) ∧
    ∀ a, Full gap al n a → Begins st a → (0 < k → a0 ≤ a st.length) →
      Rem n a (extend gap al k a0 st cov).1 (extend gap al k a0 st cov).2.2
  | 0, a0, st, cov, hs, hk => by
    simp only [extend]
    exact ⟨⟨hs, List.prefix_rfl, by simp; omega, fun _ => by simp; omega, fun h => by cases h⟩, fun j h1 h2 => by omega,
      fun h => by omega, fun a _ hb _ => Or.inl ⟨rfl, by omega, hb⟩⟩
  | k + 1, a0, st, cov, hs, hk => by
    unfold extend
    cases hnf : nextFree gap al st.length cov a0 with
    | none =>
      refine ⟨⟨hs, List.prefix_rfl, by simp; omega, fun h => (by cases h), fun _ => by simp; omega⟩,
        fun j h1 h2 => by simp only at h2; omega, fun h => by simp only at h; omega, fun a hf hb h0 => ?_⟩
      exact absurd hnf (nextFree_ne_none (hf.lt _ (by omega)) (h0 (by omega)) (hf.al _ (by omega)) (notCov hf hs hb (by omega)))
    | some v =>
      obtain ⟨n1, n2, n3, n4⟩ := nextFree_some hnf
      have hs' := hs.push n4
      have hlen : (st ++ [v]).length = st.length + 1 := by simp
      obtain ⟨h1, h2, h3, h4⟩ := extend_spec gap al n k (firstOf gap al (st.length + 1)) (st ++ [v]) (upd cov v true) hs' (by simp; omega)
      dsimp only
      generalize extend gap al k (firstOf gap al (st.length + 1)) (st ++ [v]) (upd cov v true) = e at h1 h2 h3 h4
      have hpre : st <+: e.1 := (List.prefix_append st [v]).trans h1.pre
      have hat : e.1.getD st.length 0 = v := by rw [getD_of_prefix h1.pre (by simp)]; simp
      refine ⟨⟨h1.ok, hpre, h1.len, h1.good, h1.bad⟩, fun j hj hj' => ?_, fun _ => by rw [hat]; exact n2, fun a hf hb h0 => ?_⟩
      · by_cases hje : j = st.length
        · subst hje; rw [hat]; exact ⟨n3, n1⟩
        · exact h2 j (by rw [hlen]; omega) hj'
      · have hle := nextFree_le hnf (hf.lt _ (by omega)) (h0 (by omega)) (hf.al _ (by omega)) (notCov hf hs hb (by omega))
        rcases Nat.lt_or_ge v (a st.length) with hlt | hge
        · right
          have hl := h1.pre.length_le
          rw [hlen] at hl
          exact ⟨st.length, by omega, hb.of_prefix hpre, by rw [hat]; exact hlt⟩
        · have hv : v = a st.length := by omega
          subst hv
          refine h4 a hf hb.push fun hk0 => ?_
          rw [hlen]
          exact firstOf_le (hf.lt _ (by omega)) (hf.al _ (by omega))

theorem firstPass_spec (gap : Nat) (al : Nat → Nat → Bool) (n : Nat) : ∀ (k : Nat) (st : List Nat) (cov : Nat → Bool), StOk st cov →
    st.length + k = n → (∀ v ∈ st, v ≤ gap) → Ext gap n st (firstPass gap al k st cov) ∧
    (∀ v ∈ (firstPass gap al k st cov).1, v ≤ gap) ∧
    ((∀ j < n, ∃ v < gap, al j v = true) → firstPass gap al k st cov = extend gap al k (firstOf gap al st.length) st cov)
  | 0, st, cov, hs, hk, hg => by
    simp only [firstPass, extend]
    exact ⟨⟨hs, List.prefix_rfl, by simp; omega, fun _ => by simp; omega, fun h => by cases h⟩, hg, by simp⟩
  | k + 1, st, cov, hs, hk, hg => by
    have hlen : ∀ v, (st ++ [v]).length = st.length + 1 := by simp
    unfold firstPass
    dsimp only
    by_cases hc : cov (firstOf gap al st.length) = false
    · rw [if_pos hc]
      obtain ⟨h1, h2, h3⟩ := firstPass_spec gap al n k (st ++ [firstOf gap al st.length]) (upd cov (firstOf gap al st.length) true)
        (hs.push hc) (by simp; omega) (fun v hv => by
          rcases List.mem_append.mp hv with h | h
          · exact hg v h
          · rw [List.mem_singleton] at h; subst h; exact firstOf_le_gap _ _ _)
      refine ⟨⟨h1.ok, (List.prefix_append _ _).trans h1.pre, h1.len, h1.good, h1.bad⟩, h2, fun hr => ?_⟩
      rw [h3 hr]
      conv_rhs => unfold extend
      obtain ⟨w, hw, hwa⟩ := hr st.length (by omega)
      obtain ⟨f1, f2⟩ := firstOf_spec hw hwa
      have hnf : nextFree gap al st.length cov (firstOf gap al st.length) = some (firstOf gap al st.length) := by
        cases hn : nextFree gap al st.length cov (firstOf gap al st.length) with
        | none => exact absurd hn (nextFree_ne_none f1 (le_refl _) f2 hc)
        | some v =>
          have := nextFree_le hn f1 (le_refl _) f2 hc
          have := (nextFree_some hn).2.1
          congr 1; omega
      rw [hnf, hlen]
    · rw [if_neg hc]
      simp only [Bool.not_eq_false] at hc
      have hnf : (∃ v < gap, al st.length v = true) →
          nextFree gap al st.length cov (firstOf gap al st.length) = nextFree gap al st.length cov (firstOf gap al st.length + 1) := by
        intro _
        unfold nextFree
        congr 1
        funext v
        by_cases hv : v = firstOf gap al st.length
        · subst hv; simp [hc]
        · congr 2
          rw [decide_eq_decide]
          omega
      cases hn : nextFree gap al st.length cov (firstOf gap al st.length + 1) with
      | none =>
        refine ⟨⟨hs, List.prefix_rfl, by simp; omega, fun h => (by cases h), fun _ => by simp; omega⟩, hg, fun hr => ?_⟩
        unfold extend
        rw [hnf (hr _ (by omega)), hn]
      | some v =>
        obtain ⟨n1, n2, n3, n4⟩ := nextFree_some hn
        obtain ⟨h1, h2, h3⟩ := firstPass_spec gap al n k (st ++ [v]) (upd cov v true)
          (hs.push n4) (by simp; omega) (fun w hw => by
            rcases List.mem_append.mp hw with h | h
            · exact hg w h
            · rw [List.mem_singleton] at h; omega)
        refine ⟨⟨h1.ok, (List.prefix_append _ _).trans h1.pre, h1.len, h1.good, h1.bad⟩, h2, fun hr => ?_⟩
        dsimp only
        rw [h3 hr]
        conv_rhs => unfold extend
        rw [hnf (hr _ (by omega)), hn, hlen]

/-! #### Termination -/

/-- Weight of a stack: decreases lexicographically. -/
def weight (gap : Nat) : List Nat → Nat → Nat
  | [], _ => 0
  | x :: t, m => (gap + 1 - x) * (gap + 2) ^ m + weight gap t (m - 1)

theorem weight_lt (gap : Nat) (l : List Nat) (m : Nat) (h : l.length ≤ m + 1) : weight gap l m < (gap + 2) ^ (m + 1) := by
  induction l generalizing m with
  | nil => exact Nat.pow_pos (by omega)
  | cons x t ih =>
    unfold weight
    have hp : 0 < (gap + 2) ^ m := Nat.pow_pos (by omega)
    have hx : (gap + 1 - x) * (gap + 2) ^ m ≤ (gap + 1) * (gap + 2) ^ m := Nat.mul_le_mul_right _ (by omega)
    have ht : weight gap t (m - 1) < (gap + 2) ^ m := by
      cases m with
      | zero =>
        have : t = [] := List.length_eq_zero_iff.mp (by simp only [List.length_cons] at h; omega)
        subst this
        simp [weight]
      | succ m => exact ih m (by simp only [List.length_cons] at h; omega)
    rw [Nat.pow_succ]
    calc _ < (gap + 1) * (gap + 2) ^ m + (gap + 2) ^ m := by omega
      _ = (gap + 2) ^ m * (gap + 2) := by ring

theorem weight_append (gap : Nat) (q t : List Nat) (m : Nat) : weight gap (q ++ t) m = weight gap q m + weight gap t (m - q.length) := by
  induction q generalizing m with
  | nil => simp [weight]
  | cons x q ih =>
    simp only [List.cons_append, weight, List.length_cons]
    rw [ih, Nat.sub_sub, Nat.add_comm 1 q.length]
    omega

theorem weight_step (gap n : Nat) {q t : List Nat} {jj : Nat} (hjj : jj ≤ gap) (hq : q.length < n) (ht : q.length + t.length ≤ n)
    (hv : ∀ v, t.head? = some v → jj + 1 ≤ v ∧ v < gap) : weight gap (q ++ t) n < weight gap (q ++ [jj]) n := by
  rw [weight_append, weight_append]
  have hp : 0 < (gap + 2) ^ (n - q.length) := Nat.pow_pos (by omega)
  have h1 : weight gap [jj] (n - q.length) = (gap + 1 - jj) * (gap + 2) ^ (n - q.length) := by simp [weight]
  rw [h1]
  apply Nat.add_lt_add_left
  cases t with
  | nil => simp only [weight]; exact Nat.mul_pos (by omega) hp
  | cons v t =>
    obtain ⟨h2, h3⟩ := hv v rfl
    unfold weight
    have hw := weight_lt gap t (n - q.length - 1) (by simp only [List.length_cons] at ht; omega)
    rw [show n - q.length - 1 + 1 = n - q.length by omega] at hw
    calc _ < (gap + 1 - v) * (gap + 2) ^ (n - q.length) + (gap + 2) ^ (n - q.length) := by omega
      _ = (gap + 1 - v + 1) * (gap + 2) ^ (n - q.length) := by ring
      _ ≤ _ := Nat.mul_le_mul_right _ (by omega)

/-- The outer loop: it ends, it records every full assignment that was still to come, and if the stack holds allowed
values it records nothing else. -/
theorem backtrack_spec (gap : Nat) (al : Nat → Nat → Bool) (n : Nat) : ∀ (fuel : Nat) (st : List Nat) (cov : Nat → Bool) (good : Bool)
    (bm : Nat → Nat → Bool), StOk st cov → st.length ≤ n → (good = true → st.length = n) → (∀ v ∈ st, v ≤ gap) → weight gap st n < fuel →
    ∃ bm', backtrack gap al n fuel st cov good bm = some bm' ∧
      (∀ j v, bm j v = true → bm' j v = true) ∧
      (∀ a, Full gap al n a → Rem n a st good → ∀ j < n, bm' j (a j) = true) ∧
      ((∀ j < st.length, al j (st.getD j 0) = true ∧ st.getD j 0 < gap) →
        ∀ j < n, ∀ v, bm' j v = true → bm j v = true ∨ ∃ a, Full gap al n a ∧ a j = v)
  | 0, st, cov, good, bm, _, _, _, _, hw => by omega
  | fuel + 1, st, cov, good, bm, hs, hlen, hgood, hg, hw => by
    unfold backtrack
    rcases List.eq_nil_or_concat st with rfl | ⟨q, jj, rfl⟩
    · refine ⟨bm, rfl, fun _ _ h => h, fun a hf hr j hj => ?_, fun _ j hj v h => Or.inl h⟩
      rcases hr with ⟨h1, h2, _⟩ | ⟨i, hi, _⟩
      · simp only [List.length_nil] at h2; omega
      · simp at hi
    · rw [List.concat_eq_append] at *
      have hql : (q ++ [jj]).length = q.length + 1 := by simp
      rw [List.getLast?_append_of_ne_nil _ (by simp), List.getLast?_singleton, List.dropLast_append_of_ne_nil (by simp)]
      simp only [List.dropLast_singleton, List.append_nil]
      rw [hql] at hlen
      obtain ⟨e1, e2, e3, e4⟩ := extend_spec gap al n (n - q.length) (jj + 1) q (upd cov jj false) hs.pop (by omega)
      generalize extend gap al (n - q.length) (jj + 1) q (upd cov jj false) = e at e1 e2 e3 e4
      have hq : ∀ v ∈ q, v ≤ gap := fun v hv => hg v (by simp [hv])
      have hjj : jj ≤ gap := hg jj (by simp)
      have hent : ∀ v ∈ e.1, v ≤ gap := by
        intro v hv
        obtain ⟨j, hj⟩ := List.getElem?_of_mem hv
        have hjl : j < e.1.length := (List.getElem?_eq_some_iff.mp hj).1
        have hjv : e.1.getD j 0 = v := by simp [hj]
        by_cases hjq : j < q.length
        · rw [getD_of_prefix e1.pre hjq] at hjv
          rw [← hjv]
          apply hq
          simp [hjq]
        · have := (e2 j (by omega) hjl).2
          omega
      have hwt : weight gap e.1 n < fuel := by
        obtain ⟨t, ht⟩ := e1.pre
        have hlt : q.length + t.length = e.1.length := by rw [← ht]; simp
        have := weight_step gap n (q := q) (t := t) hjj (by omega) (by have := e1.len; omega) (fun v hv => by
          cases t with
          | nil => cases hv
          | cons w t =>
            simp only [List.head?_cons, Option.some.injEq] at hv
            subst hv
            have hat : e.1.getD q.length 0 = w := by rw [← ht]; simp
            simp only [List.length_cons] at hlt
            have h1 := e3 (by omega)
            have h2 := (e2 q.length (le_refl _) (by omega)).2
            rw [hat] at h1 h2
            exact ⟨h1, h2⟩)
        rw [ht] at this
        omega
      obtain ⟨bm', b1, b2, b3, b4⟩ := backtrack_spec gap al n fuel e.1 e.2.1 e.2.2 (if good = true then record (q ++ [jj]) bm else bm)
        e1.ok e1.len e1.good hent hwt
      refine ⟨bm', b1, fun j v h => b2 j v ?_, fun a hf hr => ?_, fun hall j hj v hv => ?_⟩
      · split
        · simp [record, h]
        · exact h
      · rcases hr with ⟨h1, h2, h3⟩ | ⟨i, hi, h3, h4⟩
        · intro j hj
          apply b2
          rw [if_pos h1]
          unfold record
          rw [h3 j (by omega)]
          simp
        · rw [hql] at hi
          apply b3 a hf
          by_cases hiq : i < q.length
          · right
            have hl := e1.pre.length_le
            refine ⟨i, by omega, fun j hj => ?_, ?_⟩
            · obtain ⟨t, ht⟩ := e1.pre
              rw [← ht, List.getElem?_append_left (by omega)]
              have := h3 j hj
              rwa [List.getElem?_append_left (by omega)] at this
            · rw [getD_of_prefix e1.pre hiq]
              rwa [getD_of_prefix (List.prefix_append q [jj]) hiq] at h4
          · have hi' : i = q.length := by omega
            subst hi'
            refine e4 a hf (fun j hj => ?_) (fun _ => ?_)
            · have := h3 j hj
              rwa [List.getElem?_append_left hj] at this
            · simp at h4; omega
      · have hrec := b4 (fun j hj => by
          by_cases hjq : j < q.length
          · rw [getD_of_prefix e1.pre hjq]
            have := hall j (by rw [hql]; omega)
            rwa [getD_of_prefix (List.prefix_append q [jj]) hjq] at this
          · exact e2 j (by omega) hj) j hj v hv
        rcases hrec with h | h
        · split at h
          · rename_i hgd
            unfold record at h
            rw [Bool.or_eq_true] at h
            rcases h with h | h
            · exact Or.inl h
            · right
              have hn := hgood hgd
              rw [decide_eq_true_eq] at h
              refine ⟨fun i => (q ++ [jj]).getD i 0, ⟨fun i hi => (hall i (by omega)).2, fun i hi => (hall i (by omega)).1, ?_⟩, ?_⟩
              · intro i hi i' hi' he
                have h1 : (q ++ [jj]).getD i 0 = (q ++ [jj])[i]'(by omega) := by
                  rw [List.getD_eq_getElem?_getD, List.getElem?_eq_getElem (by omega)]; rfl
                have h2 : (q ++ [jj]).getD i' 0 = (q ++ [jj])[i']'(by omega) := by
                  rw [List.getD_eq_getElem?_getD, List.getElem?_eq_getElem (by omega)]; rfl
                rw [h1, h2] at he
                exact (List.Nodup.getElem_inj_iff hs.nodup).mp he
              · simp only [List.getD_eq_getElem?_getD, h, Option.getD_some]
          · exact Or.inl h
        · exact Or.inr h

/-- The search for one set: it ends; every full assignment is recorded; if every member has an allowed value, only full
assignments are. -/
theorem search_spec (gap : Nat) (al : Nat → Nat → Bool) (n : Nat) :
    ∃ bm, backtrack gap al n (searchFuel gap n) (firstPass gap al n [] fun _ => false).1 (firstPass gap al n [] fun _ => false).2.1
        (firstPass gap al n [] fun _ => false).2.2 (fun _ _ => false) = some bm ∧
      (∀ a, Full gap al n a → ∀ j < n, bm j (a j) = true) ∧
      ((∀ j < n, ∃ v < gap, al j v = true) → ∀ j < n, ∀ v, bm j v = true → ∃ a, Full gap al n a ∧ a j = v) := by
  have hs : StOk [] (fun _ : Nat => false) := ⟨by simp, by simp⟩
  obtain ⟨f1, f2, f3⟩ := firstPass_spec gap al n n [] (fun _ => false) hs (by simp) (by simp)
  obtain ⟨bm, b1, _, b3, b4⟩ := backtrack_spec gap al n (searchFuel gap n) _ _ _ (fun _ _ => false) f1.ok f1.len f1.good f2
    (by unfold searchFuel; exact Nat.lt_succ_of_lt (weight_lt gap _ n (by have := f1.len; omega)))
  refine ⟨bm, b1, fun a hf => b3 a hf ?_, fun hr j hj v hv => ?_⟩
  · rw [f3 (fun j hj => ⟨a j, hf.lt j hj, hf.al j hj⟩)]
    refine (extend_spec gap al n n _ [] (fun _ => false) hs (by simp)).2.2.2 a hf (fun j hj => by simp at hj) fun h0 => ?_
    exact firstOf_le (hf.lt _ (by simpa using h0)) (hf.al _ (by simpa using h0))
  · rcases b4 (fun i hi => by
      rw [f3 hr] at hi ⊢
      exact (extend_spec gap al n n _ [] (fun _ => false) hs (by simp)).2.1 i (by simp) hi) j hj v hv with h | h
    · cases h
    · exact h

end Cgl.AllDiff
