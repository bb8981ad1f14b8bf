import Verif.Triple.Gather

/-! # The rows that are compared -/

namespace Cgl.Triple

/-- The columns of a comparison. -/
def colsOf (nBits i j1 j2 : Nat) : List Nat := if nBits = 2 then [i, j1] else [i, j1, j2]

/-- A line of the comparison is a short usable row of the problem. -/
structure LineOk (P : Prob) (use : Nat → Bool) (i j1 j2 nBits : Nat) (l : Line) (r : Row) : Prop where
  row : P.rows[l.row]? = some r
  use : use l.row = true
  len : r.coefs.length ≤ 3
  lo : l.lo = r.lb
  up : l.up = r.ub
  dot : ∀ x, r.coefs.dot x = l.e0 * x i + l.e1 * x j1 + l.e2 * x j2
  c0 : l.e0 = coefOf r.coefs i
  c1 : l.e1 = coefOf r.coefs j1
  c2 : l.e2 = if nBits = 2 then 0 else coefOf r.coefs j2
  nz1 : l.e1 ≠ 0
  nz2 : nBits ≠ 2 → l.e2 ≠ 0
  cols : ∀ p ∈ r.coefs, p.1 ∈ colsOf nBits i j1 j2
  have1 : j1 ∈ r.coefs.map Prod.fst
  have2 : nBits ≠ 2 → j2 ∈ r.coefs.map Prod.fst

theorem coefOf_ne {P : Prob} (hs : Sized P) {r : Row} (hr : r ∈ P.rows) {k : Nat} (hk : k ∈ r.coefs.map Prod.fst) :
    coefOf r.coefs k ≠ 0 := by
  obtain ⟨p, hp, e⟩ := List.mem_map.mp hk
  rw [← e, coefOf_mem (hs.wf.nodup r hr) hp]
  exact (hs.coefs r hr p hp).1

/-- Two rows that can be compared. -/
structure Pair (P : Prob) (use : Nat → Bool) (i nBits i1 i2 : Nat) (r1 r2 : Row) : Prop where
  row1 : P.rows[i1]? = some r1
  row2 : P.rows[i2]? = some r2
  use1 : use i1 = true
  use2 : use i2 = true
  len1 : r1.coefs.length = nBits
  len2 : r2.coefs.length = nBits
  le : nBits ≤ 3
  same : ∀ k, k ∈ r1.coefs.map Prod.fst ↔ k ∈ r2.coefs.map Prod.fst
  mem : i ∈ r1.coefs.map Prod.fst

theorem line2 {P : Prob} (hs : Sized P) {use : Nat → Bool} {i a i1 : Nat} {r : Row} {j2 : Nat} (hr : P.rows[i1]? = some r)
    (hu : use i1 = true) (hl : r.coefs.length = 2) (ha : a ≠ i) (hsub : ∀ p ∈ r.coefs, p.1 ∈ [i, a])
    (hm : a ∈ r.coefs.map Prod.fst) :
    LineOk P use i a j2 2 ⟨i1, r.lb, r.ub, coefOf r.coefs i, coefOf r.coefs a, 0⟩ r := by
  refine ⟨hr, hu, by omega, rfl, rfl, ?_, rfl, rfl, rfl, coefOf_ne hs (List.mem_of_getElem? hr) hm, fun h => absurd rfl h,
    hsub, hm, fun h => absurd rfl h⟩
  intro x
  rw [dot_over (K := [i, a]) (by simp [ha.symm]) hsub x]
  simp only [List.map_cons, List.map_nil, List.sum_cons, List.sum_nil]
  ring

theorem line3 {P : Prob} (hs : Sized P) {use : Nat → Bool} {i a b i1 : Nat} {r : Row} (hr : P.rows[i1]? = some r)
    (hu : use i1 = true) (hl : r.coefs.length ≤ 3) (hnd : [i, a, b].Nodup) (hsub : ∀ p ∈ r.coefs, p.1 ∈ [i, a, b])
    (hm : a ∈ r.coefs.map Prod.fst) (hm2 : b ∈ r.coefs.map Prod.fst) :
    LineOk P use i a b 3 ⟨i1, r.lb, r.ub, coefOf r.coefs i, coefOf r.coefs a, coefOf r.coefs b⟩ r := by
  refine ⟨hr, hu, hl, rfl, rfl, ?_, rfl, rfl, rfl, coefOf_ne hs (List.mem_of_getElem? hr) hm,
    fun _ => coefOf_ne hs (List.mem_of_getElem? hr) hm2, hsub, hm, fun _ => hm2⟩
  intro x
  rw [dot_over (K := [i, a, b]) hnd hsub x]
  simp only [List.map_cons, List.map_nil, List.sum_cons, List.sum_nil]
  ring

theorem matched_cases {root : ℚ → ℚ} {s : St} {use : Nat → Bool} {i nBits i1 i2 : Nat} {r1 r2 : Row} (hs : Sized s.P)
    (h : Pair s.P use i nBits i1 i2 r1 r2) :
    matched root use i nBits i1 i2 r1 r2 s = .ok none ∨
    ∃ j1 j2 A B, LineOk s.P use i j1 j2 nBits A r1 ∧ LineOk s.P use i j1 j2 nBits B r2 ∧ (colsOf nBits i j1 j2).Nodup ∧
      (nBits = 2 ∨ nBits = 3) ∧ ∃ o, (nBits = 3 → o = some j2) ∧
      matched root use i nBits i1 i2 r1 r2 s =
        match treat root use i nBits j1 o A B s with
        | .error e => .error e
        | .ok t => .ok (some t) := by
  have m1 := List.mem_of_getElem? h.row1
  have m2 := List.mem_of_getElem? h.row2
  have n1 := hs.wf.nodup r1 m1
  have n2 := hs.wf.nodup r2 m2
  have hS : (r1.coefs.map Prod.fst).length ≤ 3 := by rw [List.length_map, h.len1]; exact h.le
  obtain ⟨g1, e1, G1, -, -⟩ := gatherRow_spec (i := i) h.mem hS r1.coefs [] ⟨none, none, none, none, none⟩
    ⟨fun a ha => (by cases ha), fun a ha => (by cases ha), fun _ => rfl, fun p hp => (by cases hp)⟩
    (fun p hp => List.mem_map_of_mem hp) n1
  rw [List.nil_append] at G1
  obtain ⟨g2, e2, G2, k1, k2⟩ := gatherRow_spec (i := i) h.mem hS r2.coefs [] { g1 with e0 := none, e1 := none, e2 := none }
    ⟨G1.one, G1.two, G1.order, fun p hp => (by cases hp)⟩
    (fun p hp => (h.same p.1).mpr (List.mem_map_of_mem hp)) n2
  rw [List.nil_append] at G2
  dsimp only at k1 k2
  obtain ⟨v10, v11, v12⟩ := G1.values n1 (fun _ => Iff.rfl) h.mem
  obtain ⟨v20, v21, v22⟩ := G2.values n2 h.same h.mem
  have c1 := G1.columns n1 (fun _ => Iff.rfl) h.mem
  have c2 := G2.columns n2 h.same h.mem
  have hle : ¬ 3 < r1.coefs.length := by rw [h.len1]; exact not_lt.mpr h.le
  unfold matched
  rw [if_neg hle, e1]
  dsimp only
  rw [e2]
  dsimp only
  rw [h.len1] at c1
  rw [h.len2] at c2
  rcases c1 with ⟨a1, a2⟩ | ⟨a, a1, a2, a3, a4, a5⟩ | ⟨a, b, a1, a2, a3, a4, a5⟩
  · left
    rcases c2 with ⟨b1, -⟩ | ⟨_, -, -, b3, -⟩ | ⟨_, _, -, -, b3, -⟩
    · rw [b1]
    · omega
    · omega
  · right
    rcases c2 with ⟨b1, b2⟩ | ⟨a', b1, b2, b3, b4, b5⟩ | ⟨_, _, -, -, b3, -⟩
    · omega
    · have hb1 := k1 a a1
      have : a' = a := by rw [hb1] at b1; exact (Option.some.inj b1).symm
      subst this
      subst a3
      refine ⟨a', 0, _, _, line2 hs h.row1 h.use1 h.len1 a4 a5 (G1.one _ a1).2,
        line2 hs h.row2 h.use2 h.len2 a4 b5 ((h.same _).mp (G1.one _ a1).2), by simp [colsOf, a4.symm], Or.inl rfl, g2.j2,
        fun h => absurd h (by decide), ?_⟩
      rw [b1]
      dsimp only
      have r1 : readLine 2 i1 r1.lb r1.ub g1 = .ok ⟨i1, r1.lb, r1.ub, coefOf r1.coefs i, coefOf r1.coefs a', 0⟩ := by
        unfold readLine; rw [v10, v11 _ a1]; rfl
      have r2 : readLine 2 i2 r2.lb r2.ub g2 = .ok ⟨i2, r2.lb, r2.ub, coefOf r2.coefs i, coefOf r2.coefs a', 0⟩ := by
        unfold readLine; rw [v20, v21 _ b1]; rfl
      rw [r1, r2]
      rfl
    · omega
  · right
    rcases c2 with ⟨b1, b2⟩ | ⟨_, -, -, b3, -⟩ | ⟨a', b', b1, b2, b3, b4, b5⟩
    · omega
    · omega
    · have hb1 := k1 a a1
      have hb2 := k2 b a2
      have e3 : a' = a := by rw [hb1] at b1; exact (Option.some.inj b1).symm
      have e4 : b' = b := by rw [hb2] at b2; exact (Option.some.inj b2).symm
      subst e3
      subst e4
      subst a3
      refine ⟨a', b', _, _, line3 hs h.row1 h.use1 (by rw [h.len1]) a4 a5 (G1.one _ a1).2 (G1.two _ a2).2.1,
        line3 hs h.row2 h.use2 (by rw [h.len2]) a4 b5 ((h.same _).mp (G1.one _ a1).2) ((h.same _).mp (G1.two _ a2).2.1),
        a4, Or.inr rfl, g2.j2, fun _ => b2, ?_⟩
      rw [b1]
      dsimp only
      have r1 : readLine 3 i1 r1.lb r1.ub g1 =
          .ok ⟨i1, r1.lb, r1.ub, coefOf r1.coefs i, coefOf r1.coefs a', coefOf r1.coefs b'⟩ := by
        unfold readLine; rw [v10, v11 _ a1, v12 _ a2]; rfl
      have r2 : readLine 3 i2 r2.lb r2.ub g2 =
          .ok ⟨i2, r2.lb, r2.ub, coefOf r2.coefs i, coefOf r2.coefs a', coefOf r2.coefs b'⟩ := by
        unfold readLine; rw [v20, v21 _ b1, v22 _ b2]; rfl
      rw [r1, r2]
      rfl

/-- A doubleton that is added to a comparison of three columns. -/
theorem doubleton_spec {P : Prob} (hs : Sized P) {use : Nat → Bool} {i j1 j2 k : Nat} {l : Line} (hnd : [i, j1, j2].Nodup)
    (h : doubleton P use j1 j2 k = some l) : ∃ r, LineOk P use i j1 j2 3 l r := by
  have hn : i ≠ j1 ∧ i ≠ j2 ∧ j1 ≠ j2 := by
    simp only [List.nodup_cons, List.mem_cons, List.not_mem_nil, or_false, not_or, List.nodup_nil, and_true,
      not_false_iff] at hnd
    exact ⟨hnd.1.1, hnd.1.2, hnd.2⟩
  unfold doubleton at h
  cases hr : P.rows[k]? with
  | none => rw [hr] at h; cases h
  | some r =>
    rw [hr] at h
    dsimp only at h
    have hm := List.mem_of_getElem? hr
    have key : ∀ p q : Nat × ℚ, r.coefs = [p, q] → use k = true → (p.1 = j1 ∧ q.1 = j2 ∨ q.1 = j1 ∧ p.1 = j2) →
        ∃ r, LineOk P use i j1 j2 3 ⟨k, r.lb, r.ub, coefOf r.coefs i, coefOf r.coefs j1, coefOf r.coefs j2⟩ r ∧
          P.rows[k]? = some r := by
      intro p q hc hu hpq
      refine ⟨r, line3 hs hr hu (by rw [hc]; simp) hnd ?_ ?_ ?_, hr⟩
      · intro x hx
        rw [hc] at hx
        simp only [List.mem_cons, List.not_mem_nil, or_false] at hx ⊢
        rcases hpq with ⟨h1, h2⟩ | ⟨h1, h2⟩ <;> rcases hx with rfl | rfl <;> simp [h1, h2]
      · rw [hc]; rcases hpq with ⟨h1, h2⟩ | ⟨h1, h2⟩ <;> simp [h1]
      · rw [hc]; rcases hpq with ⟨h1, h2⟩ | ⟨h1, h2⟩ <;> simp [h2]
    split at h
    · rename_i p q hc
      by_cases hu : use k = true
      · rw [if_pos hu] at h
        by_cases h1 : p.1 = j1 ∧ q.1 = j2
        · rw [if_pos h1] at h
          obtain ⟨r', k1, k2⟩ := key p q hc hu (Or.inl h1)
          rw [hr] at k2
          rw [← Option.some.inj k2] at k1
          refine ⟨r, ?_⟩
          have : l = ⟨k, r.lb, r.ub, coefOf r.coefs i, coefOf r.coefs j1, coefOf r.coefs j2⟩ := by
            rw [← Option.some.inj h, hc]
            simp only [coefOf_cons, h1.1, h1.2, if_true, if_neg hn.1.symm, if_neg hn.2.1.symm, if_neg hn.2.2,
              if_neg hn.2.2.symm]
            simp [coefOf]
          rw [this]; exact k1
        · rw [if_neg h1] at h
          by_cases h2 : q.1 = j1 ∧ p.1 = j2
          · rw [if_pos h2] at h
            obtain ⟨r', k1, k2⟩ := key p q hc hu (Or.inr h2)
            rw [hr] at k2
            rw [← Option.some.inj k2] at k1
            refine ⟨r, ?_⟩
            have : l = ⟨k, r.lb, r.ub, coefOf r.coefs i, coefOf r.coefs j1, coefOf r.coefs j2⟩ := by
              rw [← Option.some.inj h, hc]
              simp only [coefOf_cons, h2.1, h2.2, if_true, if_neg hn.1.symm, if_neg hn.2.1.symm, if_neg hn.2.2,
                if_neg hn.2.2.symm]
              simp [coefOf]
            rw [this]; exact k1
          · rw [if_neg h2] at h; cases h
      · rw [if_neg hu] at h; cases h
    · cases h

theorem doubletons_spec {P : Prob} (hs : Sized P) {use : Nat → Bool} {i j1 j2 : Nat} (hnd : [i, j1, j2].Nodup) :
    (doubletons P use j1 j2).length ≤ 2 ∧ ∀ l ∈ doubletons P use j1 j2, ∃ r, LineOk P use i j1 j2 3 l r := by
  unfold doubletons
  refine ⟨by rw [List.length_take]; omega, fun l hl => ?_⟩
  obtain ⟨k, -, hk⟩ := List.mem_filterMap.mp (List.mem_of_mem_take hl)
  exact doubleton_spec hs hnd hk

end Cgl.Triple
