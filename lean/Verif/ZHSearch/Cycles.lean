import Verif.ZHSearch.Sparse
import Verif.ZHSearch.Paths

/-!
# The cycles of the search
-/

namespace Cgl.ZHSearch

open ZeroHalf

/-! ### The auxiliary graphs are good -/

theorem auxGraph_get (g : List (List (Nat × Edge))) :
    ∀ v, arcsAt (auxGraph g) v = (g.getD (v / 2) []).map (arcOf (decide (v % 2 = 1))) := by
  induction g with
  | nil => intro v; simp [arcsAt, auxGraph]
  | cons l g ih =>
    intro v
    have hcons : auxGraph (l :: g) = l.map (arcOf false) :: l.map (arcOf true) :: auxGraph g := by
      unfold auxGraph
      rw [List.flatMap_cons]
      rfl
    rw [hcons]
    match v with
    | 0 => rfl
    | 1 => rfl
    | v + 2 =>
      have h2 : (v + 2) / 2 = v / 2 + 1 := by omega
      have h3 : (v + 2) % 2 = v % 2 := by omega
      rw [h2, h3]
      exact ih v

theorem auxGraph_length (g : List (List (Nat × Edge))) : (auxGraph g).length = 2 * g.length := by
  induction g with
  | nil => rfl
  | cons l g ih =>
    unfold auxGraph at *
    rw [List.flatMap_cons, List.length_append, ih, List.length_cons]
    simp
    omega

theorem adjacency_get (n : Nat) (es : List Edge) (j : Nat) :
    (adjacency n es).getD j [] = if j < n then edgesAt es j n else [] := by
  unfold adjacency
  rw [List.getD_eq_getElem?_getD, List.getElem?_map]
  by_cases h : j < n
  · rw [if_pos h, List.getElem?_range h]; rfl
  · rw [if_neg h, List.getElem?_eq_none (by rw [List.length_range]; omega)]; rfl

/-- The lengths of the edges make sense. -/
def LenOK (es : List Edge) : Prop := ∀ e ∈ es, 0 ≤ units e ∧ units e ≤ 10000

theorem bestOf_units {es : List Edge} (h : LenOK es) {j k : Nat} {p : Bool} {d : Edge} (hd : bestOf es j k p = some d) :
    0 ≤ units d ∧ units d ≤ 10000 := by
  obtain ⟨l, r, e, h1, _, h3, _⟩ := (bestOf_lightest es j k p).2 d hd
  have := h e (by rw [h1]; simp)
  unfold units at *
  rw [← h3]
  exact this

theorem mem_aux {n : Nat} {es : List Edge} {v : Nat} {a : Arc} :
    a ∈ arcsAt (auxGraph (adjacency n es)) v ↔ v / 2 < n ∧ ∃ k e, k < n ∧ k ≠ v / 2 ∧
      (∃ p, bestOf es (v / 2) k p = some e) ∧ a = arcOf (decide (v % 2 = 1)) (k, e) := by
  rw [auxGraph_get, adjacency_get]
  by_cases h : v / 2 < n
  · rw [if_pos h, List.mem_map]
    constructor
    · rintro ⟨q, hq, rfl⟩
      obtain ⟨h1, h2, h3⟩ := mem_edgesAt.mp hq
      exact ⟨h, q.1, q.2, h1, h2, h3, rfl⟩
    · rintro ⟨_, k, e, h1, h2, h3, rfl⟩
      exact ⟨(k, e), mem_edgesAt.mpr ⟨h1, h2, h3⟩, rfl⟩
  · rw [if_neg h]
    simp [h]

theorem arcOf_half (b : Bool) (k : Nat) (e : Edge) : (arcOf b (k, e)).dest / 2 = k := by
  unfold arcOf
  dsimp only
  split <;> omega

theorem arcOf_step (v k : Nat) (e : Edge) : stepOdd v (arcOf (decide (v % 2 = 1)) (k, e)).dest = e.odd := by
  unfold arcOf stepOdd
  dsimp only
  rcases Nat.mod_two_eq_zero_or_one v with h | h <;> cases e.odd <;> simp [h] <;> omega

theorem arcOf_twin (v k : Nat) (e : Edge) :
    (arcOf (decide (mate v % 2 = 1)) (k, e)).dest = mate (arcOf (decide (v % 2 = 1)) (k, e)).dest := by
  rw [mate_mod]
  unfold arcOf mate
  dsimp only
  rcases Nat.mod_two_eq_zero_or_one v with h | h <;> cases e.odd <;> simp [h] <;> omega

theorem good_aux {n : Nat} {es : List Edge} (hl : LenOK es) : Good n es (auxGraph (adjacency n es)) := by
  have hlen : ∀ v a, a ∈ arcsAt (auxGraph (adjacency n es)) v → a.len = units a.edge ∧ 0 ≤ units a.edge ∧ units a.edge ≤ 10000 := by
    intro v a ha
    obtain ⟨_, k, e, _, _, ⟨p, h3⟩, rfl⟩ := mem_aux.mp ha
    exact ⟨rfl, bestOf_units hl h3⟩
  refine ⟨?_, ?_, ?_, ?_, ?_, ?_, ?_, ?_, ?_⟩
  · rw [auxGraph_length]
    simp [adjacency]
  · intro v a ha
    have := (mem_aux.mp ha).1
    omega
  · intro v a ha
    obtain ⟨_, k, e, h1, _, _, rfl⟩ := mem_aux.mp ha
    have := arcOf_half (decide (v % 2 = 1)) k e
    omega
  · intro v a ha
    obtain ⟨_, k, e, _, h2, _, rfl⟩ := mem_aux.mp ha
    rw [arcOf_half]
    exact h2
  · intro v a ha
    obtain ⟨_, k, e, _, _, ⟨p, h3⟩, rfl⟩ := mem_aux.mp ha
    rw [arcOf_half, arcOf_step, (bestOf_joins _ _ _ _ _ h3).1]
    exact h3
  · intro v a ha
    rw [(hlen v a ha).1]
  · intro v a ha
    rw [(hlen v a ha).1]; exact (hlen v a ha).2.1
  · intro v a ha
    rw [(hlen v a ha).1]; exact (hlen v a ha).2.2
  · intro v a ha
    obtain ⟨h0, k, e, h1, h2, h3, rfl⟩ := mem_aux.mp ha
    refine ⟨arcOf (decide (mate v % 2 = 1)) (k, e), mem_aux.mpr ⟨by rw [mate_half]; exact h0, k, e, h1, ?_, ?_, rfl⟩, arcOf_twin v k e⟩
    · rw [mate_half]; exact h2
    · rw [mate_half]; exact h3

theorem arcsAt_modify (A : List (List Arc)) (i : Nat) (f : List Arc → List Arc) (hf : f [] = []) (v : Nat) :
    arcsAt (A.modify i f) v = if i = v then f (arcsAt A v) else arcsAt A v := by
  unfold arcsAt
  rw [List.getD_eq_getElem?_getD, List.getElem?_modify, List.getD_eq_getElem?_getD]
  by_cases h : i = v
  · rw [if_pos h]
    cases A[v]? <;> simp [hf, h]
  · rw [if_neg h]
    cases A[v]? <;> simp [h]

theorem arcsAt_cancel (A : List (List Arc)) (j v : Nat) :
    arcsAt (cancel A j) v = if v / 2 = j then (arcsAt A v).map fun a => { a with len := iscale } else arcsAt A v := by
  unfold cancel
  rw [arcsAt_modify _ _ _ rfl, arcsAt_modify _ _ _ rfl]
  by_cases h1 : 2 * j + 1 = v
  · rw [if_pos h1, if_neg (by omega), if_pos (by omega)]
  · rw [if_neg h1]
    by_cases h2 : 2 * j = v
    · rw [if_pos h2, if_pos (by omega)]
    · rw [if_neg h2, if_neg (by omega)]

theorem good_cancel {n : Nat} {es : List Edge} {A : List (List Arc)} (h : Good n es A) (hl : LenOK es) (j : Nat) :
    Good n es (cancel A j) := by
  have key : ∀ v a, a ∈ arcsAt (cancel A j) v → ∃ b ∈ arcsAt A v, a.dest = b.dest ∧ a.edge = b.edge ∧
      (a.len = b.len ∨ a.len = 10000) := by
    intro v a ha
    rw [arcsAt_cancel] at ha
    by_cases hv : v / 2 = j
    · rw [if_pos hv] at ha
      obtain ⟨b, hb, rfl⟩ := List.mem_map.mp ha
      exact ⟨b, hb, rfl, rfl, Or.inr rfl⟩
    · rw [if_neg hv] at ha
      exact ⟨a, ha, rfl, rfl, Or.inl rfl⟩
  have key' : ∀ v b, b ∈ arcsAt A v → ∃ a ∈ arcsAt (cancel A j) v, a.dest = b.dest := by
    intro v b hb
    rw [arcsAt_cancel]
    by_cases hv : v / 2 = j
    · rw [if_pos hv]
      exact ⟨_, List.mem_map.mpr ⟨b, hb, rfl⟩, rfl⟩
    · rw [if_neg hv]
      exact ⟨b, hb, rfl⟩
  refine ⟨?_, ?_, ?_, ?_, ?_, ?_, ?_, ?_, ?_⟩
  · rw [cancel, List.length_modify, List.length_modify]; exact h.length
  · intro v a ha
    obtain ⟨b, hb, _⟩ := key v a ha
    exact h.src v b hb
  · intro v a ha
    obtain ⟨b, hb, h1, _⟩ := key v a ha
    rw [h1]; exact h.dest v b hb
  · intro v a ha
    obtain ⟨b, hb, h1, _⟩ := key v a ha
    rw [h1]; exact h.other v b hb
  · intro v a ha
    obtain ⟨b, hb, h1, h2, _⟩ := key v a ha
    rw [h1, h2]; exact h.best v b hb
  · intro v a ha
    obtain ⟨b, hb, h1, h2, h3⟩ := key v a ha
    have hb2 := bestOf_units hl (h.best v b hb)
    have := h.low v b hb
    rw [h2]
    omega
  · intro v a ha
    obtain ⟨b, hb, h1, h2, h3⟩ := key v a ha
    have := h.nonneg v b hb
    omega
  · intro v a ha
    obtain ⟨b, hb, h1, h2, h3⟩ := key v a ha
    have := h.high v b hb
    omega
  · intro v a ha
    obtain ⟨b, hb, h1, h2, h3⟩ := key v a ha
    obtain ⟨c, hc, hd⟩ := h.twin v b hb
    obtain ⟨d, hd1, hd2⟩ := key' _ c hc
    exact ⟨d, hd1, by rw [hd2, hd, h1]⟩

/-! ### Simple cycles -/

theorem simpleLoop_count : ∀ (l : List Edge) (cnt : Nat → Nat), simpleLoop l cnt = true → (∀ v, cnt v ≤ 2) →
    ∀ v, cnt v + ((l.map fun e => e.u).count v + (l.map fun e => e.v).count v) ≤ 2 := by
  intro l
  induction l with
  | nil => intro cnt _ h v; simpa using h v
  | cons e l ih =>
    intro cnt hs h v
    rw [simpleLoop] at hs
    dsimp only at hs
    rw [Function.update_self] at hs
    by_cases h1 : 2 < cnt e.u + 1
    · rw [if_pos h1] at hs; cases hs
    · rw [if_neg h1, Function.update_self] at hs
      by_cases h2 : 2 < Function.update cnt e.u (cnt e.u + 1) e.v + 1
      · rw [if_pos h2] at hs; cases hs
      · rw [if_neg h2] at hs
        have hb : ∀ w, Function.update (Function.update cnt e.u (cnt e.u + 1)) e.v
            (Function.update cnt e.u (cnt e.u + 1) e.v + 1) w =
            cnt w + (if w = e.u then 1 else 0) + (if w = e.v then 1 else 0) := by
          intro w
          by_cases hv : w = e.v
          · subst hv
            rw [Function.update_self, if_pos rfl]
            by_cases hu : e.v = e.u
            · rw [hu, Function.update_self, if_pos rfl]
            · rw [Function.update_of_ne hu, if_neg hu]
          · rw [Function.update_of_ne hv, if_neg hv]
            by_cases hu : w = e.u
            · subst hu; rw [Function.update_self, if_pos rfl]
            · rw [Function.update_of_ne hu, if_neg hu]; rfl
        have hle : ∀ w, Function.update (Function.update cnt e.u (cnt e.u + 1)) e.v
            (Function.update cnt e.u (cnt e.u + 1) e.v + 1) w ≤ 2 := by
          intro w
          by_cases hv : w = e.v
          · subst hv; rw [Function.update_self]; omega
          · rw [Function.update_of_ne hv]
            by_cases hu : w = e.u
            · subst hu; rw [Function.update_self]; omega
            · rw [Function.update_of_ne hu]; exact h w
        have := ih _ hs hle v
        rw [hb] at this
        rw [List.map_cons, List.map_cons, List.count_cons, List.count_cons]
        have c1 : (if (e.u == v) = true then 1 else 0) = (if v = e.u then 1 else 0 : Nat) := by
          by_cases hh : v = e.u
          · simp [hh]
          · simp [hh, Ne.symm hh]
        have c2 : (if (e.v == v) = true then 1 else 0) = (if v = e.v then 1 else 0 : Nat) := by
          by_cases hh : v = e.v
          · simp [hh]
          · simp [hh, Ne.symm hh]
        rw [c1, c2]
        omega

/-! ### One node -/

theorem viaNode_ok {n : Nat} {es : List Edge} {A : List (List Arc)} (hA : Good n es A) {j : Nat} (hj : j < n) {s : SP}
    (h : Inv A (2 * j) s) {kt : Nat} (hk : kt / 2 ≠ j) {l : List Cycle} (hl : l.length < A.length - 2)
    (hd : l.Pairwise fun a b => sameCycle b a = false) :
    ∃ l', viaNode A s j kt l = .ok l' ∧ l'.length ≤ l.length + 1 ∧ (l'.Pairwise fun a b => sameCycle b a = false) ∧
      ∀ c ∈ l', c ∈ l ∨ OddCycle (Kept n es) j c := by
  unfold viaNode
  dsimp only
  by_cases hw : (((forwDist s kt + backDist s kt : ℤ) : ℚ) / (iscale : ℚ)) < 1 + epsTol
  · rw [if_pos hw]
    have hsum : forwDist s kt + backDist s kt ≤ 10000 := by
      unfold iscale epsTol at hw
      rw [div_lt_iff₀ (by norm_num)] at hw
      have h2 : ((forwDist s kt + backDist s kt : ℤ) : ℚ) < ((10001 : ℤ) : ℚ) := by
        refine lt_of_lt_of_le hw ?_
        norm_num
      have := Int.cast_lt.mp h2
      omega
    have hnn : ∀ v, 0 ≤ forwDist s v := by
      intro v
      unfold forwDist
      split
      · exact h.nonneg v
      · unfold intMax; omega
    have hn1 := hnn kt
    have hn2 := hnn (mate kt)
    have hps : ∀ v, forwDist s v ≤ 10000 → ∃ p, s.par v = some p ∧ forwDist s v = s.dist v := by
      intro v hv
      unfold forwDist at hv ⊢
      cases hp : s.par v with
      | none => rw [hp] at hv; simp [intMax] at hv
      | some p => exact ⟨p, rfl, by simp⟩
    unfold backDist at hsum hw ⊢
    obtain ⟨p1, hp1, hd1⟩ := hps kt (by omega)
    obtain ⟨p2, hp2, hd2⟩ := hps (mate kt) (by omega)
    obtain ⟨l1, hc1⟩ := (h.up kt p1 hp1).chain
    obtain ⟨l2, hc2⟩ := (h.up (mate kt) p2 hp2).chain
    have hsrc : 2 * j < 2 * n := by omega
    have hne1 : kt ≠ 2 * j := by rintro rfl; exact hk (by omega)
    have hne2 : mate kt ≠ 2 * j := by
      intro e
      have := mate_half kt
      omega
    obtain ⟨f1, e1, g1, w1⟩ := paths_ok hA h (forwPred s) id (fun _ _ e => e)
      (fun v => by unfold forwPred; simp) (fun v a ha => arcEdge_eq hA ha rfl) hc1 (A.length + 1) hne1
      (le_trans (hc1.length_le hA h hsrc) (Nat.le_succ _))
    obtain ⟨f2, e2, g2, w2⟩ := paths_ok hA h (backPred s) mate (fun _ _ e => mate_inj e)
      (fun v => by unfold backPred; rw [mate_mate]) (fun v a ha => arcEdge_mate hA ha rfl) hc2 (A.length + 1) hne2
      (le_trans (hc2.length_le hA h hsrc) (Nat.le_succ _))
    have hm : mate (2 * j) = 2 * j + 1 := by unfold mate; simp
    rw [mate_mate, hm] at f2 g2
    simp only [id] at f1 g1
    rw [f1, f2]
    dsimp only
    rw [g1, g2]
    dsimp only
    unfold addCycle
    by_cases hs : simpleCycle ⟨((forwDist s kt + forwDist s (mate kt) : ℤ) : ℚ) / (iscale : ℚ), e1 ++ e2⟩ = true
    · rw [if_neg (by rw [hs]; simp)]
      by_cases ha : (l.any (sameCycle ⟨((forwDist s kt + forwDist s (mate kt) : ℤ) : ℚ) / (iscale : ℚ), e1 ++ e2⟩)) = true
      · rw [if_pos ha]
        exact ⟨l, rfl, Nat.le_succ _, hd, fun c hc => Or.inl hc⟩
      · rw [if_neg ha, if_pos hl]
        refine ⟨_, rfl, by simp, ?_, ?_⟩
        · refine List.pairwise_append.mpr ⟨hd, List.pairwise_singleton _ _, ?_⟩
          intro a hm b hb
          obtain rfl := List.mem_singleton.mp hb
          cases hs2 : sameCycle ⟨((forwDist s kt + forwDist s (mate kt) : ℤ) : ℚ) / (iscale : ℚ), e1 ++ e2⟩ a with
          | false => rfl
          | true => exact absurd (List.any_eq_true.mpr ⟨a, hm, hs2⟩) ha
        intro c hc
        rcases List.mem_append.mp hc with hc | hc
        · exact Or.inl hc
        · right
          obtain rfl := List.mem_singleton.mp hc
          refine ⟨⟨kt / 2, e1, e2, hk, rfl, w1.ne, w2.ne, ?_, ?_⟩, ?_, ?_, ?_, ?_⟩
          · have := w1.walk
            rw [Nat.mul_div_cancel_left j (by decide)] at this
            exact this
          · have := w2.walk
            rw [Nat.mul_div_cancel_left j (by decide), mate_half] at this
            exact this
          · unfold OddMany
            dsimp only
            rw [List.countP_append]
            have o1 := w1.odd
            have o2 := w2.odd
            have o3 := mate_mod kt
            omega
          · intro v
            have := simpleLoop_count _ _ hs (fun _ => by omega) v
            dsimp only at this ⊢
            omega
          · dsimp only
            rw [List.map_append, List.sum_append]
            have s1 := w1.sum
            have s2 := w2.sum
            have : (e1.map units).sum + (e2.map units).sum ≤ forwDist s kt + forwDist s (mate kt) := by omega
            have h2 : (((e1.map units).sum + (e2.map units).sum : ℤ) : ℚ) ≤ ((forwDist s kt + forwDist s (mate kt) : ℤ) : ℚ) :=
              Int.cast_le.mpr this
            refine le_trans h2 ?_
            unfold iscale
            rw [mul_div_assoc', le_div_iff₀ (by norm_num)]
            push_cast
            linarith
          · dsimp only
            unfold iscale
            rw [div_le_iff₀ (by norm_num)]
            have h2 : ((forwDist s kt + forwDist s (mate kt) : ℤ) : ℚ) ≤ ((10000 : ℤ) : ℚ) := Int.cast_le.mpr hsum
            push_cast at h2 ⊢
            linarith
    · rw [if_pos (by simpa using hs)]
      exact ⟨l, rfl, Nat.le_succ _, hd, fun c hc => Or.inl hc⟩
  · rw [if_neg hw]
    exact ⟨l, rfl, Nat.le_succ _, hd, fun c hc => Or.inl hc⟩

theorem viaLoop_ok {n : Nat} {es : List Edge} {A : List (List Arc)} (hA : Good n es A) {j : Nat} (hj : j < n) {s : SP}
    (h : Inv A (2 * j) s) : ∀ (ks : List Nat) (l : List Cycle),
      l.length + 2 * (ks.filter fun k => k ≠ j).length ≤ A.length - 2 → (l.Pairwise fun a b => sameCycle b a = false) →
      ∃ l', viaLoop A s j ks l = .ok l' ∧ (l'.Pairwise fun a b => sameCycle b a = false) ∧
        ∀ c ∈ l', c ∈ l ∨ OddCycle (Kept n es) j c := by
  intro ks
  induction ks with
  | nil => intro l _ hd; exact ⟨l, rfl, hd, fun c hc => Or.inl hc⟩
  | cons k ks ih =>
    intro l hl hd
    rw [viaLoop]
    by_cases hk : k = j
    · rw [if_pos hk]
      rw [List.filter_cons, if_neg (by simpa using hk)] at hl
      exact ih l hl hd
    · rw [if_neg hk]
      rw [List.filter_cons, if_pos (by simpa using hk), List.length_cons] at hl
      obtain ⟨l1, h1, h2, d1, h3⟩ := viaNode_ok hA hj h (kt := 2 * k) (by omega) (l := l) (by omega) hd
      obtain ⟨l2, h4, h5, d2, h6⟩ := viaNode_ok hA hj h (kt := 2 * k + 1) (by omega) (l := l1) (by omega) d1
      obtain ⟨l3, h7, d3, h8⟩ := ih l2 (by omega) d2
      rw [h1]
      dsimp only
      rw [h4]
      refine ⟨l3, h7, d3, fun c hc => ?_⟩
      rcases h8 c hc with hc | hc
      · rcases h6 c hc with hc | hc
        · exact h3 c hc
        · exact Or.inr hc
      · exact Or.inr hc

theorem range_without {n j : Nat} (hj : j < n) : ((List.range n).filter fun k => decide (k ≠ j)).length = n - 1 := by
  have h1 : ((List.range n).filter fun k => decide (k ≠ j)).length + (List.range n).count j = n := by
    have := List.length_eq_length_filter_add (l := List.range n) (fun k => decide (k ≠ j))
    rw [List.length_range] at this
    rw [List.count_eq_countP, List.countP_eq_length_filter]
    have e : (List.range n).filter (fun k => !decide (k ≠ j)) = (List.range n).filter (fun k => k == j) := by
      apply List.filter_congr
      intro k _
      by_cases hk : k = j <;> simp [hk]
    rw [e] at this
    exact this.symm
  have h2 : (List.range n).count j = 1 :=
    List.count_eq_one_of_mem List.nodup_range (List.mem_range.mpr hj)
  omega

/-- What is known about the cycles of a node. -/
structure NodeOK (E : Edge → Prop) (j : Nat) (l : List Cycle) : Prop where
  cycle : ∀ c ∈ l, OddCycle E j c
  distinct : l.Pairwise fun a b => b.edges ≠ a.edges ∧ b.edges ≠ a.edges.reverse

theorem oddCycles_ok {lib : HeapLib} (hlib : lib.Keeps) {n : Nat} {es : List Edge} {A : List (List Arc)} (hA : Good n es A)
    {j : Nat} (hj : j < n) : ∃ l, oddCycles lib A j = .ok l ∧ NodeOK (Kept n es) j l := by
  obtain ⟨s, h1, h2⟩ := shortestPath_inv hlib hA (2 * j)
  unfold oddCycles
  rw [h1]
  dsimp only
  have hn : A.length / 2 = n := by rw [hA.length]; omega
  rw [hn]
  obtain ⟨l, h3, d, h4⟩ := viaLoop_ok hA hj h2 (List.range n) [] (by
    rw [range_without hj, hA.length]
    simp
    omega) List.Pairwise.nil
  refine ⟨l, h3, ⟨fun c hc => ?_, d.imp ?_⟩⟩
  · rcases h4 c hc with hc | hc
    · cases hc
    · exact hc
  · intro a b hab
    unfold sameCycle at hab
    simpa using hab

theorem nodesLoop_ok {lib : HeapLib} (hlib : lib.Keeps) {n : Nat} {es : List Edge} (hl : LenOK es) :
    ∀ (js : List Nat) (A : List (List Arc)), Good n es A → (∀ j ∈ js, j < n) →
      ∃ ls, nodesLoop lib js A = .ok ls ∧ List.Forall₂ (NodeOK (Kept n es)) js ls := by
  intro js
  induction js with
  | nil => intro A _ _; exact ⟨[], rfl, List.Forall₂.nil⟩
  | cons j js ih =>
    intro A hA hjs
    obtain ⟨l, h1, h2⟩ := oddCycles_ok hlib hA (hjs j (List.mem_cons_self ..))
    obtain ⟨ls, h3, h4⟩ := ih (cancel A j) (good_cancel hA hl j) (fun k hk => hjs k (List.mem_cons_of_mem _ hk))
    rw [nodesLoop, h1]
    dsimp only
    rw [h3]
    exact ⟨_, rfl, List.Forall₂.cons h2 h4⟩

end Cgl.ZHSearch
