import Verif.Conflict.BK
import Mathlib.Algebra.Order.BigOperators.Group.List

/-!
# `CglOddWheel`: the cut of an odd wheel
-/

namespace Cgl.Conflict

/-- What `addDistinct` does to the inequality: the literal of the node is added with coefficient `k`. -/
theorem addDistinct_dot {cap n : Nat} {k : ℚ} {s s' : SVec × ℚ} {u : Nat}
    (h : addDistinct cap n k s u = .ok (some s')) (x : Nat → ℚ) :
    SVec.dot s'.1 x - s'.2 = SVec.dot s.1 x - s.2 + k * lit n x u := by
  unfold addDistinct at h
  split at h
  · rename_i hu
    split at h
    · split at h
      · cases h
        simp only [SVec.dot_append, SVec.dot_cons, SVec.dot_nil, lit, hu, if_true]; ring
      · cases h
    · cases h
  · rename_i hu
    split at h
    · split at h
      · split at h
        · cases h
          simp only [SVec.dot_append, SVec.dot_cons, SVec.dot_nil, lit, hu, if_false]; ring
        · cases h
      · cases h
    · cases h

theorem addAllDistinct_dot {cap n : Nat} {k : ℚ} {us : List Nat} : ∀ {s s' : SVec × ℚ},
    addAllDistinct cap n k s us = .ok (some s') → ∀ x : Nat → ℚ,
    SVec.dot s'.1 x - s'.2 = SVec.dot s.1 x - s.2 + k * (us.map (lit n x)).sum := by
  induction us with
  | nil => intro s s' h x; cases h; simp
  | cons u us ih =>
    intro s s' h x
    unfold addAllDistinct at h
    rcases h1 : addDistinct cap n k s u with f | (_ | s1)
    · rw [h1] at h; cases h
    · rw [h1] at h; cases h
    · rw [h1] at h
      rw [ih h x, addDistinct_dot h1 x, List.map_cons, List.sum_cons]; ring

/-- Number of complements, which is what the right-hand side has lost. -/
theorem addDistinct_rhs {cap n : Nat} {k : ℚ} (hk : 0 ≤ k) {s s' : SVec × ℚ} {u : Nat}
    (h : addDistinct cap n k s u = .ok (some s')) : s'.2 ≤ s.2 := by
  unfold addDistinct at h
  split at h
  · split at h
    · split at h
      · cases h; exact le_refl _
      · cases h
    · cases h
  · split at h
    · split at h
      · split at h
        · cases h; simp only; linarith
        · cases h
      · cases h
    · cases h

theorem addAllDistinct_rhs {cap n : Nat} {k : ℚ} (hk : 0 ≤ k) {us : List Nat} : ∀ {s s' : SVec × ℚ},
    addAllDistinct cap n k s us = .ok (some s') → s'.2 ≤ s.2 := by
  induction us with
  | nil => intro s s' h; cases h; exact le_refl _
  | cons u us ih =>
    intro s s' h
    unfold addAllDistinct at h
    rcases h1 : addDistinct cap n k s u with f | (_ | s1)
    · rw [h1] at h; cases h
    · rw [h1] at h; cases h
    · rw [h1] at h
      exact le_trans (ih h) (addDistinct_rhs hk h1)

/-- Nothing but columns of the problem, each once: the arrays are long enough. -/
structure Cols (n : Nat) (v : SVec) : Prop where
  nodup : (v.map Prod.fst).Nodup
  cols : ∀ p ∈ v, p.1 < n

theorem Cols.room {n : Nat} {v : SVec} (h : Cols n v) {c : Nat} (hc : c < n) (hn : c ∉ v.map Prod.fst) :
    v.length < n := by
  have h1 : (c :: v.map Prod.fst).Nodup := List.nodup_cons.mpr ⟨hn, h.nodup⟩
  have h2 : c :: v.map Prod.fst ⊆ List.range n := by
    intro d hd
    rcases List.mem_cons.mp hd with rfl | hd
    · exact List.mem_range.mpr hc
    · obtain ⟨p, hp, rfl⟩ := List.mem_map.mp hd
      exact List.mem_range.mpr (h.cols p hp)
  have := (List.subperm_of_subset h1 h2).length_le
  simp only [List.length_cons, List.length_map, List.length_range] at this
  omega

theorem Cols.snoc {n : Nat} {v : SVec} (h : Cols n v) {c : Nat} (hc : c < n) (hn : c ∉ v.map Prod.fst) (k : ℚ) :
    Cols n (v ++ [(c, k)]) := by
  constructor
  · simp only [List.map_append, List.map_cons, List.map_nil, List.nodup_append]
    refine ⟨h.nodup, by simp, ?_⟩
    intro a ha b' hb' e
    simp only [List.mem_singleton] at hb'
    exact hn (hb' ▸ e ▸ ha)
  · intro p hp
    rcases List.mem_append.mp hp with hp | hp
    · exact h.cols p hp
    · simp only [List.mem_singleton] at hp; subst hp; exact hc

theorem addDistinct_ok {cap n : Nat} (hcap : n ≤ cap) (k : ℚ) {s : SVec × ℚ} (h : Cols n s.1) {u : Nat}
    (hu : u < 2 * n) : ∃ r, addDistinct cap n k s u = .ok r ∧ ∀ s' ∈ r, Cols n s'.1 := by
  unfold addDistinct
  by_cases h1 : u < n
  · rw [if_pos h1]
    by_cases h2 : coefAt s.1 u = none
    · have hr := h.room h1 (coefAt_none h2)
      rw [if_pos h2, if_pos (by omega)]
      refine ⟨_, rfl, ?_⟩
      intro s' hs'; cases hs'
      exact h.snoc h1 (coefAt_none h2) k
    · rw [if_neg h2]; exact ⟨none, rfl, by simp⟩
  · have h1' : u - n < n := by omega
    rw [if_neg h1, if_pos h1']
    by_cases h2 : coefAt s.1 (u - n) = none
    · have hr := h.room h1' (coefAt_none h2)
      rw [if_pos h2, if_pos (by omega)]
      refine ⟨_, rfl, ?_⟩
      intro s' hs'; cases hs'
      exact h.snoc h1' (coefAt_none h2) _
    · rw [if_neg h2]; exact ⟨none, rfl, by simp⟩

theorem addAllDistinct_ok {cap n : Nat} (hcap : n ≤ cap) (k : ℚ) {us : List Nat} : ∀ {s : SVec × ℚ}, Cols n s.1 →
    (∀ u ∈ us, u < 2 * n) → ∃ r, addAllDistinct cap n k s us = .ok r ∧ ∀ s' ∈ r, Cols n s'.1 := by
  induction us with
  | nil => intro s h _; exact ⟨some s, rfl, by intro s' hs'; cases hs'; exact h⟩
  | cons u us ih =>
    intro s h hu
    obtain ⟨r, e, hr⟩ := addDistinct_ok hcap k h (hu u (by simp))
    unfold addAllDistinct
    rw [e]
    rcases r with _ | s1
    · exact ⟨none, rfl, by simp⟩
    · exact ih (hr s1 rfl) (fun v hv => hu v (by simp [hv]))

theorem wheelCut_ok {G : Graph} {w : Wheel} (hw : IsWheel G w) {cap : Nat} (hcap : G.nCols ≤ cap) :
    ∃ r, wheelCut cap G.nCols w = .ok r := by
  unfold wheelCut
  rw [if_neg (by have := hw.size; omega)]
  obtain ⟨r, e, hr⟩ := addAllDistinct_ok hcap 1 (s := ([], w.rhs)) ⟨by simp, by simp⟩ hw.holeNodes
  rw [e]
  rcases r with _ | s
  · exact ⟨none, rfl⟩
  · show ∃ r, addCenter cap G.nCols w.center s = .ok r
    unfold addCenter
    split
    · obtain ⟨r', e', _⟩ := addAllDistinct_ok hcap s.2 (hr s rfl) hw.center.nodes
      exact ⟨r', e'⟩
    · exact ⟨_, rfl⟩

theorem wheelCuts_ok {G : Graph} {ws : List Wheel} (h : ∀ w ∈ ws, IsWheel G w) {cap : Nat} (hcap : G.nCols ≤ cap) :
    ∃ r, wheelCuts cap G.nCols ws = .ok r := by
  induction ws with
  | nil => exact ⟨[], rfl⟩
  | cons w ws ih =>
    obtain ⟨r, e⟩ := ih (fun v hv => h v (by simp [hv]))
    obtain ⟨c, ec⟩ := wheelCut_ok (h w (by simp)) hcap
    exact ⟨c.toList ++ r, by simp only [wheelCuts, ec, e]⟩

theorem wheelCuts_mem {cap n : Nat} {ws : List Wheel} : ∀ {cs : List (SVec × ℚ)}, wheelCuts cap n ws = .ok cs →
    ∀ c ∈ cs, ∃ w ∈ ws, wheelCut cap n w = .ok (some c) := by
  induction ws with
  | nil => intro cs h; cases h; simp
  | cons w ws ih =>
    intro cs h
    unfold wheelCuts at h
    rcases h1 : wheelCut cap n w with f | c1
    · rw [h1] at h; cases h
    · rcases h2 : wheelCuts cap n ws with f | cs2
      · rw [h1, h2] at h; cases h
      · rw [h1, h2] at h; cases h
        intro c hc
        rcases List.mem_append.mp hc with hc | hc
        · refine ⟨w, by simp, ?_⟩
          rw [h1]
          cases c1 with
          | none => simp at hc
          | some d => simp only [Option.toList_some, List.mem_singleton] at hc; rw [hc]
        · obtain ⟨v, hv, e⟩ := ih h2 c hc
          exact ⟨v, by simp [hv], e⟩

/-! ### Odd cycles -/

theorem sum_rotate (l : List Nat) (f : Nat → ℚ) :
    (l.map f).sum = ((List.range l.length).map fun i => f ((l[i]?).getD 0)).sum := by
  congr 1
  apply List.ext_getElem?
  intro i
  by_cases h : i < l.length
  · simp [h]
  · simp [h]

theorem sum_shift {k : Nat} (hk : 0 < k) (g : Nat → ℚ) :
    ((List.range k).map fun i => g ((i + 1) % k)).sum = ((List.range k).map g).sum := by
  obtain ⟨m, rfl⟩ : ∃ m, k = m + 1 := ⟨k - 1, by omega⟩
  rw [List.range_succ, List.map_append, List.sum_append]
  have e1 : (List.range m).map (fun i => g ((i + 1) % (m + 1))) = (List.range m).map fun i => g (i + 1) := by
    apply List.map_congr_left
    intro i hi
    rw [List.mem_range] at hi
    rw [Nat.mod_eq_of_lt (by omega)]
  rw [e1]
  have e2 : List.range (m + 1) = 0 :: (List.range m).map Nat.succ := List.range_succ_eq_map
  rw [← List.range_succ, e2]
  simp only [List.map_cons, List.map_nil, List.sum_cons, List.sum_nil, Nat.mod_self, List.map_map]
  have e3 : ((List.range m).map (g ∘ Nat.succ)) = (List.range m).map fun i => g (i + 1) := rfl
  rw [e3]; ring

/-- The literals of an odd cycle sum to at most half its size, rounded down. -/
theorem cycle_sum_le {G : Graph} {x : Nat → ℚ} (hx : Respects G x) {w : Wheel} (hw : IsWheel G w) :
    (w.hole.map (lit G.nCols x)).sum ≤ ((w.hole.length / 2 : ℕ) : ℚ) := by
  set k := w.hole.length with hk
  have hk5 : 5 ≤ k := hw.size
  set g : Nat → ℚ := fun i => lit G.nCols x ((w.hole[i]?).getD 0) with hg
  have hmem : ∀ i < k, ∃ u ∈ w.hole, w.hole[i]? = some u ∧ g i = lit G.nCols x u := by
    intro i hi
    refine ⟨w.hole[i], List.getElem_mem hi, List.getElem?_eq_getElem hi, ?_⟩
    simp [hg, List.getElem?_eq_getElem hi]
  have hpair : ∀ i < k, (g i = 0 ∨ g i = 1) ∧ g i + g ((i + 1) % k) ≤ 1 := by
    intro i hi
    obtain ⟨u, hu, eu, e1⟩ := hmem i hi
    obtain ⟨v, hv, ev, e2⟩ := hmem ((i + 1) % k) (Nat.mod_lt _ (by omega))
    obtain ⟨z1, z2, z3⟩ := hx u (hw.holeNodes u hu) v (hw.holeNodes v hv) (hw.cycle i hi u v eu ev)
    rw [e1, e2]
    refine ⟨z1, ?_⟩
    rcases z1 with a | a <;> rcases z2 with b | b
    · rw [a, b]; norm_num
    · rw [a, b]; norm_num
    · rw [a, b]; norm_num
    · exact absurd ⟨a, b⟩ z3
  have hsum := sum_rotate w.hole (lit G.nCols x)
  have hle : ((List.range k).map g).sum + ((List.range k).map fun i => g ((i + 1) % k)).sum ≤ k := by
    rw [← List.sum_map_add]
    have : ((List.range k).map fun i => g i + g ((i + 1) % k)).sum ≤ ((List.range k).map fun _ => (1 : ℚ)).sum :=
      List.sum_le_sum (fun i hi => (hpair i (List.mem_range.mp hi)).2)
    simpa using this
  rw [sum_shift (by omega)] at hle
  have hint : ∃ z : ℤ, ((List.range k).map g).sum = z := by
    have : ∀ l : List Nat, (∀ i ∈ l, g i = 0 ∨ g i = 1) → ∃ z : ℤ, (l.map g).sum = z := by
      intro l
      induction l with
      | nil => intro _; exact ⟨0, by simp⟩
      | cons a l ih =>
        intro h
        obtain ⟨z, hz⟩ := ih (fun i hi => h i (by simp [hi]))
        rcases h a (by simp) with e | e
        · exact ⟨z, by rw [List.map_cons, List.sum_cons, e, hz]; ring⟩
        · exact ⟨z + 1, by rw [List.map_cons, List.sum_cons, e, hz]; push_cast; ring⟩
    exact this _ (fun i hi => (hpair i (List.mem_range.mp hi)).1)
  obtain ⟨z, hz⟩ := hint
  rw [hsum, hz]
  rw [hz] at hle
  have h2 : 2 * z ≤ (k : ℤ) := by
    have : (2 * z : ℚ) ≤ k := by linarith
    exact_mod_cast this
  have h3 : z ≤ ((k / 2 : ℕ) : ℤ) := by omega
  have h4 : ((z : ℤ) : ℚ) ≤ (((k / 2 : ℕ) : ℤ) : ℚ) := Int.cast_le.mpr h3
  rwa [Int.cast_natCast] at h4

/-- The inequality of an odd wheel with any centre coefficient up to the hole's right-hand side. -/
theorem wheel_ineq {G : Graph} {x : Nat → ℚ} (hx : Respects G x) {w : Wheel} (hw : IsWheel G w) {k : ℚ}
    (hk : k ≤ w.rhs) :
    (w.hole.map (lit G.nCols x)).sum + k * (w.center.map (lit G.nCols x)).sum ≤ w.rhs := by
  have hcy := cycle_sum_le hx hw
  rw [← hw.rhs] at hcy
  have hne : w.hole ≠ [] := by
    intro e; have := hw.size; rw [e] at this; simp at this
  obtain ⟨u0, hu0⟩ := List.exists_mem_of_ne_nil _ hne
  have h01 : ∀ c ∈ w.center, ZeroOne G.nCols x c := fun c hc =>
    (hx c (hw.center.nodes c hc) u0 (hw.holeNodes u0 hu0) (hw.spokes c hc u0 hu0)).1
  by_cases hex : ∃ c ∈ w.center, lit G.nCols x c = 1
  · obtain ⟨c, hc, e⟩ := hex
    have hz : (w.hole.map (lit G.nCols x)).sum = 0 := by
      apply List.sum_eq_zero
      intro q hq
      obtain ⟨v, hv, rfl⟩ := List.mem_map.mp hq
      obtain ⟨_, h2, h3⟩ := hx c (hw.center.nodes c hc) v (hw.holeNodes v hv) (hw.spokes c hc v hv)
      rcases h2 with h2 | h2
      · exact h2
      · exact absurd ⟨e, h2⟩ h3
    have hs1 := clique_sum_le_one hx hw.center h01
    have hs2 : 1 ≤ (w.center.map (lit G.nCols x)).sum := by
      have := sum_sub_le (n := G.nCols) (x := x) (C := [c]) (S := w.center) (by simp) (by simpa using hc) (by
        intro v hv
        rcases h01 v hv with e' | e'
        · rw [e']
        · rw [e']; norm_num)
      simpa [e] using this
    have : (w.center.map (lit G.nCols x)).sum = 1 := le_antisymm hs1 hs2
    rw [hz, this]; linarith
  · have hz : (w.center.map (lit G.nCols x)).sum = 0 := by
      apply List.sum_eq_zero
      intro q hq
      obtain ⟨v, hv, rfl⟩ := List.mem_map.mp hq
      rcases h01 v hv with e | e
      · exact e
      · exact absurd ⟨v, hv, e⟩ hex
    rw [hz]; linarith

/-- The cut of a wheel as an inequality between literals. -/
theorem wheelCut_dot {cap n : Nat} {w : Wheel} (hw : 0 ≤ w.rhs) {c : SVec × ℚ}
    (h : wheelCut cap n w = .ok (some c)) :
    ∃ k, k ≤ w.rhs ∧ ∀ x, SVec.dot c.1 x - c.2 =
      (w.hole.map (lit n x)).sum + k * (w.center.map (lit n x)).sum - w.rhs := by
  unfold wheelCut at h
  split at h
  · cases h
  · rcases h1 : addAllDistinct cap n 1 ([], w.rhs) w.hole with f | (_ | s)
    · rw [h1] at h; cases h
    · rw [h1] at h; cases h
    · rw [h1] at h
      have hd := addAllDistinct_dot h1
      have hr : s.2 ≤ w.rhs := addAllDistinct_rhs (by norm_num) h1
      simp only [addCenter] at h
      split at h
      · refine ⟨s.2, hr, fun x => ?_⟩
        rw [addAllDistinct_dot h x, hd x]
        simp only [SVec.dot_nil]; ring
      · cases h
        refine ⟨0, hw, fun x => ?_⟩
        rw [hd x]; simp only [SVec.dot_nil]; ring

theorem addAllDistinct_rhs_eq {cap n : Nat} {k : ℚ} {us : List Nat} (hu : ∀ u ∈ us, u < n) : ∀ {s s' : SVec × ℚ},
    addAllDistinct cap n k s us = .ok (some s') → s'.2 = s.2 := by
  induction us with
  | nil => intro s s' h; cases h; rfl
  | cons u us ih =>
    intro s s' h
    unfold addAllDistinct at h
    rcases h1 : addDistinct cap n k s u with f | (_ | s1)
    · rw [h1] at h; cases h
    · rw [h1] at h; cases h
    · rw [h1] at h
      rw [ih (fun v hv => hu v (by simp [hv])) h]
      unfold addDistinct at h1
      rw [if_pos (hu u (by simp))] at h1
      split at h1
      · split at h1
        · cases h1; rfl
        · cases h1
      · cases h1

/-- Without complemented columns in the hole the cut is the full wheel inequality. -/
theorem wheelCut_full {cap n : Nat} {w : Wheel} (hw : 1 ≤ w.rhs) (hpos : ∀ u ∈ w.hole, u < n) {c : SVec × ℚ}
    (h : wheelCut cap n w = .ok (some c)) (x : Nat → ℚ) : SVec.dot c.1 x - c.2 =
      (w.hole.map (lit n x)).sum + w.rhs * (w.center.map (lit n x)).sum - w.rhs := by
  unfold wheelCut at h
  split at h
  · cases h
  · rcases h1 : addAllDistinct cap n 1 ([], w.rhs) w.hole with f | (_ | s)
    · rw [h1] at h; cases h
    · rw [h1] at h; cases h
    · rw [h1] at h
      have hd := addAllDistinct_dot h1
      have hr : s.2 = w.rhs := addAllDistinct_rhs_eq hpos h1
      simp only [addCenter] at h
      split at h
      · rw [addAllDistinct_dot h x, hd x, hr]
        simp only [SVec.dot_nil]; ring
      · rename_i hne
        cases h
        have hnil : w.center = [] := by
          by_contra hc
          apply hne
          refine ⟨hc, ?_⟩
          rw [hr, abs_of_nonneg (by linarith)]
          unfold owEps; linarith
        rw [hd x, hnil]; simp only [SVec.dot_nil, List.map_nil, List.sum_nil]; ring

/-- What a successful call does: every cut is old or comes from a wheel. -/
theorem ow_cut {env : OWEnv} {P : Prob} {G : Graph} {o o' : OWObj} {cs cs' : List RowCut}
    (hE : env.OK G) (h : owGenerate env P G o cs = .ok (o', cs')) : ∀ c ∈ cs', c ∈ cs ∨
      (G.nCols = P.nCols ∧ c.lb = -dblMax ∧ ∃ cap, ∃ w ∈ env.wheels o.extMethod o.maxSeconds, ∃ d,
        wheelCut cap G.nCols w = .ok (some d) ∧ c.row.Perm d.1 ∧ c.ub = d.2) := by
  unfold owGenerate at h
  split at h
  · cases h; intro c hc; exact Or.inl hc
  · split at h
    · cases h
    · rename_i hn
      rw [not_not] at hn
      rw [hn] at h
      rcases h2 : wheelCuts (o.checkMemory G.nCols).cap G.nCols (env.wheels o.extMethod o.maxSeconds) with f | cuts
      · rw [h2] at h; cases h
      · rw [h2] at h; cases h
        intro c hc
        rcases mem_handOver hc with h3 | ⟨d, hd, rfl⟩
        · exact Or.inl h3
        · right
          obtain ⟨d', hd', hp, hq⟩ := hE.pool _ d hd
          obtain ⟨w, hw, ew⟩ := wheelCuts_mem h2 d' hd'
          exact ⟨hn.symm, rfl, _, w, hw, d', ew, hp, hq⟩

end Cgl.Conflict
