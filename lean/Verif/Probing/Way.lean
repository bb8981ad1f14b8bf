import Verif.Probing.Stack

/-!
# One way of probing keeps every point of its side
-/

namespace Cgl.Probing

variable {g : Cfg} {n : Nat} {x : Nat → ℚ} {live : Nat → Bool} {s s0 t : St}

/-- What `GO` reads is the same. -/
structure SameVals (s t : St) : Prop where
  lo : t.lo = s.lo
  up : t.up = s.up
  gap : t.gap = s.gap
  minR : t.minR = s.minR
  maxR : t.maxR = s.maxR
  obj : t.obj = s.obj

theorem G.congr (h : G g n x live s) (h1 : t.lo = s.lo) (h2 : t.up = s.up) (h3 : t.gap = s.gap) (h4 : t.minR = s.minR)
    (h5 : t.maxR = s.maxR) : G g n x live t := by
  refine ⟨?_, ?_, ?_, ?_, ?_, ?_⟩
  · rw [h1, h2]; exact h.box
  · rw [h1, h2]; exact h.mono
  · rw [h1, h2, h3]; exact h.gap
  · rw [h1, h2, h4]; exact h.min
  · rw [h1, h2, h5]; exact h.max
  · rw [h1, h2]; exact h.dj

theorem GO.congr (h : GO g n x live s) (hs : SameVals s t) : GO g n x live t := by
  refine ⟨h.1.congr hs.lo hs.up hs.gap hs.minR hs.maxR, ?_⟩
  have := h.2
  unfold O at this ⊢
  rw [hs.obj, hs.lo, hs.up]; exact this

theorem push_vals (b : Bool) (c : Nat) (s : St) : SameVals s (push b c s) := by
  unfold push; split <;> exact ⟨rfl, rfl, rfl, rfl, rfl, rfl⟩

theorem push_bad (b : Bool) (c : Nat) (s : St) : (push b c s).bad = s.bad ∧ (push b c s).exact = s.exact := by
  unfold push; split <;> exact ⟨rfl, rfl⟩

theorem spoil_exact (c : Nat) (r : St × Bool) : (spoil c r).exact = r.1.exact := by
  unfold spoil; split <;> rfl

theorem moveUp_exact (c : Nat) (b : ℚ) (s : St) : (moveUp g c b s).exact = s.exact := by
  unfold moveUp; dsimp only; rw [spoil_exact, (shiftRows_same _ _ _ _ _).exact]

theorem moveDown_exact (c : Nat) (b mv : ℚ) (s : St) : (moveDown g c b mv s).exact = s.exact := by
  unfold moveDown; dsimp only; rw [spoil_exact, (shiftRows_same _ _ _ _ _).exact]

theorem movesCore_exact {c : Nat} {nl nu : ℚ} {m : Mark} {ex : Bool} :
    (movesCore g c nl nu m ex s).exact = (s.exact && ex) := by
  unfold movesCore
  dsimp only
  split <;> split <;> simp [moveUp_exact, moveDown_exact, (push_bad _ _ _).2]

theorem movesCore_go (he : Env g n x live) (h : GO g n x live s) {c : Nat} (hc : c < n) (hl : live c = true)
    {nl nu : ℚ} {m : Mark} {ex : Bool} (h1 : nl ≤ x c) (h2 : x c ≤ nu)
    (hi : g.isInt c = true → IsInteger nl ∧ IsInteger nu) (hm : g.isInt c = false → s.lo c ≤ nl ∧ nu ≤ s.up c) :
    GO g n x live (movesCore g c nl nu m ex s) ∧ (movesCore g c nl nu m ex s).bad = s.bad := by
  obtain ⟨s1, hs1⟩ : ∃ s1 : St, s1 = { s with
    mark := Function.update s.mark c m
    exact := s.exact && ex } := ⟨_, rfl⟩
  have v1 : SameVals s s1 := by rw [hs1]; exact ⟨rfl, rfl, rfl, rfl, rfl, rfl⟩
  have b1 : s1.bad = s.bad := by rw [hs1]
  have g1 := h.congr v1
  obtain ⟨s2, hs2⟩ : ∃ s2 : St, s2 = if nl - s.lo c ≠ 0 then moveUp g c nl (push (s.mark c).any c s1) else s1 := ⟨_, rfl⟩
  have g2 : GO g n x live s2 ∧ s2.up = s.up ∧ s2.bad = s.bad := by
    rw [hs2]
    split
    · have v2 := push_vals (s.mark c).any c s1
      have := moveUp_go he (g1.congr v2) hc hl h1 (fun hh => (hi hh).1)
        (fun hh => by rw [v2.lo, v1.lo]; exact (hm hh).1)
      exact ⟨this.1, by rw [this.2.1, v2.up, v1.up], by rw [this.2.2, (push_bad _ _ _).1, b1]⟩
    · exact ⟨g1, v1.up, b1⟩
  unfold movesCore
  dsimp only
  rw [← hs1, ← hs2]
  split
  · have v3 := push_vals ((s.mark c).any || decide (nl - s.lo c ≠ 0)) c s2
    have := moveDown_go he (g2.1.congr v3) hc hl (b := nu) (mv := nu - s.up c) (by rw [v3.up, g2.2.1]) h2
      (fun hh => (hi hh).2) (fun hh => by rw [v3.up, g2.2.1]; exact (hm hh).2)
    exact ⟨this.1, by rw [this.2.2, (push_bad _ _ _).1, g2.2.2]⟩
  · exact ⟨g2.1, g2.2.2⟩

theorem applyMoves_go (he : Env g n x live) (h : GO g n x live s) {c : Nat} (hc : c < n) (hl : live c = true)
    {nl nu : ℚ} {m : Mark} {ex : Bool}
    (hv : ex = true → nl ≤ x c ∧ x c ≤ nu ∧ (g.isInt c = true → IsInteger nl ∧ IsInteger nu) ∧
      (g.isInt c = false → s.lo c ≤ nl ∧ nu ≤ s.up c))
    (hex : (applyMoves g c nl nu m ex s).1.exact = true) :
    GO g n x live (applyMoves g c nl nu m ex s).1 ∧ (applyMoves g c nl nu m ex s).1.bad = s.bad ∧
      (applyMoves g c nl nu m ex s).2 = false := by
  have nb : ∀ t : St, GO g n x live t → ¬ t.up c + tol < t.lo c := by
    intro t ht
    have := ht.1.box c hc
    have := tol_pos
    linarith
  rcases applyMoves_cases g c nl nu m ex s with hh | ⟨-, hh⟩ | ⟨-, -, hh⟩
  · rw [hh]; exact ⟨h, rfl, rfl⟩
  · rw [hh, if_neg (nb s h)]; exact ⟨h, rfl, rfl⟩
  · have e1 : (applyMoves g c nl nu m ex s).1.exact = (movesCore g c nl nu m ex s).exact := by
      rw [hh]; split <;> rfl
    rw [e1, movesCore_exact, Bool.and_eq_true] at hex
    obtain ⟨a, b, d, e⟩ := hv hex.2
    obtain ⟨k1, k2⟩ := movesCore_go he h hc hl (m := m) (ex := ex) a b d e
    rw [hh, if_neg (nb _ k1)]
    exact ⟨k1, k2, rfl⟩

theorem applyMoves_exact {c : Nat} {nl nu : ℚ} {m : Mark} {ex : Bool}
    (h : (applyMoves g c nl nu m ex s).1.exact = true) : s.exact = true := by
  rcases applyMoves_cases g c nl nu m ex s with hh | ⟨-, hh⟩ | ⟨-, -, hh⟩
  · rwa [hh] at h
  · rw [hh] at h; split at h <;> exact h
  · have e1 : (applyMoves g c nl nu m ex s).1.exact = (movesCore g c nl nu m ex s).exact := by
      rw [hh]; split <;> rfl
    rw [e1, movesCore_exact, Bool.and_eq_true] at h
    exact h.1

/-! ### The new bounds hold -/

theorem low_bound_val {v d a y : ℚ} (hv : v < 0) (h : v * (y - a) ≤ d) : a + d / v ≤ y := by
  have : d / v ≤ y - a := by rw [div_le_iff_of_neg hv]; linarith
  linarith

theorem high_bound_val {v d a y : ℚ} (hv : v < 0) (h : v * (a - y) ≤ -d) : y ≤ a + d / v := by
  have : y - a ≤ d / v := by rw [le_div_iff_of_neg hv]; linarith
  linarith

/-- `rowUp2` is enough for a move of a column with a negative element. -/
theorem ru_ok (he : Env g n x live) (hG : G g n x live s) {i : Nat} {r : PRow} (hr : g.rows[i]? = some r)
    {e : Nat × ℚ} (hel : e ∈ r.els) :
    (e.2 < 0 → s.up e.1 ≤ 10 ^ 10 → e.2 * (x e.1 - s.up e.1) ≤ g.ub i - s.minR i) ∧
    (0 < e.2 → -10 ^ 10 ≤ s.lo e.1 → e.2 * (x e.1 - s.lo e.1) ≤ g.ub i - s.minR i) := by
  have hm := List.mem_of_getElem? hr
  have hrow := (he.rowLe r hm).2
  have hs := (abs_le.mp (he.small hm)).1
  have ht := he.term hm hel
  have h1 := low_le (he.wf r hm) (hG.inBox he hm)
  have h3 : (10 : ℚ) ^ 20 + 10 ^ 20 ≤ 10 ^ 31 := by norm_num
  rw [g.ub_eq hr]
  refine ⟨?_, ?_⟩
  · intro hv hu
    rcases hG.min i r hr with h | h
    · have := h1.2.2 e hel hv; linarith
    · have : e.2 * (x e.1 - s.up e.1) ≤ |e.2| * (|x e.1| + 10 ^ 10) := by
        rw [abs_of_neg hv]
        have := neg_abs_le (x e.1)
        have h2 : s.up e.1 - x e.1 ≤ |x e.1| + 10 ^ 10 := by linarith
        have := mul_le_mul_of_nonneg_left h2 (by linarith : 0 ≤ -e.2)
        linarith
      rw [h]; linarith
  · intro hv hu
    rcases hG.min i r hr with h | h
    · have := h1.2.1 e hel hv; linarith
    · have : e.2 * (x e.1 - s.lo e.1) ≤ |e.2| * (|x e.1| + 10 ^ 10) := by
        rw [abs_of_pos hv]
        have := le_abs_self (x e.1)
        have h2 : x e.1 - s.lo e.1 ≤ |x e.1| + 10 ^ 10 := by linarith
        exact mul_le_mul_of_nonneg_left h2 hv.le
      rw [h]; linarith

/-- `rowLo2` is enough for a move. -/
theorem rl_ok (he : Env g n x live) (hG : G g n x live s) {i : Nat} {r : PRow} (hr : g.rows[i]? = some r)
    {e : Nat × ℚ} (hel : e ∈ r.els) :
    (0 < e.2 → s.up e.1 ≤ 10 ^ 10 → e.2 * (s.up e.1 - x e.1) ≤ -(g.lb i - s.maxR i)) ∧
    (e.2 < 0 → -10 ^ 10 ≤ s.lo e.1 → e.2 * (s.lo e.1 - x e.1) ≤ -(g.lb i - s.maxR i)) := by
  have hm := List.mem_of_getElem? hr
  have hrow := (he.rowLe r hm).1
  have hs := (abs_le.mp (he.small hm)).2
  have ht := he.term hm hel
  have h1 := le_hi (he.wf r hm) (hG.inBox he hm)
  have h3 : (10 : ℚ) ^ 20 + 10 ^ 20 ≤ 10 ^ 31 := by norm_num
  rw [g.lb_eq hr]
  refine ⟨?_, ?_⟩
  · intro hv hu
    rcases hG.max i r hr with h | h
    · have := h1.2.1 e hel hv; linarith
    · have : e.2 * (s.up e.1 - x e.1) ≤ |e.2| * (|x e.1| + 10 ^ 10) := by
        rw [abs_of_pos hv]
        have := neg_abs_le (x e.1)
        have h2 : s.up e.1 - x e.1 ≤ |x e.1| + 10 ^ 10 := by linarith
        exact mul_le_mul_of_nonneg_left h2 hv.le
      rw [h]; linarith
  · intro hv hu
    rcases hG.max i r hr with h | h
    · have := h1.2.2 e hel hv; linarith
    · have : e.2 * (s.lo e.1 - x e.1) ≤ |e.2| * (|x e.1| + 10 ^ 10) := by
        rw [abs_of_neg hv]
        have := le_abs_self (x e.1)
        have h2 : x e.1 - s.lo e.1 ≤ |x e.1| + 10 ^ 10 := by linarith
        have := mul_le_mul_of_nonneg_left h2 (by linarith : 0 ≤ -e.2)
        linarith
      rw [h]; linarith

theorem els_ne (he : Env g n x live) {r : PRow} (hr : r ∈ g.rows) {e : Nat × ℚ} (hel : e ∈ r.els) :
    e.2 < 0 ∨ 0 < e.2 := by
  rcases List.mem_append.mp hel with h | h
  · exact Or.inl ((he.wf r hr).neg e h)
  · exact Or.inr ((he.wf r hr).pos e h)

theorem ceil_tol {d y : ℚ} (hy : IsInteger y) (h : d ≤ y) : ((⌈d - 2 * tol⌉ : ℤ) : ℚ) ≤ y := by
  obtain ⟨z, rfl⟩ := hy
  have : ⌈d - 2 * tol⌉ ≤ z := by
    rw [Int.ceil_le]
    have := tol_pos
    linarith
  exact_mod_cast this

theorem floor_tol {d y : ℚ} (hy : IsInteger y) (h : y ≤ d) : y ≤ ((⌊d + 2 * tol⌋ : ℤ) : ℚ) := by
  obtain ⟨z, rfl⟩ := hy
  have : z ≤ ⌊d + 2 * tol⌋ := by
    rw [Int.le_floor]
    have := tol_pos
    linarith
  exact_mod_cast this

theorem planUp_ok (he : Env g n x live) (hG : G g n x live s) {i : Nat} {r : PRow} (hr : g.rows[i]? = some r)
    {e : Nat × ℚ} (hel : e ∈ r.els) (hb : Bits s e.1)
    (hint : g.isInt e.1 = true → IsInteger (s.lo e.1)) {useUp useLo : Bool}
    {p : ℚ × Mark × Bool} (hp : p = planUp g (wantUp useUp useLo (g.ub i - s.minR i) (g.lb i - s.maxR i) (s.gap e.1) e.2)
      (g.ub i - s.minR i) (g.lb i - s.maxR i) e s (s.mark e.1)) (hex : p.2.2 = false) :
    p.1 ≤ x e.1 ∧ (g.isInt e.1 = true → IsInteger p.1) ∧ (g.isInt e.1 = false → s.lo e.1 ≤ p.1) := by
  have hm := List.mem_of_getElem? hr
  have hc := he.cols r hm e hel
  have hbox := hG.box e.1 hc
  unfold planUp at hp
  split at hp
  · rename_i hw
    simp only [Bool.and_eq_true, Bool.not_eq_true'] at hw
    obtain ⟨⟨hw, -⟩, hui⟩ := hw
    have hu := hb.1 hui
    obtain ⟨d, hd⟩ : ∃ d : ℚ, d = s.up e.1 + (if e.2 < 0 then g.ub i - s.minR i else g.lb i - s.maxR i) / e.2 := ⟨_, rfl⟩
    rw [← hd] at hp
    have hgap := hG.gap e.1 hc
    have ht := tol_pos
    have hdx : d ≤ x e.1 ∧ s.lo e.1 ≤ d := by
      unfold wantUp at hw
      rcases els_ne he hm hel with hv | hv
      · rw [if_pos hv] at hw hd
        simp only [Bool.and_eq_true, decide_eq_true_eq] at hw
        refine ⟨by rw [hd]; exact low_bound_val hv ((ru_ok he hG hr hel).1 hv hu), ?_⟩
        have h1 : s.lo e.1 - s.up e.1 ≤ (g.ub i - s.minR i) / e.2 := by
          rw [le_div_iff_of_neg hv]
          have h2 := hw.2
          rw [hgap] at h2
          have h3 : tol * e.2 < 0 := mul_neg_of_pos_of_neg ht hv
          have h4 : (0 : ℚ) < 1 / 10 ^ 7 := by norm_num
          linarith
        rw [hd]; linarith
      · rw [if_neg (not_lt.mpr hv.le)] at hw hd
        simp only [Bool.and_eq_true, decide_eq_true_eq] at hw
        refine ⟨?_, ?_⟩
        · have := div_le_sub hv ((rl_ok he hG hr hel).1 hv hu)
          rw [neg_neg] at this
          rw [hd]; exact this
        · have h1 : s.lo e.1 - s.up e.1 ≤ (g.lb i - s.maxR i) / e.2 := by
            rw [le_div_iff₀ hv]
            have h2 := hw.2
            rw [hgap] at h2
            have h3 : 0 < tol * e.2 := mul_pos ht hv
            have h4 : (0 : ℚ) < 1 / 10 ^ 7 := by norm_num
            linarith
          rw [hd]; linarith
    unfold newLower at hp
    split at hp
    · rename_i hi
      rw [hp]
      exact ⟨ceil_tol (he.int e.1 hc hi) hdx.1, fun _ => isInteger_cast _, fun h => (by rw [hi] at h; cases h)⟩
    · rename_i hi
      have hi : g.isInt e.1 = false := by simpa using hi
      split at hp
      · rw [hp] at hex ⊢
        dsimp only at hex ⊢
        have : d = s.up e.1 := by
          by_contra hne; simp [hne] at hex
        rw [← this]
        exact ⟨hdx.1, fun h => (by rw [hi] at h; cases h), fun _ => hdx.2⟩
      · rw [hp]
        exact ⟨hdx.1, fun h => (by rw [hi] at h; cases h), fun _ => hdx.2⟩
  · rw [hp]; exact ⟨hbox.1, hint, fun _ => le_rfl⟩

theorem newLower_low {isInt : Bool} {d u : ℚ} {m : Mark} (h1 : (newLower isInt d u m).2.1.dn = false)
    (h2 : (newLower isInt d u m).2.1.lowInf = false) : m.lowInf = false := by
  unfold newLower at h1 h2
  split at h1
  · rename_i hi; rw [if_pos hi] at h2; exact h2
  · rename_i hi
    rw [if_neg hi] at h2
    split at h1
    · rename_i hi; rw [if_pos hi] at h2; exact h2
    · cases h1

theorem planUp_low {want : Bool} {ru rl : ℚ} {e : Nat × ℚ} {m : Mark} (h1 : (planUp g want ru rl e s m).2.1.dn = false)
    (h2 : (planUp g want ru rl e s m).2.1.lowInf = false) : m.lowInf = false := by
  unfold planUp at h1 h2
  split at h1
  · rename_i hh; rw [if_pos hh] at h2; exact newLower_low h1 h2
  · rename_i hh; rw [if_neg hh] at h2; exact h2

theorem planDown_ok (he : Env g n x live) (hG : G g n x live s) {i : Nat} {r : PRow} (hr : g.rows[i]? = some r)
    {e : Nat × ℚ} (hel : e ∈ r.els) (hb : Bits s e.1)
    (hint : g.isInt e.1 = true → IsInteger (s.up e.1)) {useUp useLo : Bool} {m : Mark}
    (hm0 : m.dn = false → m.lowInf = false → (s.mark e.1).lowInf = false)
    {p : ℚ × Mark × Bool} (hp : p = planDown g (wantDown useUp useLo (g.ub i - s.minR i) (g.lb i - s.maxR i) (s.gap e.1) e.2)
      (g.ub i - s.minR i) (g.lb i - s.maxR i) e s m) (hex : p.2.2 = false) :
    x e.1 ≤ p.1 ∧ (g.isInt e.1 = true → IsInteger p.1) ∧ (g.isInt e.1 = false → p.1 ≤ s.up e.1) := by
  have hm := List.mem_of_getElem? hr
  have hc := he.cols r hm e hel
  have hbox := hG.box e.1 hc
  unfold planDown at hp
  split at hp
  · rename_i hw
    simp only [Bool.and_eq_true, Bool.not_eq_true'] at hw
    obtain ⟨⟨hw, hdn⟩, hui⟩ := hw
    have hu := hb.2 (hm0 hdn hui)
    obtain ⟨d, hd⟩ : ∃ d : ℚ, d = s.lo e.1 + (if e.2 < 0 then g.lb i - s.maxR i else g.ub i - s.minR i) / e.2 := ⟨_, rfl⟩
    rw [← hd] at hp
    have hgap := hG.gap e.1 hc
    have ht := tol_pos
    have hdx : x e.1 ≤ d ∧ d ≤ s.up e.1 := by
      unfold wantDown at hw
      rcases els_ne he hm hel with hv | hv
      · rw [if_pos hv] at hw hd
        simp only [Bool.and_eq_true, decide_eq_true_eq] at hw
        refine ⟨by rw [hd]; exact high_bound_val hv ((rl_ok he hG hr hel).2 hv hu), ?_⟩
        have h1 : (g.lb i - s.maxR i) / e.2 ≤ s.up e.1 - s.lo e.1 := by
          rw [div_le_iff_of_neg hv]
          have h2 := hw.2
          rw [hgap] at h2
          have h3 : tol * e.2 < 0 := mul_neg_of_pos_of_neg ht hv
          have h4 : (0 : ℚ) < 1 / 10 ^ 7 := by norm_num
          linarith
        rw [hd]; linarith
      · rw [if_neg (not_lt.mpr hv.le)] at hw hd
        simp only [Bool.and_eq_true, decide_eq_true_eq] at hw
        refine ⟨?_, ?_⟩
        · have := div_le_sub hv ((ru_ok he hG hr hel).2 hv hu)
          rw [neg_div] at this
          rw [hd]; linarith
        · have h1 : (g.ub i - s.minR i) / e.2 ≤ s.up e.1 - s.lo e.1 := by
            rw [div_le_iff₀ hv]
            have h2 := hw.2
            rw [hgap] at h2
            have h3 : 0 < tol * e.2 := mul_pos ht hv
            have h4 : (0 : ℚ) < 1 / 10 ^ 7 := by norm_num
            linarith
          rw [hd]; linarith
    unfold newUpper at hp
    split at hp
    · rename_i hi
      rw [hp]
      exact ⟨floor_tol (he.int e.1 hc hi) hdx.1, fun _ => isInteger_cast _, fun h => (by rw [hi] at h; cases h)⟩
    · rename_i hi
      have hi : g.isInt e.1 = false := by simpa using hi
      split at hp
      · rw [hp] at hex ⊢
        dsimp only at hex ⊢
        have : d = s.lo e.1 := by
          by_contra hne; simp [hne] at hex
        rw [← this]
        exact ⟨hdx.1, fun h => (by rw [hi] at h; cases h), fun _ => hdx.2⟩
      · rw [hp]
        exact ⟨hdx.1, fun h => (by rw [hi] at h; cases h), fun _ => hdx.2⟩
  · rw [hp]; exact ⟨hbox.2, hint, fun _ => le_rfl⟩

/-! ### Loops -/

theorem live_of_unfixed (hL : L0 g n live s0) (hK : K g n s0 s) {c : Nat} (hc : c < n)
    (hf : (s.mark c).fixed = false) : live c = true := by
  by_contra hl
  have hd := hL.dead c hc (by simpa using hl)
  by_cases hon : OnStack s c
  · obtain ⟨v, hv, rfl⟩ := hon
    have := (hK.c.on v hv).2.2.1
    rw [hd] at this; cases this
  · rw [(hK.c.off c hon).2.2.2, hd] at hf; cases hf

theorem elStep_exact {i : Nat} {useUp useLo : Bool} {e : Nat × ℚ} (h : (elStep g i useUp useLo e s).1.exact = true) :
    s.exact = true := by
  unfold elStep at h
  dsimp only at h
  split at h
  · exact h
  · exact applyMoves_exact h

theorem elStep_go (he : Env g n x live) (hL : L0 g n live s0) (hK : K g n s0 s) (h : GO g n x live s) {i : Nat} {r : PRow}
    (hr : g.rows[i]? = some r) {useUp useLo : Bool} {e : Nat × ℚ} (hel : e ∈ r.els)
    (hex : (elStep g i useUp useLo e s).1.exact = true) :
    GO g n x live (elStep g i useUp useLo e s).1 ∧ (elStep g i useUp useLo e s).1.bad = s.bad ∧
      (elStep g i useUp useLo e s).2 = false := by
  have hc := he.cols r (List.mem_of_getElem? hr) e hel
  unfold elStep at hex ⊢
  dsimp only at hex ⊢
  split
  · exact ⟨h, rfl, rfl⟩
  · rename_i hf
    rw [if_neg hf] at hex
    have hf : (s.mark e.1).fixed = false := by simpa using hf
    have hb := hK.b e.1 (Or.inl hf)
    refine applyMoves_go he h hc (live_of_unfixed hL hK hc hf) ?_ hex
    intro hx
    rw [Bool.and_eq_true, Bool.not_eq_true', Bool.not_eq_true'] at hx
    obtain ⟨a1, a2, a3⟩ := planUp_ok he h.1 hr hel hb (fun hi => (hK.c.int e.1 hc hi).1) rfl hx.1
    obtain ⟨b1, b2, b3⟩ := planDown_ok he h.1 hr hel hb (fun hi => (hK.c.int e.1 hc hi).2) planUp_low rfl hx.2
    exact ⟨a1, b1, fun hi => ⟨a2 hi, b2 hi⟩, fun hi => ⟨a3 hi, b3 hi⟩⟩

theorem elLoop_exact {i : Nat} {useUp useLo : Bool} : ∀ (es : List (Nat × ℚ)) (s : St),
    (elLoop g i useUp useLo es s).exact = true → s.exact = true
  | [], _, h => h
  | e :: es, s, h => by
    have h0 := elStep_exact (g := g) (s := s) (i := i) (useUp := useUp) (useLo := useLo) (e := e)
    unfold elLoop at h
    rcases hh : elStep g i useUp useLo e s with ⟨t, b⟩
    rw [hh] at h h0
    cases b
    · exact h0 (elLoop_exact es t h)
    · exact h0 h

theorem elLoop_go (he : Env g n x live) (hL : L0 g n live s0) {i : Nat} {r : PRow}
    (hr : g.rows[i]? = some r) {useUp useLo : Bool} : ∀ (es : List (Nat × ℚ)) (s : St), (∀ e ∈ es, e ∈ r.els) →
    K g n s0 s → GO g n x live s → (elLoop g i useUp useLo es s).exact = true →
    GO g n x live (elLoop g i useUp useLo es s) ∧ (elLoop g i useUp useLo es s).bad = s.bad
  | [], _, _, _, h, _ => ⟨h, rfl⟩
  | e :: es, s, hes, hK, h, hex => by
    have hel := hes e List.mem_cons_self
    have h0 := elStep_go he hL hK h hr (useUp := useUp) (useLo := useLo) hel
    have hk := elStep_k hL hK (i := i) (useUp := useUp) (useLo := useLo)
      (he.cols r (List.mem_of_getElem? hr) e hel)
    unfold elLoop at hex ⊢
    rcases hh : elStep g i useUp useLo e s with ⟨t, b⟩
    rw [hh] at hex h0 hk
    cases b
    · have h1 := h0 (elLoop_exact es t hex)
      have h2 := elLoop_go he hL hr es t (fun e' h' => hes e' (List.mem_cons_of_mem _ h')) hk h1.1 hex
      exact ⟨h2.1, h2.2.trans h1.2.1⟩
    · have := (h0 hex).2.2; cases this

theorem rowStep_exact {i : Nat} (h : (rowStep g i s).exact = true) : s.exact = true := by
  unfold rowStep at h
  split at h
  · exact h
  · dsimp only at h
    split at h
    · exact h
    · split at h
      · exact h
      · exact elLoop_exact _ _ (elLoop_exact _ _ h)

theorem rowStep_go (he : Env g n x live) (hL : L0 g n live s0) (hK : K g n s0 s) (h : GO g n x live s) {i : Nat}
    (hex : (rowStep g i s).exact = true) : GO g n x live (rowStep g i s) ∧ (rowStep g i s).bad = s.bad := by
  unfold rowStep at hex ⊢
  rcases hr : g.rows[i]? with _ | r
  · exact ⟨h, rfl⟩
  · rw [hr] at hex
    have hm := List.mem_of_getElem? hr
    have h1 := h.1.minR_le he hr
    have h2 := h.1.le_maxR he hr
    have h3 := he.rowLe r hm
    have ht := tol_pos
    dsimp only at hex ⊢
    have n1 : ¬ (r.ub < 10 ^ 10 ∧ r.ub - s.minR i < -(10 * tol)) := by rintro ⟨-, hh⟩; linarith [h3.2]
    have n2 : ¬ (-10 ^ 10 < r.lb ∧ 10 * tol < r.lb - s.maxR i) := by rintro ⟨-, hh⟩; linarith [h3.1]
    rw [if_neg n1, if_neg n2] at hex ⊢
    have hk := elLoop_k hL (i := i) (useUp := decide (r.ub < 10 ^ 10) && !decide (0 < r.ub - s.minR i + g.bigNeg i))
      (useLo := decide (-10 ^ 10 < r.lb) && !decide (r.lb - s.maxR i - g.bigNeg i < 0)) r.neg s
      (fun e hh => he.cols r hm e (List.mem_append_left _ hh)) hK
    obtain ⟨a, b⟩ := elLoop_go he hL hr r.neg s (fun e hh => List.mem_append_left _ hh) hK h (elLoop_exact _ _ hex)
    obtain ⟨c, d⟩ := elLoop_go he hL hr r.pos _ (fun e hh => List.mem_append_right _ hh) hk a hex
    exact ⟨c, d.trans b⟩

theorem colLoop_exact : ∀ (es : List (Nat × ℚ)) (s : St), (colLoop g es s).exact = true → s.exact = true
  | [], _, h => h
  | e :: es, s, h => by
    unfold colLoop at h
    split at h
    · exact h
    · exact rowStep_exact (colLoop_exact es _ h)

theorem Env.colsOk (he : Env g n x live) : ColsOk g n := he.cols

theorem colLoop_go (he : Env g n x live) (hL : L0 g n live s0) : ∀ (es : List (Nat × ℚ)) (s : St),
    K g n s0 s → GO g n x live s → (colLoop g es s).exact = true →
    GO g n x live (colLoop g es s) ∧ (colLoop g es s).bad = s.bad
  | [], _, _, h, _ => ⟨h, rfl⟩
  | e :: es, s, hK, h, hex => by
    unfold colLoop at hex ⊢
    split
    · exact ⟨h, rfl⟩
    · rename_i hb
      rw [if_neg hb] at hex
      obtain ⟨a, b⟩ := rowStep_go he hL hK h (colLoop_exact _ _ hex)
      obtain ⟨c, d⟩ := colLoop_go he hL es _ (rowStep_k he.colsOk hL hK e.1) a hex
      exact ⟨c, d.trans b⟩

theorem queue_exact : ∀ (m k : Nat) (s : St), (queue g m k s).exact = true → s.exact = true
  | 0, _, _, h => h
  | m + 1, k, s, h => by
    unfold queue at h
    split at h
    · exact h
    · split at h
      · exact h
      · exact colLoop_exact _ _ (queue_exact m (k + 1) _ h)

theorem queue_go (he : Env g n x live) (hL : L0 g n live s0) : ∀ (m k : Nat) (s : St),
    K g n s0 s → GO g n x live s → (queue g m k s).exact = true →
    GO g n x live (queue g m k s) ∧ (queue g m k s).bad = s.bad
  | 0, _, _, _, h, _ => ⟨h, rfl⟩
  | m + 1, k, s, hK, h, hex => by
    unfold queue at hex ⊢
    split
    · exact ⟨h, rfl⟩
    · rename_i hb
      rw [if_neg hb] at hex
      rcases hv : s.sC[k]? with _ | v
      · exact ⟨h, rfl⟩
      · rw [hv] at hex
        dsimp only at hex ⊢
        obtain ⟨a, b⟩ := colLoop_go he hL (g.col v.col) s hK h (queue_exact _ _ _ hex)
        obtain ⟨c, d⟩ := queue_go he hL m (k + 1) _ (colLoop_k he.colsOk hL _ _ hK) a hex
        exact ⟨c, d.trans b⟩

theorem branch_exact {way : Bool} {j : Nat} {d : ℚ} (h : (branch g way j d s).exact = true) : s.exact = true := by
  rw [branch_eq] at h
  have e1 : ∀ mv, (shiftRows g way mv (g.col j) (branchStart g way j d s)).1.exact = s.exact := fun mv => by
    rw [(shiftRows_same _ _ _ _ _).exact]; rfl
  obtain ⟨mv, hmv⟩ : ∃ mv : ℚ, mv = if way then d - s.lo j else d - s.up j := ⟨_, rfl⟩
  rw [← hmv] at h
  rw [← e1 mv]
  split at h
  · exact h
  · exact queue_exact _ _ _ h

theorem floor_half {d : ℚ} (h : IsInteger d) : ((⌊d + 1 / 2⌋ : ℤ) : ℚ) = d := by
  obtain ⟨z, rfl⟩ := h
  have : ⌊(z : ℚ) + 1 / 2⌋ = z := by
    rw [Int.floor_eq_iff]; constructor <;> norm_num
  rw [this]

/-- A point of the side of a way is within what the way leaves, and the way is not found infeasible. -/
theorem branch_go (he : Env g n x live) (hL : L0 g n live s) (hG : G g n x live s) {way : Bool} {j : Nat} {d : ℚ} (hj : j < n)
    (hf : (s.mark j).fixed = false) (hd : IsInteger d)
    (hx : if way then d ≤ x j ∧ s.lo j ≤ d else x j ≤ d ∧ d ≤ s.up j)
    (hdj : if way then g.dj j < 0 → s.up j ≤ d else 0 < g.dj j → d ≤ s.lo j)
    (hex : (branch g way j d s).exact = true) :
    GO g n x live (branch g way j d s) ∧ feasible g (branch g way j d s) = true := by
  have hlive : live j = true := by
    by_contra hl
    have := hL.dead j hj (by simpa using hl)
    rw [this] at hf; cases hf
  have hk := branchStart_k hL (way := way) (d := d) hj hf
  have hfl := floor_half hd
  obtain ⟨mv, hmv⟩ : ∃ mv : ℚ, mv = if way then d - s.lo j else d - s.up j := ⟨_, rfl⟩
  obtain ⟨s1, hs1⟩ : ∃ s1 : St, s1 = branchStart g way j d s := ⟨_, rfl⟩
  have hlo1 : s1.lo = if way then Function.update s.lo j d else s.lo := by rw [hs1]; unfold branchStart; dsimp only; rw [hfl]
  have hup1 : s1.up = if way then s.up else Function.update s.up j d := by rw [hs1]; unfold branchStart; dsimp only; rw [hfl]
  have hcov : Covers way mv (if way then d - s.lo j else d - s.up j) := by
    unfold Covers; rw [hmv]
    cases way
    · simp only [Bool.false_eq_true, if_false] at hx ⊢; exact ⟨le_rfl, by linarith [hx.2]⟩
    · simp only [if_true] at hx ⊢; exact ⟨le_rfl, by linarith [hx.2]⟩
  obtain ⟨k1, k2, k3, k4⟩ := shiftCol_ok he (s := s1) hj hG.box (by rw [hs1]; exact hG.min) (by rw [hs1]; exact hG.max) hcov
    (by cases way <;> simp_all) hlo1 hup1
  have hs := shiftRows_same g way mv (g.col j) s1
  have g1 : GO g n x live (shiftRows g way mv (g.col j) s1).1 := by
    refine ⟨⟨?_, ?_, ?_, ?_, ?_, ?_⟩, ?_⟩
    · rw [hs.lo, hs.up]; exact k2
    · rw [hs.lo, hs.up, hlo1, hup1]
      intro c hc
      have hmono := hG.mono c hc
      cases way
      · simp only [Bool.false_eq_true, if_false] at hx ⊢
        by_cases hcj : c = j
        · subst hcj; rw [Function.update_self]; exact ⟨hmono.1, le_trans hx.2 hmono.2⟩
        · rw [Function.update_of_ne hcj]; exact hmono
      · simp only [if_true] at hx ⊢
        by_cases hcj : c = j
        · subst hcj; rw [Function.update_self]; exact ⟨le_trans hmono.1 hx.2, hmono.2⟩
        · rw [Function.update_of_ne hcj]; exact hmono
    · rw [hs.lo, hs.up, hs.gap]
      intro c hc
      by_cases hcj : c = j
      · subst hcj
        rw [hs1]; unfold branchStart; dsimp only; rw [Function.update_self]
      · have := hG.gap c hc
        rw [hlo1, hup1, hs1]; unfold branchStart; dsimp only
        rw [Function.update_of_ne hcj]
        cases way <;> simp [Function.update_of_ne hcj, this]
    · rw [hs.lo, hs.up]; exact k3
    · rw [hs.lo, hs.up]; exact k4
    · rw [hs.lo, hs.up, hlo1, hup1]
      intro c hc hl
      have hdc := hG.dj c hc hl
      cases way
      · simp only [Bool.false_eq_true, if_false] at hx ⊢
        by_cases hcj : c = j
        · subst hcj; rw [Function.update_self]; exact ⟨hdc.1, fun h => le_trans hx.2 (hdc.2 h)⟩
        · rw [Function.update_of_ne hcj]; exact hdc
      · simp only [if_true] at hx ⊢
        by_cases hcj : c = j
        · subst hcj; rw [Function.update_self]; exact ⟨fun h => le_trans (hdc.1 h) hx.2, hdc.2⟩
        · rw [Function.update_of_ne hcj]; exact hdc
    · unfold O
      rw [hs.lo, hs.up, hs.obj]
      have hnn : ∀ c ∈ Finset.range n, (0 : ℚ) ≤ if live c then pot g s1.lo s1.up c else 0 := by
        intro c hc
        split
        · rename_i hl
          have hdc := hG.dj c (Finset.mem_range.mp hc) hl
          have hle : s.lo c ≤ s1.lo c ∧ s1.up c ≤ s.up c := by
            rw [hlo1, hup1]
            cases way
            · simp only [Bool.false_eq_true, if_false] at hx ⊢
              by_cases hcj : c = j
              · subst hcj; rw [Function.update_self]; exact ⟨le_rfl, hx.2⟩
              · rw [Function.update_of_ne hcj]; exact ⟨le_rfl, le_rfl⟩
            · simp only [if_true] at hx ⊢
              by_cases hcj : c = j
              · subst hcj; rw [Function.update_self]; exact ⟨hx.2, le_rfl⟩
              · rw [Function.update_of_ne hcj]; exact ⟨le_rfl, le_rfl⟩
          unfold pot
          split
          · rename_i hd0; exact mul_nonneg hd0.le (by linarith [hdc.1 hd0, hle.1])
          · rename_i hd0
            rcases (not_lt.mp hd0).lt_or_eq with hd1 | hd1
            · exact mul_nonneg_of_nonpos_of_nonpos hd1.le (by linarith [hdc.2 hd1, hle.2])
            · rw [hd1]; simp
        · exact le_rfl
      have hobj : s1.obj = if 0 < (d - g.sol j) * g.dj j then g.current + (d - g.sol j) * g.dj j else g.current := by
        rw [hs1]; rfl
      rw [hobj]
      have hsum := Finset.single_le_sum hnn (Finset.mem_range.mpr hj)
      have htot := Finset.sum_nonneg hnn
      split
      · have : (d - g.sol j) * g.dj j ≤ pot g s1.lo s1.up j := by
          unfold pot
          rw [hlo1, hup1]
          cases way
          · simp only [Bool.false_eq_true, if_false] at hdj ⊢
            split
            · rename_i hd0
              have := mul_le_mul_of_nonneg_left (hdj hd0) hd0.le
              linarith
            · rw [Function.update_self]; linarith
          · simp only [if_true] at hdj ⊢
            split
            · rw [Function.update_self]; linarith
            · rename_i hd0
              rcases (not_lt.mp hd0).lt_or_eq with hd1 | hd1
              · have := mul_le_mul_of_nonpos_left (hdj hd1) hd1.le
                linarith
              · rw [hd1]; linarith
        rw [hlive] at hsum
        simp only [if_true] at hsum
        linarith
      · linarith
  have hbad1 : s1.bad = false := by rw [hs1]; rfl
  rw [branch_eq, ← hmv, ← hs1] at hex ⊢
  rw [k1, if_neg (by decide)] at hex ⊢
  rw [← hs1] at hk
  have hkq : K g n s (shiftRows g way mv (g.col j) s1).1 :=
    ⟨hk.c.same hs, shiftRows_kr _ _ (col_rows g j) hk.r, hk.b.same hs⟩
  obtain ⟨a, b⟩ := queue_go he hL maxStack 0 _ hkq g1 hex
  refine ⟨a, ?_⟩
  unfold feasible
  rw [b, hs.bad, hbad1]
  simp only [Bool.not_false, Bool.true_and, decide_eq_true_eq]
  exact obj_le_cutoff he a.1 a.2

end Cgl.Probing
