import Verif.Probing.Act

/-!
# `tighten` keeps every point of the rows

A point within the bounds and the rows is still within them after `tighten`, and nothing is declared infeasible.
-/

namespace Cgl.Probing

/-- A point of the prepared rows. -/
structure TEnv (rows : List PRow) (isInt : Nat → Bool) (n : Nat) (x : Nat → ℚ) : Prop where
  wf : ∀ r ∈ rows, r.WF
  cols : ∀ r ∈ rows, ∀ p ∈ r.els, p.1 < n
  small : ∀ r ∈ rows, |r.els.dot x| ≤ 10 ^ 20
  int : ∀ c < n, isInt c = true → IsInteger (x c)

/-- The point is within the state, and the bounds of the columns are within `lo0` and `up0`. -/
structure TInv (rows : List PRow) (n : Nat) (x lo0 up0 : Nat → ℚ) (s : TSt) : Prop where
  ok : s.infeas = false
  box : ∀ c < n, s.lo c ≤ x c ∧ x c ≤ s.up c
  rowLe : ∀ (i : Nat) r, rows[i]? = some r → s.lb i ≤ r.els.dot x ∧ r.els.dot x ≤ s.ub i
  mono : ∀ c < n, lo0 c ≤ s.lo c ∧ s.up c ≤ up0 c

variable {rows : List PRow} {isInt : Nat → Bool} {n : Nat} {x lo0 up0 : Nat → ℚ} {s : TSt} {t : ℚ}

theorem TInv.inBox (h : TInv rows n x lo0 up0 s) (he : TEnv rows isInt n x) {r : PRow} (hr : r ∈ rows) :
    InBox s.lo s.up x r := fun p hp => h.box p.1 (he.cols r hr p hp)

theorem queueRows_same (es : List (Nat × ℚ)) : ∀ s : TSt, (queueRows es s).lo = s.lo ∧ (queueRows es s).up = s.up ∧
    (queueRows es s).lb = s.lb ∧ (queueRows es s).ub = s.ub ∧ (queueRows es s).infeas = s.infeas ∧
    (queueRows es s).cols = s.cols := by
  induction es with
  | nil => intro s; exact ⟨rfl, rfl, rfl, rfl, rfl, rfl⟩
  | cons e es ih =>
    intro s
    unfold queueRows
    obtain ⟨a, b, c, d, e', f⟩ := ih (if s.markR e.1 = 0 then
      { s with
        markR := Function.update s.markR e.1 1
        next := s.next ++ [e.1] }
      else s)
    rw [a, b, c, d, e', f]
    split <;> exact ⟨rfl, rfl, rfl, rfl, rfl, rfl⟩

theorem afterChange_same (rows : List PRow) (t : ℚ) (c : Nat) (s : TSt) :
    (afterChange rows t c s).lo = s.lo ∧ (afterChange rows t c s).up = s.up ∧
    (afterChange rows t c s).lb = s.lb ∧ (afterChange rows t c s).ub = s.ub ∧
    (afterChange rows t c s).infeas = (s.infeas || decide (s.up c - s.lo c < -100 * t)) ∧
    (afterChange rows t c s).cols = if c ∈ s.cols then s.cols else s.cols ++ [c] := by
  unfold afterChange
  obtain ⟨a, b, c', d, e', f⟩ := queueRows_same (colEls rows c)
    { s with
      change := true
      cols := if c ∈ s.cols then s.cols else s.cols ++ [c] }
  exact ⟨a, b, c', d, by simp only [a, b, e'], f⟩

theorem afterChange_inv (ht : 0 ≤ t) {c : Nat} (hc : c < n) (h : TInv rows n x lo0 up0 s) :
    TInv rows n x lo0 up0 (afterChange rows t c s) := by
  obtain ⟨a, b, c', d, e, -⟩ := afterChange_same rows t c s
  refine ⟨?_, ?_, ?_, ?_⟩
  · rw [e, h.ok, Bool.false_or, decide_eq_false_iff_not]
    have := h.box c hc
    linarith
  · rw [a, b]; exact h.box
  · rw [c', d]; exact h.rowLe
  · rw [a, b]; exact h.mono

theorem raise_inv (ht : 0 ≤ t) {c : Nat} {d : ℚ} (hc : c < n) (hd : d ≤ x c) (h : TInv rows n x lo0 up0 s) :
    TInv rows n x lo0 up0 (raise rows t c d s) ∧ (∀ k, s.lo k ≤ (raise rows t c d s).lo k) ∧
    (∀ k, (raise rows t c d s).up k ≤ s.up k) := by
  unfold raise
  split
  · rename_i hlt
    have hn : ∀ k, s.lo k ≤ Function.update s.lo c d k := by
      intro k
      by_cases hk : k = c
      · subst hk; rw [Function.update_self]
        have : (0 : ℚ) < 1 / 10 ^ 8 := by norm_num
        linarith
      · rw [Function.update_of_ne hk]
    obtain ⟨a, b, -⟩ := afterChange_same rows t c { s with lo := Function.update s.lo c d }
    refine ⟨afterChange_inv ht hc ⟨h.ok, ?_, h.rowLe, ?_⟩, ?_, ?_⟩
    · intro k hk
      by_cases hkc : k = c
      · subst hkc; exact ⟨by simpa using hd, (h.box k hk).2⟩
      · exact ⟨by simpa [Function.update_of_ne hkc] using (h.box k hk).1, (h.box k hk).2⟩
    · intro k hk; exact ⟨le_trans (h.mono k hk).1 (hn k), (h.mono k hk).2⟩
    · rw [a]; exact hn
    · rw [b]; intro k; exact le_rfl
  · exact ⟨h, fun _ => le_rfl, fun _ => le_rfl⟩

theorem lower_inv (ht : 0 ≤ t) {c : Nat} {d : ℚ} (hc : c < n) (hd : x c ≤ d) (h : TInv rows n x lo0 up0 s) :
    TInv rows n x lo0 up0 (lower rows t c d s) ∧ (∀ k, s.lo k ≤ (lower rows t c d s).lo k) ∧
    (∀ k, (lower rows t c d s).up k ≤ s.up k) := by
  unfold lower
  split
  · rename_i hlt
    have hn : ∀ k, Function.update s.up c d k ≤ s.up k := by
      intro k
      by_cases hk : k = c
      · subst hk; rw [Function.update_self]
        have : (0 : ℚ) < 1 / 10 ^ 8 := by norm_num
        linarith
      · rw [Function.update_of_ne hk]
    obtain ⟨a, b, -⟩ := afterChange_same rows t c { s with up := Function.update s.up c d }
    refine ⟨afterChange_inv ht hc ⟨h.ok, ?_, h.rowLe, ?_⟩, ?_, ?_⟩
    · intro k hk
      by_cases hkc : k = c
      · subst hkc; exact ⟨(h.box k hk).1, by simpa using hd⟩
      · exact ⟨(h.box k hk).1, by simpa [Function.update_of_ne hkc] using (h.box k hk).2⟩
    · intro k hk; exact ⟨(h.mono k hk).1, le_trans (hn k) (h.mono k hk).2⟩
    · rw [a]; intro k; exact le_rfl
    · rw [b]; exact hn
  · exact ⟨h, fun _ => le_rfl, fun _ => le_rfl⟩

/-- The state only got tighter since `s0`. -/
def TLe (s0 s : TSt) : Prop := (∀ c, s0.lo c ≤ s.lo c) ∧ ∀ c, s.up c ≤ s0.up c

theorem TLe.trans {a b c : TSt} (h : TLe a b) (h2 : TLe b c) : TLe a c :=
  ⟨fun k => le_trans (h.1 k) (h2.1 k), fun k => le_trans (h2.2 k) (h.2 k)⟩

theorem div_le_sub {a b d v : ℚ} (hv : 0 < v) (h : v * (a - b) ≤ d) : a + (-d) / v ≤ b := by
  have : a - b ≤ d / v := by rw [le_div_iff₀ hv]; linarith
  rw [neg_div]; linarith

theorem upEl_inv (ht : 0 ≤ t) (he : TEnv rows isInt n x) {r : PRow} (hr : r ∈ rows) {s0 : TSt}
    (h0 : TInv rows n x lo0 up0 s0) {lb : ℚ} (hlb : lb ≤ r.els.dot x) {e : Nat × ℚ} (hel : e ∈ r.els)
    (h : TInv rows n x lo0 up0 s) (hle : TLe s0 s) :
    TInv rows n x lo0 up0 (upEl rows t lb (hi s0.lo s0.up r) e s) ∧
      TLe s0 (upEl rows t lb (hi s0.lo s0.up r) e s) := by
  obtain ⟨k0, k1, k2⟩ := le_hi (he.wf r hr) (h0.inBox he hr)
  have hc := he.cols r hr e hel
  unfold upEl
  split
  · rename_i hv
    split
    · have h1 := k1 e hel hv
      have hd : s.up e.1 + (lb - hi s0.lo s0.up r) / e.2 ≤ x e.1 := by
        have h2 : e.2 * (s.up e.1 - x e.1) ≤ hi s0.lo s0.up r - lb := by
          have := mul_le_mul_of_nonneg_left (hle.2 e.1) hv.le
          linarith
        have := div_le_sub hv h2
        rwa [neg_sub] at this
      obtain ⟨a, b, c⟩ := raise_inv ht hc hd h
      exact ⟨a, hle.trans ⟨b, c⟩⟩
    · exact ⟨h, hle⟩
  · rename_i hv
    split
    · have hv : e.2 < 0 := by
        rcases List.mem_append.mp hel with hp | hp
        · exact (he.wf r hr).neg e hp
        · exact absurd ((he.wf r hr).pos e hp) hv
      have h1 := k2 e hel hv
      have hd : x e.1 ≤ s.lo e.1 + (lb - hi s0.lo s0.up r) / e.2 := by
        have h2 : (-e.2) * (x e.1 - s.lo e.1) ≤ hi s0.lo s0.up r - lb := by
          have := mul_le_mul_of_nonneg_left (hle.1 e.1) (by linarith : 0 ≤ -e.2)
          linarith
        have := div_le_sub (by linarith : 0 < -e.2) h2
        rw [neg_sub, div_neg] at this
        linarith
      obtain ⟨a, b, c⟩ := lower_inv ht hc hd h
      exact ⟨a, hle.trans ⟨b, c⟩⟩
    · exact ⟨h, hle⟩

theorem downEl_inv (ht : 0 ≤ t) (he : TEnv rows isInt n x) {r : PRow} (hr : r ∈ rows) {s0 : TSt}
    (h0 : TInv rows n x lo0 up0 s0) {ub : ℚ} (hub : r.els.dot x ≤ ub) {e : Nat × ℚ} (hel : e ∈ r.els)
    (h : TInv rows n x lo0 up0 s) (hle : TLe s0 s) :
    TInv rows n x lo0 up0 (downEl rows t ub (low s0.lo s0.up r) e s) ∧
      TLe s0 (downEl rows t ub (low s0.lo s0.up r) e s) := by
  obtain ⟨k0, k1, k2⟩ := low_le (he.wf r hr) (h0.inBox he hr)
  have hc := he.cols r hr e hel
  unfold downEl
  split
  · rename_i hv
    split
    · have h1 := k2 e hel hv
      have hd : s.up e.1 + (ub - low s0.lo s0.up r) / e.2 ≤ x e.1 := by
        have h2 : (-e.2) * (s.up e.1 - x e.1) ≤ ub - low s0.lo s0.up r := by
          have := mul_le_mul_of_nonneg_left (hle.2 e.1) (by linarith : 0 ≤ -e.2)
          linarith
        have := div_le_sub (by linarith : 0 < -e.2) h2
        rw [neg_div_neg_eq] at this
        exact this
      obtain ⟨a, b, c⟩ := raise_inv ht hc hd h
      exact ⟨a, hle.trans ⟨b, c⟩⟩
    · exact ⟨h, hle⟩
  · rename_i hv
    split
    · have hv : 0 < e.2 := by
        rcases List.mem_append.mp hel with hp | hp
        · exact absurd ((he.wf r hr).neg e hp) hv
        · exact (he.wf r hr).pos e hp
      have h1 := k1 e hel hv
      have hd : x e.1 ≤ s.lo e.1 + (ub - low s0.lo s0.up r) / e.2 := by
        have h2 : e.2 * (x e.1 - s.lo e.1) ≤ ub - low s0.lo s0.up r := by
          have := mul_le_mul_of_nonneg_left (hle.1 e.1) hv.le
          linarith
        have := div_le_sub hv h2
        rw [neg_div] at this
        linarith
      obtain ⟨a, b, c⟩ := lower_inv ht hc hd h
      exact ⟨a, hle.trans ⟨b, c⟩⟩
    · exact ⟨h, hle⟩

theorem upLoop_inv (ht : 0 ≤ t) (he : TEnv rows isInt n x) {r : PRow} (hr : r ∈ rows) {s0 : TSt}
    (h0 : TInv rows n x lo0 up0 s0) {lb : ℚ} (hlb : lb ≤ r.els.dot x) :
    ∀ (es : List (Nat × ℚ)) (s : TSt), (∀ e ∈ es, e ∈ r.els) → TInv rows n x lo0 up0 s → TLe s0 s →
      TInv rows n x lo0 up0 (upLoop rows t lb (hi s0.lo s0.up r) es s) ∧
        TLe s0 (upLoop rows t lb (hi s0.lo s0.up r) es s)
  | [], _, _, h, hle => ⟨h, hle⟩
  | e :: es, _, hes, h, hle => by
    obtain ⟨a, b⟩ := upEl_inv ht he hr h0 hlb (hes e List.mem_cons_self) h hle
    exact upLoop_inv ht he hr h0 hlb es _ (fun e' h' => hes e' (List.mem_cons_of_mem _ h')) a b

theorem downLoop_inv (ht : 0 ≤ t) (he : TEnv rows isInt n x) {r : PRow} (hr : r ∈ rows) {s0 : TSt}
    (h0 : TInv rows n x lo0 up0 s0) {ub : ℚ} (hub : r.els.dot x ≤ ub) :
    ∀ (es : List (Nat × ℚ)) (s : TSt), (∀ e ∈ es, e ∈ r.els) → TInv rows n x lo0 up0 s → TLe s0 s →
      TInv rows n x lo0 up0 (downLoop rows t ub (low s0.lo s0.up r) es s) ∧
        TLe s0 (downLoop rows t ub (low s0.lo s0.up r) es s)
  | [], _, _, h, hle => ⟨h, hle⟩
  | e :: es, _, hes, h, hle => by
    obtain ⟨a, b⟩ := downEl_inv ht he hr h0 hub (hes e List.mem_cons_self) h hle
    exact downLoop_inv ht he hr h0 hub es _ (fun e' h' => hes e' (List.mem_cons_of_mem _ h')) a b

theorem tightenWith_inv (ht : 0 ≤ t) (he : TEnv rows isInt n x) {r : PRow} (hr : r ∈ rows) {dol : Bool}
    {lb ub : ℚ} (hlb : lb ≤ r.els.dot x) (hub : r.els.dot x ≤ ub) (h : TInv rows n x lo0 up0 s) :
    TInv rows n x lo0 up0 (tightenWith rows t dol lb ub r s) := by
  have h1 : TInv rows n x lo0 up0 (if !(hiInf s.lo s.up r || (onlyOne s.lo s.up lb ub r && dol)) && decide (-10 ^ 15 < lb) then
      upLoop rows t lb (maxAct s.lo s.up r) r.els s else s) ∧
      TLe s (if !(hiInf s.lo s.up r || (onlyOne s.lo s.up lb ub r && dol)) && decide (-10 ^ 15 < lb) then
      upLoop rows t lb (maxAct s.lo s.up r) r.els s else s) := by
    split
    · rename_i hc
      have hi0 : hiInf s.lo s.up r = false := by
        cases hh : hiInf s.lo s.up r <;> simp_all
      have : maxAct s.lo s.up r = hi s.lo s.up r := by simp [maxAct, hi0, hi]
      rw [this]
      exact upLoop_inv ht he hr h hlb r.els s (fun _ h => h) h ⟨fun _ => le_rfl, fun _ => le_rfl⟩
    · exact ⟨h, fun _ => le_rfl, fun _ => le_rfl⟩
  unfold tightenWith
  dsimp only
  generalize (if !(hiInf s.lo s.up r || (onlyOne s.lo s.up lb ub r && dol)) && decide (-10 ^ 15 < lb) then
      upLoop rows t lb (maxAct s.lo s.up r) r.els s else s) = s1 at h1 ⊢
  split
  · rename_i hc
    have hi0 : loInf s.lo s.up r = false := by
      cases hh : loInf s.lo s.up r <;> simp_all
    have : minAct s.lo s.up r = low s.lo s.up r := by simp [minAct, hi0, low]
    rw [this]
    exact (downLoop_inv ht he hr h hub r.els s1 (fun _ h => h) h1.1 h1.2).1
  · exact h1.1

theorem dot_le_maxAct (he : TEnv rows isInt n x) {r : PRow} (hr : r ∈ rows) {lo up : Nat → ℚ} (hb : InBox lo up x r) :
    r.els.dot x ≤ maxAct lo up r := by
  unfold maxAct
  split
  · have := (abs_le.mp (he.small r hr)).2
    have : (10 : ℚ) ^ 20 ≤ 10 ^ 31 := by norm_num
    linarith
  · exact (le_hi (he.wf r hr) hb).1

theorem minAct_le_dot (he : TEnv rows isInt n x) {r : PRow} (hr : r ∈ rows) {lo up : Nat → ℚ} (hb : InBox lo up x r) :
    minAct lo up r ≤ r.els.dot x := by
  unfold minAct
  split
  · have := (abs_le.mp (he.small r hr)).1
    have : (10 : ℚ) ^ 20 ≤ 10 ^ 31 := by norm_num
    linarith
  · exact (low_le (he.wf r hr) hb).1

theorem tightenRow_inv (ht : 0 ≤ t) (he : TEnv rows isInt n x) {dol : Bool} {i : Nat}
    (h : TInv rows n x lo0 up0 s) :
    TInv rows n x lo0 up0 (tightenRow rows t dol i s).1 ∧ (tightenRow rows t dol i s).2 = false := by
  unfold tightenRow
  rcases hr : rows[i]? with _ | r
  · exact ⟨h, rfl⟩
  · have hm := List.mem_of_getElem? hr
    have hrow := h.rowLe i r hr
    have hs := abs_le.mp (he.small r hm)
    have hb := dblMax_big
    have hp : (10 : ℚ) ^ 20 ≤ 10 ^ 31 := by norm_num
    dsimp only
    split
    · exact ⟨h, rfl⟩
    · split
      · refine ⟨⟨h.ok, h.box, ?_, h.mono⟩, rfl⟩
        intro k r' hk
        by_cases hki : k = i
        · subst hki
          have : r' = r := by rw [hr] at hk; cases hk; rfl
          subst this
          simp only [Function.update_self]
          exact ⟨by linarith [hs.1], by linarith [hs.2]⟩
        · simp only [Function.update_of_ne hki]; exact h.rowLe k r' hk
      · split
        · rename_i hc
          have h1 := dot_le_maxAct he hm (h.inBox he hm)
          have h2 := minAct_le_dot he hm (h.inBox he hm)
          rcases hc with hc | hc <;> linarith
        · exact ⟨tightenWith_inv ht he hm hrow.1 hrow.2 h, rfl⟩

theorem rowLoop_inv (ht : 0 ≤ t) (he : TEnv rows isInt n x) {dol : Bool} : ∀ (is : List Nat) (s : TSt),
    TInv rows n x lo0 up0 s → TInv rows n x lo0 up0 (rowLoop rows t dol is s)
  | [], _, h => h
  | i :: is, s, h => by
    obtain ⟨a, b⟩ := tightenRow_inv ht he (dol := dol) (i := i) h
    unfold rowLoop
    rcases hh : tightenRow rows t dol i s with ⟨s', d⟩
    rw [hh] at a b
    dsimp only at a b
    subst b
    exact rowLoop_inv ht he is s' a

theorem floor_up {y u : ℚ} (hy : IsInteger y) (h : y ≤ u) : y ≤ (⌊u + 1 / 10 ^ 4⌋ : ℤ) := by
  obtain ⟨z, rfl⟩ := hy
  have : z ≤ ⌊u + 1 / 10 ^ 4⌋ := by
    rw [Int.le_floor]
    have : (0 : ℚ) < 1 / 10 ^ 4 := by norm_num
    linarith
  exact_mod_cast this

theorem ceil_lo {y l : ℚ} (hy : IsInteger y) (h : l ≤ y) : (⌈l - 1 / 10 ^ 4⌉ : ℤ) ≤ y := by
  obtain ⟨z, rfl⟩ := hy
  have : ⌈l - 1 / 10 ^ 4⌉ ≤ z := by
    rw [Int.ceil_le]
    have : (0 : ℚ) < 1 / 10 ^ 4 := by norm_num
    linarith
  exact_mod_cast this

theorem floor_le_of_int {y u : ℚ} (hy : IsInteger y) (h : u ≤ y) : ((⌊u + 1 / 10 ^ 4⌋ : ℤ) : ℚ) ≤ y := by
  obtain ⟨z, rfl⟩ := hy
  have : ⌊u + 1 / 10 ^ 4⌋ < z + 1 := by
    rw [Int.floor_lt]
    push_cast
    have : (1 : ℚ) / 10 ^ 4 < 1 := by norm_num
    linarith
  exact_mod_cast Int.lt_add_one_iff.mp this

theorem le_ceil_of_int {y l : ℚ} (hy : IsInteger y) (h : y ≤ l) : y ≤ ((⌈l - 1 / 10 ^ 4⌉ : ℤ) : ℚ) := by
  obtain ⟨z, rfl⟩ := hy
  have : z - 1 < ⌈l - 1 / 10 ^ 4⌉ := by
    rw [Int.lt_ceil]
    push_cast
    have : (1 : ℚ) / 10 ^ 4 < 1 := by norm_num
    linarith
  exact_mod_cast Int.sub_one_lt_iff.mp this

theorem cleanCol_inv (he : TEnv rows isInt n x)
    (h0 : ∀ c < n, isInt c = true → IsInteger (lo0 c) ∧ IsInteger (up0 c)) {c : Nat} (hc : c < n)
    (h : TInv rows n x lo0 up0 s) : TInv rows n x lo0 up0 (cleanCol isInt c s) := by
  unfold cleanCol
  split
  · rename_i hi
    have hx := he.int c hc hi
    have hb := h.box c hc
    have hm := h.mono c hc
    have u1 := floor_up hx hb.2
    have l1 := ceil_lo hx hb.1
    have u2 := floor_le_of_int (h0 c hc hi).2 hm.2
    have l2 := le_ceil_of_int (h0 c hc hi).1 hm.1
    refine ⟨?_, ?_, h.rowLe, ?_⟩
    · simp only [h.ok, Bool.false_or, decide_eq_false_iff_not, not_lt]
      exact le_trans l1 u1
    · intro k hk
      by_cases hkc : k = c
      · subst hkc; simp only [Function.update_self]; exact ⟨l1, u1⟩
      · simp only [Function.update_of_ne hkc]; exact h.box k hk
    · intro k hk
      by_cases hkc : k = c
      · subst hkc; simp only [Function.update_self]; exact ⟨l2, u2⟩
      · simp only [Function.update_of_ne hkc]; exact h.mono k hk
  · exact h

theorem cleanCols_inv (he : TEnv rows isInt n x)
    (h0 : ∀ c < n, isInt c = true → IsInteger (lo0 c) ∧ IsInteger (up0 c)) : ∀ (cs : List Nat) (s : TSt),
    (∀ c ∈ cs, c < n) → TInv rows n x lo0 up0 s → TInv rows n x lo0 up0 (cleanCols isInt cs s)
  | [], _, _, h => h
  | c :: cs, _, hcs, h =>
    cleanCols_inv he h0 cs _ (fun c' h' => hcs c' (List.mem_cons_of_mem _ h'))
      (cleanCol_inv he h0 (hcs c List.mem_cons_self) h)

/-! ### The changed columns, and integral bounds of integer columns -/

/-- The changed columns are columns, and integer columns not among them have integral bounds. -/
structure CInv (isInt : Nat → Bool) (n : Nat) (s : TSt) : Prop where
  cols : ∀ c ∈ s.cols, c < n
  int : ∀ c < n, isInt c = true → c ∉ s.cols → IsInteger (s.lo c) ∧ IsInteger (s.up c)

theorem raise_cinv {c : Nat} (hc : c < n) {d : ℚ} (h : CInv isInt n s) : CInv isInt n (raise rows t c d s) := by
  unfold raise
  split
  · obtain ⟨a, b, -, -, -, f⟩ := afterChange_same rows t c { s with lo := Function.update s.lo c d }
    refine ⟨?_, ?_⟩
    · rw [f]; intro k hk
      dsimp only at hk
      split at hk
      · exact h.cols k hk
      · rcases List.mem_append.mp hk with hk | hk
        · exact h.cols k hk
        · rw [List.mem_singleton.mp hk]; exact hc
    · rw [f, a, b]; intro k hk hi hn
      dsimp only at hn ⊢
      have hkc : k ≠ c := by
        rintro rfl; split at hn <;> simp_all
      have hks : k ∉ s.cols := by split at hn <;> simp_all
      rw [Function.update_of_ne hkc]; exact h.int k hk hi hks
  · exact h

theorem lower_cinv {c : Nat} (hc : c < n) {d : ℚ} (h : CInv isInt n s) : CInv isInt n (lower rows t c d s) := by
  unfold lower
  split
  · obtain ⟨a, b, -, -, -, f⟩ := afterChange_same rows t c { s with up := Function.update s.up c d }
    refine ⟨?_, ?_⟩
    · rw [f]; intro k hk
      dsimp only at hk
      split at hk
      · exact h.cols k hk
      · rcases List.mem_append.mp hk with hk | hk
        · exact h.cols k hk
        · rw [List.mem_singleton.mp hk]; exact hc
    · rw [f, a, b]; intro k hk hi hn
      dsimp only at hn ⊢
      have hkc : k ≠ c := by
        rintro rfl; split at hn <;> simp_all
      have hks : k ∉ s.cols := by split at hn <;> simp_all
      rw [Function.update_of_ne hkc]; exact h.int k hk hi hks
  · exact h

theorem upLoop_cinv (lb h' : ℚ) : ∀ (es : List (Nat × ℚ)) (s : TSt), (∀ e ∈ es, e.1 < n) → CInv isInt n s →
    CInv isInt n (upLoop rows t lb h' es s)
  | [], _, _, h => h
  | e :: es, s, hes, h => by
    refine upLoop_cinv lb h' es _ (fun e' h' => hes e' (List.mem_cons_of_mem _ h')) ?_
    have := hes e List.mem_cons_self
    unfold upEl
    split <;> split <;> first | exact h | exact raise_cinv this h | exact lower_cinv this h

theorem downLoop_cinv (ub h' : ℚ) : ∀ (es : List (Nat × ℚ)) (s : TSt), (∀ e ∈ es, e.1 < n) → CInv isInt n s →
    CInv isInt n (downLoop rows t ub h' es s)
  | [], _, _, h => h
  | e :: es, s, hes, h => by
    refine downLoop_cinv ub h' es _ (fun e' h' => hes e' (List.mem_cons_of_mem _ h')) ?_
    have := hes e List.mem_cons_self
    unfold downEl
    split <;> split <;> first | exact h | exact raise_cinv this h | exact lower_cinv this h

theorem tightenRow_cinv (hcols : ∀ r ∈ rows, ∀ p ∈ r.els, p.1 < n) {dol : Bool} {i : Nat} (h : CInv isInt n s) :
    CInv isInt n (tightenRow rows t dol i s).1 := by
  unfold tightenRow
  rcases hr : rows[i]? with _ | r
  · exact h
  · have hm := hcols r (List.mem_of_getElem? hr)
    dsimp only
    split
    · exact h
    · split
      · exact ⟨h.cols, h.int⟩
      · split
        · exact ⟨h.cols, h.int⟩
        · unfold tightenWith
          dsimp only
          split <;> split <;> first
            | exact downLoop_cinv _ _ _ _ hm (upLoop_cinv _ _ _ _ hm h)
            | exact downLoop_cinv _ _ _ _ hm h
            | exact upLoop_cinv _ _ _ _ hm h
            | exact h

theorem rowLoop_cinv (hcols : ∀ r ∈ rows, ∀ p ∈ r.els, p.1 < n) {dol : Bool} : ∀ (is : List Nat) (s : TSt),
    CInv isInt n s → CInv isInt n (rowLoop rows t dol is s)
  | [], _, h => h
  | i :: is, s, h => by
    have a := tightenRow_cinv (t := t) hcols (dol := dol) (i := i) h
    unfold rowLoop
    rcases hh : tightenRow rows t dol i s with ⟨s', d⟩
    rw [hh] at a
    cases d
    · exact rowLoop_cinv hcols is s' a
    · exact a

theorem isInteger_cast (z : ℤ) : IsInteger (z : ℚ) := ⟨z, rfl⟩

theorem cleanCols_int : ∀ (cs : List Nat) (s : TSt),
    (∀ c < n, isInt c = true → c ∉ cs → IsInteger (s.lo c) ∧ IsInteger (s.up c)) →
    ∀ c < n, isInt c = true → IsInteger ((cleanCols isInt cs s).lo c) ∧ IsInteger ((cleanCols isInt cs s).up c)
  | [], _, h => fun c hc hi => h c hc hi (by simp)
  | c :: cs, s, h => by
    refine cleanCols_int cs (cleanCol isInt c s) ?_
    intro k hk hi hn
    unfold cleanCol
    by_cases hkc : k = c
    · subst hkc
      rw [if_pos hi]
      simp only [Function.update_self]
      exact ⟨isInteger_cast _, isInteger_cast _⟩
    · split
      · simp only [Function.update_of_ne hkc]
        exact h k hk hi (by simp [hkc, hn])
      · exact h k hk hi (by simp [hkc, hn])

theorem tPass_int (hcols : ∀ r ∈ rows, ∀ p ∈ r.els, p.1 < n) {dol : Bool}
    (h : ∀ c < n, isInt c = true → IsInteger (s.lo c) ∧ IsInteger (s.up c)) :
    ∀ c < n, isInt c = true → IsInteger ((tPass rows isInt dol s).lo c) ∧ IsInteger ((tPass rows isInt dol s).up c) := by
  have h1 := rowLoop_cinv (t := 10 * tol) (isInt := isInt) (n := n) hcols (dol := dol) s.next
    { s with
      change := false
      cols := []
      next := [] } ⟨by simp, fun c hc hi _ => h c hc hi⟩
  exact cleanCols_int _ _ h1.int

theorem tLoop_int (hcols : ∀ r ∈ rows, ∀ p ∈ r.els, p.1 < n) : ∀ (k : Nat) (dol : Bool) (s : TSt),
    (∀ c < n, isInt c = true → IsInteger (s.lo c) ∧ IsInteger (s.up c)) →
    ∀ c < n, isInt c = true → IsInteger ((tLoop rows isInt k dol s).lo c) ∧ IsInteger ((tLoop rows isInt k dol s).up c)
  | 0, _, _, h => h
  | k + 1, dol, s, h => by
    have h1 := tPass_int hcols (dol := dol) h
    unfold tLoop
    dsimp only
    split
    · exact h1
    · exact tLoop_int hcols k _ _ h1

/-- The bounds of integer columns are integral after `tighten` if they were before. -/
theorem tighten_int (hcols : ∀ r ∈ rows, ∀ p ∈ r.els, p.1 < n) {lo up : Nat → ℚ}
    (h : ∀ c < n, isInt c = true → IsInteger (lo c) ∧ IsInteger (up c)) :
    ∀ c < n, isInt c = true → IsInteger ((tighten rows isInt lo up).lo c) ∧ IsInteger ((tighten rows isInt lo up).up c) :=
  tLoop_int hcols 2 true _ h

theorem tol_pos : (0 : ℚ) < tol := by unfold tol; norm_num

theorem tPass_inv (he : TEnv rows isInt n x)
    (h0 : ∀ c < n, isInt c = true → IsInteger (lo0 c) ∧ IsInteger (up0 c)) {dol : Bool}
    (hint : ∀ c < n, isInt c = true → IsInteger (s.lo c) ∧ IsInteger (s.up c))
    (h : TInv rows n x lo0 up0 s) : TInv rows n x lo0 up0 (tPass rows isInt dol s) := by
  have ht : (0 : ℚ) ≤ 10 * tol := by have := tol_pos; linarith
  have c1 := rowLoop_cinv (t := 10 * tol) (isInt := isInt) (n := n) he.cols (dol := dol) s.next
    { s with
      change := false
      cols := []
      next := [] } ⟨by simp, fun c hc hi _ => hint c hc hi⟩
  have h1 := rowLoop_inv ht he (dol := dol) s.next
    { s with
      change := false
      cols := []
      next := [] } ⟨h.ok, h.box, h.rowLe, h.mono⟩
  have h2 := cleanCols_inv he h0 _ _ c1.cols h1
  exact ⟨h2.ok, h2.box, h2.rowLe, h2.mono⟩

theorem tLoop_inv (he : TEnv rows isInt n x)
    (h0 : ∀ c < n, isInt c = true → IsInteger (lo0 c) ∧ IsInteger (up0 c)) : ∀ (k : Nat) (dol : Bool) (s : TSt),
    (∀ c < n, isInt c = true → IsInteger (s.lo c) ∧ IsInteger (s.up c)) →
    TInv rows n x lo0 up0 s → TInv rows n x lo0 up0 (tLoop rows isInt k dol s)
  | 0, _, _, _, h => h
  | k + 1, dol, s, hint, h => by
    have i1 := tPass_int he.cols (dol := dol) hint
    have h1 := tPass_inv he h0 (dol := dol) hint h
    unfold tLoop
    dsimp only
    split
    · exact h1
    · exact tLoop_inv he h0 k _ _ i1 h1

/-- A point of the rows within the bounds is within what `tighten` leaves, and `tighten` does not declare the problem
infeasible. -/
theorem tighten_inv (he : TEnv rows isInt n x) {lo up : Nat → ℚ}
    (hrow : ∀ r ∈ rows, r.lb ≤ r.els.dot x ∧ r.els.dot x ≤ r.ub)
    (hbox : ∀ c < n, lo c ≤ x c ∧ x c ≤ up c)
    (hint : ∀ c < n, isInt c = true → IsInteger (lo c) ∧ IsInteger (up c)) :
    TInv rows n x lo up (tighten rows isInt lo up) := by
  refine tLoop_inv he hint 2 true _ hint ⟨rfl, hbox, ?_, fun _ _ => ⟨le_rfl, le_rfl⟩⟩
  intro i r hr
  dsimp only
  rw [hr]
  exact hrow r (List.mem_of_getElem? hr)

end Cgl.Probing
