import Verif.Triple.Free

/-! # The loops -/

namespace Cgl.Triple

theorem coefOf_off {v : SVec} {K : List Nat} (h : ∀ p ∈ v, p.1 ∈ K) {k : Nat} (hk : k ∉ K) : coefOf v k = 0 :=
  coefOf_zero fun p hp e => hk (e ▸ h p hp)

/-- Rows taken for the same are the same. -/
theorem same_case {root : ℚ → ℚ} {C Q : Prob} (hO : Ok root C) {cut : Nat → Bool} (hI : Inv C cut Q) {use : Nat → Bool}
    {i j1 j2 nBits : Nat} {l1 l2 : Line} {r1 r2 : Row} (h1 : LineOk Q use i j1 j2 nBits l1 r1)
    (h2 : LineOk Q use i j1 j2 nBits l2 r2) {q1 q2 : Ineq} (f1 : From l1 q1) (f2 : From l2 q2) (hnd : (colsOf nBits i j1 j2).Nodup)
    {s1 s2 : ℚ} (hs1 : s1 ∈ scales root C) (hs2 : s2 ∈ scales root C) (hpos : 0 < s1) (e0 : s1 * q1.e0 = s2 * q2.e0)
    (er : s1 * q1.rhs = s2 * q2.rhs) (e12 : s1 * q1.e1 = s2 * q2.e1 ∨ (nBits ≠ 2 ∧ s1 * q1.e2 = s2 * q2.e2)) {x : Nat → ℚ}
    (hx : Holds i j1 j2 q2 x) (hnn : 0 ≤ s2) (hi : i < C.nCols)
    (h3 : nBits ≠ 2 → ∃ r3 ∈ C.rows.filter short, coefOf r3.coefs i ≠ 0 ∧ coefOf r3.coefs j1 ≠ 0 ∧ coefOf r3.coefs j2 ≠ 0) : Holds i j1 j2 q1 x := by
  have all : s1 * q1.e1 = s2 * q2.e1 ∧ s1 * q1.e2 = s2 * q2.e2 := by
    by_cases hb : nBits = 2
    · obtain ⟨σ, -, -, -, a, -⟩ := f1.sign
      obtain ⟨τ, -, -, -, b, -⟩ := f2.sign
      rw [h1.c2, if_pos hb, mul_zero] at a
      rw [h2.c2, if_pos hb, mul_zero] at b
      rcases e12 with e | ⟨hn, -⟩
      · exact ⟨e, by rw [a, b]; simp⟩
      · exact absurd hb hn
    · obtain ⟨a, a0, a1, a2, -⟩ := nums hO.sized hI h1 f1
      obtain ⟨b, b0, b1, b2, -⟩ := nums hO.sized hI h2 f2
      obtain ⟨σ, hσ, s10, s11, s12, -⟩ := f1.sign
      obtain ⟨τ, hτ, t10, t11, t12, -⟩ := f2.sign
      have c10 := h1.c0; have c11 := h1.c1; have c12 := h1.c2
      have d10 := h2.c0; have d11 := h2.c1; have d12 := h2.c2
      rw [if_neg hb, a1] at c12
      rw [if_neg hb, b1] at d12
      rw [a1] at c10 c11
      rw [b1] at d10 d11
      have z1 := h1.nz1; have z2 := h1.nz2 hb; have w1 := h2.nz1; have w2 := h2.nz2 hb
      have hσ0 : σ * σ = 1 := by rcases hσ with rfl | rfl <;> norm_num
      have hτ0 : τ ≠ 0 := by rcases hτ with rfl | rfl <;> norm_num
      have hs2' : s2 ≠ 0 := by
        rintro rfl
        rcases e12 with e | ⟨-, e⟩
        · rw [zero_mul] at e
          exact mul_ne_zero (ne_of_gt hpos) (f1.ne.1 z1) e
        · rw [zero_mul] at e
          exact mul_ne_zero (ne_of_gt hpos) (f1.ne.2 z2) e
      have conv : ∀ u v : ℚ, s1 * (σ * u) = s2 * (τ * v) → s1 * u = σ * τ * (s2 * v) := by
        intro u v e
        have : s1 * u = σ * (s1 * (σ * u)) := by
          rw [show σ * (s1 * (σ * u)) = σ * σ * (s1 * u) by ring, hσ0, one_mul]
        rw [this, e]; ring
      have back : ∀ u v : ℚ, s1 * u = σ * τ * (s2 * v) → s1 * (σ * u) = s2 * (τ * v) := by
        intro u v e
        rw [show s1 * (σ * u) = σ * (s1 * u) by ring, e, show σ * (σ * τ * (s2 * v)) = σ * σ * (s2 * (τ * v)) by ring, hσ0,
          one_mul]
      have hsg : σ * τ = 1 ∨ σ * τ = -1 := by
        rcases hσ with rfl | rfl <;> rcases hτ with rfl | rfl <;> norm_num
      have e0' : s1 * coefOf a.coefs i = σ * τ * (s2 * coefOf b.coefs i) := by
        apply conv; rw [← c10, ← d10, ← s10, ← t10]; exact e0
      have hK : ∀ k, coefOf a.coefs k = 0 ↔ coefOf b.coefs k = 0 := by
        intro k
        by_cases hk : k ∈ colsOf nBits i j1 j2
        · unfold colsOf at hk
          rw [if_neg hb] at hk
          simp only [List.mem_cons, List.not_mem_nil, or_false] at hk
          rcases hk with rfl | rfl | rfl
          · constructor
            · intro hz
              rw [hz, mul_zero] at e0'
              have := (mul_eq_zero.mp e0'.symm).resolve_left (by rcases hsg with h | h <;> rw [h] <;> norm_num)
              exact (mul_eq_zero.mp this).resolve_left hs2'
            · intro hz
              rw [hz, mul_zero, mul_zero] at e0'
              exact (mul_eq_zero.mp e0').resolve_left (ne_of_gt hpos)
          · rw [← c11, ← d11]; exact ⟨fun h => absurd h z1, fun h => absurd h w1⟩
          · rw [← c12, ← d12]; exact ⟨fun h => absurd h z2, fun h => absurd h w2⟩
        · rw [coefOf_off (a1 ▸ h1.cols) hk, coefOf_off (b1 ▸ h2.cols) hk]
      have hne : i ≠ j1 ∧ i ≠ j2 := by
        unfold colsOf at hnd
        rw [if_neg hb] at hnd
        simp only [List.nodup_cons, List.mem_cons, List.not_mem_nil, or_false, not_or] at hnd
        exact ⟨hnd.1.1, hnd.1.2⟩
      obtain ⟨hj1, hj2⟩ : j1 < C.nCols ∧ j2 < C.nCols := by
        constructor
        · obtain ⟨p, hp, e⟩ := List.mem_map.mp h1.have1
          rw [← e]; exact hO.sized.wf.cols a a0 p (a1 ▸ hp)
        · obtain ⟨p, hp, e⟩ := List.mem_map.mp (h1.have2 hb)
          rw [← e]; exact hO.sized.wf.cols a a0 p (a1 ▸ hp)
      have hH := hO.harmonious s1 hs1 s2 hs2 a (List.mem_filter.mpr ⟨a0, a2⟩) b (List.mem_filter.mpr ⟨b0, b2⟩)
        (fun k _ => hK k) (σ * τ) (by rcases hsg with h | h <;> rw [h] <;> simp) i hi
        (by
          obtain ⟨r3, m3, b1, b2, b3⟩ := h3 hb
          refine ⟨r3, m3, b1, fun k _ hk => ?_⟩
          by_cases hk' : k ∈ colsOf nBits i j1 j2
          · unfold colsOf at hk'
            rw [if_neg hb] at hk'
            simp only [List.mem_cons, List.not_mem_nil, or_false] at hk'
            rcases hk' with rfl | rfl | rfl
            exacts [b1, b2, b3]
          · exact absurd (coefOf_off (a1 ▸ h1.cols) hk') hk)
      have fin : ∀ k < C.nCols, s1 * coefOf a.coefs k = σ * τ * (s2 * coefOf b.coefs k) := by
        rcases e12 with e | ⟨-, e⟩
        · exact hH j1 hj1 ⟨hne.1, c11 ▸ z1, e0', conv _ _ (by rw [← c11, ← d11, ← s11, ← t11]; exact e)⟩
        · exact hH j2 hj2 ⟨hne.2, c12 ▸ z2, e0', conv _ _ (by rw [← c12, ← d12, ← s12, ← t12]; exact e)⟩
      constructor
      · rw [s11, t11, c11, d11]; exact back _ _ (fin j1 hj1)
      · rw [s12, t12, c12, d12]; exact back _ _ (fin j2 hj2)
  unfold Holds at hx ⊢
  have h := mul_le_mul_of_nonneg_left hx hnn
  have e : s1 * (q1.e0 * x i + q1.e1 * x j1 + q1.e2 * x j2) ≤ s1 * q1.rhs := by
    rw [show s1 * (q1.e0 * x i + q1.e1 * x j1 + q1.e2 * x j2) =
      s1 * q1.e0 * x i + s1 * q1.e1 * x j1 + s1 * q1.e2 * x j2 by ring, e0, all.1, all.2, er]
    linarith
  exact le_of_mul_le_mul_left e hpos

/-- What is known when rows are compared. -/
structure Ready (C Q : Prob) (cut : Nat → Bool) (i j1 j2 nBits : Nat) (ls : List Line) : Prop where
  inv : Inv C cut Q
  lines : ∀ l ∈ ls, ∃ r, LineOk Q (usable C cut) i j1 j2 nBits l r
  bits : nBits = 2 ∨ nBits = 3
  nodup : (colsOf nBits i j1 j2).Nodup
  col : i < Q.nCols
  int : Q.isInt i = true
  lower : 0 ≤ Q.colLower i
  upper : Q.colUpper i = 1
  third : nBits ≠ 2 → ∃ r3 ∈ C.rows.filter short, coefOf r3.coefs i ≠ 0 ∧ coefOf r3.coefs j1 ≠ 0 ∧ coefOf r3.coefs j2 ≠ 0

theorem dropRow_get {Q : Prob} {d k : Nat} {r : Row} (h : (dropRow Q (some d)).rows[k]? = some r) :
    ∃ r', Q.rows[k]? = some r' ∧ (r = r' ∨ (k = d ∧ r = freed r' ∧ (r'.lb < -10 ^ 30 ∨ 10 ^ 30 < r'.ub))) := by
  unfold dropRow at h
  dsimp only at h
  rw [List.getElem?_modify] at h
  obtain ⟨r', h1, h2⟩ := Option.map_eq_some_iff.mp h
  refine ⟨r', h1, ?_⟩
  by_cases hd : d = k
  · rw [if_pos hd] at h2
    by_cases hf : r'.lb < -10 ^ 30 ∨ 10 ^ 30 < r'.ub
    · rw [if_pos hf] at h2; exact Or.inr ⟨hd.symm, h2.symm, hf⟩
    · rw [if_neg hf] at h2; exact Or.inl h2.symm
  · rw [if_neg hd] at h2; exact Or.inl h2.symm

theorem dropRow_get' {Q : Prob} {d k : Nat} {r' : Row} (h : Q.rows[k]? = some r') :
    ∃ r, (dropRow Q (some d)).rows[k]? = some r ∧
      (r = r' ∨ (k = d ∧ r = freed r' ∧ (r'.lb < -10 ^ 30 ∨ 10 ^ 30 < r'.ub))) := by
  have hl : k < (dropRow Q (some d)).rows.length := by
    unfold dropRow
    dsimp only
    rw [List.length_modify]
    by_contra hc
    rw [List.getElem?_eq_none (by omega)] at h
    cases h
  obtain ⟨r, hr⟩ : ∃ r, (dropRow Q (some d)).rows[k]? = some r := ⟨_, List.getElem?_eq_getElem hl⟩
  obtain ⟨r'', h1, h2⟩ := dropRow_get hr
  rw [h] at h1
  rw [← Option.some.inj h1] at h2
  exact ⟨r, hr, h2⟩

theorem dropRow_inv {C Q : Prob} {cut : Nat → Bool} (h : Inv C cut Q) (d : Option Nat)
    (hd : ∀ k, d = some k → usable C cut k = true ∧ ∀ r, C.rows[k]? = some r → r.coefs.length ≤ 3) : Inv C cut (dropRow Q d) := by
  cases d with
  | none => exact h
  | some d =>
    refine ⟨h.nCols, h.inf, h.isInt, ?_, ?_, h.lower, h.upper, h.ints⟩
    · rw [← h.len]; unfold dropRow; exact List.length_modify _ _ _
    · intro k r hr
      obtain ⟨r', h1, h2⟩ := dropRow_get hr
      obtain ⟨r0, h3, h4⟩ := h.rows k r' h1
      refine ⟨r0, h3, ?_⟩
      rcases h2 with rfl | ⟨rfl, rfl, h5⟩
      · exact h4
      · right
        obtain ⟨u1, u2⟩ := hd k rfl
        rcases h4 with rfl | ⟨rfl, h6⟩
        · exact ⟨rfl, u1, u2 _ h3, h5⟩
        · exact ⟨rfl, h6⟩

/-- No point is lost when a row is made free. -/
theorem dropRow_keeps {Q : Prob} (hs : Sized Q) (d : Option Nat) {x : Nat → ℚ} (hf : Q.Feasible x) : (dropRow Q d).Feasible x := by
  cases d with
  | none => exact hf
  | some d =>
    refine ⟨?_, hf.lower, hf.upper, hf.int⟩
    intro r hr
    obtain ⟨k, hk⟩ := List.mem_iff_getElem?.mp hr
    obtain ⟨r', h1, h2⟩ := dropRow_get hk
    have := hf.rows r' (List.mem_of_getElem? h1)
    show r.Sat Q.inf x
    rcases h2 with rfl | ⟨-, rfl, -⟩
    · exact this
    · have hm := hs.infMax
      refine ⟨fun hh => ?_, fun hh => ?_⟩
      · exfalso
        have : -Q.inf < -dblMax := hh
        linarith
      · exfalso
        have : dblMax < Q.inf := hh
        linarith

/-- The row that is dropped is one of those compared. -/
theorem dropped_row {C Q : Prob} {cut : Nat → Bool} {i j1 j2 nBits : Nat} {ls : List Line} (h : Ready C Q cut i j1 j2 nBits ls)
    {sc : Nat → ℚ} : ∀ k, dropped nBits sc (ineqs ls) = some k →
      usable C cut k = true ∧ ∀ r, C.rows[k]? = some r → r.coefs.length ≤ 3 := by
  intro k hd
  obtain ⟨k1, k2, q1, q2, g1, g2, -, -, -, hwho⟩ := dropped_spec hd
  have key : ∀ {n : Nat} {q : Ineq}, (ineqs ls)[n]? = some q → k = q.row →
      usable C cut k = true ∧ ∀ r, C.rows[k]? = some r → r.coefs.length ≤ 3 := by
    intro n q hq he
    have : ∃ l ∈ ls, From l q := by
      rcases ineqs_get hq with ⟨-, l, hl, rfl⟩ | ⟨-, l, hl, ht⟩
      · exact ⟨l, hl, primary_from l⟩
      · exact ⟨l, hl, (twin_from ht).1⟩
    obtain ⟨l, hl, hf⟩ := this
    obtain ⟨r', ok⟩ := h.lines l hl
    rw [he, hf.row]
    refine ⟨ok.use, fun r hr => ?_⟩
    obtain ⟨r0, h0, h1⟩ := h.inv.rows _ _ ok.row
    rw [hr] at h0
    rw [Option.some.inj h0]
    have := ok.len
    rcases h1 with rfl | ⟨rfl, -⟩ <;> exact this
  rcases hwho with hw | ⟨hw, -⟩
  · exact key g2 hw
  · exact key g1 hw

/-- No point is gained when a row is made free. -/
theorem dropRow_back {root : ℚ → ℚ} {C Q : Prob} {cut : Nat → Bool} {i j1 j2 nBits : Nat} {ls : List Line} (hO : Ok root C)
    (h : Ready C Q cut i j1 j2 nBits ls) {sc : Nat → ℚ} (hsc : ∀ k, sc k ∈ scales root C ∧ (k < ls.length → 0 < sc k))
    {x : Nat → ℚ} (hx : Within Q x) (hf : (dropRow Q (dropped nBits sc (ineqs ls))).Feasible x) : Q.Feasible x := by
  cases hd : dropped nBits sc (ineqs ls) with
  | none => rw [hd] at hf; exact hf
  | some d =>
    rw [hd] at hf
    have hsQ := h.inv.sized hO.sized
    have hsQ' := (dropRow_inv h.inv (some d) (hd ▸ dropped_row h (sc := sc))).sized hO.sized
    have hx' : Within (dropRow Q (some d)) x := hx
    refine ⟨?_, hf.lower, hf.upper, hf.int⟩
    intro r hr
    obtain ⟨k, hk⟩ := List.mem_iff_getElem?.mp hr
    obtain ⟨r', h1, h2⟩ := dropRow_get' (d := d) hk
    rcases h2 with rfl | ⟨rfl, -, hfree⟩
    · exact hf.rows _ (List.mem_of_getElem? h1)
    · obtain ⟨k1, k2, q1, q2, g1, g2, hne, n0, n1, hwho⟩ := dropped_spec hd
      have fromOf : ∀ {k : Nat} {q : Ineq}, (ineqs ls)[k]? = some q → ∃ l r, LineOk Q (usable C cut) i j1 j2 nBits l r ∧ From l q ∧
          ((k < ls.length ∧ q = primary l) ∨ (|q.type| ≠ 1 ∧ -10 ^ 20 ≤ l.lo ∧ l.up ≤ 10 ^ 20)) := by
        intro k q hq
        rcases ineqs_get hq with ⟨hk, l, hl, rfl⟩ | ⟨hk, l, hl, ht⟩
        · obtain ⟨r, hr⟩ := h.lines l hl
          exact ⟨l, r, hr, primary_from l, Or.inl ⟨hk, rfl⟩⟩
        · obtain ⟨r, hr⟩ := h.lines l hl
          obtain ⟨a, b⟩ := twin_from ht
          exact ⟨l, r, hr, a, Or.inr b⟩
      obtain ⟨l1, r1, ok1, f1, p1⟩ := fromOf g1
      obtain ⟨l2, r2, ok2, f2, p2⟩ := fromOf g2
      have hsh := sharp hO h.inv ok1 ok2 f1 f2 (hsc k1).1 (hsc k2).1
      obtain ⟨st0, eq0⟩ := stronger_spec hsh (Or.inl rfl) n0
      obtain ⟨st1, eq1⟩ := stronger_spec hsh (Or.inr rfl) n1
      -- the point
      obtain ⟨i0, i1⟩ := col_within hsQ' hx' hf (j := i) h.col
      have hxi : x i = 0 ∨ x i = 1 := zero_one (hf.int i h.col h.int) (le_trans h.lower i0) (h.upper ▸ i1)
      have hxj : 0 ≤ x j1 := by
        obtain ⟨a, -, b⟩ := ok1.col h.inv hO.sized ok1.have1
        exact le_trans b (col_within hsQ' hx' hf (j := j1) a).1
      have hxj2 : nBits ≠ 2 → 0 ≤ x j2 := by
        intro hn
        obtain ⟨a, -, b⟩ := ok1.col h.inv hO.sized (ok1.have2 hn)
        exact le_trans b (col_within hsQ' hx' hf (j := j2) a).1
      have hst : Stronger nBits (x i) (sc k1) (sc k2) q1 q2 := by
        rcases hxi with e | e <;> rw [e]
        · exact st0
        · exact st1
      -- a row that is not the one made free holds
      have other : ∀ {l : Line} {r1 : Row} {q : Ineq}, LineOk Q (usable C cut) i j1 j2 nBits l r1 → From l q → q.row ≠ k →
          Holds i j1 j2 q x := by
        intro l r1 q ok f hne
        obtain ⟨r'', a, b⟩ := dropRow_get' (d := k) ok.row
        rcases b with rfl | ⟨b, -, -⟩
        · have hm := List.mem_of_getElem? a
          obtain ⟨s1, s2⟩ := (sat_iff hsQ' hx' hm ok.len).mp (hf.rows _ hm)
          exact f.holds _ (ok.lo ▸ s1) (ok.up ▸ s2) _ _ _ (ok.dot x)
        · exact absurd (f.row.trans b) hne
      -- the row made free follows from its inequality
      have back : ∀ {l : Line} {r1 : Row} {q : Ineq}, LineOk Q (usable C cut) i j1 j2 nBits l r1 → From l q → q.row = k →
          q = primary l → Holds i j1 j2 q x → r.Sat Q.inf x := by
        intro l r1 q ok f he hp hh
        have er : r1 = r := by
          have := ok.row
          rw [← f.row, he, hk] at this
          exact (Option.some.inj this).symm
        subst er
        have hb := h.inv.rowBounds hO.sized hO.rowBounds r1 hr
        rw [← ok.lo, ← ok.up] at hb hfree
        unfold Holds at hh
        rw [hp] at hh
        have := primary_back hfree hb.1 hb.2 hh
        rw [← ok.dot x, ok.lo, ok.up] at this
        exact this
      have prim : ∀ {l : Line} {r1 : Row} {q : Ineq} {n : Nat}, LineOk Q (usable C cut) i j1 j2 nBits l r1 → From l q →
          q.row = k → ((n < ls.length ∧ q = primary l) ∨ (|q.type| ≠ 1 ∧ -10 ^ 20 ≤ l.lo ∧ l.up ≤ 10 ^ 20)) →
          n < ls.length ∧ q = primary l := by
        intro l r1 q n ok f he hp
        rcases hp with hp | ⟨-, b1, b2⟩
        · exact hp
        · exfalso
          have er : r1 = r := by
            have := ok.row
            rw [← f.row, he, hk] at this
            exact (Option.some.inj this).symm
          subst er
          rw [ok.lo] at b1
          rw [ok.up] at b2
          have : (10 : ℚ) ^ 20 < 10 ^ 30 := by norm_num
          rcases hfree with hh | hh <;> linarith
      rcases hwho with hw | ⟨hw, ht, h50, h51⟩
      · obtain ⟨m1, m2⟩ := prim ok2 f2 hw.symm p2
        refine back ok2 f2 hw.symm m2 (dominates (scales_nonneg hO.sized hO.rootPos (hsc k1).1) ((hsc k2).2 m1) hst hxj hxj2 ?_
          (other ok1 f1 (hw ▸ hne)))
        intro hb
        obtain ⟨σ, -, -, -, a, -⟩ := f1.sign
        obtain ⟨τ, -, -, -, b, -⟩ := f2.sign
        rw [ok1.c2, if_pos hb, mul_zero] at a
        rw [ok2.c2, if_pos hb, mul_zero] at b
        exact ⟨a, b⟩
      · obtain ⟨m1, m2⟩ := prim ok1 f1 hw.symm p1
        obtain ⟨v0, v1⟩ := eq0 h50
        obtain ⟨w0, -⟩ := eq1 h51
        refine back ok1 f1 hw.symm m2 (same_case hO h.inv ok1 ok2 f1 f2 h.nodup (hsc k1).1 (hsc k2).1 ((hsc k1).2 m1) ?_ ?_ v1
          (other ok2 f2 (hw ▸ hne.symm)) (scales_nonneg hO.sized hO.rootPos (hsc k2).1)
          (h.inv.nCols ▸ h.col) h.third)
        · rw [zero_mul, zero_mul, sub_zero, sub_zero] at v0
          rw [one_mul, one_mul, mul_sub, mul_sub] at w0
          linarith
        · simpa using v0

end Cgl.Triple
