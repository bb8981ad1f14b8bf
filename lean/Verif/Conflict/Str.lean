import Verif.Conflict.BK
import Mathlib.Algebra.Order.BigOperators.Group.List

/-!
# `CglCliqueStrengthening`: detection, extension, rebuilding
-/

namespace Cgl.Conflict

/-! ### The scan of a row -/

/-- `m` bounds the sum of any two of the sizes seen. -/
structure MinInv (seen : List ℚ) (m : ℚ × ℚ) : Prop where
  low : ∀ a ∈ seen, m.1 ≤ a
  pairs : seen.Pairwise fun a b => m.1 + m.2 ≤ a + b

theorem updMin_inv {seen : List ℚ} {m : ℚ × ℚ} (h : MinInv seen m) {a : ℚ} (h1 : a < m.1 → a + strEps ≤ m.1)
    (h2 : a < m.2 → a + strEps ≤ m.2) : MinInv (seen ++ [a]) (updMin a m) := by
  have he : (0 : ℚ) < strEps := by unfold strEps; norm_num
  unfold updMin
  split
  · rename_i hc
    constructor
    · intro b hb
      rcases List.mem_append.mp hb with hb | hb
      · have := h.low b hb; simp only; linarith
      · simp only [List.mem_singleton] at hb; rw [hb]
    · rw [List.pairwise_append]
      refine ⟨?_, by simp, ?_⟩
      · refine List.Pairwise.imp_of_mem (S := fun p q => a + m.1 ≤ p + q) ?_ h.pairs
        intro p q hp hq _
        have := h.low p hp
        have := h.low q hq
        linarith
      · intro p hp q hq
        simp only [List.mem_singleton] at hq
        have := h.low p hp
        simp only; linarith
  · rename_i hc
    have hm1 : m.1 ≤ a := by
      by_contra hlt
      exact hc (h1 (lt_of_not_ge hlt))
    split
    · rename_i hc2
      constructor
      · intro b hb
        rcases List.mem_append.mp hb with hb | hb
        · exact h.low b hb
        · simp only [List.mem_singleton] at hb; rw [hb]; exact hm1
      · rw [List.pairwise_append]
        refine ⟨?_, by simp, ?_⟩
        · refine List.Pairwise.imp_of_mem (S := fun p q => m.1 + a ≤ p + q) ?_ h.pairs
          intro p q _ _ hpq
          linarith
        · intro p hp q hq
          simp only [List.mem_singleton] at hq
          have := h.low p hp
          simp only; linarith
    · rename_i hc2
      have hm2 : m.2 ≤ a := by
        by_contra hlt
        exact hc2 (h2 (lt_of_not_ge hlt))
      constructor
      · intro b hb
        rcases List.mem_append.mp hb with hb | hb
        · exact h.low b hb
        · simp only [List.mem_singleton] at hb; rw [hb]; exact hm1
      · rw [List.pairwise_append]
        refine ⟨h.pairs, by simp, ?_⟩
        intro p hp q hq
        simp only [List.mem_singleton] at hq
        have := h.low p hp
        linarith

theorem updMin_mem {A : ℚ → Prop} {a : ℚ} {m : ℚ × ℚ} (ha : A a) (h1 : A m.1) (h2 : A m.2) :
    A (updMin a m).1 ∧ A (updMin a m).2 := by
  unfold updMin
  split
  · exact ⟨ha, h1⟩
  · split
    · exact ⟨h1, ha⟩
    · exact ⟨h1, h2⟩

/-- What the scan of a row collects. -/
theorem scanRow_eq {P : Prob} {mult : ℚ} {v : SVec} : ∀ {s s' : Scan}, scanRow P mult s v = some s' →
    (∀ p ∈ v, isBinary P p.1 = true) ∧ s'.els = s.els ++ v.map (fun p => nodeOf P.nCols p.1 (p.2 * mult)) ∧
      s'.rhs = s.rhs + (v.map fun p => rhsOf (p.2 * mult)).sum := by
  induction v with
  | nil => intro s s' h; cases h; simp
  | cons p ps ih =>
    intro s s' h
    unfold scanRow at h
    split at h
    · rename_i hb
      obtain ⟨i1, i2, i3⟩ := ih h
      refine ⟨?_, ?_, ?_⟩
      · intro q hq
        rcases List.mem_cons.mp hq with rfl | hq
        · exact hb
        · exact i1 q hq
      · rw [i2]; simp [scanEntry]
      · rw [i3]; simp only [scanEntry, List.map_cons, List.sum_cons]; ring
    · cases h

theorem scanRow_min {P : Prob} {mult : ℚ} {A : ℚ → Prop} (hA : ∀ a b, A a → A b → a < b → a + strEps ≤ b) {v : SVec} :
    ∀ {s s' : Scan} {seen : List ℚ}, scanRow P mult s v = some s' → (∀ p ∈ v, A (sizeOf (p.2 * mult))) →
      A s.min1 → A s.min2 → MinInv seen (s.min1, s.min2) →
      MinInv (seen ++ v.map fun p => sizeOf (p.2 * mult)) (s'.min1, s'.min2) := by
  induction v with
  | nil => intro s s' seen h _ _ _ hm; cases h; simpa using hm
  | cons p ps ih =>
    intro s s' seen h hv h1 h2 hm
    unfold scanRow at h
    split at h
    · have ha := hv p (by simp)
      have hu := updMin_inv hm (hA _ _ ha h1) (hA _ _ ha h2)
      have hmem := updMin_mem (m := (s.min1, s.min2)) ha h1 h2
      have := ih (s := scanEntry P.nCols s p.1 (p.2 * mult)) (seen := seen ++ [sizeOf (p.2 * mult)]) h
        (fun q hq => hv q (by simp [hq])) hmem.1 hmem.2 hu
      simpa using this
    · cases h

/-! ### A row and its literal form -/

theorem entry_lit {n j : Nat} (hj : j < n) (c : ℚ) (x : Nat → ℚ) :
    sizeOf c * lit n x (nodeOf n j c) = c * x j + rhsOf c := by
  unfold sizeOf nodeOf rhsOf
  split
  · simp only [lit, show ¬(j + n < n) by omega, if_false, Nat.add_sub_cancel]; ring
  · simp only [lit, hj, if_true]; ring

/-- The value of the literal form. -/
def litDot (P : Prob) (r : Row) (x : Nat → ℚ) : ℚ := ((litForm P r).map fun p => p.2 * lit P.nCols x p.1).sum

theorem litDot_eq {P : Prob} {r : Row} (hc : ∀ p ∈ r.coefs, p.1 < P.nCols) (x : Nat → ℚ) :
    litDot P r x = multOf r P.inf * SVec.dot r.coefs x + (r.coefs.map fun p => rhsOf (p.2 * multOf r P.inf)).sum := by
  unfold litDot litForm
  generalize multOf r P.inf = mult
  generalize r.coefs = v at hc ⊢
  induction v with
  | nil => simp
  | cons p ps ih =>
    simp only [List.map_cons, List.sum_cons, SVec.dot_cons, ih (fun q hq => hc q (by simp [hq])),
      entry_lit (hc p (by simp))]
    ring

theorem senseRhs_L {inf : ℚ} {r : Row} (h : (r.senseRhs inf).1 = .L) (x : Nat → ℚ) :
    r.Sat inf x ↔ SVec.dot r.coefs x ≤ (r.senseRhs inf).2 := by
  unfold Row.senseRhs at h ⊢
  unfold Row.Sat lbOk ubOk
  split at h
  · split at h
    · split at h <;> cases h
    · cases h
  · rename_i h1
    split at h
    · rename_i h2
      simp only [if_neg h1, if_pos h2]
      constructor
      · intro hh; exact hh.2 h2
      · intro hh; exact ⟨fun h' => absurd h' h1, fun _ => hh⟩
    · cases h

theorem senseRhs_G {inf : ℚ} {r : Row} (h : (r.senseRhs inf).1 = .G) (x : Nat → ℚ) :
    r.Sat inf x ↔ (r.senseRhs inf).2 ≤ SVec.dot r.coefs x := by
  unfold Row.senseRhs at h ⊢
  unfold Row.Sat lbOk ubOk
  split at h
  · rename_i h1
    split at h
    · split at h <;> cases h
    · rename_i h2
      simp only [if_pos h1, if_neg h2]
      constructor
      · intro hh; exact hh.1 h1
      · intro hh; exact ⟨fun _ => hh, fun h' => absurd h' h2⟩
  · split at h <;> cases h

/-- What `cliqueOf` accepts. -/
structure Detected (P : Prob) (r : Row) (els : List Nat) : Prop where
  two : 2 ≤ els.length
  els : els = (litForm P r).map Prod.fst
  binary : ∀ p ∈ r.coefs, isBinary P p.1 = true
  sat : (∀ p ∈ r.coefs, p.1 < P.nCols) → ∀ x, r.Sat P.inf x ↔ litDot P r x ≤ litRhs P r
  pairs : Spread P r → (litForm P r).Pairwise fun p q => litRhs P r < p.2 + q.2

theorem cliqueOf_detected {P : Prob} {r : Row} {els : List Nat} (h : cliqueOf P r = some els) :
    Detected P r els := by
  unfold cliqueOf at h
  split at h
  · cases h
  · rename_i hlen
    split at h
    · cases h
    · rename_i hsense
      rcases hs : scanOf P r with _ | s
      · rw [hs] at h; cases h
      · rw [hs] at h
        simp only at h
        split at h
        · rename_i htest
          cases h
          have hs' := hs
          unfold scanOf at hs'
          obtain ⟨hb, he, hr⟩ := scanRow_eq hs'
          simp only [List.nil_append] at he hr
          have hels : s.els = (litForm P r).map Prod.fst := by
            rw [he]; unfold litForm; rw [List.map_map]; rfl
          have hrhs : s.rhs = litRhs P r := by rw [hr]; rfl
          refine ⟨?_, hels, hb, ?_, ?_⟩
          · rw [he, List.length_map]; omega
          · intro hc x
            rw [litDot_eq hc]
            unfold litRhs
            by_cases hL : (r.senseRhs P.inf).1 = .L
            · rw [senseRhs_L hL]
              have : multOf r P.inf = 1 := by unfold multOf; rw [hL]; simp
              rw [this]
              constructor <;> intro hh <;> linarith
            · have hG : (r.senseRhs P.inf).1 = .G := by
                by_contra hG
                exact hsense ⟨hL, hG⟩
              rw [senseRhs_G hG]
              have : multOf r P.inf = -1 := by unfold multOf; rw [hG]; simp
              rw [this]
              constructor <;> intro hh <;> linarith
          · intro hsp
            have hmin := scanRow_min (seen := [])
              (A := fun a => a = dblMax ∨ ∃ p ∈ litForm P r, p.2 = a) (by
                intro a b ha hb hab
                rcases ha with ha | ⟨p, hp, rfl⟩
                · rcases hb with hb | ⟨q, hq, rfl⟩
                  · rw [ha, hb] at hab; exact absurd hab (lt_irrefl _)
                  · have := (hsp q hq).2.1
                    have he : (0 : ℚ) < strEps := by unfold strEps; norm_num
                    linarith
                · rcases hb with hb | ⟨q, hq, rfl⟩
                  · rw [hb]; exact (hsp p hp).2.1
                  · exact (hsp p hp).2.2 q hq hab) hs' (by
                intro p hp
                right
                exact ⟨_, List.mem_map_of_mem (f := fun p : Nat × ℚ =>
                  (nodeOf P.nCols p.1 (p.2 * multOf r P.inf), sizeOf (p.2 * multOf r P.inf))) hp, rfl⟩)
                (Or.inl rfl) (Or.inl rfl) ⟨by simp, by simp⟩
            have hp := hmin.pairs
            simp only [List.nil_append] at hp
            have heq : (r.coefs.map fun p => sizeOf (p.2 * multOf r P.inf)) = (litForm P r).map Prod.snd := by
              unfold litForm; rw [List.map_map]; rfl
            rw [heq, List.pairwise_map] at hp
            refine hp.imp ?_
            intro p q hpq
            have he : (0 : ℚ) < strEps := by unfold strEps; norm_num
            rw [← hrhs]
            linarith
        · cases h

/-! ### At most one literal of a detected row -/

theorem litsum_or {n : Nat} {x : Nat → ℚ} {B : ℚ} {L : List (Nat × ℚ)} (h0 : ∀ p ∈ L, 0 ≤ p.2)
    (h01 : ∀ p ∈ L, ZeroOne n x p.1) (hp : L.Pairwise fun p q => B < p.2 + q.2) :
    (L.map fun p => lit n x p.1).sum ≤ 1 ∨ B < (L.map fun p => p.2 * lit n x p.1).sum := by
  induction L with
  | nil => left; simp
  | cons p L ih =>
    rw [List.pairwise_cons] at hp
    have hnn : ∀ q ∈ L, 0 ≤ q.2 * lit n x q.1 := by
      intro q hq
      have := h0 q (by simp [hq])
      rcases h01 q (by simp [hq]) with e | e
      · rw [e]; simp
      · rw [e]; linarith
    simp only [List.map_cons, List.sum_cons]
    rcases h01 p (by simp) with e | e
    · rw [e]
      rcases ih (fun q hq => h0 q (by simp [hq])) (fun q hq => h01 q (by simp [hq])) hp.2 with h | h
      · left; linarith
      · right; linarith
    · by_cases hex : ∃ q ∈ L, lit n x q.1 = 1
      · obtain ⟨q, hq, eq⟩ := hex
        right
        have h1 := hp.1 q hq
        have h2 : q.2 ≤ (L.map fun p => p.2 * lit n x p.1).sum := by
          have := List.single_le_sum (l := L.map fun p => p.2 * lit n x p.1) (by
            intro y hy
            obtain ⟨z, hz, rfl⟩ := List.mem_map.mp hy
            exact hnn z hz) (q.2 * lit n x q.1) (List.mem_map_of_mem (f := fun p : Nat × ℚ => p.2 * lit n x p.1) hq)
          rw [eq] at this; linarith
        rw [e]; linarith
      · left
        have : (L.map fun p => lit n x p.1).sum = 0 := by
          apply List.sum_eq_zero
          intro y hy
          obtain ⟨q, hq, rfl⟩ := List.mem_map.mp hy
          rcases h01 q (by simp [hq]) with e' | e'
          · exact e'
          · exact absurd ⟨q, hq, e'⟩ hex
        rw [e, this]; norm_num

theorem litsum_le {n : Nat} {x : Nat → ℚ} {B : ℚ} {L : List (Nat × ℚ)} (hB : 0 ≤ B) (hb : ∀ p ∈ L, p.2 ≤ B)
    (h0 : ∀ p ∈ L, 0 ≤ lit n x p.1) (h : (L.map fun p => lit n x p.1).sum ≤ 1) :
    (L.map fun p => p.2 * lit n x p.1).sum ≤ B := by
  have : (L.map fun p => p.2 * lit n x p.1).sum ≤ B * (L.map fun p => lit n x p.1).sum := by
    clear h
    induction L with
    | nil => simp
    | cons p L ih =>
      have := ih (fun q hq => hb q (by simp [hq])) (fun q hq => h0 q (by simp [hq]))
      simp only [List.map_cons, List.sum_cons]
      have := mul_le_mul_of_nonneg_right (hb p (by simp)) (h0 p (by simp))
      linarith
  have := mul_le_mul_of_nonneg_left h hB
  linarith

/-- A binary column is 0 or 1 wherever the bounds and integrality hold. -/
theorem binary_zeroOne {P : Prob} (hinf : 1 < P.inf) {x : Nat → ℚ} {j : Nat}
    (hb : isBinary P j = true) (hl : lbOk P.inf (P.colLower j) (x j)) (hu : ubOk P.inf (P.colUpper j) (x j))
    (hi : P.isInt j = true → IsInteger (x j)) : x j = 0 ∨ x j = 1 := by
  unfold isBinary at hb
  simp only [Bool.and_eq_true, Bool.or_eq_true, beq_iff_eq] at hb
  obtain ⟨⟨h1, h2⟩, h3⟩ := hb
  have l0 : 0 ≤ x j := by
    rcases h2 with e | e
    · have := hl (by rw [e]; linarith); linarith
    · have := hl (by rw [e]; linarith); linarith
  have u1 : x j ≤ 1 := by
    rcases h3 with e | e
    · have := hu (by rw [e]; linarith); linarith
    · have := hu (by rw [e]; exact hinf); linarith
  obtain ⟨z, hz⟩ := hi h1
  rw [hz] at l0 u1
  have z0 : 0 ≤ z := by exact_mod_cast l0
  have z1 : z ≤ 1 := by exact_mod_cast u1
  have : z = 0 ∨ z = 1 := by omega
  rcases this with e | e
  · left; rw [hz, e]; norm_num
  · right; rw [hz, e]; norm_num

theorem nodeOf_col {n j : Nat} (hj : j < n) (c : ℚ) :
    nodeOf n j c < 2 * n ∧ (if nodeOf n j c < n then nodeOf n j c else nodeOf n j c - n) = j := by
  unfold nodeOf
  split
  · rw [if_neg (by omega)]; omega
  · exact ⟨by omega, rfl⟩

/-- Literals of 0-1 columns. -/
theorem lit_zeroOne {n : Nat} {x : Nat → ℚ} {u : Nat}
    (h : x (if u < n then u else u - n) = 0 ∨ x (if u < n then u else u - n) = 1) : ZeroOne n x u := by
  unfold ZeroOne lit
  by_cases hu : u < n
  · simp only [if_pos hu] at h ⊢; exact h
  · simp only [if_neg hu] at h ⊢
    rcases h with e | e
    · right; rw [e]; norm_num
    · left; rw [e]; norm_num

theorem els_facts {P : Prob} {r : Row} {els : List Nat} (hd : Detected P r els) (hc : ∀ p ∈ r.coefs, p.1 < P.nCols)
    (hn : (r.coefs.map Prod.fst).Nodup) :
    els.Nodup ∧ (∀ u ∈ els, u < 2 * P.nCols) ∧
      ∀ u ∈ els, isBinary P (if u < P.nCols then u else u - P.nCols) = true ∧
        (if u < P.nCols then u else u - P.nCols) < P.nCols := by
  have hmem : ∀ u ∈ els, ∃ p ∈ r.coefs, u = nodeOf P.nCols p.1 (p.2 * multOf r P.inf) := by
    intro u hu
    rw [hd.els] at hu
    unfold litForm at hu
    rw [List.map_map] at hu
    obtain ⟨p, hp, rfl⟩ := List.mem_map.mp hu
    exact ⟨p, hp, rfl⟩
  refine ⟨?_, ?_, ?_⟩
  · have : (els.map fun u => if u < P.nCols then u else u - P.nCols) = r.coefs.map Prod.fst := by
      rw [hd.els]
      unfold litForm
      rw [List.map_map, List.map_map]
      apply List.map_congr_left
      intro p hp
      exact (nodeOf_col (hc p hp) _).2
    rw [← this] at hn
    exact List.Nodup.of_map _ hn
  · intro u hu
    obtain ⟨p, hp, rfl⟩ := hmem u hu
    exact (nodeOf_col (hc p hp) _).1
  · intro u hu
    obtain ⟨p, hp, rfl⟩ := hmem u hu
    rw [(nodeOf_col (hc p hp) _).2]
    exact ⟨hd.binary p hp, hc p hp⟩

/-- The points the columns allow: bounds and integrality. -/
structure ColsOK (P : Prob) (x : Nat → ℚ) : Prop where
  lower : ∀ j < P.nCols, lbOk P.inf (P.colLower j) (x j)
  upper : ∀ j < P.nCols, ubOk P.inf (P.colUpper j) (x j)
  int : ∀ j < P.nCols, P.isInt j = true → IsInteger (x j)

theorem ColsOK.zeroOne {P : Prob} {x : Nat → ℚ} (h : ColsOK P x) (hinf : 1 < P.inf) {u : Nat}
    (hb : isBinary P (if u < P.nCols then u else u - P.nCols) = true)
    (hc : (if u < P.nCols then u else u - P.nCols) < P.nCols) : ZeroOne P.nCols x u :=
  lit_zeroOne (binary_zeroOne hinf hb (h.lower _ hc) (h.upper _ hc) (h.int _ hc))

theorem detected_sum {P : Prob} (hinf : 1 < P.inf) {r : Row} {els : List Nat} (hd : Detected P r els)
    (hc : ∀ p ∈ r.coefs, p.1 < P.nCols) (hn : (r.coefs.map Prod.fst).Nodup) (hsp : Spread P r) {x : Nat → ℚ}
    (hx : ColsOK P x) (hr : r.Sat P.inf x) : (els.map (lit P.nCols x)).sum ≤ 1 := by
  obtain ⟨_, _, h3⟩ := els_facts hd hc hn
  have h01 : ∀ p ∈ litForm P r, ZeroOne P.nCols x p.1 := by
    intro p hp
    have : p.1 ∈ els := by rw [hd.els]; exact List.mem_map_of_mem hp
    exact hx.zeroOne hinf (h3 _ this).1 (h3 _ this).2
  have hle := ((hd.sat hc x).mp hr)
  rcases litsum_or (fun p hp => (hsp p hp).1) h01 (hd.pairs hsp) with h | h
  · rw [hd.els, List.map_map]; exact h
  · exact absurd h (not_lt.mpr hle)

theorem detected_sat {P : Prob} (hinf : 1 < P.inf) {r : Row} {els : List Nat} (hd : Detected P r els)
    (hc : ∀ p ∈ r.coefs, p.1 < P.nCols) (hn : (r.coefs.map Prod.fst).Nodup) (hp : Packing P r) {x : Nat → ℚ}
    (hx : ColsOK P x) (hs : (els.map (lit P.nCols x)).sum ≤ 1) : r.Sat P.inf x := by
  obtain ⟨_, _, h3⟩ := els_facts hd hc hn
  refine (hd.sat hc x).mpr (litsum_le hp.1 hp.2 ?_ ?_)
  · intro p hp'
    have : p.1 ∈ els := by rw [hd.els]; exact List.mem_map_of_mem hp'
    rcases hx.zeroOne hinf (h3 _ this).1 (h3 _ this).2 with e | e
    · rw [e]
    · rw [e]; norm_num
  · rw [hd.els, List.map_map] at hs; exact hs

/-! ### The extension loop -/

theorem detect_mem {P : Prob} {rows : List Row} : ∀ {i : Nat} {c : CliqueRow}, c ∈ detect P i rows →
    c.dominated = false ∧ ∃ k r, rows[k]? = some r ∧ c.orig = i + k ∧ cliqueOf P r = some c.els := by
  induction rows with
  | nil => intro i c h; simp [detect] at h
  | cons r rs ih =>
    intro i c h
    unfold detect at h
    rcases hc : cliqueOf P r with _ | els
    · rw [hc] at h
      obtain ⟨h0, k, r', h1, h2, h3⟩ := ih h
      exact ⟨h0, k + 1, r', by simpa using h1, by omega, h3⟩
    · rw [hc] at h
      rcases List.mem_cons.mp h with rfl | h
      · exact ⟨rfl, 0, r, by simp, by simp, hc⟩
      · obtain ⟨h0, k, r', h1, h2, h3⟩ := ih h
        exact ⟨h0, k + 1, r', by simpa using h1, by omega, h3⟩

/-- The clique rows are those of the start, apart from their status. -/
def SameRows (cl cl' : List CliqueRow) : Prop :=
  (cl.map fun c => (c.els, c.orig)) = cl'.map fun c => (c.els, c.orig)

theorem markDominated_same (cl : List CliqueRow) (k : Nat) : SameRows cl (markDominated cl k) := by
  unfold SameRows markDominated
  induction cl generalizing k with
  | nil => simp
  | cons c cl ih =>
    cases k with
    | zero => simp
    | succ k => simpa using ih k

theorem mem_markDominated {cl : List CliqueRow} {k : Nat} {c : CliqueRow} (h : c ∈ markDominated cl k) :
    c ∈ cl ∨ ∃ c0, cl[k]? = some c0 ∧ c.els = c0.els := by
  unfold markDominated at h
  induction cl generalizing k with
  | nil => simp at h
  | cons d cl ih =>
    cases k with
    | zero =>
      simp only [List.modify_zero_cons, List.mem_cons] at h
      rcases h with rfl | h
      · exact Or.inr ⟨d, by simp, rfl⟩
      · exact Or.inl (by simp [h])
    | succ k =>
      simp only [List.modify_succ_cons, List.mem_cons] at h
      rcases h with rfl | h
      · exact Or.inl (by simp)
      · rcases ih h with h | ⟨c0, e1, e2⟩
        · exact Or.inl (by simp [h])
        · exact Or.inr ⟨c0, by simpa using e1, e2⟩

/-- Every dominated clique row lies inside one of the cliques. -/
def Covered (cl : List CliqueRow) (new : List (List Nat)) : Prop :=
  ∀ c ∈ cl, c.dominated = true → ∃ S ∈ new, ∀ u ∈ c.els, u ∈ S

theorem Covered.mark {cl : List CliqueRow} {new : List (List Nat)} (h : Covered cl new) {k : Nat}
    (hk : ∀ c0, cl[k]? = some c0 → ∃ S ∈ new, ∀ u ∈ c0.els, u ∈ S) : Covered (markDominated cl k) new := by
  intro c hc hd
  rcases mem_markDominated hc with h1 | ⟨c0, e1, e2⟩
  · exact h c h1 hd
  · rw [e2]; exact hk c0 e1

theorem domStep_inv {S : List Nat} {new : List (List Nat)} (hS : S ∈ new) {cl0 : List CliqueRow}
    {st : List CliqueRow × List Nat} {k : Nat} (h : Covered st.1 new) (hs : SameRows cl0 st.1) :
    Covered (domStep S st k).1 new ∧ SameRows cl0 (domStep S st k).1 := by
  unfold domStep
  rcases hk : st.1[k]? with _ | c
  · exact ⟨h, hs⟩
  · dsimp only
    split
    · exact ⟨h, hs⟩
    · dsimp only
      split
      · rename_i hall
        refine ⟨h.mark ?_, ?_⟩
        · intro c0 e
          rw [hk] at e; cases e
          refine ⟨S, hS, ?_⟩
          rw [List.all_eq_true] at hall
          intro u hu
          simpa using hall u hu
        · unfold SameRows at *
          rw [hs]; exact markDominated_same _ _
      · exact ⟨h, hs⟩

theorem domFold_inv {S : List Nat} {new : List (List Nat)} (hS : S ∈ new) {cl0 : List CliqueRow} (ks : List Nat) :
    ∀ {st : List CliqueRow × List Nat}, Covered st.1 new → SameRows cl0 st.1 →
      Covered (ks.foldl (domStep S) st).1 new ∧ SameRows cl0 (ks.foldl (domStep S) st).1 := by
  induction ks with
  | nil => intro st h hs; exact ⟨h, hs⟩
  | cons k ks ih =>
    intro st h hs
    obtain ⟨h1, h2⟩ := domStep_inv (k := k) hS h hs
    exact ih h1 h2

theorem Covered.mono {cl : List CliqueRow} {new : List (List Nat)} (h : Covered cl new) (S : List Nat) :
    Covered cl (new ++ [S]) := by
  intro c hc hd
  obtain ⟨T, hT, hs⟩ := h c hc hd
  exact ⟨T, by simp [hT], hs⟩

/-- State of the extension loop. -/
structure ExtInv (G : Graph) (env : StrEnv) (cl0 : List CliqueRow) (names0 : List Nat) (st : ExtState) : Prop where
  same : SameRows cl0 st.cl
  covered : Covered st.cl st.new
  from_rows : ∀ S ∈ st.new, ∃ c ∈ cl0, Extends G c.els S
  names : ∃ ns, st.names = names0 ++ ns ∧ ns.length = st.new.length ∧ ∀ l ∈ ns, ∃ i, l = env.nameLen i + 4

theorem recordExt_inv {G : Graph} {env : StrEnv} {cl0 : List CliqueRow} {names0 : List Nat}
    {st st' : ExtState} (h : ExtInv G env cl0 names0 st) (hE : env.OK G) {k i : Nat} {c : CliqueRow}
    (hc : st.cl[i]? = some c) {S : List Nat} (hS : env.ext k c.els = some S)
    (e : recordExt env st i c.orig S = .ok st') : ExtInv G env cl0 names0 st' := by
  have hext := hE.ext k _ _ hS
  have hc0 : ∃ c0 ∈ cl0, c0.els = c.els := by
    have hm : c ∈ st.cl := List.mem_of_getElem? hc
    have : (c.els, c.orig) ∈ st.cl.map fun c => (c.els, c.orig) :=
      List.mem_map_of_mem (f := fun c : CliqueRow => (c.els, c.orig)) hm
    rw [← h.same] at this
    obtain ⟨c0, h0, e0⟩ := List.mem_map.mp this
    exact ⟨c0, h0, (Prod.mk.inj e0).1⟩
  unfold recordExt at e
  split at e
  · rename_i hany
    cases e
    constructor
    · unfold SameRows; rw [h.same]; exact markDominated_same _ _
    · refine h.covered.mark ?_
      intro c0 e0
      rw [hc] at e0; cases e0
      obtain ⟨T, hT, hsame⟩ := List.any_eq_true.mp hany
      refine ⟨T, hT, ?_⟩
      unfold sameClique at hsame
      rw [Bool.and_eq_true, List.all_eq_true] at hsame
      intro u hu
      simpa using hsame.1 u (hext.sub u hu)
    · exact h.from_rows
    · exact h.names
  · split at e
    · cases e
    · rename_i hlen
      cases e
      have hmark : Covered (markDominated st.cl i) (st.new ++ [S]) := by
        refine (h.covered.mono S).mark ?_
        intro c0 e0
        rw [hc] at e0; cases e0
        exact ⟨S, by simp, hext.sub⟩
      have hsm : SameRows cl0 (markDominated st.cl i) := by
        unfold SameRows; rw [h.same]; exact markDominated_same _ _
      obtain ⟨h1, h2⟩ := domFold_inv (S := S) (new := st.new ++ [S]) (by simp)
        (S.flatMap (colClqs (markDominated st.cl i))) (st := (markDominated st.cl i, [])) hmark hsm
      constructor
      · exact h2
      · exact h1
      · intro T hT
        rcases List.mem_append.mp hT with hT | hT
        · exact h.from_rows T hT
        · simp only [List.mem_singleton] at hT; subst hT
          obtain ⟨c0, h0, e0⟩ := hc0
          exact ⟨c0, h0, by rw [e0]; exact hext⟩
      · obtain ⟨ns, e1, e2, e3⟩ := h.names
        refine ⟨ns ++ [env.nameLen c.orig + 4], by rw [e1, List.append_assoc], by simp [e2], ?_⟩
        intro l hl
        rcases List.mem_append.mp hl with hl | hl
        · exact e3 l hl
        · simp only [List.mem_singleton] at hl
          exact ⟨c.orig, hl⟩

theorem extLoop_inv {G : Graph} {env : StrEnv} {cl0 : List CliqueRow} {names0 : List Nat} (hE : env.OK G)
    {is : List Nat} : ∀ {k : Nat} {st st' : ExtState}, ExtInv G env cl0 names0 st → extLoop env k st is = .ok st' →
      ExtInv G env cl0 names0 st' := by
  induction is with
  | nil => intro k st st' h e; cases e; exact h
  | cons i is ih =>
    intro k st st' h e
    unfold extLoop at e
    split at e
    · cases e; exact h
    · rcases h1 : extStep env k st i with f | st1
      · rw [h1] at e; cases e
      · rw [h1] at e
        refine ih ?_ e
        unfold extStep at h1
        rcases hc : st.cl[i]? with _ | c
        · rw [hc] at h1; cases h1
        · rw [hc] at h1
          simp only at h1
          split at h1
          · cases h1; exact h
          · rcases hx : env.ext k c.els with _ | S
            · rw [hx] at h1; cases h1; exact h
            · rw [hx] at h1
              exact recordExt_inv h hE hc hx h1

/-! ### The new rows -/

theorem strongRow_some {n : Nat} {S : List Nat} (hn : S.Nodup) (hS : ∀ u ∈ S, u < 2 * n) :
    (∃ b, Inv n S b ∧ 2 ≤ b.dup ∧ strongRow n S = .ok none) ∨
      ∃ r d, strongRow n S = .ok (some (r, d)) ∧ r.lb = -dblMax ∧
        ∀ x, SVec.dot r.coefs x - r.ub = (S.map (lit n x)).sum - 1 := by
  obtain ⟨b, e, hb⟩ := addNodes_ok (cap := S.length) (inv_start n) hS (by simpa using hn) (Or.inr (by simp))
  simp only [List.nil_append] at hb
  unfold strongRow
  rw [e]
  by_cases h1 : 1 < b.dup
  · left; exact ⟨b, hb, h1, by simp only [if_pos h1]⟩
  · right
    obtain ⟨c, ec, hc⟩ := finish_ok hb
    exact ⟨{ lb := -dblMax, ub := c.2, coefs := c.1 }, decide (b.dup = 1), by simp only [if_neg h1, ec], rfl, hc⟩

/-- The new rows say "at most one" for each clique; or some clique contains two complementary pairs. -/
theorem strongRows_spec {n : Nat} {new : List (List Nat)} (hn : ∀ S ∈ new, S.Nodup ∧ ∀ u ∈ S, u < 2 * n) :
    ∀ {ic : Nat} {names : List Nat} {rs : Option (List Row)} {ns : List Nat},
      strongRows n ic names new = .ok (rs, ns) →
      (rs = none ∧ ∃ S ∈ new, ∃ b, Inv n S b ∧ 2 ≤ b.dup) ∨
      ∃ l, rs = some l ∧
        (∀ r ∈ l, r.lb = -dblMax ∧ ∃ S ∈ new, ∀ x, SVec.dot r.coefs x - r.ub = (S.map (lit n x)).sum - 1) ∧
        ∀ S ∈ new, ∃ r ∈ l, ∀ x, SVec.dot r.coefs x - r.ub = (S.map (lit n x)).sum - 1 := by
  induction new with
  | nil => intro ic names rs ns h; cases h; right; exact ⟨[], rfl, by simp, by simp⟩
  | cons S rest ih =>
    intro ic names rs ns h
    have hS := hn S (by simp)
    unfold strongRows at h
    rcases strongRow_some hS.1 hS.2 with ⟨b, hb, h2, e⟩ | ⟨r, d, e, hlb, hd⟩
    · rw [e] at h; cases h
      left; exact ⟨rfl, S, by simp, b, hb, h2⟩
    · rw [e] at h
      simp only at h
      rcases h1 : (if d then dupName names ic else Except.ok names) with f | names'
      · rw [h1] at h; cases h
      · rw [h1] at h
        simp only at h
        rcases h2 : strongRows n (ic + 1) names' rest with f | ⟨rs', ns'⟩
        · rw [h2] at h; cases h
        · rw [h2] at h
          rcases ih (fun T hT => hn T (by simp [hT])) h2 with ⟨hnone, T, hT, b, hb, hb2⟩ | ⟨l, hl, l1, l2⟩
          · subst hnone
            cases h
            left; exact ⟨rfl, T, by simp [hT], b, hb, hb2⟩
          · subst hl
            cases h
            right
            refine ⟨r :: l, rfl, ?_, ?_⟩
            · intro q hq
              rcases List.mem_cons.mp hq with rfl | hq
              · exact ⟨hlb, S, by simp, hd⟩
              · obtain ⟨a1, T, hT, a2⟩ := l1 q hq
                exact ⟨a1, T, by simp [hT], a2⟩
            · intro T hT
              rcases List.mem_cons.mp hT with rfl | hT
              · exact ⟨r, by simp, hd⟩
              · obtain ⟨q, hq, a⟩ := l2 T hT
                exact ⟨q, by simp [hq], a⟩

theorem mem_deleteRows {rows : List Row} {idx : List Nat} {r : Row} (h : r ∈ deleteRows rows idx) : r ∈ rows := by
  unfold deleteRows at h
  obtain ⟨p, hp, rfl⟩ := List.mem_map.mp h
  have := (List.mem_filter.mp hp).1
  exact (List.mem_zipIdx' this).2 ▸ List.getElem_mem _

theorem deleteRows_or {rows : List Row} {idx : List Nat} {r : Row} (h : r ∈ rows) :
    r ∈ deleteRows rows idx ∨ ∃ i ∈ idx, rows[i]? = some r := by
  obtain ⟨i, hi, e⟩ := List.getElem_of_mem h
  by_cases hc : i ∈ idx
  · right; exact ⟨i, hc, by rw [List.getElem?_eq_getElem hi, e]⟩
  · left
    unfold deleteRows
    refine List.mem_map.mpr ⟨(r, i), List.mem_filter.mpr ⟨?_, by simpa using hc⟩, rfl⟩
    rw [List.mem_zipIdx_iff_getElem?]
    simp [List.getElem?_eq_getElem hi, e]

end Cgl.Conflict
