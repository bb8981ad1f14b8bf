import Verif.SimpleRounding.Cut

/-!
# No undefined behaviour on integer data
-/

namespace Cgl.SimpleRounding

/-- Surviving coefficients are non-zero integers that fit an `int`. -/
def IntRow (P : Prob) (r : Row) : Prop :=
  ∀ p ∈ r.coefs, isFree P p.1 = true → ∃ z : ℤ, p.2 = z ∧ z ≠ 0 ∧ |z| ≤ 2147483647

theorem IntRow.noTiny {P : Prob} {r : Row} (h : IntRow P r) : NoTiny P r := by
  intro p hp hf
  obtain ⟨z, h1, h2, _⟩ := h p hp hf
  rw [h1]
  have : (1 : ℚ) ≤ |(z : ℚ)| := by
    have := Int.one_le_abs h2
    exact_mod_cast this
  have : epsilon < 1 := by norm_num [epsilon]
  linarith

theorem toInts_some (v : SVec) (hv : ∀ q ∈ v, ∃ z : ℤ, q.2 = z ∧ 0 < z ∧ z ≤ 2147483647) :
    ∃ xs, toInts 0 v = some xs := by
  induction v with
  | nil => exact ⟨[], rfl⟩
  | cons q qs ih =>
    obtain ⟨xs, hxs⟩ := ih (fun a ha => hv a (List.mem_cons_of_mem _ ha))
    obtain ⟨z, h1, h2, h3⟩ := hv q (List.mem_cons_self ..)
    have hz : (0 : ℚ) < z := by exact_mod_cast h2
    have hf : ⌊(z : ℚ) + 1 / 2⌋ = z := by
      rw [Int.floor_eq_iff]; constructor <;> linarith
    have hcast : castInt (q.2 * 10 ^ 0 + 1 / 2) = some z := by
      unfold castInt truncQ
      have h0 : (0 : ℚ) ≤ z + 1 / 2 := by positivity
      rw [h1, pow_zero, mul_one, if_pos h0, hf, if_pos]
      unfold intMin intMax; omega
    exact ⟨(q.1, z) :: xs, by unfold toInts; rw [hcast, hxs]⟩

theorem processRow_some (P : Prob) (r : Row) (hnd : (r.coefs.map Prod.fst).Nodup) (hi : IntRow P r)
    (cs : List RowCut) : ∃ st, processRow P (cs, fun _ => false) r = some st := by
  have ht := hi.noTiny
  unfold processRow
  simp only
  cases hd : deriveAnIntegerRow P r (fun _ => false) with
  | none => exact ⟨_, rfl⟩
  | some t =>
    obtain ⟨irow, b, neg⟩ := t
    simp only
    obtain ⟨sign, hs, fr, hfr, hne, hir, hneg, hneg0, hineq⟩ := derive_spec P r hnd irow b neg hd
    have htf : ∀ q ∈ fr, epsilon < |q.2| := by rw [hfr]; exact fr_tiny ht hs
    cases hpw : power10 (epsilon * (1 / 10 ^ 4)) (irow.map Prod.snd) 0 with
    | none => exact ⟨_, rfl⟩
    | some pw =>
      simp only
      have hint : ∀ q ∈ irow, ∃ z : ℤ, q.2 = z ∧ 0 < z ∧ z ≤ 2147483647 := by
        intro q hq
        rw [hir] at hq
        simp only [List.mem_map] at hq
        obtain ⟨q', hq', rfl⟩ := hq
        have hq'' := hq'
        rw [hfr] at hq'
        simp only [List.mem_map, List.mem_filter] at hq'
        obtain ⟨p, ⟨hp1, hp2⟩, rfl⟩ := hq'
        obtain ⟨z, h1, h2, h3⟩ := hi p hp1 hp2
        refine ⟨|z|, ?_, by positivity, h3⟩
        simp only
        rw [(mag_eq_abs (htf _ hq'')).1]
        have : |sign * p.2| = |p.2| := by rcases hs with h | h <;> rw [h] <;> simp
        simp only; rw [this, h1]; push_cast; rfl
      have hpw0 : pw = 0 := by
        have := power10_le 0 (by norm_num) (irow.map Prod.snd) 0 pw (le_refl _) ?_ hpw
        · omega
        · intro v hv
          simp only [List.mem_map] at hv
          obtain ⟨q, hq, rfl⟩ := hv
          obtain ⟨z, h1, _, _⟩ := hint q hq
          exact ⟨|z|, by rw [h1]; push_cast; ring⟩
      subst hpw0
      obtain ⟨xs, hxs⟩ := toInts_some irow hint
      rw [hxs]
      simp only
      have hnn : ∀ q ∈ irow, 0 ≤ q.2 := fun q hq => by
        obtain ⟨z, h1, h2, _⟩ := hint q hq
        rw [h1]; exact_mod_cast h2.le
      have hx := toInts_spec 0 irow hnn xs hxs
      have hpos : ∀ v ∈ xs.map Prod.snd, 0 < v := by
        rw [hx]
        intro v hv
        simp only [List.map_map, List.mem_map, Function.comp] at hv
        obtain ⟨q, hq, rfl⟩ := hv
        obtain ⟨z, h1, h2, _⟩ := hint q hq
        have hz : (0 : ℚ) < z := by exact_mod_cast h2
        unfold scaleInt
        have hf : ⌊(z : ℚ) + 1 / 2⌋ = z := by
          rw [Int.floor_eq_iff]; constructor <;> linarith
        rw [h1, pow_zero, mul_one, hf]; exact h2
      have hne' : xs.map Prod.snd ≠ [] := by
        rw [hx, hir]; simpa using hne
      obtain ⟨g, hg1, hg2, _, _⟩ := gcdv_spec _ hne' hpos
      rw [hg1]
      simp only
      rw [if_neg (by omega)]
      exact ⟨_, rfl⟩

theorem processRows_some (P : Prob) (rs : List Row) (cs : List RowCut)
    (hnd : ∀ r ∈ rs, (r.coefs.map Prod.fst).Nodup) (hi : ∀ r ∈ rs, IntRow P r) :
    ∃ st, processRows P rs (cs, fun _ => false) = some st := by
  induction rs generalizing cs with
  | nil => exact ⟨_, rfl⟩
  | cons r rs ih =>
    obtain ⟨⟨cs1, neg1⟩, h1⟩ := processRow_some P r (hnd r (by simp)) (hi r (by simp)) cs
    obtain ⟨e1, _⟩ := processRow_spec P r (hnd r (by simp)) (hi r (by simp)).noTiny cs cs1 neg1 h1
    subst e1
    unfold processRows
    rw [h1]
    exact ih cs1 (fun a ha => hnd a (List.mem_cons_of_mem _ ha)) (fun a ha => hi a (List.mem_cons_of_mem _ ha))

end Cgl.SimpleRounding
