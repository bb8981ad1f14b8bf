import Verif.PreTighten.Spec
import Mathlib.Algebra.Order.BigOperators.Group.List
import Mathlib.Data.Finset.Card
import Mathlib.Data.List.Nodup

/-!
# Sums of terms over a row
-/

namespace Cgl.PreTighten

/-- All columns are within the bounds. -/
def Box (n : Nat) (lo up x : Nat → ℚ) : Prop := ∀ j < n, lo j ≤ x j ∧ x j ≤ up j

theorem sum_nonpos' {α : Type} {l : List α} {f : α → ℚ} (h : ∀ q ∈ l, f q ≤ 0) : (l.map f).sum ≤ 0 := by
  induction l with
  | nil => simp
  | cons a l ih =>
    rw [List.map_cons, List.sum_cons]
    have := ih fun q hq => h q (List.mem_cons_of_mem _ hq)
    have := h a List.mem_cons_self
    linarith

theorem sum_le_one {α : Type} {l : List α} {f : α → ℚ} (h : ∀ q ∈ l, f q ≤ 0) {p : α} (hp : p ∈ l) :
    (l.map f).sum ≤ f p := by
  induction l with
  | nil => simp at hp
  | cons a l ih =>
    have h0 : (l.map f).sum ≤ 0 := sum_nonpos' fun q hq => h q (List.mem_cons_of_mem _ hq)
    rw [List.map_cons, List.sum_cons]
    rcases List.mem_cons.mp hp with rfl | hp
    · linarith
    · have := ih (fun q hq => h q (List.mem_cons_of_mem _ hq)) hp
      have := h a List.mem_cons_self
      linarith

theorem sum_sub {α : Type} (l : List α) (f g : α → ℚ) :
    (l.map fun q => f q - g q).sum = (l.map f).sum - (l.map g).sum := by
  induction l with
  | nil => simp
  | cons a l ih => simp only [List.map_cons, List.sum_cons, ih]; ring

theorem sum_update {α : Type} [DecidableEq α] {l : List α} (hn : l.Nodup) {p : α} (hp : p ∈ l) (f : α → ℚ) (v : ℚ) :
    (l.map (Function.update f p v)).sum = (l.map f).sum + (v - f p) := by
  induction l with
  | nil => simp at hp
  | cons a l ih =>
    rw [List.nodup_cons] at hn
    rw [List.map_cons, List.sum_cons, List.map_cons, List.sum_cons]
    rcases List.mem_cons.mp hp with rfl | hp
    · have : l.map (Function.update f p v) = l.map f := by
        apply List.map_congr_left
        intro q hq
        rw [Function.update_of_ne]
        rintro rfl; exact hn.1 hq
      rw [this, Function.update_self]; ring
    · rw [ih hn.2 hp, Function.update_of_ne]
      · ring
      · rintro rfl; exact hn.1 hp

theorem flags_eq_zero {l : List (Option ℚ)} (h : flags l = 0) {o : Option ℚ} (ho : o ∈ l) : ∃ v, o = some v := by
  unfold flags at h
  rw [List.countP_eq_zero] at h
  have := h o ho
  cases o with
  | none => simp at this
  | some v => exact ⟨v, rfl⟩

/-- The value of a row is at most the sum of upper estimates of its terms, and less by what one term falls short. -/
theorem dot_le_total {es : SVec} {x : Nat → ℚ} {f : Nat × ℚ → Option ℚ} (h0 : flags (es.map f) = 0)
    (h : ∀ p ∈ es, ∀ v, f p = some v → p.2 * x p.1 ≤ v) :
    SVec.dot es x ≤ total (es.map f) ∧
      ∀ p ∈ es, ∀ v, f p = some v → SVec.dot es x ≤ total (es.map f) + (p.2 * x p.1 - v) := by
  have hs : ∀ q ∈ es, q.2 * x q.1 - (f q).getD 0 ≤ 0 := by
    intro q hq
    obtain ⟨v, hv⟩ := flags_eq_zero h0 (List.mem_map.mpr ⟨q, hq, rfl⟩)
    have := h q hq v hv
    rw [hv]; simp; linarith
  have he : (es.map fun q => q.2 * x q.1 - (f q).getD 0).sum = SVec.dot es x - total (es.map f) := by
    rw [sum_sub]; simp [SVec.dot, total, Function.comp_def]
  constructor
  · have := sum_nonpos' hs
    rw [he] at this; linarith
  · intro p hp v hv
    have := sum_le_one hs hp
    rw [he, hv] at this
    simp at this; linarith

/-- The value of a row is at least the sum of lower estimates of its terms, and more by what one term exceeds it. -/
theorem total_le_dot {es : SVec} {x : Nat → ℚ} {f : Nat × ℚ → Option ℚ} (h0 : flags (es.map f) = 0)
    (h : ∀ p ∈ es, ∀ v, f p = some v → v ≤ p.2 * x p.1) :
    total (es.map f) ≤ SVec.dot es x ∧
      ∀ p ∈ es, ∀ v, f p = some v → total (es.map f) + (p.2 * x p.1 - v) ≤ SVec.dot es x := by
  have hs : ∀ q ∈ es, (f q).getD 0 - q.2 * x q.1 ≤ 0 := by
    intro q hq
    obtain ⟨v, hv⟩ := flags_eq_zero h0 (List.mem_map.mpr ⟨q, hq, rfl⟩)
    have := h q hq v hv
    rw [hv]; simp; linarith
  have he : (es.map fun q => (f q).getD 0 - q.2 * x q.1).sum = total (es.map f) - SVec.dot es x := by
    rw [sum_sub]; simp [SVec.dot, total, Function.comp_def]
  constructor
  · have := sum_nonpos' hs
    rw [he] at this; linarith
  · intro p hp v hv
    have := sum_le_one hs hp
    rw [he, hv] at this
    simp at this; linarith

/-! ### Running sums with infinite terms -/

/-- `inf` and `m` cover the terms `t`: apart from at most `inf` terms, which include all those in `J`, the terms add up
to at most `m`; a term in `J` adds 0 to the sum. -/
def Cov (es : SVec) (inf : ℤ) (m : ℚ) (t : Nat × ℚ → ℚ) (J : Nat × ℚ → Prop) : Prop :=
  ∃ (I : Finset (Nat × ℚ)) (h : Nat × ℚ → ℚ), (I.card : ℤ) ≤ inf ∧ (es.map h).sum ≤ m ∧
    ∀ p ∈ es, (p ∉ I → h p = t p) ∧ (J p → p ∈ I ∧ h p = 0)

theorem Cov.congr {es : SVec} {inf : ℤ} {m : ℚ} {t t' : Nat × ℚ → ℚ} {J J' : Nat × ℚ → Prop} (h : Cov es inf m t J)
    (ht : ∀ p ∈ es, t' p = t p) (hJ : ∀ p ∈ es, J' p → J p) : Cov es inf m t' J' := by
  obtain ⟨I, g, h1, h2, h3⟩ := h
  exact ⟨I, g, h1, h2, fun p hp => ⟨fun hn => by rw [ht p hp]; exact (h3 p hp).1 hn,
    fun hj => (h3 p hp).2 (hJ p hp hj)⟩⟩

theorem Cov.change {es : SVec} {inf inf' : ℤ} {m m' : ℚ} {t t' : Nat × ℚ → ℚ} {J J' : Nat × ℚ → Prop}
    (h : Cov es inf m t J) (hn : es.Nodup) {p : Nat × ℚ} (hp : p ∈ es)
    (ht : ∀ q ∈ es, q ≠ p → t' q = t q) (hJ : ∀ q ∈ es, q ≠ p → J' q → J q) (hp' : ¬ J' p)
    (hc : (J p ∧ inf' = inf - 1 ∧ m' = m + t' p) ∨ (inf' = inf ∧ m' = m + (t' p - t p))) : Cov es inf' m' t' J' := by
  obtain ⟨I, g, h1, h2, h3⟩ := h
  rcases hc with ⟨hj, hi, hm⟩ | ⟨hi, hm⟩
  · obtain ⟨hpI, hg⟩ := (h3 p hp).2 hj
    refine ⟨I.erase p, Function.update g p (t' p), ?_, ?_, ?_⟩
    · rw [Finset.card_erase_of_mem hpI, hi]
      have : 0 < I.card := Finset.card_pos.mpr ⟨p, hpI⟩
      rw [Nat.cast_sub (by omega)]; push_cast; linarith
    · rw [sum_update hn hp, hm, hg]; linarith
    · intro q hq
      by_cases hqp : q = p
      · subst hqp
        exact ⟨fun _ => Function.update_self .., fun hx => absurd hx hp'⟩
      · rw [Function.update_of_ne hqp, Finset.mem_erase, ht q hq hqp]
        refine ⟨fun hx => (h3 q hq).1 fun hx' => hx ⟨hqp, hx'⟩, fun hx => ?_⟩
        exact ⟨⟨hqp, ((h3 q hq).2 (hJ q hq hqp hx)).1⟩, ((h3 q hq).2 (hJ q hq hqp hx)).2⟩
  · refine ⟨I, Function.update g p (g p + (t' p - t p)), by rw [hi]; exact h1, ?_, ?_⟩
    · rw [sum_update hn hp, hm]; linarith
    · intro q hq
      by_cases hqp : q = p
      · subst hqp
        refine ⟨fun hx => ?_, fun hx => absurd hx hp'⟩
        rw [Function.update_self, (h3 q hq).1 hx]; ring
      · rw [Function.update_of_ne hqp, ht q hq hqp]
        exact ⟨(h3 q hq).1, fun hx => (h3 q hq).2 (hJ q hq hqp hx)⟩

/-- With no infinite term, the terms of a point add up to at most `m`, and less by what one of them falls short. -/
theorem Cov.le_zero {es : SVec} {m : ℚ} {t : Nat × ℚ → ℚ} {J : Nat × ℚ → Prop} (h : Cov es 0 m t J)
    {f : Nat × ℚ → ℚ} (hf : ∀ p ∈ es, f p ≤ t p) {p : Nat × ℚ} (hp : p ∈ es) :
    (es.map f).sum ≤ m + (f p - t p) := by
  obtain ⟨I, g, h1, h2, h3⟩ := h
  have hI : I = ∅ := Finset.card_eq_zero.mp (by omega)
  subst hI
  have hg : ∀ q ∈ es, g q = t q := fun q hq => (h3 q hq).1 (Finset.notMem_empty q)
  have := sum_le_one (l := es) (f := fun q => f q - g q) (fun q hq => by rw [hg q hq]; linarith [hf q hq]) hp
  rw [sum_sub, hg p hp] at this
  linarith

/-- With one infinite term, the other terms of a point add up to at most `m`. -/
theorem Cov.le_one {es : SVec} {m : ℚ} {t : Nat × ℚ → ℚ} {J : Nat × ℚ → Prop} (h : Cov es 1 m t J)
    {f : Nat × ℚ → ℚ} (hf : ∀ p ∈ es, f p ≤ t p) {p : Nat × ℚ} (hp : p ∈ es) (hn : es.Nodup) (hj : J p) :
    (es.map f).sum ≤ m + f p := by
  obtain ⟨I, g, h1, h2, h3⟩ := h
  obtain ⟨hpI, hgp⟩ := (h3 p hp).2 hj
  have hg : ∀ q ∈ es, q ≠ p → g q = t q := by
    intro q hq hqp
    apply (h3 q hq).1
    intro hqI
    have : 1 < I.card := Finset.one_lt_card.mpr ⟨q, hqI, p, hpI, hqp⟩
    omega
  have hs := sum_update hn hp f 0
  have : (es.map fun q => Function.update f p 0 q - g q).sum ≤ 0 := by
    apply sum_nonpos'
    intro q hq
    by_cases hqp : q = p
    · subst hqp; rw [Function.update_self, hgp]; simp
    · rw [Function.update_of_ne hqp, hg q hq hqp]; linarith [hf q hq]
  rw [sum_sub, hs] at this
  linarith

end Cgl.PreTighten
