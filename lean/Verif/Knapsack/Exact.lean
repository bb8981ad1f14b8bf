import Verif.Knapsack.Model
import Mathlib.Tactic.Positivity
import Mathlib.Algebra.Order.Field.Basic

/-!
# `exactSolveKnapsack` solves the 0-1 knapsack problem
-/

namespace Cgl.Knapsack

/-- Value of a choice of items. -/
def value : List (ℚ × ℚ) → List Bool → ℚ
  | i :: t, s :: bs => (if s then i.1 else 0) + value t bs
  | _, _ => 0

/-- Weight of a choice of items. -/
def weight : List (ℚ × ℚ) → List Bool → ℚ
  | i :: t, s :: bs => (if s then i.2 else 0) + weight t bs
  | _, _ => 0

/-- The multiplier bound: for any `ρ ≥ 0`, a choice within the capacity is worth at most
`Σ max(0, p - ρ w) + ρ c`. -/
def relax (ρ : ℚ) (l : List (ℚ × ℚ)) : ℚ := (l.map fun i => max 0 (i.1 - ρ * i.2)).sum

theorem value_le_relax {ρ : ℚ} : ∀ (l : List (ℚ × ℚ)) (s : List Bool),
    value l s ≤ relax ρ l + ρ * weight l s
  | [], s => by simp [value, weight, relax]
  | i :: t, [] => by
    simp only [value, weight, mul_zero, add_zero]
    unfold relax
    exact List.sum_nonneg (by intro x hx; obtain ⟨y, _, rfl⟩ := List.mem_map.mp hx; exact le_max_left _ _)
  | i :: t, b :: bs => by
    have ih := value_le_relax (ρ := ρ) t bs
    simp only [value, weight, relax, List.map_cons, List.sum_cons] at ih ⊢
    have h1 := le_max_left 0 (i.1 - ρ * i.2)
    have h2 := le_max_right 0 (i.1 - ρ * i.2)
    cases b <;> simp <;> linarith

/-- Positive weights and nonnegative integral profits, in decreasing order of profit per weight. -/
structure Good (l : List (ℚ × ℚ)) : Prop where
  w : ∀ i ∈ l, 0 < i.2
  p : ∀ i ∈ l, 0 ≤ i.1
  int : ∀ i ∈ l, IsInteger i.1
  sorted : l.Pairwise fun i j => j.1 / j.2 ≤ i.1 / i.2

theorem Good.tail {i : ℚ × ℚ} {t : List (ℚ × ℚ)} (h : Good (i :: t)) : Good t :=
  ⟨fun j hj => h.w j (List.mem_cons_of_mem _ hj), fun j hj => h.p j (List.mem_cons_of_mem _ hj),
    fun j hj => h.int j (List.mem_cons_of_mem _ hj), (List.pairwise_cons.mp h.sorted).2⟩

theorem IsInteger.add' {a b : ℚ} (ha : IsInteger a) (hb : IsInteger b) : IsInteger (a + b) := by
  obtain ⟨x, rfl⟩ := ha; obtain ⟨y, rfl⟩ := hb; exact ⟨x + y, by push_cast; rfl⟩

theorem IsInteger.sub' {a b : ℚ} (ha : IsInteger a) (hb : IsInteger b) : IsInteger (a - b) := by
  obtain ⟨x, rfl⟩ := ha; obtain ⟨y, rfl⟩ := hb; exact ⟨x - y, by push_cast; rfl⟩

theorem value_int : ∀ (l : List (ℚ × ℚ)) (s : List Bool), (∀ i ∈ l, IsInteger i.1) → IsInteger (value l s)
  | [], s, _ => ⟨0, by simp [value]⟩
  | i :: t, [], _ => ⟨0, by simp [value]⟩
  | i :: t, b :: bs, h => by
    simp only [value]
    refine IsInteger.add' ?_ (value_int t bs fun j hj => h j (List.mem_cons_of_mem _ hj))
    cases b
    · exact ⟨0, by simp⟩
    · simpa using h i List.mem_cons_self

theorem weight_nonneg : ∀ (l : List (ℚ × ℚ)) (s : List Bool), (∀ i ∈ l, 0 ≤ i.2) → 0 ≤ weight l s
  | [], s, _ => by simp [weight]
  | i :: t, [], _ => by simp [weight]
  | i :: t, b :: bs, h => by
    simp only [weight]
    have := weight_nonneg t bs fun j hj => h j (List.mem_cons_of_mem _ hj)
    have := h i List.mem_cons_self
    cases b <;> simp <;> linarith

/-- The rational bound behind `ubound`. -/
def lpBound : List (ℚ × ℚ) → ℚ → ℚ
  | [], _ => 0
  | (p, w) :: t, c => if w ≤ c then p + lpBound t (c - w) else c * p / w

/-- The multiplier of the critical item. -/
def critRatio : List (ℚ × ℚ) → ℚ → ℚ
  | [], _ => 0
  | (p, w) :: t, c => if w ≤ c then critRatio t (c - w) else p / w

theorem critRatio_nonneg : ∀ (l : List (ℚ × ℚ)) (c : ℚ), Good l → 0 ≤ critRatio l c
  | [], _, _ => le_refl _
  | (p, w) :: t, c, h => by
    unfold critRatio; split
    · exact critRatio_nonneg t _ h.tail
    · exact div_nonneg (h.p _ List.mem_cons_self) (h.w _ List.mem_cons_self).le

theorem critRatio_le (r : ℚ) : ∀ (l : List (ℚ × ℚ)) (c : ℚ), 0 ≤ r → (∀ i ∈ l, i.1 / i.2 ≤ r) → critRatio l c ≤ r
  | [], _, h, _ => h
  | (p, w) :: t, c, h, hh => by
    unfold critRatio; split
    · exact critRatio_le r t _ h fun i hi => hh i (List.mem_cons_of_mem _ hi)
    · exact hh _ List.mem_cons_self

theorem relax_all_le {ρ : ℚ} (l : List (ℚ × ℚ)) (hw : ∀ i ∈ l, 0 < i.2) (h : ∀ i ∈ l, i.1 / i.2 ≤ ρ) : relax ρ l = 0 := by
  unfold relax
  apply List.sum_eq_zero
  intro x hx
  obtain ⟨i, hi, rfl⟩ := List.mem_map.mp hx
  have := (div_le_iff₀ (hw i hi)).mp (h i hi)
  exact max_eq_left (by linarith)

theorem lpBound_eq : ∀ (l : List (ℚ × ℚ)) (c : ℚ), Good l →
    lpBound l c = relax (critRatio l c) l + critRatio l c * c
  | [], c, _ => by simp [lpBound, relax, critRatio]
  | (p, w) :: t, c, h => by
    have hw := h.w _ List.mem_cons_self
    simp only at hw
    unfold lpBound critRatio
    split
    · rename_i hc
      have ih := lpBound_eq t (c - w) h.tail
      rw [ih]
      set ρ := critRatio t (c - w) with hρ
      have h1 : ρ ≤ p / w := critRatio_le _ _ _ (div_nonneg (h.p _ List.mem_cons_self) hw.le)
        (fun i hi => (List.pairwise_cons.mp h.sorted).1 i hi)
      have h2 := (le_div_iff₀ hw).mp h1
      simp only [relax, List.map_cons, List.sum_cons]
      rw [max_eq_right (by linarith)]
      ring
    · have hz : relax (p / w) ((p, w) :: t) = 0 := relax_all_le _ h.w (by
        intro i hi
        rcases List.mem_cons.mp hi with rfl | hi
        · exact le_refl _
        · exact (List.pairwise_cons.mp h.sorted).1 i hi)
      rw [hz]; ring

theorem value_le_lpBound {l : List (ℚ × ℚ)} {c : ℚ} (h : Good l) {s : List Bool} (hs : weight l s ≤ c) :
    value l s ≤ lpBound l c := by
  rw [lpBound_eq l c h]
  have h1 := value_le_relax (ρ := critRatio l c) l s
  have h2 := mul_le_mul_of_nonneg_left hs (critRatio_nonneg l c h)
  linarith

theorem ubound_floor : ∀ (l : List (ℚ × ℚ)) (c : ℚ), (∀ i ∈ l, IsInteger i.1) → ubound l c = (⌊lpBound l c⌋ : ℤ)
  | [], _, _ => by simp [ubound, lpBound]
  | (p, w) :: t, c, h => by
    unfold ubound lpBound
    split
    · obtain ⟨z, hz⟩ := h _ List.mem_cons_self
      simp only at hz
      rw [ubound_floor t _ fun i hi => h i (List.mem_cons_of_mem _ hi), hz, Int.floor_intCast_add]
      push_cast; rfl
    · rfl

theorem value_le_ubound {l : List (ℚ × ℚ)} {c : ℚ} (h : Good l) {s : List Bool} (hs : weight l s ≤ c) :
    value l s ≤ ubound l c := by
  rw [ubound_floor l c h.int]
  obtain ⟨z, hz⟩ := value_int l s h.int
  rw [hz]
  have := value_le_lpBound h hs
  rw [hz] at this
  exact_mod_cast Int.le_floor.mpr this

theorem ubound_int {l : List (ℚ × ℚ)} {c : ℚ} (h : ∀ i ∈ l, IsInteger i.1) : IsInteger (ubound l c) := by
  rw [ubound_floor l c h]; exact ⟨_, rfl⟩

/-! ## The search -/

/-- Flags of the decided items. -/
def flags (d : List (ℚ × ℚ × Bool)) : List Bool := d.map fun i => i.2.2
/-- The decided items. -/
def itemsOf (d : List (ℚ × ℚ × Bool)) : List (ℚ × ℚ) := d.map fun i => (i.1, i.2.1)

/-- A choice for the decided items that differs from the current one first at an item that is taken now. -/
def Alt : List (ℚ × ℚ × Bool) → List Bool → Prop
  | i :: d, b :: bs => (i.2.2 = true ∧ b = false ∧ bs = flags d) ∨ Alt d bs
  | _, _ => False

/-- Invariant of the search: all items are there, `chat` and `zhat` are those of the decided items. -/
structure Inv (items : List (ℚ × ℚ)) (C : ℚ) (s : KS) : Prop where
  all : (itemsOf s.done).reverse ++ s.rest = items
  chat : s.chat = C - weight (itemsOf s.done) (flags s.done)
  zhat : s.zhat = value (itemsOf s.done) (flags s.done)
  zint : IsInteger s.z
  zge : 0 ≤ s.z
  blen : s.best.length = items.length
  bfit : weight items s.best ≤ C
  fit : 0 ≤ s.chat

/-- Every choice within the capacity is no better than the best one found, or is still to be visited. -/
def Cov (C : ℚ) (s : KS) : Prop :=
  ∀ sd sr, sd.length = s.done.length → sr.length = s.rest.length →
    weight (itemsOf s.done) sd + weight s.rest sr ≤ C →
    value (itemsOf s.done) sd + value s.rest sr ≤ s.z ∨ sd = flags s.done ∨ Alt s.done sd

/-- As `Cov`, when the current branch has been dealt with. -/
def CovB (C : ℚ) (s : KS) : Prop :=
  ∀ sd sr, sd.length = s.done.length → sr.length = s.rest.length →
    weight (itemsOf s.done) sd + weight s.rest sr ≤ C →
    value (itemsOf s.done) sd + value s.rest sr ≤ s.z ∨ Alt s.done sd

theorem length_cons_eq {α : Type} {l : List α} {n : Nat} (h : l.length = n + 1) : ∃ a t, l = a :: t ∧ t.length = n := by
  match l, h with
  | a :: t, h => exact ⟨a, t, rfl, by simpa using h⟩

theorem alt_false (d : List (ℚ × ℚ × Bool)) (h : ∀ i ∈ d, i.2.2 = false) : ∀ s, ¬ Alt d s := by
  induction d with
  | nil => intro s; cases s <;> simp [Alt]
  | cons i d ih =>
    intro s
    cases s with
    | nil => simp [Alt]
    | cons b bs =>
      simp only [Alt, not_or]
      refine ⟨?_, ih (fun j hj => h j (List.mem_cons_of_mem _ hj)) bs⟩
      rintro ⟨h1, _⟩
      rw [h i List.mem_cons_self] at h1
      cases h1

/-- Number of choices still to be visited. -/
def alts : List (ℚ × ℚ × Bool) → Nat → Nat
  | [], _ => 0
  | i :: d, r => (if i.2.2 then 2 ^ r else 0) + alts d (r + 1)

/-- Measure of the search. -/
def meas (s : KS) : Nat := 2 ^ s.rest.length + alts s.done s.rest.length

/-- The items of a state are well ordered and positive (so that its tail is). -/
theorem Good.rest {items : List (ℚ × ℚ)} (h : Good items) {a b : List (ℚ × ℚ)} (e : a ++ b = items) : Good b := by
  subst e
  exact ⟨fun i hi => h.w i (List.mem_append_right _ hi), fun i hi => h.p i (List.mem_append_right _ hi),
    fun i hi => h.int i (List.mem_append_right _ hi), (List.pairwise_append.mp h.sorted).2.1⟩

/-- Backtracking. -/
theorem back_spec {items : List (ℚ × ℚ)} {C : ℚ} (hi : ∀ i ∈ items, 0 < i.2 ∧ 0 ≤ i.1) : ∀ (s : KS) (d0 : List (ℚ × ℚ × Bool)) (r0 : List (ℚ × ℚ)),
    s.done = d0 → s.rest = r0 → Inv items C s → CovB C s →
    (∀ d r c v, back d0 r0 s.chat s.zhat = some (d, r, c, v) →
      Inv items C { s with done := d, rest := r, chat := c, zhat := v } ∧
      Cov C { s with done := d, rest := r, chat := c, zhat := v } ∧
      2 ^ r.length + alts d r.length = alts s.done s.rest.length) ∧
    (back d0 r0 s.chat s.zhat = none →
      ∀ sol, sol.length = items.length → weight items sol ≤ C → value items sol ≤ s.z) := by
  intro s d0
  induction d0 generalizing s with
  | nil =>
    intro r0 hd hr inv cov
    constructor
    · intro d r c v h; simp [back] at h
    · intro _ sol hlen hw
      have e := inv.all
      rw [hd, hr] at e
      simp [itemsOf] at e
      have := cov [] sol (by rw [hd]; rfl) (by rw [hr, e]; exact hlen) (by rw [hd, hr, e]; simpa [itemsOf, weight] using hw)
      rw [hd, hr, e] at this
      rcases this with h | h
      · simpa [itemsOf, value] using h
      · simp [Alt] at h
  | cons x d0 ih =>
    obtain ⟨p, w, f⟩ := x
    intro r0 hd hr inv cov
    cases f with
    | true =>
      constructor
      · intro d r c v h
        simp only [back, Option.some.injEq, Prod.mk.injEq] at h
        obtain ⟨rfl, rfl, rfl, rfl⟩ := h
        have hwpos : 0 < w := by
          have : (p, w) ∈ items := by
            rw [← inv.all, hd]; simp [itemsOf]
          exact (hi _ this).1
        refine ⟨⟨?_, ?_, ?_, inv.zint, inv.zge, inv.blen, inv.bfit, ?_⟩, ?_, ?_⟩
        · have := inv.all
          rw [hd, hr] at this
          simpa [itemsOf] using this
        · have := inv.chat
          rw [hd] at this
          simp [itemsOf, flags, weight] at this ⊢
          rw [this]; ring
        · have := inv.zhat
          rw [hd] at this
          simp [itemsOf, flags, value] at this ⊢
          rw [this]; ring
        · have := inv.fit
          show 0 ≤ s.chat + w
          linarith
        · intro sd sr h1 h2 h3
          have := cov sd sr (by rw [hd]; simpa using h1) (by rw [hr]; exact h2) (by rw [hd, hr]; simpa [itemsOf] using h3)
          rw [hd, hr] at this
          rcases this with h | h
          · left; simpa [itemsOf] using h
          · right
            obtain ⟨b, bs, rfl, _⟩ := length_cons_eq (by simpa using h1)
            simp only [Alt] at h
            rcases h with ⟨_, hb, hbs⟩ | h
            · left; subst hb; rw [hbs]; simp [flags]
            · right; simp only [Alt]; right; exact h
        · rw [hd, hr]; simp [alts]
      · intro h; simp [back] at h
    | false =>
      have step : Inv items C { s with done := d0, rest := (p, w) :: r0 } := by
        refine ⟨?_, ?_, ?_, inv.zint, inv.zge, inv.blen, inv.bfit, inv.fit⟩
        · have := inv.all
          rw [hd, hr] at this
          simpa [itemsOf] using this
        · have := inv.chat
          rw [hd] at this
          simpa [itemsOf, flags, weight] using this
        · have := inv.zhat
          rw [hd] at this
          simpa [itemsOf, flags, value] using this
      have covS : CovB C { s with done := d0, rest := (p, w) :: r0 } := by
        intro sd sr h1 h2 h3
        obtain ⟨b, bs, rfl, hbs⟩ := length_cons_eq (by simpa using h2)
        have := cov (b :: sd) bs (by rw [hd]; simpa using h1) (by rw [hr]; simpa using hbs) (by
          rw [hd, hr]
          simp only [itemsOf, List.map_cons, weight] at h3 ⊢
          linarith)
        rw [hd, hr] at this
        rcases this with h | h
        · left
          simp only [itemsOf, List.map_cons, value] at h ⊢
          linarith
        · right
          simp only [Alt, Bool.false_eq_true, false_and, false_or] at h
          exact h
      have := ih { s with done := d0, rest := (p, w) :: r0 } ((p, w) :: r0) rfl rfl step covS
      constructor
      · intro d r c v h
        simp only [back] at h
        obtain ⟨g1, g2, g3⟩ := this.1 d r c v h
        refine ⟨g1, g2, ?_⟩
        rw [g3, hd, hr]
        simp [alts]
      · intro h
        simp only [back] at h
        exact this.2 h

theorem weight_allFalse : ∀ (l m : List (ℚ × ℚ)), weight l (m.map fun _ => false) = 0
  | [], _ => by simp [weight]
  | _ :: _, [] => by simp [weight]
  | i :: t, j :: m => by
    have := weight_allFalse t m
    simp only [List.map_cons, weight, Bool.false_eq_true, if_false, zero_add]
    exact this

/-- Forward steps keep everything that remains to be visited. -/
theorem forward_spec {items : List (ℚ × ℚ)} {C : ℚ} (hg : Good items) : ∀ (r0 : List (ℚ × ℚ)) (s : KS),
    s.rest = r0 → Inv items C s → Cov C s → ∀ d r c v, forward s.done r0 s.chat s.zhat = (d, r, c, v) →
    Inv items C { s with done := d, rest := r, chat := c, zhat := v } ∧
    Cov C { s with done := d, rest := r, chat := c, zhat := v } ∧
    2 ^ r.length + alts d r.length ≤ meas s ∧
    (r ≠ [] → 2 ^ r.length + alts d r.length < meas s ∧ 2 ≤ r.length) := by
  intro r0
  induction r0 with
  | nil =>
    intro s hr inv cov d r c v h
    simp only [forward, Prod.mk.injEq] at h
    obtain ⟨rfl, rfl, rfl, rfl⟩ := h
    have e : { s with done := s.done, rest := [], chat := s.chat, zhat := s.zhat } = s := by cases s; simp_all
    rw [e]
    refine ⟨inv, cov, ?_, fun h => absurd rfl h⟩
    unfold meas; rw [hr]
  | cons x t ih =>
    obtain ⟨p, w⟩ := x
    intro s hr inv cov d r c v h
    unfold forward at h
    have hwpos : 0 < w := by
      have : (p, w) ∈ items := by rw [← inv.all, hr]; simp
      exact hg.w _ this
    split at h
    · rename_i hc
      have step : Inv items C { s with done := (p, w, true) :: s.done, rest := t, chat := s.chat - w, zhat := s.zhat + p } := by
        refine ⟨?_, ?_, ?_, inv.zint, inv.zge, inv.blen, inv.bfit, ?_⟩
        · have := inv.all
          rw [hr] at this
          simpa [itemsOf] using this
        · show s.chat - w = _
          rw [inv.chat]; simp [itemsOf, flags, weight]; ring
        · show s.zhat + p = _
          rw [inv.zhat]; simp [itemsOf, flags, value]; ring
        · show 0 ≤ s.chat - w
          linarith
      have covS : Cov C { s with done := (p, w, true) :: s.done, rest := t, chat := s.chat - w, zhat := s.zhat + p } := by
        intro sd sr h1 h2 h3
        obtain ⟨b, bs, rfl, hbs⟩ := length_cons_eq (by simpa using h1)
        have := cov bs (b :: sr) hbs (by rw [hr]; simpa using h2) (by
          rw [hr]
          simp only [itemsOf, List.map_cons, weight] at h3 ⊢
          linarith)
        rw [hr] at this
        rcases this with h | h | h
        · left
          simp only [itemsOf, List.map_cons, value] at h ⊢
          linarith
        · right
          cases b
          · right; simp [Alt, h]
          · left; rw [h]; simp [flags]
        · right; right; simp only [Alt]; right; exact h
      have := ih _ rfl step covS d r c v h
      refine ⟨this.1, this.2.1, ?_, ?_⟩
      · refine le_trans this.2.2.1 (le_of_eq ?_)
        simp only [meas, alts, hr, List.length_cons, if_true, pow_succ]
        ring
      · intro hne
        refine ⟨lt_of_lt_of_eq (this.2.2.2 hne).1 ?_, (this.2.2.2 hne).2⟩
        simp only [meas, alts, hr, List.length_cons, if_true, pow_succ]
        ring
    · rename_i hc
      have step : Inv items C { s with done := (p, w, false) :: s.done, rest := t } := by
        refine ⟨?_, ?_, ?_, inv.zint, inv.zge, inv.blen, inv.bfit, inv.fit⟩
        · have := inv.all
          rw [hr] at this
          simpa [itemsOf] using this
        · show s.chat = _
          rw [inv.chat]; simp [itemsOf, flags, weight]
        · show s.zhat = _
          rw [inv.zhat]; simp [itemsOf, flags, value]
      have covS : Cov C { s with done := (p, w, false) :: s.done, rest := t } := by
        intro sd sr h1 h2 h3
        obtain ⟨b, bs, rfl, hbs⟩ := length_cons_eq (by simpa using h1)
        have := cov bs (b :: sr) hbs (by rw [hr]; simpa using h2) (by
          rw [hr]
          simp only [itemsOf, List.map_cons, weight] at h3 ⊢
          linarith)
        rw [hr] at this
        rcases this with h | h | h
        · left
          simp only [itemsOf, List.map_cons, value] at h ⊢
          linarith
        · cases b
          · right; left; rw [h]; simp [flags]
          · exfalso
            rw [h] at h3
            simp only [itemsOf, List.map_cons, weight, if_true] at h3
            have h4 := inv.chat
            have h5 : 0 ≤ weight t sr := weight_nonneg _ _ fun i hi => (hg.w i (by rw [← inv.all, hr]; simp [hi])).le
            simp only [itemsOf] at h4
            push Not at hc
            linarith
        · right; right; simp only [Alt]; right; exact h
      have hlt : meas { s with done := (p, w, false) :: s.done, rest := t } < meas s := by
        simp only [meas, alts, hr, List.length_cons, Bool.false_eq_true, if_false, zero_add, pow_succ]
        have : 0 < 2 ^ t.length := Nat.pow_pos (by norm_num)
        omega
      split at h
      · have := ih _ rfl step covS d r c v h
        exact ⟨this.1, this.2.1, le_trans this.2.2.1 hlt.le,
          fun hne => ⟨lt_trans (this.2.2.2 hne).1 hlt, (this.2.2.2 hne).2⟩⟩
      · rename_i hl
        simp only [Prod.mk.injEq] at h
        obtain ⟨rfl, rfl, rfl, rfl⟩ := h
        refine ⟨step, covS, hlt.le, fun hne => ⟨hlt, ?_⟩⟩
        have : 0 < t.length := List.length_pos_iff.mpr hne
        omega

/-- Recording a leaf. -/
theorem record_spec {items : List (ℚ × ℚ)} {C : ℚ} (hg : Good items) (s : KS) (hr : s.rest = []) (hne : items ≠ [])
    (inv : Inv items C s) (cov : Cov C s) :
    Inv items C (record s) ∧ CovB C (record s) ∧
      alts (record s).done (record s).rest.length < meas s := by
  have hlen : items.length = s.done.length := by
    rw [← inv.all, hr]; simp [itemsOf]
  have hrev : items = (itemsOf s.done).reverse := by rw [← inv.all, hr]; simp
  -- value and weight of a reversed list
  have wrev : ∀ (l : List (ℚ × ℚ)) (b : List Bool), l.length = b.length → weight l.reverse b.reverse = weight l b := by
    have wapp : ∀ (l : List (ℚ × ℚ)) (b : List Bool) (i : ℚ × ℚ) (c : Bool), l.length = b.length →
        weight (l ++ [i]) (b ++ [c]) = weight l b + (if c then i.2 else 0) := by
      intro l
      induction l with
      | nil => intro b i c h; cases b <;> simp_all [weight]
      | cons j l ih =>
        intro b i c h
        cases b with
        | nil => simp at h
        | cons d b => simp only [List.cons_append, weight]; rw [ih b i c (by simpa using h)]; ring
    intro l
    induction l with
    | nil => intro b h; cases b <;> simp_all
    | cons i l ih =>
      intro b h
      cases b with
      | nil => simp at h
      | cons c b =>
        simp only [List.reverse_cons]
        rw [wapp _ _ _ _ (by simpa using h), ih b (by simpa using h)]
        simp only [weight]; ring
  have hfl : (flags s.done).length = s.done.length := by simp [flags]
  have hbest : (flags s.done).reverse.length = items.length := by simp [flags, hlen]
  have hbfit : weight items (flags s.done).reverse ≤ C := by
    rw [hrev, wrev _ _ (by simp [itemsOf, flags])]
    have h1 := inv.chat
    have h2 := inv.fit
    linarith
  have hzi : IsInteger s.zhat := by
    rw [inv.zhat]
    refine value_int _ _ fun i hi => ?_
    exact hg.int i (by rw [hrev]; simpa using hi)
  -- the state after the comparison
  set s1 : KS := if s.z < s.zhat then { s with z := s.zhat, best := (s.done.map fun i => i.2.2).reverse } else s with hs1
  have hd1 : s1.done = s.done := by rw [hs1]; split <;> rfl
  have hr1 : s1.rest = [] := by rw [hs1]; split <;> exact hr
  have hc1 : s1.chat = s.chat := by rw [hs1]; split <;> rfl
  have hv1 : s1.zhat = s.zhat := by rw [hs1]; split <;> rfl
  have hz1 : s.z ≤ s1.z ∧ s.zhat ≤ s1.z := by
    rw [hs1]; split
    · rename_i h; exact ⟨h.le, le_refl _⟩
    · rename_i h; exact ⟨le_refl _, not_lt.mp h⟩
  have inv1 : Inv items C s1 := by
    refine ⟨by rw [hd1, hr1, ← hr]; exact inv.all, by rw [hc1, hd1]; exact inv.chat, by rw [hv1, hd1]; exact inv.zhat, ?_, ?_, ?_, ?_, by rw [hc1]; exact inv.fit⟩
    · rw [hs1]; split
      · exact hzi
      · exact inv.zint
    · exact le_trans inv.zge hz1.1
    · rw [hs1]; split
      · exact hbest
      · exact inv.blen
    · rw [hs1]; split
      · exact hbfit
      · exact inv.bfit
  have cov1 : ∀ sd, sd.length = s.done.length → weight (itemsOf s.done) sd ≤ C →
      value (itemsOf s.done) sd ≤ s1.z ∨ Alt s.done sd := by
    intro sd h1 h2
    have := cov sd [] h1 (by rw [hr]; rfl) (by rw [hr]; simpa [weight] using h2)
    rw [hr] at this
    simp only [value, add_zero] at this
    rcases this with h | h | h
    · left; exact le_trans h hz1.1
    · left; rw [h, ← inv.zhat]; exact hz1.2
    · right; exact h
  have hrec : record s = (match s1.done with
    | [] => s1
    | (p, w, true) :: d => { s1 with done := d, rest := (p, w) :: s1.rest, chat := s1.chat + w, zhat := s1.zhat - p }
    | (p, w, false) :: d => { s1 with done := d, rest := (p, w) :: s1.rest }) := rfl
  rw [hrec]
  match hd : s.done with
  | [] => exfalso; rw [hd] at hlen; exact hne (List.length_eq_zero_iff.mp (by simpa using hlen))
  | (p, w, true) :: d =>
    rw [hd] at hd1
    rw [hd1]
    simp only
    have hip : (p, w) ∈ items := by rw [hrev, hd]; simp [itemsOf]
    refine ⟨⟨?_, ?_, ?_, inv1.zint, inv1.zge, inv1.blen, inv1.bfit, ?_⟩, ?_, ?_⟩
    · have := inv1.all
      rw [hd1, hr1] at this
      simpa [itemsOf, hr1] using this
    · show s1.chat + w = _
      have := inv1.chat
      rw [hd1] at this
      simp [itemsOf, flags, weight] at this ⊢
      rw [this]; ring
    · show s1.zhat - p = _
      have := inv1.zhat
      rw [hd1] at this
      simp [itemsOf, flags, value] at this ⊢
      rw [this]; ring
    · show 0 ≤ s1.chat + w
      have := inv1.fit
      have := hg.w _ hip
      simp only at this
      linarith
    · intro sd sr h1 h2 h3
      simp only [hr1] at h2 h3
      obtain ⟨b, bs, rfl, hbs⟩ := length_cons_eq (by simpa using h2)
      have hbs' : bs = [] := List.length_eq_zero_iff.mp hbs
      subst hbs'
      have := cov1 (b :: sd) (by rw [hd]; simpa using h1) (by
        rw [hd]
        simp only [itemsOf, List.map_cons, weight, add_zero] at h3 ⊢
        linarith)
      rw [hd] at this
      rcases this with h | h
      · left
        simp only [hr1]
        simp only [itemsOf, List.map_cons, value, add_zero] at h ⊢
        linarith
      · simp only [Alt] at h
        rcases h with ⟨_, hb, hsd⟩ | h
        · -- leaving the last item out does not beat taking it
          left
          have hp := hg.p _ hip
          simp only at hp
          have hz := hz1.2
          rw [inv.zhat, hd] at hz
          subst hb
          simp only [hr1]
          simp only [itemsOf, List.map_cons, value, flags, if_true, add_zero, Bool.false_eq_true, if_false] at hz ⊢
          rw [hsd]
          simp only [flags]
          linarith
        · right; exact h
    · simp only [meas, alts, hr, hr1, hd, List.length_cons, List.length_nil, if_true]
      omega
  | (p, w, false) :: d =>
    rw [hd] at hd1
    rw [hd1]
    simp only
    refine ⟨⟨?_, ?_, ?_, inv1.zint, inv1.zge, inv1.blen, inv1.bfit, inv1.fit⟩, ?_, ?_⟩
    · have := inv1.all
      rw [hd1, hr1] at this
      simpa [itemsOf, hr1] using this
    · have := inv1.chat
      rw [hd1] at this
      simpa [itemsOf, flags, weight] using this
    · have := inv1.zhat
      rw [hd1] at this
      simpa [itemsOf, flags, value] using this
    · intro sd sr h1 h2 h3
      simp only [hr1] at h2 h3
      obtain ⟨b, bs, rfl, hbs⟩ := length_cons_eq (by simpa using h2)
      have hbs' : bs = [] := List.length_eq_zero_iff.mp hbs
      subst hbs'
      have := cov1 (b :: sd) (by rw [hd]; simpa using h1) (by
        rw [hd]
        simp only [itemsOf, List.map_cons, weight, add_zero] at h3 ⊢
        linarith)
      rw [hd] at this
      rcases this with h | h
      · left
        simp only [hr1]
        simp only [itemsOf, List.map_cons, value, add_zero] at h ⊢
        linarith
      · right
        simpa [Alt] using h
    · simp only [meas, alts, hr, hr1, hd, List.length_cons, List.length_nil, Bool.false_eq_true, if_false]
      omega

/-- One pass of the outer loop. -/
theorem ksStep_spec {items : List (ℚ × ℚ)} {C : ℚ} (hg : Good items) (s : KS) (inv : Inv items C s) (cov : Cov C s) :
    (∀ s', ksStep s = .inl s' → Inv items C s' ∧ Cov C s' ∧ meas s' < meas s) ∧
    (∀ s', ksStep s = .inr s' → IsInteger s'.z ∧ 0 ≤ s'.z ∧ s'.best.length = items.length ∧ weight items s'.best ≤ C ∧
      ∀ sol, sol.length = items.length → weight items sol ≤ C → value items sol ≤ s'.z) := by
  have hi : ∀ i ∈ items, 0 < i.2 ∧ 0 ≤ i.1 := fun i h => ⟨hg.w i h, hg.p i h⟩
  -- the common backtracking part
  have key : ∀ t : KS, Inv items C t → CovB C t → alts t.done t.rest.length < meas s →
      (∀ s', (match back t.done t.rest t.chat t.zhat with
        | none => (.inr t : KS ⊕ KS)
        | some (d, r, c, v) => .inl { t with done := d, rest := r, chat := c, zhat := v }) = .inl s' →
          Inv items C s' ∧ Cov C s' ∧ meas s' < meas s) ∧
      (∀ s', (match back t.done t.rest t.chat t.zhat with
        | none => (.inr t : KS ⊕ KS)
        | some (d, r, c, v) => .inl { t with done := d, rest := r, chat := c, zhat := v }) = .inr s' →
          IsInteger s'.z ∧ 0 ≤ s'.z ∧ s'.best.length = items.length ∧ weight items s'.best ≤ C ∧
          ∀ sol, sol.length = items.length → weight items sol ≤ C → value items sol ≤ s'.z) := by
    intro t it ct ht
    have hb := back_spec hi t t.done t.rest rfl rfl it ct
    cases hbk : back t.done t.rest t.chat t.zhat with
    | none =>
      constructor
      · intro s' h; simp at h
      · intro s' h
        simp at h
        subst h
        exact ⟨it.zint, it.zge, it.blen, it.bfit, hb.2 hbk⟩
    | some q =>
      obtain ⟨d, r, c, v⟩ := q
      constructor
      · intro s' h
        simp at h
        subst h
        obtain ⟨g1, g2, g3⟩ := hb.1 d r c v hbk
        refine ⟨g1, g2, ?_⟩
        show 2 ^ r.length + alts d r.length < _
        omega
      · intro s' h; simp at h
  unfold ksStep
  simp only
  split
  · rename_i hpr
    refine key s inv ?_ ?_
    · intro sd sr h1 h2 h3
      rcases cov sd sr h1 h2 h3 with h | h | h
      · exact Or.inl h
      · left
        have hgr : Good s.rest := hg.rest inv.all
        have hw : weight s.rest sr ≤ s.chat := by
          rw [inv.chat, ← h]; linarith
        have := value_le_ubound hgr hw
        have hz := inv.zhat
        rw [h, ← hz]
        linarith
      · exact Or.inr h
    · unfold meas
      have : 0 < 2 ^ s.rest.length := Nat.pow_pos (by norm_num)
      omega
  · rename_i hpr
    have hne : items ≠ [] := by
      intro h0
      apply hpr
      have e := inv.all
      rw [h0] at e
      have e1 := (List.append_eq_nil_iff.mp e)
      have hz := inv.zhat
      have hd : s.done = [] := by
        have := e1.1
        simpa [itemsOf] using this
      rw [hd] at hz
      rw [hz, e1.2]
      simp only [itemsOf, List.map_nil, value, ubound, add_zero]
      exact inv.zge
    cases hf : forward s.done s.rest s.chat s.zhat with
    | mk d q =>
      obtain ⟨r, c, v⟩ := q
      obtain ⟨g1, g2, g3, g4⟩ := forward_spec hg s.rest s rfl inv cov d r c v hf
      simp only
      split
      · rename_i h2
        constructor
        · intro s' h
          simp only [Sum.inl.injEq] at h
          subst h
          refine ⟨g1, g2, (g4 ?_).1⟩
          intro h0; rw [h0] at h2; simp at h2
        · intro s' h; simp at h
      · rename_i h2
        have hr : r = [] := by
          by_contra h0
          exact h2 (g4 h0).2
        obtain ⟨k1, k2, k3⟩ := record_spec hg _ hr hne g1 g2
        refine key _ k1 k2 (lt_of_lt_of_le k3 g3)

theorem ksLoop_spec {items : List (ℚ × ℚ)} {C : ℚ} (hg : Good items) : ∀ (n : Nat) (s : KS), meas s ≤ n → Inv items C s → Cov C s →
    ∃ s', ksLoop n s = some s' ∧ IsInteger s'.z ∧ 0 ≤ s'.z ∧ s'.best.length = items.length ∧ weight items s'.best ≤ C ∧
      ∀ sol, sol.length = items.length → weight items sol ≤ C → value items sol ≤ s'.z := by
  intro n
  induction n with
  | zero =>
    intro s hm
    exfalso
    unfold meas at hm
    have : 0 < 2 ^ s.rest.length := Nat.pow_pos (by norm_num)
    omega
  | succ n ih =>
    intro s hm inv cov
    obtain ⟨h1, h2⟩ := ksStep_spec hg s inv cov
    unfold ksLoop
    cases hs : ksStep s with
    | inl s' =>
      obtain ⟨g1, g2, g3⟩ := h1 s' hs
      exact ih s' (by omega) g1 g2
    | inr s' => exact ⟨s', rfl, h2 s' hs⟩

/-- `exactSolveKnapsack` terminates and returns an integral value that no choice within the capacity exceeds, and a
choice within the capacity. -/
theorem exactSolve_spec {items : List (ℚ × ℚ)} (hg : Good items) {c : ℚ} (hc : 0 ≤ c + eps2) :
    ∃ z best, exactSolve items c = some (z, best) ∧ IsInteger z ∧ 0 ≤ z ∧ best.length = items.length ∧
      weight items best ≤ c + eps2 ∧
      ∀ sol, sol.length = items.length → weight items sol ≤ c + eps2 → value items sol ≤ z := by
  have h := ksLoop_spec (C := c + eps2) hg (2 ^ items.length) ⟨[], items, c + eps2, 0, 0, items.map fun _ => false⟩
    (by simp [meas, alts])
    ⟨by simp [itemsOf], by simp [itemsOf, flags, weight], by simp [itemsOf, flags, value], ⟨0, by simp⟩, le_refl _, by simp,
      by rw [weight_allFalse]; exact hc, hc⟩
    (by
      intro sd sr h1 h2 h3
      right; left
      simpa [flags] using h1)
  obtain ⟨s', e, g⟩ := h
  exact ⟨s'.z, s'.best, by unfold exactSolve; rw [e], g⟩

end Cgl.Knapsack
