import Verif.ZeroHalf.Model

/-!
# The arithmetic of a zero-half cut
-/

namespace Cgl.ZeroHalf

theorem bind_ok {α β : Type} {e : Except Fault α} {f : α → Except Fault β} {b : β} :
    (e >>= f) = .ok b ↔ ∃ a, e = .ok a ∧ f a = .ok b := by
  cases e with
  | error x => simp [bind, Except.bind]
  | ok a => simp [bind, Except.bind]

theorem bind_error {α β : Type} {e : Except Fault α} {f : α → Except Fault β} {x : Fault} :
    (e >>= f) = .error x ↔ e = .error x ∨ ∃ a, e = .ok a ∧ f a = .error x := by
  cases e with
  | error y => simp [bind, Except.bind]
  | ok a => simp [bind, Except.bind]

theorem pure_ok {α : Type} {a b : α} : (pure a : Except Fault α) = .ok b ↔ a = b := by
  simp [pure, Except.pure]

theorem pure_error {α : Type} {a : α} {x : Fault} : ¬(pure a : Except Fault α) = .error x := by
  simp [pure, Except.pure]

theorem ck_ok {z v : ℤ} (h : ck z = .ok v) : v = z := by
  unfold ck at h; split at h
  · injection h with h; exact h.symm
  · cases h

theorem ck_error {z : ℤ} {e : Fault} (h : ck z = .error e) : e = .overflow ∧ ¬(intMin ≤ z ∧ z ≤ intMax) := by
  unfold ck at h; split at h
  · cases h
  · injection h with h; exact ⟨h.symm, by assumption⟩

/-! ### Linear forms -/

theorem lin_upd (mc : Nat) (c : Nat → ℤ) (x : Nat → ℚ) (j : Nat) (v : ℤ) (hj : j < mc) :
    lin mc (upd c j v) x = lin mc c x + ((v - c j : ℤ) : ℚ) * x j := by
  unfold lin
  induction mc with
  | zero => omega
  | succ n ih =>
    rw [List.range_succ, List.map_append, List.map_append, List.sum_append, List.sum_append]
    rcases Nat.lt_succ_iff_lt_or_eq.mp hj with h | h
    · rw [ih h]
      have : upd c j v n = c n := by unfold upd; rw [if_neg (by omega)]
      simp only [List.map_cons, List.map_nil, List.sum_cons, List.sum_nil, this]
      ring
    · subst h
      have : (List.range j).map (fun k => ((upd c j v k : ℤ) : ℚ) * x k) =
          (List.range j).map (fun k => ((c k : ℤ) : ℚ) * x k) := by
        apply List.map_congr_left
        intro k hk
        have := List.mem_range.mp hk
        unfold upd; rw [if_neg (by omega)]
      rw [this]
      have : upd c j v j = v := by unfold upd; rw [if_pos rfl]
      simp only [List.map_cons, List.map_nil, List.sum_cons, List.sum_nil, this]
      push_cast; ring

theorem lin_zero (mc : Nat) (x : Nat → ℚ) : lin mc (fun _ => 0) x = 0 := by
  unfold lin
  induction mc with
  | zero => rfl
  | succ n ih => rw [List.range_succ, List.map_append, List.sum_append, ih]; simp

theorem lin_two (mc : Nat) (c d : Nat → ℤ) (x : Nat → ℚ) (h : ∀ j < mc, c j = 2 * d j) :
    lin mc c x = 2 * lin mc d x := by
  unfold lin
  induction mc with
  | zero => simp
  | succ n ih =>
    rw [List.range_succ, List.map_append, List.map_append, List.sum_append, List.sum_append,
      ih (fun j hj => h j (by omega))]
    simp only [List.map_cons, List.map_nil, List.sum_cons, List.sum_nil, h n (by omega)]
    push_cast; ring

theorem lin_integer (mc : Nat) (c : Nat → ℤ) (x : Nat → ℚ) (h : ∀ j < mc, c j ≠ 0 → IsInteger (x j)) :
    IsInteger (lin mc c x) := by
  unfold lin
  induction mc with
  | zero => exact ⟨0, by simp⟩
  | succ n ih =>
    obtain ⟨z, hz⟩ := ih (fun j hj => h j (by omega))
    rw [List.range_succ, List.map_append, List.sum_append, hz]
    by_cases h0 : c n = 0
    · exact ⟨z, by simp [h0]⟩
    · obtain ⟨y, hy⟩ := h n (by omega) h0
      exact ⟨z + c n * y, by simp [hy]⟩

theorem idot_define (mc : Nat) (s : (Nat → ℤ) × ℤ) (x : Nat → ℚ) :
    idot (defineCut mc s).coefs x = lin mc s.1 x := by
  unfold defineCut idot lin
  simp only
  induction mc with
  | zero => rfl
  | succ n ih =>
    rw [List.range_succ, List.map_append, List.map_append, List.filter_append, List.map_append, List.sum_append,
      List.sum_append, ih]
    congr 1
    by_cases h : s.1 n = 0 <;> simp [h]

theorem dot_toRowCut (c : ZCut) (x : Nat → ℚ) : SVec.dot (toRowCut c).row x = idot c.coefs x := by
  unfold toRowCut SVec.dot idot
  simp only [List.map_map]
  rfl

/-! ### The gcd of a row -/

theorem foldGcd_dvd (l : List (Nat × ℤ)) (g : ℤ) :
    l.foldl (fun g p => ((Int.gcd g p.2 : ℕ) : ℤ)) g ∣ g ∧
      ∀ p ∈ l, l.foldl (fun g p => ((Int.gcd g p.2 : ℕ) : ℤ)) g ∣ p.2 := by
  induction l generalizing g with
  | nil => simp
  | cons q t ih =>
    simp only [List.foldl_cons, List.mem_cons, forall_eq_or_imp]
    have h := ih ((Int.gcd g q.2 : ℕ) : ℤ)
    exact ⟨h.1.trans (Int.gcd_dvd_left ..), h.1.trans (Int.gcd_dvd_right ..), h.2⟩

theorem foldGcd_nonneg (l : List (Nat × ℤ)) (g : ℤ) (h : 0 ≤ g ∨ l ≠ []) :
    0 ≤ l.foldl (fun g p => ((Int.gcd g p.2 : ℕ) : ℤ)) g := by
  induction l generalizing g with
  | nil => simpa using h
  | cons q t ih => exact ih _ (Or.inl (by positivity))

theorem rowGcd_pos (r : IRow) (h : r.coefs ≠ []) (h0 : ∀ p ∈ r.coefs, p.2 ≠ 0) : 0 < rowGcd r := by
  have hn : 0 ≤ rowGcd r := foldGcd_nonneg _ _ (Or.inr h)
  rcases hn.lt_or_eq with h1 | h1
  · exact h1
  · exfalso
    obtain ⟨p, hp⟩ := List.exists_mem_of_ne_nil _ h
    have := (foldGcd_dvd r.coefs r.rhs).2 p hp
    rw [show List.foldl (fun g p => ((Int.gcd g p.2 : ℕ) : ℤ)) r.rhs r.coefs = rowGcd r from rfl, ← h1] at this
    exact h0 p hp (zero_dvd_iff.mp this)

/-- What the rows say about a point. -/
def IRow.Holds (r : IRow) (x : Nat → ℚ) : Prop :=
  if r.ge then (r.rhs : ℚ) ≤ idot r.coefs x else idot r.coefs x ≤ r.rhs

/-- The share times the gcd. -/
theorem share_mul (r : IRow) (a : ℤ) (hd : rowGcd r ∣ a) :
    (share r a : ℚ) * (rowGcd r : ℚ) = if r.ge then -(a : ℚ) else a := by
  have h := Int.tdiv_mul_cancel hd
  have h' : ((a.tdiv (rowGcd r) : ℤ) : ℚ) * (rowGcd r : ℚ) = a := by exact_mod_cast h
  unfold share
  split
  · push_cast; rw [neg_mul, h']
  · exact h'

/-- Sum of the shares of the entries at a point. -/
def shareDot (r : IRow) (l : List (Nat × ℤ)) (x : Nat → ℚ) : ℚ := (l.map fun p => (share r p.2 : ℚ) * x p.1).sum

theorem shareDot_mul (r : IRow) (l : List (Nat × ℤ)) (x : Nat → ℚ) (h : ∀ p ∈ l, rowGcd r ∣ p.2) :
    shareDot r l x * (rowGcd r : ℚ) = if r.ge then -(idot l x) else idot l x := by
  induction l with
  | nil => simp [shareDot, idot]
  | cons p t ih =>
    have ih := ih (fun q hq => h q (List.mem_cons_of_mem _ hq))
    have hs := share_mul r p.2 (h p List.mem_cons_self)
    have e1 : shareDot r (p :: t) x = (share r p.2 : ℚ) * x p.1 + shareDot r t x := by simp [shareDot]
    have e2 : idot (p :: t) x = (p.2 : ℚ) * x p.1 + idot t x := by simp [idot]
    rw [e1, e2]
    rw [add_mul, ih, mul_right_comm, hs]
    split <;> ring

theorem share_holds (r : IRow) (x : Nat → ℚ) (hg : 0 < rowGcd r) (h : r.Holds x) :
    shareDot r r.coefs x ≤ share r r.rhs := by
  have hd := foldGcd_dvd r.coefs r.rhs
  have h1 := shareDot_mul r r.coefs x hd.2
  have h2 := share_mul r r.rhs hd.1
  have hg' : (0 : ℚ) < rowGcd r := by exact_mod_cast hg
  by_contra hc
  push Not at hc
  have := mul_lt_mul_of_pos_right hc hg'
  rw [h1, h2] at this
  unfold IRow.Holds at h
  split at h <;> simp_all <;> linarith

/-! ### The sum of the rows -/

theorem addEntries_lin (r : IRow) (mc : Nat) (x : Nat → ℚ) (l : List (Nat × ℤ)) (c c' : Nat → ℤ)
    (hl : ∀ p ∈ l, p.1 < mc) (h : addEntries r l c = .ok c') :
    lin mc c' x = lin mc c x + shareDot r l x := by
  induction l generalizing c with
  | nil => simp only [addEntries, Except.ok.injEq] at h; subst h; simp [shareDot]
  | cons p t ih =>
    simp only [addEntries, bind_ok] at h
    obtain ⟨v, hv, h⟩ := h
    have hv := ck_ok hv
    rw [ih (upd c p.1 v) (fun q hq => hl q (List.mem_cons_of_mem _ hq)) h,
      lin_upd mc c x p.1 v (hl p List.mem_cons_self), hv]
    simp only [shareDot, List.map_cons, List.sum_cons]
    push_cast; ring

theorem addEntries_supp (r : IRow) (l : List (Nat × ℤ)) (c c' : Nat → ℤ) (h : addEntries r l c = .ok c') (j : Nat)
    (hj : c' j ≠ 0) : c j ≠ 0 ∨ ∃ p ∈ l, p.1 = j := by
  induction l generalizing c with
  | nil => simp only [addEntries, Except.ok.injEq] at h; subst h; exact Or.inl hj
  | cons p t ih =>
    simp only [addEntries, bind_ok] at h
    obtain ⟨v, hv, h⟩ := h
    rcases ih _ h with h1 | ⟨q, hq, h1⟩
    · by_cases e : j = p.1
      · exact Or.inr ⟨p, List.mem_cons_self, e.symm⟩
      · unfold upd at h1; rw [if_neg e] at h1; exact Or.inl h1
    · exact Or.inr ⟨q, List.mem_cons_of_mem _ hq, h1⟩

/-- A row whose entries are nonzero and in range. -/
structure IRow.WF (mc : Nat) (r : IRow) : Prop where
  ne : r.coefs ≠ []
  nz : ∀ p ∈ r.coefs, p.2 ≠ 0
  cols : ∀ p ∈ r.coefs, p.1 < mc

theorem addRows_valid (mc : Nat) (x : Nat → ℚ) (rs : List IRow) (s s' : (Nat → ℤ) × ℤ)
    (hw : ∀ r ∈ rs, r.WF mc) (hx : ∀ r ∈ rs, r.Holds x) (h : addRows rs s = .ok s')
    (h0 : lin mc s.1 x ≤ s.2) : lin mc s'.1 x ≤ s'.2 := by
  induction rs generalizing s with
  | nil => simp only [addRows, Except.ok.injEq] at h; subst h; exact h0
  | cons r t ih =>
    simp only [addRows, addRow, bind_ok, pure_ok] at h
    obtain ⟨s1, ⟨c, hc, b, hb, hs1⟩, h⟩ := h
    subst hs1
    have hw' := hw r List.mem_cons_self
    refine ih _ (fun q hq => hw q (List.mem_cons_of_mem _ hq)) (fun q hq => hx q (List.mem_cons_of_mem _ hq)) h ?_
    simp only
    rw [addEntries_lin r mc x _ _ _ hw'.cols hc, ck_ok hb]
    have := share_holds r x (rowGcd_pos r hw'.ne hw'.nz) (hx r List.mem_cons_self)
    push_cast
    linarith

theorem addRows_supp (rs : List IRow) (s s' : (Nat → ℤ) × ℤ) (h : addRows rs s = .ok s') (j : Nat)
    (hj : s'.1 j ≠ 0) : s.1 j ≠ 0 ∨ ∃ r ∈ rs, ∃ p ∈ r.coefs, p.1 = j := by
  induction rs generalizing s with
  | nil => simp only [addRows, Except.ok.injEq] at h; subst h; exact Or.inl hj
  | cons r t ih =>
    simp only [addRows, addRow, bind_ok, pure_ok] at h
    obtain ⟨s1, ⟨c, hc, b, hb, hs1⟩, h⟩ := h
    subst hs1
    rcases ih _ h with h1 | ⟨q, hq, h1⟩
    · rcases addEntries_supp r _ _ _ hc j h1 with h2 | h2
      · exact Or.inl h2
      · exact Or.inr ⟨r, List.mem_cons_self, h2⟩
    · exact Or.inr ⟨q, List.mem_cons_of_mem _ hq, h1⟩

/-! ### The changes -/

/-- The bound of a side. -/
def sideBnd (b : ℤ × ℤ) : Side → ℤ
  | .lower => b.1
  | .upper => b.2

/-- The sides a column offers. -/
def Weak.offers : Weak → Side → Prop
  | .none, _ => False
  | .even t _, s => s = t
  | .odd t _, s => s = t
  | .both _ _ _ _, _ => True

/-- The parities of the offers are those of the bounds, and the losses are not negative. -/
def Weak.Fits (b : ℤ × ℤ) : Weak → Prop
  | .none => True
  | .even t l => isOdd (sideBnd b t) = false ∧ 0 ≤ l
  | .odd t l => isOdd (sideBnd b t) = true ∧ 0 ≤ l
  | .both te le to' lo =>
    isOdd (sideBnd b te) = false ∧ isOdd (sideBnd b to') = true ∧ 0 ≤ le ∧ 0 ≤ lo

theorem oneWeak_fits (b : ℤ × ℤ) (t : Side) (l : ℚ) (hl : 0 ≤ l) : (oneWeak (sideBnd b t) t l).Fits b := by
  unfold oneWeak
  split
  · rename_i h; exact ⟨h, hl⟩
  · rename_i h; exact ⟨by simpa using h, hl⟩

theorem possWeak_fits (x : ℚ) (b : ℤ × ℤ) : (possWeak x b.1 b.2).Fits b := by
  have ht : (0 : ℚ) < zeroTol := by norm_num [zeroTol]
  unfold possWeak
  split
  · exact oneWeak_fits b .upper 0 le_rfl
  rename_i h1
  split
  · exact oneWeak_fits b .lower 0 le_rfl
  rename_i h2
  push Not at h1 h2
  have hu : 0 ≤ (b.2 : ℚ) - x := by linarith
  have hl : 0 ≤ x - (b.1 : ℚ) := by linarith
  split
  · trivial
  split
  · exact oneWeak_fits b .lower _ hl
  split
  · exact oneWeak_fits b .upper _ hu
  split
  · split
    · exact oneWeak_fits b .lower _ hl
    · exact oneWeak_fits b .upper _ hu
  rename_i h
  split
  · rename_i h'
    exact ⟨by simpa [sideBnd, h'] using h, h', hl, hu⟩
  · rename_i h'
    have h' : isOdd b.2 = false := by simpa using h'
    exact ⟨h', by simpa [sideBnd, h'] using h, hu, hl⟩

theorem oneWeak_offers (b : ℤ) (t s : Side) (l : ℚ) (h : (oneWeak b t l).offers s) : s = t := by
  unfold oneWeak at h; split at h <;> exact h

/-- A side is only offered when its bound is at most one away, or passed. -/
theorem possWeak_offers (x : ℚ) (b : ℤ × ℤ) (s : Side) (h : (possWeak x b.1 b.2).offers s) :
    match s with
    | .lower => x - b.1 ≤ 1
    | .upper => (b.2 : ℚ) - x ≤ 1 := by
  have ht : zeroTol ≤ 1 := by norm_num [zeroTol]
  unfold possWeak at h
  split at h
  · obtain rfl := oneWeak_offers _ _ _ _ h; simp only; linarith
  split at h
  · obtain rfl := oneWeak_offers _ _ _ _ h; simp only; linarith
  split at h
  · exact h.elim
  rename_i h3
  split at h
  · rename_i h4; obtain rfl := oneWeak_offers _ _ _ _ h; simp only; by_contra hc; exact h3 ⟨h4, by linarith⟩
  rename_i h4
  split at h
  · obtain rfl := oneWeak_offers _ _ _ _ h; simp only; linarith
  rename_i h5
  cases s <;> simp only <;> linarith

/-- The sides chosen on the way back and the parity at the start, first variable first. -/
def chosen : List Step → Bool → Bool × List Side
  | [], f => (f, [])
  | s :: ss, f =>
    (if (chosen ss f).1 then !s.so else s.se, (if (chosen ss f).1 then s.to' else s.te) :: (chosen ss f).2)

/-- The parity at the end of the way back. -/
def backEnd : List Step → Bool → Bool
  | [], f => f
  | s :: t, odd => backEnd t (if odd then (if s.so then false else true) else s.se)

theorem back_append (a b : List Step) (f : Bool) : back (a ++ b) f = back a f ++ back b (backEnd a f) := by
  induction a generalizing f with
  | nil => rfl
  | cons s t ih => simp only [List.cons_append, back, backEnd, ih]

theorem backEnd_append (a b : List Step) (f : Bool) : backEnd (a ++ b) f = backEnd b (backEnd a f) := by
  induction a generalizing f with
  | nil => rfl
  | cons s t ih => simp only [List.cons_append, backEnd, ih]

theorem back_chosen (ss : List Step) (f : Bool) :
    backEnd ss.reverse f = (chosen ss f).1 ∧ (back ss.reverse f).reverse = (chosen ss f).2 := by
  induction ss with
  | nil => exact ⟨rfl, rfl⟩
  | cons s t ih =>
    simp only [List.reverse_cons, backEnd_append, back_append, ih.1, chosen, List.reverse_append, ih.2]
    constructor
    · simp only [backEnd]
      cases (chosen t f).1 <;> cases s.so <;> rfl
    · simp [back]

/-- The slack of a parity. -/
def sel (odd : Bool) (b : ℚ × ℚ) : ℚ := if odd then b.2 else b.1

/-- One variable: with either parity afterwards, the recorded side is offered, the parity before is the one recorded,
and the slack is that of the parity before or more. -/
theorem wstep_spec (w : Weak) (bd : ℤ × ℤ) (b b' : ℚ × ℚ) (s : Step) (hw : w.Fits bd) (h : wstep w b = some (s, b'))
    (f : Bool) :
    w.offers (if f then s.to' else s.te) ∧
      f = Bool.xor (if f then !s.so else s.se) (isOdd (sideBnd bd (if f then s.to' else s.te))) ∧
      sel (if f then !s.so else s.se) b ≤ sel f b' := by
  cases w with
  | none => simp [wstep] at h
  | even t l =>
    simp only [wstep, Option.some.injEq, Prod.mk.injEq] at h
    obtain ⟨rfl, rfl⟩ := h
    cases f <;> simp_all [Weak.offers, Weak.Fits, sel]
  | odd t l =>
    simp only [wstep, Option.some.injEq, Prod.mk.injEq] at h
    obtain ⟨rfl, rfl⟩ := h
    cases f <;> simp_all [Weak.offers, Weak.Fits, sel]
  | both te le to' lo =>
    simp only [wstep, Option.some.injEq, Prod.mk.injEq] at h
    obtain ⟨rfl, rfl⟩ := h
    obtain ⟨h1, h2, h3, h4⟩ := hw
    refine ⟨trivial, ?_, ?_⟩
    · cases f
      · by_cases hc : b.1 + le ≤ b.2 + lo <;> simp [hc, h1, h2]
      · by_cases hc : b.2 + le ≤ b.1 + lo <;> simp [hc, h1, h2]
    · cases f
      · by_cases hc : b.1 + le ≤ b.2 + lo <;> simp [hc, sel, h3, h4]
      · by_cases hc : b.2 + le ≤ b.1 + lo <;> simp [hc, sel, h3, h4]

/-- Parity of the bounds of some sides. -/
def parity : List (ℤ × ℤ) → List Side → Bool
  | b :: bs, t :: ts => Bool.xor (isOdd (sideBnd b t)) (parity bs ts)
  | _, _ => false

theorem forward_spec (ws : List Weak) (bds : List (ℤ × ℤ)) (hf : List.Forall₂ (fun w b => w.Fits b) ws bds)
    (b b' : ℚ × ℚ) (ss : List Step) (h : forward ws b = some (ss, b')) (f : Bool) :
    List.Forall₂ (fun w t => w.offers t) ws (chosen ss f).2 ∧
      f = Bool.xor (chosen ss f).1 (parity bds (chosen ss f).2) ∧ sel (chosen ss f).1 b ≤ sel f b' := by
  induction hf generalizing b ss with
  | nil =>
    simp only [forward, Option.some.injEq, Prod.mk.injEq] at h
    obtain ⟨rfl, rfl⟩ := h
    simp [chosen, parity]
  | @cons w bd t bds hw hf ih =>
    simp only [forward] at h
    rcases hs : wstep w b with _ | ⟨s, b1⟩
    · rw [hs] at h; simp at h
    rw [hs] at h
    simp only at h
    split at h
    · simp at h
    rcases ht : forward t b1 with _ | ⟨ss', b2⟩
    · rw [ht] at h; simp at h
    rw [ht] at h
    simp only [Option.some.injEq, Prod.mk.injEq] at h
    obtain ⟨rfl, rfl⟩ := h
    obtain ⟨i1, i2, i3⟩ := ih b1 ss' ht
    obtain ⟨j1, j2, j3⟩ := wstep_spec w bd b b1 s hw hs (chosen ss' f).1
    simp only [chosen]
    refine ⟨List.Forall₂.cons j1 i1, ?_, j3.trans i3⟩
    simp only [parity]
    rw [← Bool.xor_assoc, ← j2]
    exact i2

/-- The changes chosen are offered and make the right-hand side odd. -/
theorem bestWeakening_spec (ws : List Weak) (bds : List (ℤ × ℤ))
    (hf : List.Forall₂ (fun w b => w.Fits b) ws bds) (odd : Bool) (slack : ℚ) (ts : List Side) (v : ℚ)
    (h : bestWeakening ws odd slack = some (ts, v)) :
    List.Forall₂ (fun w t => w.offers t) ws ts ∧ Bool.xor odd (parity bds ts) = true := by
  unfold bestWeakening at h
  rcases hfw : forward ws (startSlacks odd slack) with _ | ⟨ss, b⟩
  · rw [hfw] at h; simp at h
  rw [hfw] at h
  simp only at h
  split at h
  · rename_i hle
    simp only [Option.some.injEq, Prod.mk.injEq] at h
    obtain ⟨rfl, rfl⟩ := h
    rw [(back_chosen ss true).2]
    obtain ⟨h1, h2, h3⟩ := forward_spec ws bds hf _ _ _ hfw true
    refine ⟨h1, ?_⟩
    have h4 : (chosen ss true).1 = odd := by
      by_contra hne
      have : sel (chosen ss true).1 (startSlacks odd slack) = bigInf := by
        cases odd
        · have hc : (chosen ss true).1 = true := by simpa using hne
          rw [hc]; rfl
        · have hc : (chosen ss true).1 = false := by simpa using hne
          rw [hc]; rfl
      rw [this] at h3
      have : bigInf ≤ maxSlack := h3.trans hle
      norm_num [bigInf, maxSlack, epsTol] at this
    rw [h4] at h2
    exact h2.symm
  · simp at h

/-! ### Applying the changes -/

/-- The outcome of a change that fits. -/
def applied (L : List (ℤ × ℤ)) (j : Nat) (t : Side) (s : (Nat → ℤ) × ℤ) : (Nat → ℤ) × ℤ :=
  match t with
  | .lower => (upd s.1 j (s.1 j - 1), s.2 - (bnd L j).1)
  | .upper => (upd s.1 j (s.1 j + 1), s.2 + (bnd L j).2)

theorem applyOne_ok {L : List (ℤ × ℤ)} {j : Nat} {t : Side} {s s' : (Nat → ℤ) × ℤ}
    (h : applyOne L j t s = .ok s') :
    s' = applied L j t s := by
  cases t <;> simp only [applyOne, bind_ok, pure_ok] at h <;> obtain ⟨v, hv, b, hb, rfl⟩ := h <;>
    rw [ck_ok hv, ck_ok hb] <;> rfl

theorem applyAll_valid (L : List (ℤ × ℤ)) (mc : Nat) (x : Nat → ℚ) (ps : List (Nat × Side)) (s s' : (Nat → ℤ) × ℤ)
    (hj : ∀ p ∈ ps, p.1 < mc)
    (hb : ∀ p ∈ ps, match p.2 with
      | .lower => ((bnd L p.1).1 : ℚ) ≤ x p.1
      | .upper => x p.1 ≤ (bnd L p.1).2)
    (h : applyAll L ps s = .ok s') (h0 : lin mc s.1 x ≤ s.2) : lin mc s'.1 x ≤ s'.2 := by
  induction ps generalizing s with
  | nil => simp only [applyAll, Except.ok.injEq] at h; subst h; exact h0
  | cons p t ih =>
    simp only [applyAll, bind_ok] at h
    obtain ⟨s1, hs1, h⟩ := h
    refine ih s1 (fun q hq => hj q (List.mem_cons_of_mem _ hq)) (fun q hq => hb q (List.mem_cons_of_mem _ hq)) h ?_
    have hbp := hb p List.mem_cons_self
    have hjp := hj p List.mem_cons_self
    have e := applyOne_ok hs1
    rcases hp : p.2 with _ | _ <;> rw [hp] at e hbp <;> simp only [applied] at e hbp <;> subst e <;> simp only <;>
      rw [lin_upd mc _ _ _ _ hjp] <;> push_cast <;> linarith

theorem applyAll_coef (L : List (ℤ × ℤ)) (ps : List (Nat × Side)) (s s' : (Nat → ℤ) × ℤ)
    (hn : (ps.map Prod.fst).Nodup) (h : applyAll L ps s = .ok s') (j : Nat) :
    if j ∈ ps.map Prod.fst then s'.1 j = s.1 j + 1 ∨ s'.1 j = s.1 j - 1 else s'.1 j = s.1 j := by
  induction ps generalizing s with
  | nil => simp only [applyAll, Except.ok.injEq] at h; subst h; simp
  | cons p t ih =>
    simp only [applyAll, bind_ok] at h
    obtain ⟨s1, hs1, h⟩ := h
    have hn' := List.nodup_cons.mp (by simpa using hn : (p.1 :: t.map Prod.fst).Nodup)
    have ih := ih s1 hn'.2 h
    have e := applyOne_ok hs1
    have e1 : s1.1 = upd s.1 p.1 (s.1 p.1 - 1) ∨ s1.1 = upd s.1 p.1 (s.1 p.1 + 1) := by
      rcases hp : p.2 with _ | _ <;> rw [hp] at e <;> subst e <;> simp [applied]
    by_cases hjp : j = p.1
    · subst hjp
      rw [if_neg hn'.1] at ih
      rw [if_pos (by simp), ih]
      rcases e1 with e1 | e1 <;> rw [e1] <;> simp [upd]
    · have : s1.1 j = s.1 j := by rcases e1 with e1 | e1 <;> rw [e1] <;> simp [upd, hjp]
      rw [this] at ih
      simp only [List.map_cons, List.mem_cons, hjp, false_or]
      exact ih

theorem isOdd_add (a b : ℤ) : isOdd (a + b) = Bool.xor (isOdd a) (isOdd b) := by
  unfold isOdd
  rcases Int.emod_two_eq_zero_or_one a with h1 | h1 <;> rcases Int.emod_two_eq_zero_or_one b with h2 | h2 <;>
    simp [Int.add_emod, h1, h2]

theorem isOdd_sub (a b : ℤ) : isOdd (a - b) = Bool.xor (isOdd a) (isOdd b) := by
  unfold isOdd
  rcases Int.emod_two_eq_zero_or_one a with h1 | h1 <;> rcases Int.emod_two_eq_zero_or_one b with h2 | h2 <;>
    simp [Int.sub_emod, h1, h2]

theorem applyAll_rhs (L : List (ℤ × ℤ)) (js : List Nat) (ts : List Side) (s s' : (Nat → ℤ) × ℤ)
    (h : applyAll L (js.zip ts) s = .ok s') :
    isOdd s'.2 = Bool.xor (isOdd s.2) (parity (js.map (bnd L)) ts) := by
  induction js generalizing ts s with
  | nil =>
    simp only [List.zip_nil_left, applyAll, Except.ok.injEq] at h; subst h; simp [parity]
  | cons j t ih =>
    cases ts with
    | nil => simp only [List.zip_nil_right, applyAll, Except.ok.injEq] at h; subst h; simp [parity]
    | cons u us =>
      simp only [List.zip_cons_cons, applyAll, bind_ok] at h
      obtain ⟨s1, hs1, h⟩ := h
      rw [ih us s1 h]
      have e := applyOne_ok hs1
      simp only [List.map_cons, parity]
      rw [← Bool.xor_assoc]
      congr 1
      cases u <;> simp only [applied] at e <;> subst e <;> simp only [sideBnd]
      · exact isOdd_sub _ _
      · exact isOdd_add _ _

/-! ### Halving -/

theorem halve_valid (mc : Nat) (x : Nat → ℚ) (s s' : (Nat → ℤ) × ℤ) (h : halve mc s = .ok s')
    (hi : ∀ j < mc, s.1 j ≠ 0 → IsInteger (x j)) (h0 : lin mc s.1 x ≤ s.2) : lin mc s'.1 x ≤ s'.2 := by
  unfold halve at h
  split at h
  · cases h
  rename_i h1
  split at h
  · cases h
  rename_i h2
  simp only [Except.ok.injEq] at h
  subst h
  have he : ∀ j < mc, s.1 j = 2 * (s.1 j).tdiv 2 := by
    intro j hj
    have : isOdd (s.1 j) = false := by
      by_contra hc
      exact h1 (List.any_eq_true.mpr ⟨j, List.mem_range.mpr hj, by simpa using hc⟩)
    have : s.1 j % 2 = 0 := by simpa [isOdd] using this
    exact (Int.mul_tdiv_cancel' (Int.dvd_of_emod_eq_zero this)).symm
  have ho : s.2 - 1 = 2 * (s.2 - 1).tdiv 2 := by
    have : isOdd s.2 = true := by simpa using h2
    have : s.2 % 2 ≠ 0 := by simpa [isOdd] using this
    exact (Int.mul_tdiv_cancel' (by omega)).symm
  have hl := lin_two mc s.1 (fun j => (s.1 j).tdiv 2) x he
  obtain ⟨z, hz⟩ := lin_integer mc (fun j => (s.1 j).tdiv 2) x (by
    intro j hj hne
    apply hi j hj
    intro h0
    rw [h0] at hne
    simp at hne)
  simp only
  rw [hl, hz] at h0
  rw [hz]
  have h3 : 2 * z ≤ s.2 := by exact_mod_cast h0
  have : z ≤ (s.2 - 1).tdiv 2 := by omega
  exact_mod_cast this

end Cgl.ZeroHalf
