import Verif.FlowCover.Model
import Verif.MIR.Subst

/-!
# The variable bounds found by the preprocessing hold at every feasible point
-/

namespace Cgl.FlowCover

open Cgl.MIR (Representable lower_le le_upper)

/-- Conditions on the data under which the generator's tolerances and shortcuts are harmless:
* two-column rows (from which variable bounds are read) have no coefficient of size at most 1e-6, no right-hand side that is
  tiny but not zero, and are not free rows;
* no lower bound the generator uses is negative but above -1e-6;
* no variable upper bound is negative (unless the column is rejected because of its lower bound). -/
structure Exact (P : Prob) : Prop where
  coef : ∀ r ∈ P.rows, r.coefs.length = 2 → ∀ p ∈ r.coefs, eps < |p.2|
  rhs : ∀ r ∈ P.rows, r.coefs.length = 2 → (r.senseRhs P.inf).2 = 0 ∨ eps < |(r.senseRhs P.inf).2|
  free : ∀ r ∈ P.rows, r.coefs.length = 2 → (r.senseRhs P.inf).1 ≠ .N
  lb : ∀ j < P.nCols, 0 ≤ lbOf P (preprocess P) j ∨ lbOf P (preprocess P) j < -eps
  ub : ∀ j < P.nCols, lbOf P (preprocess P) j < -eps ∨
    match (preprocess P).vub j with
    | some b => 0 ≤ b.2
    | none => True

instance (P : Prob) (j : Nat) : Decidable (match (preprocess P).vub j with
    | some b => 0 ≤ b.2
    | none => True) := by
  cases (preprocess P).vub j <;> infer_instance

instance (P : Prob) : Decidable (Exact P) :=
  decidable_of_iff ((∀ r ∈ P.rows, r.coefs.length = 2 → ∀ p ∈ r.coefs, eps < |p.2|) ∧
      (∀ r ∈ P.rows, r.coefs.length = 2 → (r.senseRhs P.inf).2 = 0 ∨ eps < |(r.senseRhs P.inf).2|) ∧
      (∀ r ∈ P.rows, r.coefs.length = 2 → (r.senseRhs P.inf).1 ≠ .N) ∧
      (∀ j < P.nCols, 0 ≤ lbOf P (preprocess P) j ∨ lbOf P (preprocess P) j < -eps) ∧
      ∀ j < P.nCols, lbOf P (preprocess P) j < -eps ∨
        match (preprocess P).vub j with
        | some b => 0 ≤ b.2
        | none => True)
    ⟨fun h => ⟨h.1, h.2.1, h.2.2.1, h.2.2.2.1, h.2.2.2.2⟩, fun h => ⟨h.1, h.2, h.3, h.4, h.5⟩⟩

/-- The recorded variable bounds hold at `x`. -/
structure PreOk (P : Prob) (pre : Pre) (x : Nat → ℚ) : Prop where
  vub : ∀ j b, pre.vub j = some b → b.1 < P.nCols ∧ isBin P b.1 = true ∧ x j ≤ b.2 * x b.1
  vlb : ∀ j b, pre.vlb j = some b → b.1 < P.nCols ∧ isBin P b.1 = true ∧ b.2 * x b.1 ≤ x j

theorem dot_flip (v : SVec) (x : Nat → ℚ) : (flipCoefs v).dot x = -v.dot x := SVec.dot_neg v x

theorem boundOf_flip (P : Prob) (v : SVec) : boundOf P (flipCoefs v) = boundOf P v := by
  rcases v with _ | ⟨p, _ | ⟨q, _ | ⟨r, v⟩⟩⟩
  · rfl
  · rfl
  · simp only [flipCoefs, List.map_cons, List.map_nil, boundOf, neg_neg]
    split <;> (congr 3; rw [div_neg, neg_div])
  · rfl

/-- What the sign counts of a two-column row say. -/
theorem two_cols {P : Prob} {p q : Nat × ℚ} {isL : Bool} {rhs : ℚ} {t : RowType} (ht : rowTypeL P [p, q] isL rhs = t)
    (h : t = .varub ∨ t = .varlb ∨ t = .vareq) :
    (-eps ≤ rhs ∧ rhs ≤ eps) ∧ (isBin P p.1 = true ∧ isBin P q.1 = false ∨ isBin P p.1 = false ∧ isBin P q.1 = true) ∧
      (t = .vareq → isL = false) ∧
      (t = .varub → isBin P p.1 = true ∧ p.2 < -eps ∧ -eps ≤ q.2 ∨ isBin P q.1 = true ∧ q.2 < -eps ∧ -eps ≤ p.2) ∧
      (t = .varlb → isBin P p.1 = true ∧ q.2 < -eps ∧ -eps ≤ p.2 ∨ isBin P q.1 = true ∧ p.2 < -eps ∧ -eps ≤ q.2) := by
  have hd : ∀ a : ℚ, (a < -eps ∧ ¬ -eps ≤ a) ∨ (-eps ≤ a ∧ ¬ a < -eps) := fun a =>
    (lt_or_ge a (-eps)).imp (fun h => ⟨h, not_le.2 h⟩) fun h => ⟨h, not_lt.2 h⟩
  by_cases hr : rhs < -eps ∨ eps < rhs
  · exfalso
    have : t = .uninteresting ∨ t = .nobinub ∨ t = .nobineq ∨ t = .mixub ∨ t = .mixeq := by
      rw [← ht]; unfold rowTypeL
      have hr' : ∀ c : Prop, (rhs < -eps ∨ eps < rhs ∨ c) = True := fun c => by
        rcases hr with h | h <;> simp [h]
      simp only [hr', if_true]
      split_ifs <;> simp
    rcases h with h | h | h <;> subst h <;> simp at this
  · push Not at hr
    have hr1 : ¬ rhs < -eps := not_lt.2 hr.1
    have hr2 : ¬ eps < rhs := not_lt.2 hr.2
    refine ⟨hr, ?_⟩
    unfold rowTypeL at ht
    rcases hb : isBin P p.1 <;> rcases hq : isBin P q.1 <;> rcases hd p.2 with hp2 | hp2 <;>
      rcases hd q.2 with hq2 | hq2 <;> cases isL <;>
      simp [hb, hq, hp2, hq2, hr1, hr2] at ht <;>
      subst ht <;> simp [hp2, hq2] at h ⊢

/-- The bound read from a two-column row that holds with right-hand side zero. -/
theorem bound_sound {P : Prob} {v : SVec} {isL : Bool} {rhs : ℚ} {x : Nat → ℚ} {y b : Nat} {val : ℚ}
    (hb : boundOf P v = some (y, b, val)) (hc : ∀ p ∈ v, eps < |p.2|) (hle : v.dot x ≤ 0) (heq : isL = false → v.dot x = 0) :
    ((rowTypeL P v isL rhs = .varub ∨ rowTypeL P v isL rhs = .vareq) → isBin P b = true ∧ x y ≤ val * x b) ∧
      ((rowTypeL P v isL rhs = .varlb ∨ rowTypeL P v isL rhs = .vareq) → isBin P b = true ∧ val * x b ≤ x y) := by
  rcases v with _ | ⟨p, _ | ⟨q, _ | ⟨r, v⟩⟩⟩
  · simp [boundOf] at hb
  · simp [boundOf] at hb
  swap
  · simp [boundOf] at hb
  have hcp := hc p (by simp)
  have hcq := hc q (by simp)
  have he : (0 : ℚ) < eps := by unfold eps; norm_num
  simp only [SVec.dot_cons, SVec.dot_nil, add_zero] at hle heq
  -- a single inequality between two columns
  have key : ∀ (a c X Y : ℚ), 0 < c → a * X + c * Y ≤ 0 → Y ≤ -a / c * X := by
    intro a c X Y hc h
    rw [div_mul_eq_mul_div, le_div_iff₀ hc]; linarith
  have key' : ∀ (a c X Y : ℚ), c < 0 → a * X + c * Y ≤ 0 → -a / c * X ≤ Y := by
    intro a c X Y hc h
    have := key a (-c) X (-Y) (by linarith) (by linarith)
    have e : -a / -c * X = -(-a / c * X) := by rw [div_neg]; ring
    rw [e] at this; linarith
  have key0 : ∀ (a c X Y : ℚ), c ≠ 0 → a * X + c * Y = 0 → Y = -a / c * X := by
    intro a c X Y hc h
    field_simp; linarith
  have hp0 : p.2 ≠ 0 := fun h => by rw [h] at hcp; simp at hcp; linarith
  have hq0 : q.2 ≠ 0 := fun h => by rw [h] at hcq; simp at hcq; linarith
  have hpos : ∀ a : ℚ, eps < |a| → -eps ≤ a → 0 < a := by
    intro a h1 h2
    rcases le_or_gt a 0 with h | h
    · rw [abs_of_nonpos h] at h1; linarith
    · exact h
  have hsel : ∀ t, rowTypeL P [p, q] isL rhs = t → (t = .varub ∨ t = .varlb ∨ t = .vareq) →
      ((t = .varub ∨ t = .vareq) → isBin P b = true ∧ x y ≤ val * x b) ∧
      ((t = .varlb ∨ t = .vareq) → isBin P b = true ∧ val * x b ≤ x y) := by
    intro t ht hor
    obtain ⟨-, hbin, heqt, hub, hlb⟩ := two_cols ht hor
    rcases hbin with ⟨h1, h2⟩ | ⟨h1, h2⟩
    · simp only [boundOf, h1, if_true, Option.some.injEq, Prod.mk.injEq] at hb
      obtain ⟨rfl, rfl, rfl⟩ := hb
      refine ⟨?_, ?_⟩
      · rintro (rfl | rfl)
        · rcases hub rfl with h | h
          · exact ⟨h1, key _ _ _ _ (hpos _ hcq h.2.2) hle⟩
          · rw [h2] at h; simp at h
        · exact ⟨h1, (key0 _ _ _ _ hq0 (heq (heqt rfl))).le⟩
      · rintro (rfl | rfl)
        · rcases hlb rfl with h | h
          · exact ⟨h1, key' _ _ _ _ (by linarith [h.2.1]) hle⟩
          · rw [h2] at h; simp at h
        · exact ⟨h1, (key0 _ _ _ _ hq0 (heq (heqt rfl))).ge⟩
    · simp only [boundOf, h1, Bool.false_eq_true, if_false, Option.some.injEq, Prod.mk.injEq] at hb
      obtain ⟨rfl, rfl, rfl⟩ := hb
      refine ⟨?_, ?_⟩
      · rintro (rfl | rfl)
        · rcases hub rfl with h | h
          · rw [h1] at h; simp at h
          · exact ⟨h2, key _ _ _ _ (hpos _ hcp h.2.2) (by linarith)⟩
        · exact ⟨h2, (key0 _ _ _ _ hp0 (by linarith [heq (heqt rfl)])).le⟩
      · rintro (rfl | rfl)
        · rcases hlb rfl with h | h
          · rw [h1] at h; simp at h
          · exact ⟨h2, key' _ _ _ _ (by linarith [h.2.1]) (by linarith)⟩
        · exact ⟨h2, (key0 _ _ _ _ hp0 (by linarith [heq (heqt rfl)])).ge⟩
  refine ⟨fun h => ?_, fun h => ?_⟩
  · exact (hsel _ rfl (h.elim (fun h => Or.inl h) fun h => Or.inr (Or.inr h))).1 h
  · exact (hsel _ rfl (h.elim (fun h => Or.inr (Or.inl h)) fun h => Or.inr (Or.inr h))).2 h

theorem rowTypeL_rhs {P : Prob} {v : SVec} {isL : Bool} {rhs : ℚ} {y b : Nat} {val : ℚ}
    (hb : boundOf P v = some (y, b, val))
    (h : rowTypeL P v isL rhs = .varub ∨ rowTypeL P v isL rhs = .varlb ∨ rowTypeL P v isL rhs = .vareq) :
    |rhs| ≤ eps := by
  rcases v with _ | ⟨p, _ | ⟨q, _ | ⟨r, v⟩⟩⟩
  · simp [boundOf] at hb
  · simp [boundOf] at hb
  · exact abs_le.2 (two_cols rfl h).1
  · simp [boundOf] at hb

theorem boundOf_length {P : Prob} {v : SVec} {b : Nat × Nat × ℚ} (hb : boundOf P v = some b) : v.length = 2 := by
  rcases v with _ | ⟨p, _ | ⟨q, _ | ⟨r, v⟩⟩⟩ <;> simp [boundOf] at hb ⊢

theorem boundOf_mem {P : Prob} {v : SVec} {y b : Nat} {val : ℚ} (hb : boundOf P v = some (y, b, val)) :
    b ∈ v.map Prod.fst := by
  rcases v with _ | ⟨p, _ | ⟨q, _ | ⟨r, v⟩⟩⟩
  · simp [boundOf] at hb
  · simp [boundOf] at hb
  · simp only [boundOf] at hb
    split at hb <;> (simp only [Option.some.injEq, Prod.mk.injEq] at hb; simp [hb.2.1])
  · simp [boundOf] at hb

/-- The same for a row of the problem. -/
theorem row_bound_sound {P : Prob} (hE : Exact P) {r : Row} (hr : r ∈ P.rows) {x : Nat → ℚ} (hs : r.Sat P.inf x)
    {y b : Nat} {val : ℚ} (hb : boundOf P r.coefs = some (y, b, val)) :
    ((rowType P r = .varub ∨ rowType P r = .vareq) → isBin P b = true ∧ x y ≤ val * x b) ∧
      ((rowType P r = .varlb ∨ rowType P r = .vareq) → isBin P b = true ∧ val * x b ≤ x y) := by
  have h2 := boundOf_length hb
  have hcoef := hE.coef r hr h2
  have hrhs := hE.rhs r hr h2
  have hfree := hE.free r hr h2
  obtain ⟨hsl, hsu⟩ := hs
  have hne : r.coefs.length ≠ 0 := by omega
  have hcflip : ∀ p ∈ flipCoefs r.coefs, eps < |p.2| := by
    intro p hp
    obtain ⟨q, hq, rfl⟩ := List.mem_map.1 hp
    simpa using hcoef q hq
  have hzero : ∀ (v : SVec) (isL : Bool) (rh : ℚ), boundOf P v = some (y, b, val) → (rh = 0 ∨ eps < |rh|) →
      (rowTypeL P v isL rh = .varub ∨ rowTypeL P v isL rh = .varlb ∨ rowTypeL P v isL rh = .vareq) → rh = 0 := by
    intro v isL rh hv hor h
    have := rowTypeL_rhs hv h
    rcases hor with h | h
    · exact h
    · linarith
  rcases hsr : r.senseRhs P.inf with ⟨s, rh⟩
  rw [hsr] at hrhs hfree
  simp only at hrhs hfree
  have hsat : match s with
      | .L => r.coefs.dot x ≤ rh
      | .G => rh ≤ r.coefs.dot x
      | .E => r.coefs.dot x = rh
      | _ => True := by
    unfold Row.senseRhs at hsr
    by_cases hl : -P.inf < r.lb
    · by_cases hu : r.ub < P.inf
      · by_cases he : r.ub = r.lb
        · rw [if_pos hl, if_pos hu, if_pos he] at hsr
          simp only [Prod.mk.injEq] at hsr
          obtain ⟨rfl, rfl⟩ := hsr
          have h1 := hsu hu
          have h2 := hsl hl
          show r.coefs.dot x = r.ub
          linarith
        · simp only [hl, hu, he, if_true, if_false] at hsr
          simp only [Prod.mk.injEq] at hsr
          obtain ⟨rfl, rfl⟩ := hsr; trivial
      · simp only [hl, hu, if_true, if_false] at hsr
        simp only [Prod.mk.injEq] at hsr
        obtain ⟨rfl, rfl⟩ := hsr
        exact hsl hl
    · by_cases hu : r.ub < P.inf
      · simp only [hl, hu, if_true, if_false] at hsr
        simp only [Prod.mk.injEq] at hsr
        obtain ⟨rfl, rfl⟩ := hsr
        exact hsu hu
      · simp only [hl, hu, if_false] at hsr
        simp only [Prod.mk.injEq] at hsr
        obtain ⟨rfl, rfl⟩ := hsr; trivial
  unfold rowType determineOneRowType
  rw [hsr, if_neg hne]
  cases s with
  | R => simp
  | N => exact absurd rfl hfree
  | L =>
    refine ⟨fun h => ?_, fun h => ?_⟩
    · have h0 := hzero _ _ _ hb hrhs (h.elim Or.inl fun h => Or.inr (Or.inr h))
      exact (bound_sound (isL := true) (rhs := rh) hb hcoef (by rw [← h0]; exact hsat) (by simp)).1 h
    · have h0 := hzero _ _ _ hb hrhs (h.elim (fun h => Or.inr (Or.inl h)) fun h => Or.inr (Or.inr h))
      exact (bound_sound (isL := true) (rhs := rh) hb hcoef (by rw [← h0]; exact hsat) (by simp)).2 h
  | G =>
    have hb' : boundOf P (flipCoefs r.coefs) = some (y, b, val) := by rw [boundOf_flip]; exact hb
    have hrhs' : -rh = 0 ∨ eps < |-rh| := by simpa using hrhs
    refine ⟨fun h => ?_, fun h => ?_⟩
    · have h0 := hzero _ _ _ hb' hrhs' (h.elim Or.inl fun h => Or.inr (Or.inr h))
      exact (bound_sound (isL := true) (rhs := -rh) hb' hcflip
        (by rw [dot_flip]; have : rh ≤ r.coefs.dot x := hsat; linarith) (by simp)).1 h
    · have h0 := hzero _ _ _ hb' hrhs' (h.elim (fun h => Or.inr (Or.inl h)) fun h => Or.inr (Or.inr h))
      exact (bound_sound (isL := true) (rhs := -rh) hb' hcflip
        (by rw [dot_flip]; have : rh ≤ r.coefs.dot x := hsat; linarith) (by simp)).2 h
  | E =>
    have hsat' : r.coefs.dot x = rh := hsat
    refine ⟨fun h => ?_, fun h => ?_⟩
    · have h0 := hzero _ _ _ hb hrhs (h.elim Or.inl fun h => Or.inr (Or.inr h))
      exact (bound_sound (isL := false) (rhs := rh) hb hcoef (by linarith) (fun _ => by linarith)).1 h
    · have h0 := hzero _ _ _ hb hrhs (h.elim (fun h => Or.inr (Or.inl h)) fun h => Or.inr (Or.inr h))
      exact (bound_sound (isL := false) (rhs := rh) hb hcoef (by linarith) (fun _ => by linarith)).2 h

theorem recordRow_ok {P : Prob} (hW : P.WF) (hE : Exact P) {r : Row} (hr : r ∈ P.rows) {x : Nat → ℚ} (hs : r.Sat P.inf x)
    {pre : Pre} (ok : PreOk P pre x) : PreOk P (recordRow P pre r) x := by
  unfold recordRow
  rcases hb : boundOf P r.coefs with _ | ⟨y, b, val⟩
  · exact ok
  · have hbm : b < P.nCols := by
      have := boundOf_mem hb
      obtain ⟨p, hp, rfl⟩ := List.mem_map.1 this
      exact hW.cols r hr p hp
    obtain ⟨h1, h2⟩ := row_bound_sound hE hr hs hb
    have hup : ∀ (f : Nat → Option (Nat × ℚ)) (Q : Nat → Nat × ℚ → Prop), (∀ j c, f j = some c → Q j c) → Q y (b, val) →
        ∀ j c, upd f y (some (b, val)) j = some c → Q j c := by
      intro f Q hf hy j c hc
      unfold upd at hc
      split at hc
      · rename_i e; subst e; cases hc; exact hy
      · exact hf j c hc
    simp only
    split
    · rename_i ht
      exact ⟨hup _ _ ok.vub ⟨hbm, (h1 (Or.inl ht)).1, (h1 (Or.inl ht)).2⟩, ok.vlb⟩
    · rename_i ht
      exact ⟨ok.vub, hup _ _ ok.vlb ⟨hbm, (h2 (Or.inl ht)).1, (h2 (Or.inl ht)).2⟩⟩
    · rename_i ht
      exact ⟨hup _ _ ok.vub ⟨hbm, (h1 (Or.inr ht)).1, (h1 (Or.inr ht)).2⟩,
        hup _ _ ok.vlb ⟨hbm, (h2 (Or.inr ht)).1, (h2 (Or.inr ht)).2⟩⟩
    · exact ok

/-- The recorded variable bounds hold at every feasible point. -/
theorem preprocess_ok {P : Prob} (hW : P.WF) (hE : Exact P) {x : Nat → ℚ} (hf : P.Feasible x) : PreOk P (preprocess P) x := by
  unfold preprocess
  have : ∀ (rs : List Row) (pre : Pre), (∀ r ∈ rs, r ∈ P.rows) → PreOk P pre x → PreOk P (rs.foldl (recordRow P) pre) x := by
    intro rs
    induction rs with
    | nil => intro pre _ h; exact h
    | cons r rs ih =>
      intro pre hm h
      exact ih _ (fun r' hr' => hm r' (by simp [hr'])) (recordRow_ok hW hE (hm r (by simp)) (hf.rows r (hm r (by simp))) h)
  exact this _ _ (fun _ h => h) ⟨by simp, by simp⟩

end Cgl.FlowCover
