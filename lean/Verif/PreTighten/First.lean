import Verif.PreTighten.Sums

/-!
# The first phase: `tighten`
-/

namespace Cgl.PreTighten

/-- The term of an entry in the largest value of a row, for the threshold `B`. -/
def hiB (B : ℚ) (lo up : Nat → ℚ) (p : Nat × ℚ) : Option ℚ := if 0 < p.2 then atUp B up p else atLo B lo p
/-- The term of an entry in the smallest value of a row. -/
def loB (B : ℚ) (lo up : Nat → ℚ) (p : Nat × ℚ) : Option ℚ := if 0 < p.2 then atLo B lo p else atUp B up p

theorem split_terms (f g : Nat × ℚ → Option ℚ) (es : SVec) (h : es.Pairwise fun p q => p.2 ≤ q.2) :
    (negs es).map f ++ (poss es).map g = es.map fun p => if 0 < p.2 then g p else f p := by
  induction es with
  | nil => simp [negs, poss]
  | cons p es ih =>
    rw [List.pairwise_cons] at h
    by_cases hp : 0 < p.2
    · have h1 : negs (p :: es) = [] := by simp [negs, hp]
      have h2 : poss (p :: es) = p :: es := by simp [poss, hp]
      rw [h1, h2, List.map_nil, List.nil_append]
      apply List.map_congr_left
      intro q hq
      have : 0 < q.2 := by
        rcases List.mem_cons.mp hq with rfl | hq
        · exact hp
        · exact lt_of_lt_of_le hp (h.1 q hq)
      rw [if_pos this]
    · have h1 : negs (p :: es) = p :: negs es := by simp [negs, not_lt.mp hp]
      have h2 : poss (p :: es) = poss es := by simp [poss, not_lt.mp hp]
      rw [h1, h2, List.map_cons, List.cons_append, ih h.2, List.map_cons, if_neg hp]

theorem hiTerms_eq {lo up : Nat → ℚ} {es : SVec} (h : es.Pairwise fun p q => p.2 ≤ q.2) :
    hiTerms lo up es = es.map (hiB 1000000000000 lo up) := split_terms _ _ es h

theorem loTerms_eq {lo up : Nat → ℚ} {es : SVec} (h : es.Pairwise fun p q => p.2 ≤ q.2) :
    loTerms lo up es = es.map (loB 1000000000000 lo up) := split_terms _ _ es h

theorem hiB_some {B : ℚ} {lo up : Nat → ℚ} {p : Nat × ℚ} {v : ℚ} (h : hiB B lo up p = some v) :
    (0 < p.2 ∧ up p.1 < B ∧ v = up p.1 * p.2) ∨ (p.2 ≤ 0 ∧ -B < lo p.1 ∧ v = lo p.1 * p.2) := by
  unfold hiB atUp atLo at h
  split at h <;> split at h <;> simp at h
  · left; exact ⟨by assumption, by assumption, h.symm⟩
  · right; exact ⟨by linarith, by assumption, h.symm⟩

theorem loB_some {B : ℚ} {lo up : Nat → ℚ} {p : Nat × ℚ} {v : ℚ} (h : loB B lo up p = some v) :
    (0 < p.2 ∧ -B < lo p.1 ∧ v = lo p.1 * p.2) ∨ (p.2 ≤ 0 ∧ up p.1 < B ∧ v = up p.1 * p.2) := by
  unfold loB atUp atLo at h
  split at h <;> split at h <;> simp at h
  · left; exact ⟨by assumption, by assumption, h.symm⟩
  · right; exact ⟨by linarith, by assumption, h.symm⟩

theorem hiB_ge {n : Nat} {B : ℚ} {lo up x : Nat → ℚ} (hx : Box n lo up x) {p : Nat × ℚ} (hp : p.1 < n) {v : ℚ}
    (h : hiB B lo up p = some v) : p.2 * x p.1 ≤ v := by
  obtain ⟨hl, hu⟩ := hx p.1 hp
  rcases hiB_some h with ⟨h0, _, rfl⟩ | ⟨h0, _, rfl⟩ <;> nlinarith

theorem loB_le {n : Nat} {B : ℚ} {lo up x : Nat → ℚ} (hx : Box n lo up x) {p : Nat × ℚ} (hp : p.1 < n) {v : ℚ}
    (h : loB B lo up p = some v) : v ≤ p.2 * x p.1 := by
  obtain ⟨hl, hu⟩ := hx p.1 hp
  rcases loB_some h with ⟨h0, _, rfl⟩ | ⟨h0, _, rfl⟩ <;> nlinarith

/-- What is assumed of a row in the proofs. -/
structure RowOk (n : Nat) (r : Row) : Prop where
  cols : ∀ p ∈ r.coefs, p.1 < n
  nodup : (r.coefs.map Prod.fst).Nodup
  nonzero : ∀ p ∈ r.coefs, p.2 ≠ 0
  sort : r.coefs.Pairwise fun p q => p.2 ≤ q.2

theorem RowOk.freed {n : Nat} {r : Row} (h : RowOk n r) : RowOk n (freed r) := ⟨h.cols, h.nodup, h.nonzero, h.sort⟩

/-- The bounds of `s'` are at least as tight as those of `s`. -/
def Tighter (lo up lo' up' : Nat → ℚ) : Prop := ∀ j, lo j ≤ lo' j ∧ up' j ≤ up j

theorem Tighter.refl (lo up : Nat → ℚ) : Tighter lo up lo up := fun _ => ⟨le_refl _, le_refl _⟩
theorem Tighter.trans {a b c d e f : Nat → ℚ} (h : Tighter a b c d) (h' : Tighter c d e f) : Tighter a b e f :=
  fun j => ⟨le_trans (h j).1 (h' j).1, le_trans (h' j).2 (h j).2⟩

theorem setLo_tighter (tol : ℚ) (s : TState) (j : Nat) (b : ℚ) :
    Tighter s.lo s.up (s.setLo tol j b).lo (s.setLo tol j b).up := by
  intro k; unfold TState.setLo; split
  · rename_i h
    refine ⟨?_, le_refl _⟩
    by_cases hk : k = j
    · subst hk; simp; linarith
    · simp [Function.update_of_ne hk]
  · exact ⟨le_refl _, le_refl _⟩

theorem setUp_tighter (tol : ℚ) (s : TState) (j : Nat) (b : ℚ) :
    Tighter s.lo s.up (s.setUp tol j b).lo (s.setUp tol j b).up := by
  intro k; unfold TState.setUp; split
  · rename_i h
    refine ⟨le_refl _, ?_⟩
    by_cases hk : k = j
    · subst hk; simp; linarith
    · simp [Function.update_of_ne hk]
  · exact ⟨le_refl _, le_refl _⟩

theorem setLo_box {n : Nat} {tol : ℚ} {s : TState} {j : Nat} {b : ℚ} {x : Nat → ℚ} (hx : Box n s.lo s.up x)
    (hb : b ≤ x j) : Box n (s.setLo tol j b).lo (s.setLo tol j b).up x := by
  intro k hk; unfold TState.setLo; split
  · refine ⟨?_, (hx k hk).2⟩
    by_cases hkj : k = j
    · subst hkj; simpa using hb
    · simpa [Function.update_of_ne hkj] using (hx k hk).1
  · exact hx k hk

theorem setUp_box {n : Nat} {tol : ℚ} {s : TState} {j : Nat} {b : ℚ} {x : Nat → ℚ} (hx : Box n s.lo s.up x)
    (hb : x j ≤ b) : Box n (s.setUp tol j b).lo (s.setUp tol j b).up x := by
  intro k hk; unfold TState.setUp; split
  · refine ⟨(hx k hk).1, ?_⟩
    by_cases hkj : k = j
    · subst hkj; simpa using hb
    · simpa [Function.update_of_ne hkj] using (hx k hk).2
  · exact hx k hk

theorem lowerEntry_tighter (tol rl dmax : ℚ) (s : TState) (p : Nat × ℚ) :
    Tighter s.lo s.up (lowerEntry tol rl dmax s p).lo (lowerEntry tol rl dmax s p).up := by
  unfold lowerEntry
  split <;> split
  · exact setLo_tighter _ _ _ _
  · exact .refl _ _
  · exact setUp_tighter _ _ _ _
  · exact .refl _ _

theorem upperEntry_tighter (tol rl dmax : ℚ) (s : TState) (p : Nat × ℚ) :
    Tighter s.lo s.up (upperEntry tol rl dmax s p).lo (upperEntry tol rl dmax s p).up := by
  unfold upperEntry
  split <;> split
  · exact setLo_tighter _ _ _ _
  · exact .refl _ _
  · exact setUp_tighter _ _ _ _
  · exact .refl _ _

theorem foldl_tighter {f : TState → Nat × ℚ → TState} (hf : ∀ s p, Tighter s.lo s.up (f s p).lo (f s p).up)
    (es : SVec) (s : TState) : Tighter s.lo s.up (es.foldl f s).lo (es.foldl f s).up := by
  induction es generalizing s with
  | nil => exact .refl _ _
  | cons p es ih => exact (hf s p).trans (ih _)

theorem lowerLoop_tighter (tol : ℚ) (dol : Bool) (r : Row) (s : TState) :
    Tighter s.lo s.up (lowerLoop tol dol r s).lo (lowerLoop tol dol r s).up := by
  unfold lowerLoop; split
  · exact foldl_tighter (lowerEntry_tighter _ _ _) _ _
  · exact .refl _ _

theorem bothLoops_tighter (tol : ℚ) (dol : Bool) (r : Row) (s : TState) :
    Tighter s.lo s.up (bothLoops tol dol r s).lo (bothLoops tol dol r s).up := by
  unfold bothLoops; split
  · exact (lowerLoop_tighter tol dol r s).trans (foldl_tighter (upperEntry_tighter _ _ _) _ _)
  · exact lowerLoop_tighter tol dol r s

theorem tightenRows_tighter (tol : ℚ) (dol : Bool) (rs : List Row) (s : TState) :
    Tighter s.lo s.up (tightenRows tol dol rs s).2.lo (tightenRows tol dol rs s).2.up := by
  induction rs generalizing s with
  | nil => exact .refl _ _
  | cons r rs ih =>
    unfold tightenRows
    split
    · split
      · exact ih _
      · split
        · exact .refl _ _
        · exact (bothLoops_tighter tol dol r s).trans (ih _)
    · exact ih _

/-! ### Points that satisfy the row -/

/-- The bound from the row lower bound, for one entry, from the bounds at the start of the row. -/
theorem key_lower {n : Nat} {lo up x : Nat → ℚ} (hx : Box n lo up x) {r : Row} (hr : RowOk n r)
    (h0 : flags (hiTerms lo up r.coefs) = 0) (hl : r.lb ≤ SVec.dot r.coefs x) {p : Nat × ℚ} (hp : p ∈ r.coefs) :
    (0 < p.2 → up p.1 + (r.lb - dmaxup lo up r.coefs) / p.2 ≤ x p.1) ∧
    (p.2 < 0 → x p.1 ≤ lo p.1 + (r.lb - dmaxup lo up r.coefs) / p.2) := by
  unfold dmaxup
  rw [if_neg (by simpa using h0)]
  rw [hiTerms_eq hr.sort] at h0 ⊢
  obtain ⟨v, hv⟩ := flags_eq_zero h0 (List.mem_map.mpr ⟨p, hp, rfl⟩)
  have := (dot_le_total h0 fun q hq w hw => hiB_ge hx (hr.cols q hq) hw).2 p hp v hv
  rcases hiB_some hv with ⟨h1, _, rfl⟩ | ⟨h1, _, rfl⟩
  · refine ⟨fun _ => ?_, fun h => absurd h (by linarith)⟩
    rw [← sub_nonneg]
    have : x p.1 - (up p.1 + (r.lb - total (r.coefs.map (hiB 1000000000000 lo up))) / p.2) =
        (p.2 * x p.1 - up p.1 * p.2 + total (r.coefs.map (hiB 1000000000000 lo up)) - r.lb) / p.2 := by
      field_simp; ring
    rw [this]; apply div_nonneg _ h1.le; linarith
  · refine ⟨fun h => absurd h (by linarith), fun h => ?_⟩
    rw [← sub_nonneg]
    have : (lo p.1 + (r.lb - total (r.coefs.map (hiB 1000000000000 lo up))) / p.2) - x p.1 =
        (p.2 * x p.1 - lo p.1 * p.2 + total (r.coefs.map (hiB 1000000000000 lo up)) - r.lb) / (-p.2) := by
      have := h.ne
      field_simp; ring
    rw [this]; apply div_nonneg _ (by linarith); linarith

/-- The bound from the row upper bound, for one entry. -/
theorem key_upper {n : Nat} {lo up x : Nat → ℚ} (hx : Box n lo up x) {r : Row} (hr : RowOk n r)
    (h0 : flags (loTerms lo up r.coefs) = 0) (hl : SVec.dot r.coefs x ≤ r.ub) {p : Nat × ℚ} (hp : p ∈ r.coefs) :
    (0 < p.2 → x p.1 ≤ lo p.1 + (r.ub - dmaxdown lo up r.coefs) / p.2) ∧
    (p.2 < 0 → up p.1 + (r.ub - dmaxdown lo up r.coefs) / p.2 ≤ x p.1) := by
  unfold dmaxdown
  rw [if_neg (by simpa using h0)]
  rw [loTerms_eq hr.sort] at h0 ⊢
  obtain ⟨v, hv⟩ := flags_eq_zero h0 (List.mem_map.mpr ⟨p, hp, rfl⟩)
  have := (total_le_dot h0 fun q hq w hw => loB_le hx (hr.cols q hq) hw).2 p hp v hv
  rcases loB_some hv with ⟨h1, _, rfl⟩ | ⟨h1, _, rfl⟩
  · refine ⟨fun _ => ?_, fun h => absurd h (by linarith)⟩
    rw [← sub_nonneg]
    have : (lo p.1 + (r.ub - total (r.coefs.map (loB 1000000000000 lo up))) / p.2) - x p.1 =
        (lo p.1 * p.2 - p.2 * x p.1 - total (r.coefs.map (loB 1000000000000 lo up)) + r.ub) / p.2 := by
      field_simp; ring
    rw [this]; apply div_nonneg _ h1.le; linarith
  · refine ⟨fun h => absurd h (by linarith), fun h => ?_⟩
    rw [← sub_nonneg]
    have : x p.1 - (up p.1 + (r.ub - total (r.coefs.map (loB 1000000000000 lo up))) / p.2) =
        (up p.1 * p.2 - p.2 * x p.1 - total (r.coefs.map (loB 1000000000000 lo up)) + r.ub) / (-p.2) := by
      have := h.ne
      field_simp; ring
    rw [this]; apply div_nonneg _ (by linarith); linarith

theorem lowerEntry_box {n : Nat} {lo up x : Nat → ℚ} (hx : Box n lo up x) {r : Row} (hr : RowOk n r)
    (h0 : flags (hiTerms lo up r.coefs) = 0) (hl : r.lb ≤ SVec.dot r.coefs x) {tol : ℚ} {s : TState}
    (hs : Box n s.lo s.up x) (ht : Tighter lo up s.lo s.up) {p : Nat × ℚ} (hp : p ∈ r.coefs) :
    Box n (lowerEntry tol r.lb (dmaxup lo up r.coefs) s p).lo (lowerEntry tol r.lb (dmaxup lo up r.coefs) s p).up x := by
  obtain ⟨k1, k2⟩ := key_lower hx hr h0 hl hp
  unfold lowerEntry
  split <;> split
  · apply setLo_box hs
    have := k1 (by assumption)
    have := (ht p.1).2
    linarith
  · exact hs
  · apply setUp_box hs
    have := k2 (lt_of_le_of_ne (not_lt.mp (by assumption)) (hr.nonzero p hp))
    have := (ht p.1).1
    linarith
  · exact hs

theorem upperEntry_box {n : Nat} {lo up x : Nat → ℚ} (hx : Box n lo up x) {r : Row} (hr : RowOk n r)
    (h0 : flags (loTerms lo up r.coefs) = 0) (hl : SVec.dot r.coefs x ≤ r.ub) {tol : ℚ} {s : TState}
    (hs : Box n s.lo s.up x) (ht : Tighter lo up s.lo s.up) {p : Nat × ℚ} (hp : p ∈ r.coefs) :
    Box n (upperEntry tol r.ub (dmaxdown lo up r.coefs) s p).lo
      (upperEntry tol r.ub (dmaxdown lo up r.coefs) s p).up x := by
  obtain ⟨k1, k2⟩ := key_upper hx hr h0 hl hp
  unfold upperEntry
  split <;> split
  · apply setLo_box hs
    have := k2 (by assumption)
    have := (ht p.1).2
    linarith
  · exact hs
  · apply setUp_box hs
    have := k1 (lt_of_le_of_ne (not_lt.mp (by assumption)) (Ne.symm (hr.nonzero p hp)))
    have := (ht p.1).1
    linarith
  · exact hs

theorem foldl_box {n : Nat} {lo up x : Nat → ℚ} {f : TState → Nat × ℚ → TState} {es : SVec}
    (hf : ∀ s, ∀ p ∈ es, Box n s.lo s.up x → Tighter lo up s.lo s.up → Box n (f s p).lo (f s p).up x)
    (ht : ∀ s p, Tighter s.lo s.up (f s p).lo (f s p).up) {s : TState} (hs : Box n s.lo s.up x)
    (h0 : Tighter lo up s.lo s.up) : Box n (es.foldl f s).lo (es.foldl f s).up x := by
  induction es generalizing s with
  | nil => exact hs
  | cons p es ih =>
    exact ih (fun s q hq => hf s q (List.mem_cons_of_mem _ hq)) (hf s p List.mem_cons_self hs h0) (h0.trans (ht s p))

theorem lowerLoop_box {n : Nat} {inf : ℚ} (hinf : 10 ^ 100 ≤ inf) {x : Nat → ℚ} {tol : ℚ} {dol : Bool} {r : Row}
    (hr : RowOk n r) {s : TState} (hs : Box n s.lo s.up x) (hsat : r.Sat inf x) :
    Box n (lowerLoop tol dol r s).lo (lowerLoop tol dol r s).up x := by
  unfold lowerLoop; split
  · rename_i h
    simp only [useLower, Bool.and_eq_true, decide_eq_true_eq] at h
    have hl : r.lb ≤ SVec.dot r.coefs x := hsat.1 (by linarith [h.1.2])
    exact foldl_box (fun s' p hp hb ht => lowerEntry_box hs hr h.1.1 hl hb ht hp)
      (lowerEntry_tighter _ _ _) hs (.refl _ _)
  · exact hs

theorem bothLoops_box {n : Nat} {inf : ℚ} (hinf : 10 ^ 100 ≤ inf) {x : Nat → ℚ} {tol : ℚ} {dol : Bool} {r : Row}
    (hr : RowOk n r) {s : TState} (hs : Box n s.lo s.up x) (hsat : r.Sat inf x) :
    Box n (bothLoops tol dol r s).lo (bothLoops tol dol r s).up x := by
  unfold bothLoops; split
  · rename_i h
    simp only [useUpper, Bool.and_eq_true, decide_eq_true_eq] at h
    have hl : SVec.dot r.coefs x ≤ r.ub := hsat.2 (by linarith [h.1.2])
    exact foldl_box (fun s' p hp hb ht => upperEntry_box hs hr h.1.1 hl hb ht hp)
      (upperEntry_tighter _ _ _) (lowerLoop_box hinf hr hs hsat) (lowerLoop_tighter _ _ _ _)
  · exact lowerLoop_box hinf hr hs hsat

theorem freed_sat {inf : ℚ} (hd : inf ≤ dblMax) (r : Row) (x : Nat → ℚ) : (freed r).Sat inf x :=
  ⟨fun h => absurd h (by simp only [freed]; linarith), fun h => absurd h (by simp only [freed]; linarith)⟩

/-- The loop over the rows keeps the points that satisfy the rows. -/
theorem tightenRows_keeps {n : Nat} {inf : ℚ} (hinf : 10 ^ 100 ≤ inf) (hd : inf ≤ dblMax) {x : Nat → ℚ} {tol : ℚ}
    {dol : Bool} {rs : List Row} (hr : ∀ r ∈ rs, RowOk n r) {s : TState} (hs : Box n s.lo s.up x)
    (hsat : ∀ r ∈ rs, r.Sat inf x) :
    Box n (tightenRows tol dol rs s).2.lo (tightenRows tol dol rs s).2.up x ∧
      ∀ r ∈ (tightenRows tol dol rs s).1, r.Sat inf x := by
  induction rs generalizing s with
  | nil => exact ⟨hs, hsat⟩
  | cons r rs ih =>
    have ih := fun {s} => ih (s := s) (fun r' h => hr r' (List.mem_cons_of_mem _ h))
    have hsat' := fun r' h => hsat r' (List.mem_cons_of_mem _ h)
    unfold tightenRows
    split
    · split
      · obtain ⟨h1, h2⟩ := ih (s := { s with nchange := s.nchange + 1 }) hs hsat'
        refine ⟨h1, fun r' h => ?_⟩
        rcases List.mem_cons.mp h with rfl | h
        · exact freed_sat hd _ _
        · exact h2 r' h
      · split
        · exact ⟨hs, hsat⟩
        · obtain ⟨h1, h2⟩ := ih (bothLoops_box hinf (hr r List.mem_cons_self) hs (hsat r List.mem_cons_self)) hsat'
          refine ⟨h1, fun r' h => ?_⟩
          rcases List.mem_cons.mp h with rfl | h
          · exact hsat _ List.mem_cons_self
          · exact h2 r' h
    · obtain ⟨h1, h2⟩ := ih hs hsat'
      refine ⟨h1, fun r' h => ?_⟩
      rcases List.mem_cons.mp h with rfl | h
      · exact hsat _ List.mem_cons_self
      · exact h2 r' h

/-- Each row is kept or made free. -/
theorem tightenRows_rows (tol : ℚ) (dol : Bool) (rs : List Row) (s : TState) :
    List.Forall₂ (fun r t => t = r ∨ t = freed r) rs (tightenRows tol dol rs s).1 := by
  induction rs generalizing s with
  | nil => exact .nil
  | cons r rs ih =>
    unfold tightenRows
    split
    · split
      · exact .cons (.inr rfl) (ih _)
      · split
        · exact .cons (.inl rfl) (List.forall₂_same.mpr fun _ _ => .inl rfl)
        · exact .cons (.inl rfl) (ih _)
    · exact .cons (.inl rfl) (ih _)

theorem roundCols_box {P : Prob} {s : TState} {x : Nat → ℚ} (hs : Box P.nCols s.lo s.up x)
    (hi : ∀ j < P.nCols, P.isInt j = true → IsInteger (x j)) :
    Box P.nCols (roundCols P s).lo (roundCols P s).up x := by
  intro j hj
  obtain ⟨hl, hu⟩ := hs j hj
  unfold roundCols
  dsimp only
  split
  · rename_i h
    obtain ⟨z, hz⟩ := hi j hj h.2
    rw [hz] at hl hu ⊢
    refine ⟨?_, ?_⟩
    · unfold ceil4
      exact_mod_cast Int.ceil_le.mpr (by linarith)
    · unfold floor4
      exact_mod_cast Int.le_floor.mpr (by linarith)
  · exact ⟨hl, hu⟩

/-- The row is kept or made free. -/
def Rel (r t : Row) : Prop := t = r ∨ t = freed r

theorem Rel.trans {a b c : Row} (h : Rel a b) (h' : Rel b c) : Rel a c := by
  rcases h with rfl | rfl
  · exact h'
  · rcases h' with rfl | rfl <;> exact .inr rfl

theorem rel_trans {l1 l2 l3 : List Row} (h : List.Forall₂ Rel l1 l2) (h' : List.Forall₂ Rel l2 l3) :
    List.Forall₂ Rel l1 l3 := by
  induction h generalizing l3 with
  | nil => exact h'
  | cons h1 _ ih =>
    cases h' with
    | cons h2 h3 => exact .cons (h1.trans h2) (ih h3)

theorem rel_mem {l1 l2 : List Row} (h : List.Forall₂ Rel l1 l2) {t : Row} (ht : t ∈ l2) : ∃ r ∈ l1, Rel r t := by
  induction h with
  | nil => simp at ht
  | cons h1 _ ih =>
    rcases List.mem_cons.mp ht with rfl | ht
    · exact ⟨_, List.mem_cons_self, h1⟩
    · obtain ⟨r, hr, h⟩ := ih ht
      exact ⟨r, List.mem_cons_of_mem _ hr, h⟩

theorem rel_rowOk {n : Nat} {l1 l2 : List Row} (h : List.Forall₂ Rel l1 l2) (hr : ∀ r ∈ l1, RowOk n r) :
    ∀ t ∈ l2, RowOk n t := by
  intro t ht
  obtain ⟨r, hr', h | h⟩ := rel_mem h ht
  · rw [h]; exact hr r hr'
  · rw [h]; exact (hr r hr').freed

theorem tightenPasses_rows (P : Prob) (tol : ℚ) (k : Nat) (dol : Bool) (rs : List Row) (s : TState) :
    List.Forall₂ Rel rs (tightenPasses P tol k dol rs s).1 := by
  induction k generalizing dol rs s with
  | zero => exact List.forall₂_same.mpr fun _ _ => .inl rfl
  | succ k ih =>
    unfold tightenPasses
    split
    · exact tightenRows_rows ..
    · exact rel_trans (tightenRows_rows ..) (ih ..)

/-- `tighten` keeps the points that satisfy the rows and are integer where they have to be. -/
theorem tightenPasses_keeps {P : Prob} (hinf : 10 ^ 100 ≤ P.inf) (hd : P.inf ≤ dblMax) {x : Nat → ℚ} {tol : ℚ}
    (hi : ∀ j < P.nCols, P.isInt j = true → IsInteger (x j)) {k : Nat} {dol : Bool} {rs : List Row}
    (hr : ∀ r ∈ rs, RowOk P.nCols r) {s : TState} (hs : Box P.nCols s.lo s.up x) (hsat : ∀ r ∈ rs, r.Sat P.inf x) :
    Box P.nCols (tightenPasses P tol k dol rs s).2.lo (tightenPasses P tol k dol rs s).2.up x := by
  induction k generalizing dol rs s with
  | zero => exact hs
  | succ k ih =>
    obtain ⟨h1, h2⟩ := tightenRows_keeps hinf hd (tol := tol) (dol := dol) hr (s := { s with nchange := 0 }) hs hsat
    have h3 := roundCols_box h1 hi
    unfold tightenPasses
    split
    · exact h3
    · exact ih (rel_rowOk (tightenRows_rows ..) hr) h3 h2

/-! ### What the first phase leaves -/

theorem sorted_ok {c : Call} (hc : Setting c) : ∀ r ∈ sorted c, RowOk c.P.nCols r := by
  intro t ht
  obtain ⟨r, hr, rfl⟩ := List.mem_map.mp ht
  have hp := hc.perm r.coefs
  exact ⟨fun p h => hc.wf.cols r hr p (hp.mem_iff.mp h), (hp.map Prod.fst).nodup_iff.mpr (hc.wf.nodup r hr),
    fun p h => hc.nonzero r hr p (hp.mem_iff.mp h), hc.sort _⟩

theorem sat_perm {inf : ℚ} {l u : ℚ} {es fs : SVec} (h : es.Perm fs) {x : Nat → ℚ} :
    (Row.mk l u es).Sat inf x ↔ (Row.mk l u fs).Sat inf x := by
  unfold Row.Sat
  rw [SVec.dot_perm h]

theorem sorted_sat {c : Call} (hc : Setting c) {x : Nat → ℚ} :
    (∀ r ∈ sorted c, r.Sat c.P.inf x) ↔ ∀ r ∈ c.P.rows, r.Sat c.P.inf x := by
  unfold sorted
  rw [List.forall_mem_map]
  exact forall₂_congr fun r _ => sat_perm (hc.perm r.coefs)

/-- A finite point satisfies the bounds outright. -/
theorem box_iff {P : Prob} {lo up x : Nat → ℚ} (hf : ∀ j < P.nCols, |x j| < P.inf) :
    Box P.nCols lo up x ↔ (∀ j < P.nCols, lbOk P.inf (lo j) (x j)) ∧ ∀ j < P.nCols, ubOk P.inf (up j) (x j) := by
  constructor
  · intro h
    exact ⟨fun j hj _ => (h j hj).1, fun j hj _ => (h j hj).2⟩
  · rintro ⟨h1, h2⟩ j hj
    have := abs_lt.mp (hf j hj)
    refine ⟨?_, ?_⟩
    · by_cases h : -P.inf < lo j
      · exact h1 j hj h
      · linarith
    · by_cases h : up j < P.inf
      · exact h2 j hj h
      · linarith

theorem box1_iff {c : Call} {x : Nat → ℚ} : Box c.P.nCols (lo1 c) (up1 c) x ↔
    Box c.P.nCols c.P.colLower c.P.colUpper x ∧ Box c.P.nCols (tightened c).2.lo (tightened c).2.up x := by
  have hl : ∀ j, lo1 c j = max (c.P.colLower j) ((tightened c).2.lo j) := by
    intro j; unfold lo1; split
    · rw [max_eq_right (by linarith)]
    · rw [max_eq_left (by linarith)]
  have hu : ∀ j, up1 c j = min (c.P.colUpper j) ((tightened c).2.up j) := by
    intro j; unfold up1; split
    · rw [min_eq_right (by linarith)]
    · rw [min_eq_left (by linarith)]
  unfold Box
  simp only [hl, hu, max_le_iff, le_min_iff]
  constructor
  · intro h; exact ⟨fun j hj => ⟨(h j hj).1.1, (h j hj).2.1⟩, fun j hj => ⟨(h j hj).1.2, (h j hj).2.2⟩⟩
  · rintro ⟨h, h'⟩ j hj; exact ⟨⟨(h j hj).1, (h' j hj).1⟩, (h j hj).2, (h' j hj).2⟩

theorem zip_rel (l1 l2 : List Row) (h : List.Forall₂ Rel l1 l2) :
    List.Forall₂ Rel l1 (List.zipWith (fun r t => if isFree t then freed r else r) l1 l2) := by
  induction h with
  | nil => exact .nil
  | cons _ _ ih =>
    rw [List.zipWith_cons_cons]
    refine .cons ?_ ih
    split
    · exact .inr rfl
    · exact .inl rfl

theorem rows1_rel (c : Call) : List.Forall₂ Rel (sorted c) (rows1 c) :=
  zip_rel _ _ (tightenPasses_rows ..)

theorem rel_sat {inf : ℚ} (hd : inf ≤ dblMax) {l1 l2 : List Row} (h : List.Forall₂ Rel l1 l2) {x : Nat → ℚ}
    (hs : ∀ r ∈ l1, r.Sat inf x) : ∀ t ∈ l2, t.Sat inf x := by
  intro t ht
  obtain ⟨r, hr, h | h⟩ := rel_mem h ht
  · rw [h]; exact hs r hr
  · rw [h]; exact freed_sat hd r x

/-- The first phase keeps every finite feasible point. -/
theorem phase1_keeps {c : Call} (hc : Setting c) {x : Nat → ℚ} (hf : ∀ j < c.P.nCols, |x j| < c.P.inf)
    (hx : c.P.Feasible x) : Box c.P.nCols (lo1 c) (up1 c) x ∧ ∀ r ∈ rows1 c, r.Sat c.P.inf x := by
  have hs : ∀ r ∈ sorted c, r.Sat c.P.inf x := (sorted_sat hc).mpr hx.rows
  have hb : Box c.P.nCols c.P.colLower c.P.colUpper x := (box_iff hf).mpr ⟨hx.lower, hx.upper⟩
  refine ⟨box1_iff.mpr ⟨hb, ?_⟩, rel_sat hc.inf.2 (rows1_rel c) hs⟩
  exact tightenPasses_keeps hc.inf.1 hc.inf.2 hx.int (sorted_ok hc) hb hs

/-! ### Integer points of the result are points of the problem -/

/-- The value of the row at the point is integer and so are its finite bounds. -/
structure IntRow (inf : ℚ) (x : Nat → ℚ) (r : Row) : Prop where
  dot : IsInteger (SVec.dot r.coefs x)
  lb : -inf < r.lb → IsInteger r.lb
  ub : r.ub < inf → IsInteger r.ub
  bounds : RowBounds inf r

theorem IntRow.freed {inf : ℚ} (hd : inf ≤ dblMax) {x : Nat → ℚ} {r : Row} (h : IntRow inf x r) :
    IntRow inf x (freed r) :=
  ⟨h.dot, fun h' => absurd h' (by simp only [PreTighten.freed]; linarith),
    fun h' => absurd h' (by simp only [PreTighten.freed]; linarith),
    ⟨.inl (by simp only [PreTighten.freed]; linarith), .inl (by simp only [PreTighten.freed]; linarith)⟩⟩

theorem rel_intRow {inf : ℚ} (hd : inf ≤ dblMax) {x : Nat → ℚ} {l1 l2 : List Row} (h : List.Forall₂ Rel l1 l2)
    (hr : ∀ r ∈ l1, IntRow inf x r) : ∀ t ∈ l2, IntRow inf x t := by
  intro t ht
  obtain ⟨r, hr', h | h⟩ := rel_mem h ht
  · rw [h]; exact hr r hr'
  · rw [h]; exact (hr r hr').freed hd

theorem int_le {a b t : ℚ} (ha : IsInteger a) (hb : IsInteger b) (h : a ≤ b + t) (ht : t < 1) : a ≤ b := by
  obtain ⟨z, rfl⟩ := ha
  obtain ⟨w, rfl⟩ := hb
  have : (z : ℚ) < w + 1 := by linarith
  have : z < w + 1 := by exact_mod_cast this
  exact_mod_cast Int.lt_add_one_iff.mp this

theorem redundant_sat {n : Nat} {inf tol : ℚ} (ht : tol < 1) {lo up x : Nat → ℚ}
    (hx : Box n lo up x) {r : Row} (hr : RowOk n r) (hi : IntRow inf x r) (h : redundant tol lo up r = true) :
    r.Sat inf x := by
  simp only [redundant, Bool.and_eq_true, decide_eq_true_eq] at h
  obtain ⟨h1, h2⟩ := h
  constructor
  · intro hl
    have hb : |r.lb| ≤ 10 ^ 19 := hi.bounds.1.resolve_left (by linarith)
    unfold dmaxdown at h2
    split at h2
    · have := (abs_le.mp hb).1
      norm_num at h2; linarith
    · rename_i h0
      rw [not_not, loTerms_eq hr.sort] at h0
      rw [loTerms_eq hr.sort] at h2
      have := (total_le_dot h0 fun q hq w hw => loB_le hx (hr.cols q hq) hw).1
      exact int_le (hi.lb hl) hi.dot (t := tol) (by linarith) ht
  · intro hl
    have hb : |r.ub| ≤ 10 ^ 19 := hi.bounds.2.resolve_left (by linarith)
    unfold dmaxup at h1
    split at h1
    · have := (abs_le.mp hb).2
      norm_num at h1; linarith
    · rename_i h0
      rw [not_not, hiTerms_eq hr.sort] at h0
      rw [hiTerms_eq hr.sort] at h1
      have := (dot_le_total h0 fun q hq w hw => hiB_ge hx (hr.cols q hq) hw).1
      exact int_le hi.dot (hi.ub hl) (t := tol) (by linarith) ht

/-- An integer point within the bounds at the start of the loop over the rows that satisfies the rows left by the loop
satisfies all rows. -/
theorem tightenRows_back {n : Nat} {inf : ℚ} (hinf : 10 ^ 100 ≤ inf) {x : Nat → ℚ} {tol : ℚ} (ht : tol < 1)
    {dol : Bool} {rs : List Row} (hr : ∀ r ∈ rs, RowOk n r) (hi : ∀ r ∈ rs, IntRow inf x r) {s : TState}
    (hs : Box n s.lo s.up x) (hsat : ∀ r ∈ (tightenRows tol dol rs s).1, r.Sat inf x) : ∀ r ∈ rs, r.Sat inf x := by
  induction rs generalizing s with
  | nil => simp
  | cons r rs ih =>
    have ih := fun {s} => ih (s := s) (fun r' h => hr r' (List.mem_cons_of_mem _ h))
      (fun r' h => hi r' (List.mem_cons_of_mem _ h))
    unfold tightenRows at hsat
    split at hsat
    · split at hsat
      · rename_i h
        intro r' hr'
        rcases List.mem_cons.mp hr' with rfl | hr'
        · exact redundant_sat ht hs (hr _ List.mem_cons_self) (hi _ List.mem_cons_self) h
        · exact ih (s := { s with nchange := s.nchange + 1 }) hs
            (fun t h => hsat t (List.mem_cons_of_mem _ h)) r' hr'
      · split at hsat
        · exact hsat
        · have h1 := hsat r List.mem_cons_self
          intro r' hr'
          rcases List.mem_cons.mp hr' with rfl | hr'
          · exact h1
          · exact ih (bothLoops_box hinf (hr r List.mem_cons_self) hs h1)
              (fun t h => hsat t (List.mem_cons_of_mem _ h)) r' hr'
    · intro r' hr'
      rcases List.mem_cons.mp hr' with rfl | hr'
      · exact hsat _ List.mem_cons_self
      · exact ih hs (fun t h => hsat t (List.mem_cons_of_mem _ h)) r' hr'

/-- The bounds of the columns are integers. -/
def IntBounds (n : Nat) (lo up : Nat → ℚ) : Prop := ∀ j < n, IsInteger (lo j) ∧ IsInteger (up j)

theorem floor4_int (z : ℤ) : floor4 z = z := by
  unfold floor4
  rw [show ⌊(z : ℚ) + 1/10000⌋ = z from by rw [Int.floor_eq_iff]; constructor <;> linarith]

theorem ceil4_int (z : ℤ) : ceil4 z = z := by
  unfold ceil4
  rw [show ⌈(z : ℚ) - 1/10000⌉ = z from by rw [Int.ceil_eq_iff]; constructor <;> linarith]

theorem floor4_mono {a b : ℚ} (h : a ≤ b) : floor4 a ≤ floor4 b := by
  unfold floor4
  exact_mod_cast Int.floor_le_floor (by linarith)

theorem ceil4_mono {a b : ℚ} (h : a ≤ b) : ceil4 a ≤ ceil4 b := by
  unfold ceil4
  exact_mod_cast Int.ceil_le_ceil (by linarith)

theorem roundCols_int {P : Prob} (hP : ∀ j < P.nCols, P.isInt j = true) (s : TState) :
    IntBounds P.nCols (roundCols P s).lo (roundCols P s).up := by
  intro j hj
  simp only [roundCols, hj, hP j hj, and_self, if_true]
  exact ⟨⟨_, rfl⟩, ⟨_, rfl⟩⟩

/-- A pass from integer bounds: the rounded bounds are not looser than those at the start. -/
theorem roundCols_back {P : Prob} (hP : ∀ j < P.nCols, P.isInt j = true) {lo up : Nat → ℚ}
    (hb : IntBounds P.nCols lo up) {s : TState} (ht : Tighter lo up s.lo s.up) {x : Nat → ℚ}
    (hx : Box P.nCols (roundCols P s).lo (roundCols P s).up x) : Box P.nCols lo up x := by
  intro j hj
  have := hx j hj
  simp only [roundCols, hj, hP j hj, and_self, if_true] at this
  obtain ⟨⟨z, hz⟩, ⟨w, hw⟩⟩ := hb j hj
  obtain ⟨h1, h2⟩ := ht j
  have e1 := ceil4_mono h1
  have e2 := floor4_mono h2
  rw [hz, ceil4_int] at e1
  rw [hw, floor4_int] at e2
  rw [hz, hw]
  exact ⟨by linarith [this.1], by linarith [this.2]⟩

theorem tightenPasses_back {P : Prob} (hP : ∀ j < P.nCols, P.isInt j = true) (hinf : 10 ^ 100 ≤ P.inf)
    (hd : P.inf ≤ dblMax) {x : Nat → ℚ} {tol : ℚ} (ht : tol < 1) {k : Nat} {dol : Bool} {rs : List Row}
    (hr : ∀ r ∈ rs, RowOk P.nCols r) (hi : ∀ r ∈ rs, IntRow P.inf x r) {s : TState}
    (hb : IntBounds P.nCols s.lo s.up)
    (hs : Box P.nCols (tightenPasses P tol k dol rs s).2.lo (tightenPasses P tol k dol rs s).2.up x)
    (hsat : ∀ r ∈ (tightenPasses P tol k dol rs s).1, r.Sat P.inf x) :
    Box P.nCols s.lo s.up x ∧ ∀ r ∈ rs, r.Sat P.inf x := by
  induction k generalizing dol rs s with
  | zero => exact ⟨hs, hsat⟩
  | succ k ih =>
    have hrow := tightenRows_rows tol dol rs { s with nchange := 0 }
    have key : Box P.nCols (roundCols P (tightenRows tol dol rs { s with nchange := 0 }).2).lo
          (roundCols P (tightenRows tol dol rs { s with nchange := 0 }).2).up x ∧
        ∀ r ∈ (tightenRows tol dol rs { s with nchange := 0 }).1, r.Sat P.inf x := by
      unfold tightenPasses at hs hsat
      split at hs
      · rename_i h
        rw [if_pos h] at hsat
        exact ⟨hs, hsat⟩
      · rename_i h
        rw [if_neg h] at hsat
        exact ih (rel_rowOk hrow hr) (rel_intRow hd hrow hi) (roundCols_int hP _) hs hsat
    have h0 : Box P.nCols s.lo s.up x :=
      roundCols_back hP hb (tightenRows_tighter tol dol rs { s with nchange := 0 }) key.1
    exact ⟨h0, tightenRows_back hinf ht hr hi (s := { s with nchange := 0 }) h0 key.2⟩

theorem zip_back {inf : ℚ} (hd : inf ≤ dblMax) {x : Nat → ℚ} {l1 l2 : List Row}
    (h : List.Forall₂ Rel l1 l2) (hi : ∀ r ∈ l1, RowBounds inf r)
    (hs : ∀ t ∈ List.zipWith (fun r t => if isFree t then freed r else r) l1 l2, t.Sat inf x) :
    ∀ t ∈ l2, t.Sat inf x := by
  induction h with
  | nil => simp
  | @cons r t l1 l2 hrt _ ih =>
    rw [List.zipWith_cons_cons] at hs
    have ih := ih (fun r' h => hi r' (List.mem_cons_of_mem _ h)) (fun t' h => hs t' (List.mem_cons_of_mem _ h))
    intro t' ht'
    rcases List.mem_cons.mp ht' with rfl | ht'
    · rcases hrt with rfl | rfl
      · have h0 := hs _ List.mem_cons_self
        split at h0
        · rename_i hf
          simp only [isFree, Bool.and_eq_true, decide_eq_true_eq] at hf
          have hb := hi _ List.mem_cons_self
          constructor
          · intro hl
            have := (abs_le.mp (hb.1.resolve_left (by linarith))).1
            have := hf.1
            norm_num at this; linarith
          · intro hl
            have := (abs_le.mp (hb.2.resolve_left (by linarith))).2
            have := hf.2
            norm_num at this; linarith
        · exact h0
      · exact freed_sat hd _ _
    · exact ih t' ht'

/-- The first phase adds no finite integer point. -/
theorem phase1_back {c : Call} (hc : Setting c) (hP : PureInteger c.P) (ht : c.tol < 1) {x : Nat → ℚ}
    (hi : ∀ r ∈ sorted c, IntRow c.P.inf x r) (hb : Box c.P.nCols (lo1 c) (up1 c) x)
    (hs : ∀ r ∈ rows1 c, r.Sat c.P.inf x) :
    Box c.P.nCols c.P.colLower c.P.colUpper x ∧ ∀ r ∈ sorted c, r.Sat c.P.inf x := by
  obtain ⟨h1, h2⟩ := box1_iff.mp hb
  have h3 := zip_back hc.inf.2 (tightenPasses_rows c.P c.tol 20 true (sorted c) _)
    (fun r hr => (hi r hr).bounds) hs
  exact ⟨h1, (tightenPasses_back hP.int hc.inf.1 hc.inf.2 ht (sorted_ok hc) hi
    (fun j hj => ⟨hP.lower j hj, hP.upper j hj⟩) h2 h3).2⟩

end Cgl.PreTighten
