import Verif.MIR.Model

/-!
# What the preprocessing of the mixed-integer rounding generators records is implied by the rows
-/

namespace Cgl.MIR

/-- What a sense character and right-hand side say about the row activity; `False` for senses that are never used. -/
def RowImp (s : Sense) (b v : ℚ) : Prop := match s with
  | .L => v ≤ b
  | .G => b ≤ v
  | .E => v = b
  | _ => False

/-- The preprocessed data agree with the point `x` of the problem `P`: the first rows of `P` satisfy the recorded sense and
right-hand side, and the recorded variable bounds hold. -/
structure PreOk (P : Prob) (pre : Pre) (x : Nat → ℚ) : Prop where
  nCols : pre.nCols = P.nCols
  rows : ∀ (i : Nat) (t : RowType) (s : Sense) (b : ℚ) (r : Row), pre.rows[i]? = some (t, s, b) → P.rows[i]? = some r → t = .mix ∨ t = .cont ∨ t = .int →
    RowImp s b (r.coefs.dot x)
  vub : ∀ j y v, pre.vub j = some (y, v) → y < P.nCols ∧ P.isInt y = true ∧ x j ≤ v * x y
  vlb : ∀ j y v, pre.vlb j = some (y, v) → y < P.nCols ∧ P.isInt y = true ∧ v * x y ≤ x j

/-- No coefficient of a row, and no row bound, is a nonzero number of size at most 1e-6. -/
def RowsClean (rows : List Row) : Prop :=
  ∀ r ∈ rows, (∀ p ∈ r.coefs, p.2 = 0 ∨ 1 / 10 ^ 6 < |p.2|) ∧ (r.lb = 0 ∨ 1 / 10 ^ 6 < |r.lb|) ∧
    (r.ub = 0 ∨ 1 / 10 ^ 6 < |r.ub|)

instance (rows : List Row) : Decidable (RowsClean rows) := by unfold RowsClean; infer_instance

theorem eps_pos : 0 < eps := by unfold eps; norm_num

theorem resolve_cases {inf : ℚ} {r : Row} {act : ℚ} {x : Nat → ℚ} (h : r.Sat inf x) :
    ((resolve inf r act).1 = .N ∧ (resolve inf r act).2 = 0) ∨
    (RowImp (resolve inf r act).1 (resolve inf r act).2 (r.coefs.dot x) ∧
      ((resolve inf r act).2 = r.lb ∨ (resolve inf r act).2 = r.ub)) := by
  obtain ⟨h1, h2⟩ := h
  unfold lbOk at h1; unfold ubOk at h2
  unfold resolve Row.senseRhs
  by_cases a : -inf < r.lb <;> by_cases b : r.ub < inf <;> by_cases c : r.ub = r.lb <;>
    by_cases d : act - r.lb < r.ub - act <;> simp [a, b, c, d, RowImp] at * <;> grind

theorem rowType_sense {v2 : Bool} {P : Prob} {coefs : SVec} {s : Sense} {b : ℚ}
    (h : determineRowType v2 P coefs s b = .mix ∨ determineRowType v2 P coefs s b = .cont ∨
      determineRowType v2 P coefs s b = .int ∨ determineRowType v2 P coefs s b = .varub ∨
      determineRowType v2 P coefs s b = .varlb ∨ determineRowType v2 P coefs s b = .vareq) : s ≠ .N := by
  rintro rfl
  unfold determineRowType at h
  cases v2 <;> by_cases hl : coefs.length = 0 <;> simp [hl] at h

/-! ### Variable bound rows -/

/-- Number of entries above the tolerance on integer columns. -/
def nInt (P : Prob) (v : SVec) : Nat := v.countP fun p => decide (eps < |p.2|) && P.isInt p.1
/-- Number of entries above the tolerance on continuous columns. -/
def nCon (P : Prob) (v : SVec) : Nat := v.countP fun p => decide (eps < |p.2|) && !P.isInt p.1

theorem abs_gt_iff (a : ℚ) : eps < |a| ↔ a < -eps ∨ eps < a := by
  rw [lt_abs]; constructor <;> rintro (h | h)
  · exact Or.inr h
  · exact Or.inl (by linarith)
  · exact Or.inr (by linarith)
  · exact Or.inl h

theorem count_split (q : Nat → Bool) (v : SVec) :
    (v.countP fun p => decide (p.2 < -eps) && q p.1) + (v.countP fun p => decide (eps < p.2) && q p.1) =
      v.countP fun p => decide (eps < |p.2|) && q p.1 := by
  induction v with
  | nil => rfl
  | cons p v ih =>
    simp only [List.countP_cons, ← ih]
    have he := eps_pos
    by_cases h1 : p.2 < -eps
    · have h2 : ¬ eps < p.2 := by intro h; linarith
      have h3 : eps < |p.2| := (abs_gt_iff _).2 (Or.inl h1)
      simp [h1, h2, h3]; omega
    · by_cases h2 : eps < p.2
      · have h3 : eps < |p.2| := (abs_gt_iff _).2 (Or.inr h2)
        simp [h1, h2, h3]; omega
      · have h3 : ¬ eps < |p.2| := by rw [abs_gt_iff]; push Not; exact ⟨not_lt.mp h1, not_lt.mp h2⟩
        simp [h1, h2, h3]

theorem scanVB_spec (P : Prob) (x : Nat → ℚ) : ∀ (v : SVec) (s : (Nat × ℚ) × (Nat × ℚ)),
    (∀ p ∈ v, p.2 = 0 ∨ eps < |p.2|) → nInt P v ≤ 1 → nCon P v ≤ 1 →
    SVec.dot v x = (if nInt P v = 1 then (scanVB P v s).1.2 * x (scanVB P v s).1.1 else 0) +
      (if nCon P v = 1 then (scanVB P v s).2.2 * x (scanVB P v s).2.1 else 0) ∧
    (if nInt P v = 1 then (scanVB P v s).1 ∈ v ∧ eps < |(scanVB P v s).1.2| ∧ P.isInt (scanVB P v s).1.1 = true
      else (scanVB P v s).1 = s.1) ∧
    (if nCon P v = 1 then (scanVB P v s).2 ∈ v ∧ eps < |(scanVB P v s).2.2| ∧ P.isInt (scanVB P v s).2.1 = false
      else (scanVB P v s).2 = s.2) := by
  intro v
  induction v with
  | nil => intro s _ _ _; simp [scanVB, nInt, nCon]
  | cons p v ih =>
    intro s hc h1 h2
    have hc' : ∀ q ∈ v, q.2 = 0 ∨ eps < |q.2| := fun q hq => hc q (List.mem_cons_of_mem _ hq)
    by_cases he : eps < |p.2|
    · by_cases hi : P.isInt p.1 = true
      · have e1 : nInt P (p :: v) = nInt P v + 1 := by simp [nInt, he, hi]
        have e2 : nCon P (p :: v) = nCon P v := by simp [nCon, hi]
        have e3 : scanVB P (p :: v) s = scanVB P v (p, s.2) := by simp [scanVB, he, hi]
        rw [e1] at h1
        have h0 : nInt P v = 0 := by omega
        obtain ⟨a, b, c⟩ := ih (p, s.2) hc' (by omega) (by omega)
        rw [h0] at a b
        simp only [zero_ne_one, if_false] at a b
        rw [e1, e2, e3, h0]
        simp only [zero_add, if_true, SVec.dot_cons, b]
        refine ⟨by rw [a]; ring, ⟨List.mem_cons_self, he, hi⟩, ?_⟩
        by_cases hk : nCon P v = 1
        · simp only [hk, if_true] at c ⊢
          exact ⟨List.mem_cons_of_mem _ c.1, c.2⟩
        · simp only [hk, if_false] at c ⊢; exact c
      · have hi' : P.isInt p.1 = false := by simpa using hi
        have e1 : nInt P (p :: v) = nInt P v := by simp [nInt, hi']
        have e2 : nCon P (p :: v) = nCon P v + 1 := by simp [nCon, hi', he]
        have e3 : scanVB P (p :: v) s = scanVB P v (s.1, p) := by simp [scanVB, he, hi']
        rw [e2] at h2
        have h0 : nCon P v = 0 := by omega
        obtain ⟨a, b, c⟩ := ih (s.1, p) hc' (by omega) (by omega)
        rw [h0] at a c
        simp only [zero_ne_one, if_false] at a c
        rw [e1, e2, e3, h0]
        simp only [zero_add, if_true, SVec.dot_cons, c]
        refine ⟨by rw [a]; ring, ?_, ⟨List.mem_cons_self, he, hi'⟩⟩
        by_cases hk : nInt P v = 1
        · simp only [hk, if_true] at b ⊢
          exact ⟨List.mem_cons_of_mem _ b.1, b.2⟩
        · simp only [hk, if_false] at b ⊢; exact b
    · have e1 : nInt P (p :: v) = nInt P v := by simp [nInt, he]
      have e2 : nCon P (p :: v) = nCon P v := by simp [nCon, he]
      have e3 : scanVB P (p :: v) s = scanVB P v s := by simp [scanVB, he]
      have hp : p.2 = 0 := (hc p List.mem_cons_self).resolve_right he
      rw [e1] at h1; rw [e2] at h2
      obtain ⟨a, b, c⟩ := ih s hc' h1 h2
      rw [e1, e2, e3]
      refine ⟨by rw [SVec.dot_cons, hp, a]; ring, ?_, ?_⟩
      · split at b
        · rename_i hk; rw [if_pos hk]; exact ⟨List.mem_cons_of_mem _ b.1, b.2⟩
        · rename_i hk; rw [if_neg hk]; exact b
      · split at c
        · rename_i hk; rw [if_pos hk]; exact ⟨List.mem_cons_of_mem _ c.1, c.2⟩
        · rename_i hk; rw [if_neg hk]; exact c

/-- The variable bounds tables hold at `x`. -/
def VBInv (P : Prob) (x : Nat → ℚ) (vub vlb : Nat → Option (Nat × ℚ)) : Prop :=
  (∀ j y v, vub j = some (y, v) → y < P.nCols ∧ P.isInt y = true ∧ x j ≤ v * x y) ∧
  (∀ j y v, vlb j = some (y, v) → y < P.nCols ∧ P.isInt y = true ∧ v * x y ≤ x j)

theorem upd_inv {P : Prob} {q : Nat → Nat → ℚ → Prop} {f : Nat → Option (Nat × ℚ)} {j0 y0 : Nat} {v0 : ℚ}
    (hf : ∀ j y v, f j = some (y, v) → y < P.nCols ∧ P.isInt y = true ∧ q j y v)
    (h0 : y0 < P.nCols ∧ P.isInt y0 = true ∧ q j0 y0 v0) :
    ∀ j y v, upd f j0 (some (y0, v0)) j = some (y, v) → y < P.nCols ∧ P.isInt y = true ∧ q j y v := by
  intro j y v h
  unfold upd at h
  split at h
  · rename_i e; subst e
    simp only [Option.some.injEq, Prod.mk.injEq] at h
    obtain ⟨rfl, rfl⟩ := h
    exact h0
  · exact hf j y v h

theorem recordVB_inv {v2 : Bool} {P : Prob} {r : Row} {s : Sense} {b : ℚ} {x : Nat → ℚ} {vub vlb : Nat → Option (Nat × ℚ)}
    (hcol : ∀ p ∈ r.coefs, p.1 < P.nCols) (hc : ∀ p ∈ r.coefs, p.2 = 0 ∨ eps < |p.2|) (hb : b = 0 ∨ eps < |b|)
    (himp : s = .N ∨ RowImp s b (r.coefs.dot x)) (hinv : VBInv P x vub vlb) :
    VBInv P x (recordVB P (determineRowType v2 P r.coefs s b) r.coefs vub vlb).1
      (recordVB P (determineRowType v2 P r.coefs s b) r.coefs vub vlb).2 := by
  by_cases ht : determineRowType v2 P r.coefs s b = .varub ∨ determineRowType v2 P r.coefs s b = .varlb ∨
      determineRowType v2 P r.coefs s b = .vareq
  swap
  · unfold recordVB
    push Not at ht
    obtain ⟨t1, t2, t3⟩ := ht
    cases hd : determineRowType v2 P r.coefs s b <;> simp_all
  have hN : s ≠ .N := rowType_sense (by tauto)
  have himp := himp.resolve_left hN
  -- unfold the classification
  have key : nInt P r.coefs = 1 ∧ nCon P r.coefs = 1 ∧ |b| ≤ eps ∧
      ((s = .L ∧ (if (r.coefs.countP fun p => decide (eps < p.2) && !P.isInt p.1) = 1 then
            determineRowType v2 P r.coefs s b = .varub else determineRowType v2 P r.coefs s b = .varlb)) ∨
        (s = .G ∧ (if (r.coefs.countP fun p => decide (eps < p.2) && !P.isInt p.1) = 1 then
            determineRowType v2 P r.coefs s b = .varlb else determineRowType v2 P r.coefs s b = .varub)) ∨
        (s = .E ∧ determineRowType v2 P r.coefs s b = .vareq)) := by
    have c1 := count_split (fun j => P.isInt j) r.coefs
    have c2 := count_split (fun j => !P.isInt j) r.coefs
    unfold determineRowType at ht ⊢
    simp only [c1, c2] at ht ⊢
    change _ = _ ∧ _ at *
    unfold nInt nCon
    generalize (r.coefs.countP fun p => decide (eps < |p.2|) && P.isInt p.1) = n1 at *
    generalize (r.coefs.countP fun p => decide (eps < |p.2|) && !P.isInt p.1) = n2 at *
    generalize (r.coefs.countP fun p => decide (eps < p.2) && !P.isInt p.1) = n3 at *
    split at ht
    · simp at ht
    split at ht
    · simp at ht
    split at ht
    · simp at ht
    rename_i g1 g2 g3
    simp only [g1, if_false, g2, g3]
    split at ht
    · split at ht
      · rename_i g4 g5
        simp only [g5, and_self, if_true]
        refine ⟨trivial, trivial, trivial, ?_⟩
        cases s <;> simp at ht ⊢
      · simp at ht
    · split at ht
      · simp at ht
      · split at ht <;> simp at ht
  obtain ⟨k1, k2, k3, k4⟩ := key
  have hb0 : b = 0 := hb.resolve_right (not_lt.mpr k3)
  obtain ⟨d, e, f⟩ := scanVB_spec P x r.coefs ((0, 0), (0, 0)) hc (le_of_eq k1) (le_of_eq k2)
  simp only [k1, k2, if_true] at d e f
  unfold recordVB
  generalize scanVB P r.coefs ((0, 0), (0, 0)) = yx at d e f ⊢
  obtain ⟨⟨yi, yc⟩, ⟨xi, xc⟩⟩ := yx
  simp only at d e f ⊢
  have hy := hcol _ e.1
  simp only at hy
  have hx0 : xc ≠ 0 := by
    rintro rfl; have := f.2.1; simp at this; linarith [eps_pos]
  have hcs := count_split (fun j => !P.isInt j) r.coefs
  have hposc : (r.coefs.countP fun p => decide (eps < p.2) && !P.isInt p.1) = 1 → 0 < xc := by
    intro h
    rcases (abs_gt_iff _).1 f.2.1 with g | g
    · have : 0 < r.coefs.countP fun p => decide (p.2 < -eps) && !P.isInt p.1 :=
        List.countP_pos_iff.2 ⟨_, f.1, by simp [g, f.2.2]⟩
      unfold nCon at k2
      omega
    · linarith [eps_pos]
  have hnegc : (r.coefs.countP fun p => decide (eps < p.2) && !P.isInt p.1) ≠ 1 → xc < 0 := by
    intro h
    rcases (abs_gt_iff _).1 f.2.1 with g | g
    · linarith [eps_pos]
    · have : 0 < r.coefs.countP fun p => decide (eps < p.2) && !P.isInt p.1 :=
        List.countP_pos_iff.2 ⟨_, f.1, by simp [g, f.2.2]⟩
      unfold nCon at k2
      omega
  have hup : (r.coefs.dot x ≤ 0 ∧ 0 < xc) ∨ (0 ≤ r.coefs.dot x ∧ xc < 0) → x xi ≤ -yc / xc * x yi := by
    rw [d]
    rintro (⟨g1, g2⟩ | ⟨g1, g2⟩)
    · rw [neg_div, neg_mul, div_mul_eq_mul_div, ← neg_div, le_div_iff₀ g2]; linarith
    · rw [neg_div, neg_mul, div_mul_eq_mul_div, ← neg_div, le_div_iff_of_neg g2]; linarith
  have hlo : (0 ≤ r.coefs.dot x ∧ 0 < xc) ∨ (r.coefs.dot x ≤ 0 ∧ xc < 0) → -yc / xc * x yi ≤ x xi := by
    rw [d]
    rintro (⟨g1, g2⟩ | ⟨g1, g2⟩)
    · rw [neg_div, neg_mul, div_mul_eq_mul_div, ← neg_div, div_le_iff₀ g2]; linarith
    · rw [neg_div, neg_mul, div_mul_eq_mul_div, ← neg_div, div_le_iff_of_neg g2]; linarith
  rcases k4 with ⟨rfl, k⟩ | ⟨rfl, k⟩ | ⟨rfl, k⟩
  · simp only [RowImp, hb0] at himp
    split at k <;> rename_i hn
    · rw [k]
      exact ⟨upd_inv (q := fun j y v => x j ≤ v * x y) hinv.1 ⟨hy, e.2.2, hup (Or.inl ⟨himp, hposc hn⟩)⟩, hinv.2⟩
    · rw [k]
      exact ⟨hinv.1, upd_inv (q := fun j y v => v * x y ≤ x j) hinv.2 ⟨hy, e.2.2, hlo (Or.inr ⟨himp, hnegc hn⟩)⟩⟩
  · simp only [RowImp, hb0] at himp
    split at k <;> rename_i hn
    · rw [k]
      exact ⟨hinv.1, upd_inv (q := fun j y v => v * x y ≤ x j) hinv.2 ⟨hy, e.2.2, hlo (Or.inl ⟨himp, hposc hn⟩)⟩⟩
    · rw [k]
      exact ⟨upd_inv (q := fun j y v => x j ≤ v * x y) hinv.1 ⟨hy, e.2.2, hup (Or.inr ⟨himp, hnegc hn⟩)⟩, hinv.2⟩
  · simp only [RowImp, hb0] at himp
    rw [k]
    rcases lt_or_gt_of_ne hx0 with g | g
    · exact ⟨upd_inv (q := fun j y v => x j ≤ v * x y) hinv.1 ⟨hy, e.2.2, hup (Or.inr ⟨himp.ge, g⟩)⟩,
        upd_inv (q := fun j y v => v * x y ≤ x j) hinv.2 ⟨hy, e.2.2, hlo (Or.inr ⟨himp.le, g⟩)⟩⟩
    · exact ⟨upd_inv (q := fun j y v => x j ≤ v * x y) hinv.1 ⟨hy, e.2.2, hup (Or.inl ⟨himp.le, g⟩)⟩,
        upd_inv (q := fun j y v => v * x y ≤ x j) hinv.2 ⟨hy, e.2.2, hlo (Or.inl ⟨himp.ge, g⟩)⟩⟩

theorem preRows_get {v2 : Bool} {P : Prob} {act : Nat → ℚ} : ∀ (rows : List Row) (i k : Nat) (t : RowType) (s : Sense) (b : ℚ),
    (preRows v2 P act i rows)[k]? = some (t, s, b) → ∃ r, rows[k]? = some r ∧
      (s, b) = resolve P.inf r (act (i + k)) ∧ t = determineRowType v2 P r.coefs s b
  | [], i, k, t, s, b, h => by simp [preRows] at h
  | r :: rs, i, 0, t, s, b, h => by
    simp only [preRows, List.getElem?_cons_zero, Option.some.injEq, Prod.mk.injEq] at h
    obtain ⟨h1, h2, h3⟩ := h
    refine ⟨r, rfl, by simp [← h2, ← h3], by rw [← h1, ← h2, ← h3]⟩
  | r :: rs, i, k + 1, t, s, b, h => by
    simp only [preRows, List.getElem?_cons_succ] at h
    obtain ⟨r', h1, h2, h3⟩ := preRows_get rs (i + 1) k t s b h
    exact ⟨r', by simpa using h1, by rw [h2]; congr 2; omega, h3⟩

theorem preRows_length {v2 : Bool} {P : Prob} {act : Nat → ℚ} : ∀ (rows : List Row) (i : Nat),
    (preRows v2 P act i rows).length = rows.length
  | [], _ => rfl
  | _ :: rs, i => by simp [preRows, preRows_length rs (i + 1)]

theorem recordAll_inv {v2 : Bool} {P : Prob} {act : Nat → ℚ} {x : Nat → ℚ} : ∀ (rows : List Row) (i : Nat)
    (vub vlb : Nat → Option (Nat × ℚ)), (∀ r ∈ rows, ∀ p ∈ r.coefs, p.1 < P.nCols) → RowsClean rows →
    (∀ r ∈ rows, r.Sat P.inf x) → VBInv P x vub vlb →
    VBInv P x (recordAll P ((preRows v2 P act i rows).map Prod.fst) rows vub vlb).1
      (recordAll P ((preRows v2 P act i rows).map Prod.fst) rows vub vlb).2
  | [], _, _, _, _, _, _, h => by simpa [recordAll, preRows] using h
  | r :: rs, i, vub, vlb, hcol, hcl, hsat, h => by
    simp only [preRows, List.map_cons, recordAll]
    have hr := hcl r List.mem_cons_self
    apply recordAll_inv rs (i + 1)
    · exact fun q hq => hcol q (List.mem_cons_of_mem _ hq)
    · exact fun q hq => hcl q (List.mem_cons_of_mem _ hq)
    · exact fun q hq => hsat q (List.mem_cons_of_mem _ hq)
    · have hs := resolve_cases (act := act i) (hsat r List.mem_cons_self)
      apply recordVB_inv (hcol r List.mem_cons_self) hr.1
      · rcases hs with hs | ⟨_, hs | hs⟩
        · left; exact hs.2
        · rw [hs]; exact hr.2.1
        · rw [hs]; exact hr.2.2
      · rcases hs with hs | hs
        · left; exact hs.1
        · right; exact hs.1
      · exact h

/-- What preprocessing records about the rows of a problem holds at every point satisfying them. -/
theorem preprocess_ok {v2 : Bool} {P : Prob} {act : Nat → ℚ} {x : Nat → ℚ} (hwf : P.WF) (hcl : RowsClean P.rows)
    (hsat : ∀ r ∈ P.rows, r.Sat P.inf x) : PreOk P (preprocess v2 P act) x := by
  have hvb := recordAll_inv (v2 := v2) (act := act) (x := x) P.rows 0 (fun _ => none) (fun _ => none) hwf.cols hcl hsat
    ⟨by simp, by simp⟩
  refine ⟨rfl, ?_, hvb.1, hvb.2⟩
  intro i t s b r h1 h2 ht
  obtain ⟨r', g1, g2, g3⟩ := preRows_get P.rows 0 i t s b h1
  rw [h2] at g1
  obtain rfl := Option.some.inj g1
  have hs := resolve_cases (act := act (0 + i)) (hsat r (List.mem_of_getElem? h2))
  rw [← g2] at hs
  rcases hs with hs | hs
  · have hN : s ≠ .N := rowType_sense (v2 := v2) (P := P) (coefs := r.coefs) (b := b) (by rw [← g3]; tauto)
    exact absurd hs.1 hN
  · exact hs.1

end Cgl.MIR
