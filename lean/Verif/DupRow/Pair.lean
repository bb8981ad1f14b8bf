import Verif.DupRow.Core

/-!
# One pair of rows: no feasible point is lost
-/

namespace Cgl.DupRow

/-- A column that takes part in the comparison. -/
def Col (P : Prob) (j : Nat) : Prop := j < P.nCols ∧ unfixed P j = true ∧ freeBelow P j = false

/-- What holds of a feasible point in the course of the comparison: it lies within the current bounds, its 0-1 columns
are at one of two values, and the small rows hold with their current right-hand sides. -/
structure Inv (P : Prob) (rows : List SRow) (x : Nat → ℚ) (s : St) : Prop where
  len : s.rhs.length = rows.length
  lo : ∀ j, Col P j → 0 ≤ x j - s.tl j
  up : ∀ j, Col P j → x j - s.tl j ≤ s.nb j
  wid : ∀ j, Col P j → s.nb j ≤ P.colUpper j - P.colLower j
  bin : ∀ j, Col P j → isBin P j = true → x j - s.tl j = 0 ∨ x j - s.tl j = 1
  row : ∀ (i : Nat) (r : SRow) (q : ℚ), rows[i]? = some r → s.rhs[i]? = some q →
    r.els.dot (fun j => x j - s.tl j) ≤ q ∧ (r.eqn = true → r.els.dot (fun j => x j - s.tl j) = q)
  ok : s.infeas = false

/-- Size of a row: no activity of it within the bounds is larger. -/
def size (P : Prob) (v : SVec) : ℚ := (v.map fun p => |p.2| * (1 + (P.colUpper p.1 - P.colLower p.1))).sum

theorem size_cons (P : Prob) (p : Nat × ℚ) (v : SVec) :
    size P (p :: v) = |p.2| * (1 + (P.colUpper p.1 - P.colLower p.1)) + size P v := by simp [size]

/-- What is known of all small rows. -/
structure RowsOK (P : Prob) (rows : List SRow) : Prop where
  small : ∀ r ∈ rows, SmallOK P r
  size : ∀ r ∈ rows, size P r.els ≤ 10 ^ 30
  /-- the loop that counts the wrong variable is not reached -/
  noSlip : ∀ (i k : Nat) (r0 r1 : SRow), i < k → rows[i]? = some r0 → rows[k]? = some r1 → sameCols r0 r1 = true → r0.eqn = false →
    r1.eqn = false → (binEls P r0.els).length = 1 → ¬ (r0.els.all fun p => isBin P p.1) = true →
    (∀ p ∈ r0.els, 0 < p.2) ∧ ∀ p ∈ r1.els, 0 < p.2

theorem dot_ge_size {P : Prob} {v : SVec} {z : Nat → ℚ} (hw : ∀ p ∈ v, P.colLower p.1 ≤ P.colUpper p.1)
    (h : ∀ p ∈ v, |z p.1| ≤ 1 + (P.colUpper p.1 - P.colLower p.1)) : - size P v ≤ v.dot z := by
  induction v with
  | nil => simp [size]
  | cons p v ih =>
    rw [size_cons, SVec.dot_cons]
    have h1 := ih (fun q hq => hw q (List.mem_cons_of_mem _ hq)) fun q hq => h q (List.mem_cons_of_mem _ hq)
    have h2 : |p.2 * z p.1| ≤ |p.2| * (1 + (P.colUpper p.1 - P.colLower p.1)) := by
      rw [abs_mul]; exact mul_le_mul_of_nonneg_left (h p List.mem_cons_self) (abs_nonneg _)
    have := (abs_le.mp h2).1
    linarith

theorem dot_filter (f : Nat × ℚ → Bool) (v : SVec) (y : Nat → ℚ) :
    v.dot y = SVec.dot (v.filter f) y + SVec.dot (v.filter fun p => ! f p) y := by
  induction v with
  | nil => simp
  | cons p v ih =>
    rw [SVec.dot_cons, ih, List.filter_cons, List.filter_cons]
    rcases h : f p
    · simp only [Bool.not_false, if_true, Bool.false_eq_true, if_false, SVec.dot_cons]; ring
    · simp only [Bool.not_true, if_true, Bool.false_eq_true, if_false, SVec.dot_cons]; ring

/-- A row with a column that is not 0-1. -/
theorem mixed_split {P : Prob} {r : SRow} (h : SmallOK P r) (hm : ¬ (r.els.all fun p => isBin P p.1) = true) :
    (r.els.filter fun p => ! isBin P p.1) = [otherEl P r.els] ∧ otherEl P r.els ∈ r.els ∧
      isBin P (otherEl P r.els).1 = false := by
  rcases hf : r.els.filter fun p => ! isBin P p.1 with _ | ⟨a, l⟩
  · exfalso
    apply hm
    rw [List.all_eq_true]
    intro p hp
    by_contra hc
    have : p ∈ r.els.filter fun p => ! isBin P p.1 := List.mem_filter.mpr ⟨hp, by simpa using hc⟩
    rw [hf] at this
    cases this
  · have hl := h.one
    rw [hf] at hl
    have : l = [] := by
      rcases l with _ | ⟨b, l⟩
      · rfl
      · simp at hl
    subst this
    have ho : otherEl P r.els = a := by unfold otherEl; rw [hf]; rfl
    have ha : a ∈ r.els.filter fun p => ! isBin P p.1 := by rw [hf]; exact List.mem_singleton_self a
    rw [ho]
    exact ⟨hf, (List.mem_filter.mp ha).1, by simpa using (List.mem_filter.mp ha).2⟩

theorem Inv.drop {P : Prob} {rows : List SRow} {x : Nat → ℚ} {s : St} (h : Inv P rows x s) (k : Nat) :
    Inv P rows x (drop k s) := ⟨h.len, h.lo, h.up, h.wid, h.bin, h.row, h.ok⟩

theorem Inv.shift {P : Prob} {rows : List SRow} {x : Nat → ℚ} {s : St} (h : Inv P rows x s) {c : Nat} {lo w : ℚ}
    (h1 : 0 ≤ x c - s.tl c - lo) (h2 : x c - s.tl c - lo ≤ w) (h3 : w ≤ P.colUpper c - P.colLower c)
    (h4 : isBin P c = true → x c - s.tl c - lo = 0 ∨ x c - s.tl c - lo = 1) : Inv P rows x (shift rows c lo w s) := by
  have htl : ∀ j, x j - (DupRow.shift rows c lo w s).tl j = if j = c then x c - s.tl c - lo else x j - s.tl j := by
    intro j
    show x j - Function.update s.tl c (s.tl c + lo) j = _
    by_cases hj : j = c
    · subst hj; rw [if_pos rfl, Function.update_self]; ring
    · rw [if_neg hj, Function.update_of_ne hj]
  have hnb : ∀ j, (DupRow.shift rows c lo w s).nb j = if j = c then w else s.nb j := by
    intro j
    show Function.update s.nb c w j = _
    by_cases hj : j = c
    · subst hj; rw [if_pos rfl, Function.update_self]
    · rw [if_neg hj, Function.update_of_ne hj]
  refine ⟨?_, ?_, ?_, ?_, ?_, ?_, h.ok⟩
  · show (List.zipWith _ rows s.rhs).length = _
    rw [List.length_zipWith, h.len, Nat.min_self]
  · intro j hj
    rw [htl]
    split
    · exact h1
    · exact h.lo j hj
  · intro j hj
    rw [htl, hnb]
    split
    · exact h2
    · exact h.up j hj
  · intro j hj
    rw [hnb]
    split
    · rename_i hc; rw [hc]; exact h3
    · exact h.wid j hj
  · intro j hj hb
    rw [htl]
    split
    · rename_i hc; subst hc; exact h4 hb
    · exact h.bin j hj hb
  · intro i r q hr hq
    change (List.zipWith _ rows s.rhs)[i]? = some q at hq
    rw [List.getElem?_zipWith, hr] at hq
    rcases hs : s.rhs[i]? with _ | q'
    · rw [hs] at hq; cases hq
    · rw [hs] at hq
      simp only [Option.some.injEq] at hq
      have hd : r.els.dot (fun j => x j - (DupRow.shift rows c lo w s).tl j) =
          r.els.dot (fun j => x j - s.tl j) - lo * coefAt r.els c := dot_shift r.els x s.tl c lo
      obtain ⟨a, b⟩ := h.row i r q' hr hs
      rw [hd, ← hq]
      exact ⟨by linarith, fun he => by rw [b he]⟩

theorem Inv.fix {P : Prob} {rows : List SRow} {x : Nat → ℚ} (hw : ∀ j, Col P j → P.colLower j ≤ P.colUpper j)
    (l : List (Nat × Option ℚ)) {s : St} (h : Inv P rows x s) (hnd : (l.map Prod.fst).Nodup)
    (hc : ∀ p ∈ l, Col P p.1) (hv : ∀ c v, (c, some v) ∈ l → x c - s.tl c = v) : Inv P rows x (applyFix rows l s) := by
  induction l generalizing s with
  | nil => exact h
  | cons p l ih =>
    obtain ⟨c, o⟩ := p
    rw [List.map_cons, List.nodup_cons] at hnd
    rcases o with _ | v
    · exact ih h hnd.2 (fun q hq => hc q (List.mem_cons_of_mem _ hq)) fun c v hcv => hv c v (List.mem_cons_of_mem _ hcv)
    · have hcv := hv c v List.mem_cons_self
      have hcol : Col P c := hc _ List.mem_cons_self
      apply ih
      · apply h.shift
        · rw [hcv]; linarith
        · rw [hcv]; linarith
        · have := hw c hcol; linarith
        · intro _; left; rw [hcv]; ring
      · exact hnd.2
      · exact fun q hq => hc q (List.mem_cons_of_mem _ hq)
      · intro c' v' hm
        have hne : c' ≠ c := by
          rintro rfl
          exact hnd.1 (List.mem_map.mpr ⟨_, hm, rfl⟩)
        show x c' - Function.update s.tl c (s.tl c + v) c' = v'
        rw [Function.update_of_ne hne]
        exact hv c' v' (List.mem_cons_of_mem _ hm)

theorem zip_fst_sublist {α β : Type} (l : List α) (m : List β) : ((l.zip m).map Prod.fst).Sublist l := by
  induction l generalizing m with
  | nil => simp
  | cons a l ih =>
    rcases m with _ | ⟨b, m⟩
    · simp
    · simpa using ih m

/-- What the verdict leads to keeps the point. -/
theorem Inv.act {P : Prob} {rows : List SRow} {x : Nat → ℚ} (hw : ∀ j, Col P j → P.colLower j ≤ P.colUpper j) {s : St}
    (h : Inv P rows x s) {cols : List Nat} (hnd : cols.Nodup) (hc : ∀ c ∈ cols, Col P c) {i k : Nat} {v : Verdict}
    (hf : v.feasible = true)
    (hv : ∀ (j : Nat) (q : ℚ), v.fixed[j]? = some (some q) → (cols.map fun c => x c - s.tl c)[j]? = some q) {s' : St}
    (ha : act rows cols i k v s = some s') : Inv P rows x s' := by
  unfold DupRow.act at ha
  rw [hf] at ha
  simp only [Bool.not_true, Bool.false_eq_true, if_false] at ha
  split at ha
  · obtain rfl := Option.some.inj ha
    refine Inv.fix hw _ h ?_ ?_ ?_
    · refine List.Nodup.sublist ?_ hnd
      exact zip_fst_sublist _ _
    · intro p hp
      exact hc _ (List.of_mem_zip hp).1
    · intro c q hm
      obtain ⟨j, hj⟩ := List.mem_iff_getElem?.mp hm
      rw [List.getElem?_zip_eq_some] at hj
      have := hv j q hj.2
      rw [List.getElem?_map, hj.1] at this
      exact Option.some.inj this
  · split at ha
    · obtain rfl := Option.some.inj ha
      split <;> exact h.drop _
    · split at ha
      · obtain rfl := Option.some.inj ha
        exact (h.drop _).drop _
      · cases ha

/-- The activity of a row with 0-1 columns is not below its size. -/
theorem Inv.value_ge {P : Prob} {rows : List SRow} {x : Nat → ℚ} (hok : RowsOK P rows) {s : St} (h : Inv P rows x s)
    {r : SRow} (hr : r ∈ rows) {z : Nat → ℚ}
    (hz : ∀ p ∈ r.els, z p.1 = x p.1 - s.tl p.1 ∨ z p.1 = 0 ∨ (isBin P p.1 = false ∧ z p.1 = s.nb p.1)) :
    -10 ^ 30 ≤ r.els.dot z := by
  have hsm := hok.small r hr
  have hcol : ∀ p ∈ r.els, Col P p.1 := fun p hp => ⟨hsm.lt p hp, hsm.open_ p hp, hsm.notFree p hp⟩
  have hwd : ∀ p ∈ r.els, P.colLower p.1 ≤ P.colUpper p.1 := fun p hp => by
    have := hsm.open_ p hp
    unfold unfixed at this
    exact (of_decide_eq_true this).le
  refine le_trans ?_ (dot_ge_size hwd ?_)
  · have := hok.size r hr; linarith
  · intro p hp
    have h1 := h.lo _ (hcol p hp)
    have h2 := h.up _ (hcol p hp)
    have h3 := h.wid _ (hcol p hp)
    have h4 := hwd p hp
    rcases hz p hp with e | e | ⟨_, e⟩
    · rw [e, abs_of_nonneg h1]; linarith
    · rw [e, abs_zero]; linarith
    · rw [e, abs_of_nonneg (by linarith)]; linarith

theorem Inv.pure {P : Prob} {rows : List SRow} {x : Nat → ℚ} (hok : RowsOK P rows) {s : St} (h : Inv P rows x s)
    {i k : Nat} {r0 r1 : SRow} {q0 q1 : ℚ} (hi : rows[i]? = some r0) (hk : rows[k]? = some r1)
    (hqi : s.rhs[i]? = some q0) (hqk : s.rhs[k]? = some q1) (hcols : r1.els.map Prod.fst = r0.els.map Prod.fst)
    (hb : ∀ p ∈ r0.els, isBin P p.1 = true) : Inv P rows x (purePair rows r0 i k r0.eqn r1 q0 q1 s) := by
  have m0 := List.mem_of_getElem? hi
  have m1 := List.mem_of_getElem? hk
  have s0 := hok.small _ m0
  have hcol : ∀ p ∈ r0.els, Col P p.1 := fun p hp => ⟨s0.lt p hp, s0.open_ p hp, s0.notFree p hp⟩
  have hw : ∀ j, Col P j → P.colLower j ≤ P.colUpper j := fun j hj => by
    have := hj.2.1
    unfold unfixed at this
    exact (of_decide_eq_true this).le
  have hmem : vals (fun j => x j - s.tl j) r0.els ∈ bits (r0.els.map Prod.snd).length := by
    rw [List.length_map]
    exact vals_mem_bits fun p hp => h.bin _ (hcol p hp) (hb p hp)
  have ha0 : allowed (r0.els.map Prod.snd) q0 r0.eqn (vals (fun j => x j - s.tl j) r0.els) = true := by
    obtain ⟨a, b⟩ := h.row i r0 q0 hi hqi
    refine allowed_of ?_ ?_ ?_
    · rw [lin_dot]; exact a
    · rw [lin_dot]; exact b
    · rw [lin_dot]; exact h.value_ge hok m0 fun p _ => Or.inl rfl
  have ha1 : allowed (r1.els.map Prod.snd) q1 r1.eqn (vals (fun j => x j - s.tl j) r0.els) = true := by
    obtain ⟨a, b⟩ := h.row k r1 q1 hk hqk
    rw [← vals_cols (y := fun j => x j - s.tl j) hcols]
    refine allowed_of ?_ ?_ ?_
    · rw [lin_dot]; exact a
    · rw [lin_dot]; exact b
    · rw [lin_dot]; exact h.value_ge hok m1 fun p _ => Or.inl rfl
  unfold purePair
  dsimp only
  split
  · rename_i s' hact
    refine Inv.act hw h s0.nodup ?_ (verdict_feasible hmem ha0 ha1) ?_ hact
    · intro c hc
      obtain ⟨p, hp, rfl⟩ := List.mem_map.mp hc
      exact hcol p hp
    · intro j q hj
      have := fixed_spec hmem ha0 ha1 hj
      rw [List.map_map]
      exact this
  · split
    · exact h.drop _
    · exact h

theorem headD_pos {l : List ℚ} (hl : l.length = 1) (h : ∀ a ∈ l, 0 < a) : 0 < l.headD 0 := by
  rcases l with _ | ⟨a, l⟩
  · cases hl
  · exact h a List.mem_cons_self

theorem dropBy_inv {P : Prob} {rows : List SRow} {x : Nat → ℚ} {s s' : St} {w : ℤ} {i k : Nat} (h : Inv P rows x s)
    (hd : dropBy w i k s = .ok s') : Inv P rows x s' := by
  unfold dropBy at hd
  split at hd
  · obtain rfl := Except.ok.inj hd; exact h.drop _
  · split at hd
    · split at hd
      · obtain rfl := Except.ok.inj hd; exact h.drop _
      · cases hd
    · obtain rfl := Except.ok.inj hd; exact h

theorem sameRows_inv {P : Prob} {rows : List SRow} {x : Nat → ℚ} (hok : RowsOK P rows) {s : St} (h : Inv P rows x s)
    {i k : Nat} {r0 r1 : SRow} (hik : i < k) (hi : rows[i]? = some r0) (hk : rows[k]? = some r1)
    (hsame : sameCols r0 r1 = true) (hm : ¬ (r0.els.all fun p => isBin P p.1) = true) {i' : Nat} {s' : St}
    (hs : sameRows P r0 r1 i k r0.eqn s = .ok (i', s')) : i' = i ∧ Inv P rows x s' := by
  have m0 := List.mem_of_getElem? hi
  have m1 := List.mem_of_getElem? hk
  have s0 := hok.small _ m0
  have s1 := hok.small _ m1
  have hcols := sameCols_eq s0 s1 hsame
  unfold sameRows at hs
  dsimp only at hs
  split at hs
  · obtain ⟨rfl, rfl⟩ := Prod.mk.inj (Except.ok.inj hs)
    exact ⟨rfl, h.drop _⟩
  · split at hs
    · obtain ⟨rfl, rfl⟩ := Prod.mk.inj (Except.ok.inj hs)
      exact ⟨rfl, h⟩
    · rename_i hne
      rw [Bool.or_eq_true, not_or, Bool.not_eq_true, Bool.not_eq_true] at hne
      split at hs
      · rename_i hlen
        obtain ⟨p0, p1⟩ := hok.noSlip i k r0 r1 hik hi hk hsame hne.1 hne.2 hlen hm
        have hm1 : ¬ (r1.els.all fun p => isBin P p.1) = true := by
          have : ∀ r : SRow, (r.els.all fun p => isBin P p.1) = (r.els.map Prod.fst).all (isBin P) := fun r => by
            rw [List.all_map]; rfl
          rw [this, hcols, ← this]; exact hm
        have hlen1 : (binEls P r1.els).length = 1 := by
          have : ∀ r : SRow, (binEls P r.els).length = ((r.els.map Prod.fst).filter (isBin P)).length := fun r => by
            rw [List.filter_map, List.length_map]
            unfold binEls
            rw [List.length_map]; rfl
          rw [this, hcols, ← this]; exact hlen
        have hpos : ∀ (r : SRow), (∀ p ∈ r.els, 0 < p.2) → ∀ a ∈ binEls P r.els, 0 < a := by
          intro r hp a ha
          obtain ⟨p, hp', rfl⟩ := List.mem_map.mp ha
          exact hp p (List.mem_filter.mp hp').1
        rw [if_pos ⟨p0 _ (mixed_split s0 hm).2.1, p1 _ (mixed_split s1 hm1).2.1, headD_pos hlen (hpos r0 p0),
          headD_pos hlen1 (hpos r1 p1)⟩] at hs
        obtain ⟨rfl, rfl⟩ := Prod.mk.inj (Except.ok.inj hs)
        refine ⟨rfl, ?_⟩
        split <;> exact h.drop _
      · rcases hd : dropBy (sample2 (s.rhs[i]?.getD 0) (s.rhs[k]?.getD 0) (binEls P r0.els) (binEls P r1.els)
            (otherEl P r0.els).2 (otherEl P r1.els).2 grid 0) i k s with e | s2
        · rw [hd] at hs; cases hs
        · rw [hd] at hs
          obtain ⟨rfl, rfl⟩ := Prod.mk.inj (Except.ok.inj hs)
          exact ⟨rfl, dropBy_inv h hd⟩

/-- The cell of a feasible point for one of the two rows. -/
theorem Inv.cell {P : Prob} {rows : List SRow} {x : Nat → ℚ} (hok : RowsOK P rows)
    (hbd : ∀ j, Col P j → P.colUpper j - P.colLower j ≤ 10 ^ 30) {s : St} (h : Inv P rows x s) {i : Nat} {r : SRow} {q : ℚ}
    (hi : rows[i]? = some r) (hq : s.rhs[i]? = some q) (hm : ¬ (r.els.all fun p => isBin P p.1) = true) {c : Nat}
    (hc : (otherEl P r.els).1 = c) :
    min (s.nb c) (10 ^ 30) = s.nb c ∧
    (DupRow.cell (s.nb c) (otherEl P r.els).2 q r.eqn
      (lin (binEls P r.els) (vals (fun j => x j - s.tl j) (r.els.filter fun p => isBin P p.1)))).ok = true ∧
    (DupRow.cell (s.nb c) (otherEl P r.els).2 q r.eqn
      (lin (binEls P r.els) (vals (fun j => x j - s.tl j) (r.els.filter fun p => isBin P p.1)))).lo ≤ x c - s.tl c ∧
    x c - s.tl c ≤ (DupRow.cell (s.nb c) (otherEl P r.els).2 q r.eqn
      (lin (binEls P r.els) (vals (fun j => x j - s.tl j) (r.els.filter fun p => isBin P p.1)))).up := by
  have m := List.mem_of_getElem? hi
  have sm := hok.small _ m
  obtain ⟨hf, hmem, hnb⟩ := mixed_split sm hm
  have hcol : Col P c := by
    rw [← hc]; exact ⟨sm.lt _ hmem, sm.open_ _ hmem, sm.notFree _ hmem⟩
  have hw := h.wid c hcol
  have hlin : lin (binEls P r.els) (vals (fun j => x j - s.tl j) (r.els.filter fun p => isBin P p.1)) =
      SVec.dot (r.els.filter fun p => isBin P p.1) fun j => x j - s.tl j := lin_dot _ _
  have hdot : ∀ y : Nat → ℚ, r.els.dot y =
      SVec.dot (r.els.filter fun p => isBin P p.1) y + (otherEl P r.els).2 * y c := by
    intro y
    rw [dot_filter (fun p => isBin P p.1) r.els y, hf, ← hc]
    simp
  have hupd : ∀ v : ℚ, SVec.dot (r.els.filter fun p => isBin P p.1)
      (Function.update (fun j => x j - s.tl j) c v) =
      SVec.dot (r.els.filter fun p => isBin P p.1) fun j => x j - s.tl j := by
    intro v
    unfold SVec.dot
    congr 1
    apply List.map_congr_left
    intro p hp
    rw [Function.update_of_ne]
    rintro rfl
    have := (List.mem_filter.mp hp).2
    rw [← hc, hnb] at this
    cases this
  obtain ⟨a, b⟩ := h.row i r q hi hq
  rw [hdot] at a b
  refine ⟨min_eq_left (le_trans hw (hbd c hcol)), ?_⟩
  rw [hlin]
  refine cell_sound (h.lo c hcol) (h.up c hcol) a b ?_ ?_
  · have := h.value_ge hok m (z := Function.update (fun j => x j - s.tl j) c 0) (by
      intro p _
      by_cases hp : p.1 = c
      · right; left; rw [hp, Function.update_self]
      · left; rw [Function.update_of_ne hp])
    rw [hdot, hupd, Function.update_self, mul_zero, add_zero] at this
    exact this
  · have := h.value_ge hok m (z := Function.update (fun j => x j - s.tl j) c (s.nb c)) (by
      intro p _
      by_cases hp : p.1 = c
      · right; right; rw [hp, Function.update_self]; exact ⟨by rw [← hc]; exact hnb, rfl⟩
      · left; rw [Function.update_of_ne hp])
    rw [hdot, hupd, Function.update_self, mul_comm (otherEl P r.els).2] at this
    exact this

theorem Inv.mixed {P : Prob} {rows : List SRow} {x : Nat → ℚ} (hok : RowsOK P rows)
    (hbd : ∀ j, Col P j → P.colUpper j - P.colLower j ≤ 10 ^ 30) {s : St} (h : Inv P rows x s)
    {i k : Nat} {r0 r1 : SRow} {q0 q1 : ℚ} (hik : i < k) (hi : rows[i]? = some r0) (hk : rows[k]? = some r1)
    (hqi : s.rhs[i]? = some q0) (hqk : s.rhs[k]? = some q1) (hsame : sameCols r0 r1 = true)
    (hm : ¬ (r0.els.all fun p => isBin P p.1) = true) {i' : Nat} {s' : St}
    (hs : mixedPair P rows r0 i k r0.eqn r1 q0 q1 s = .ok (i', s')) : i' = i ∧ Inv P rows x s' := by
  have m0 := List.mem_of_getElem? hi
  have m1 := List.mem_of_getElem? hk
  have s0 := hok.small _ m0
  have s1 := hok.small _ m1
  have hcols := sameCols_eq s0 s1 hsame
  have hw : ∀ j, Col P j → P.colLower j ≤ P.colUpper j := fun j hj => by
    have := hj.2.1
    unfold unfixed at this
    exact (of_decide_eq_true this).le
  have hm1 : ¬ (r1.els.all fun p => isBin P p.1) = true := by
    have : ∀ r : SRow, (r.els.all fun p => isBin P p.1) = (r.els.map Prod.fst).all (isBin P) := fun r => by
      rw [List.all_map]; rfl
    rw [this, hcols, ← this]; exact hm
  have hfc : ∀ (f : Nat → Bool), (r1.els.filter fun p => f p.1).map Prod.fst = (r0.els.filter fun p => f p.1).map Prod.fst := by
    intro f
    have : ∀ r : SRow, (r.els.filter fun p => f p.1).map Prod.fst = (r.els.map Prod.fst).filter f := fun r => by
      rw [List.filter_map]; rfl
    rw [this, this, hcols]
  obtain ⟨f0, o0, n0⟩ := mixed_split s0 hm
  obtain ⟨f1, o1, n1⟩ := mixed_split s1 hm1
  have hoc : (otherEl P r1.els).1 = (otherEl P r0.els).1 := by
    have := hfc fun j => ! isBin P j
    rw [f0, f1] at this
    simpa using this
  generalize hcdef : (otherEl P r0.els).1 = c at *
  have hcol : Col P c := by
    rw [← hcdef]; exact ⟨s0.lt _ o0, s0.open_ _ o0, s0.notFree _ o0⟩
  obtain ⟨hmin, ok0, lo0, up0⟩ := h.cell hok hbd hi hqi hm hcdef
  obtain ⟨-, ok1, lo1, up1⟩ := h.cell hok hbd hk hqk hm1 hoc
  have hvals : vals (fun j => x j - s.tl j) (r1.els.filter fun p => isBin P p.1) =
      vals (fun j => x j - s.tl j) (r0.els.filter fun p => isBin P p.1) := vals_cols (hfc (isBin P))
  rw [hvals] at ok1 lo1 up1
  have hbinmem : ∀ p ∈ r0.els.filter fun p => isBin P p.1, Col P p.1 ∧ isBin P p.1 = true := fun p hp => by
    obtain ⟨hp1, hp2⟩ := List.mem_filter.mp hp
    exact ⟨⟨s0.lt p hp1, s0.open_ p hp1, s0.notFree p hp1⟩, hp2⟩
  have hmem : vals (fun j => x j - s.tl j) (r0.els.filter fun p => isBin P p.1) ∈ bits (binEls P r0.els).length := by
    unfold binEls
    rw [List.length_map]
    exact vals_mem_bits fun p hp => h.bin _ (hbinmem p hp).1 (hbinmem p hp).2
  have hnb0 : 0 ≤ s.nb c := le_trans (h.lo c hcol) (h.up c hcol)
  unfold mixedPair at hs
  dsimp only at hs
  rw [hcdef, hmin] at hs
  generalize hc0 : (fun a => DupRow.cell (s.nb c) (otherEl P r0.els).2 q0 r0.eqn (lin (binEls P r0.els) a)) = c0 at hs
  generalize hc1 : (fun a => DupRow.cell (s.nb c) (otherEl P r1.els).2 q1 r1.eqn (lin (binEls P r1.els) a)) = c1 at hs
  unfold mixedCore at hs
  dsimp only at hs
  generalize hav : vals (fun j => x j - s.tl j) (r0.els.filter fun p => isBin P p.1) = av at *
  have e0 : DupRow.cell (s.nb c) (otherEl P r0.els).2 q0 r0.eqn (lin (binEls P r0.els) av) = c0 av := by rw [← hc0]
  have e1 : DupRow.cell (s.nb c) (otherEl P r1.els).2 q1 r1.eqn (lin (binEls P r1.els) av) = c1 av := by rw [← hc1]
  rw [e0] at ok0 lo0 up0
  rw [e1] at ok1 lo1 up1
  have hnon : ∀ a, (c0 a).ok = true → 0 ≤ (c0 a).lo ∧ (c0 a).up ≤ s.nb c := by
    intro a ha; rw [← hc0] at ha ⊢; exact cell_nonneg hnb0 ha
  have hboth : ((c0 av).ok && (c1 av).ok) = true := by rw [ok0, ok1]; rfl
  have hlo : newLo (s.nb c) (fun a => (c0 a).ok && (c1 a).ok) c0 c1 (bits (binEls P r0.els).length) ≤ x c - s.tl c :=
    le_trans (newLo_le hmem hboth) (max_le lo0 lo1)
  have hlo0 : 0 ≤ newLo (s.nb c) (fun a => (c0 a).ok && (c1 a).ok) c0 c1 (bits (binEls P r0.els).length) := by
    refine le_newLo hnb0 fun a _ ha => ?_
    rw [Bool.and_eq_true] at ha
    exact le_trans (hnon a ha.1).1 (le_max_left _ _)
  have hup : x c - s.tl c ≤ newUp (fun a => (c0 a).ok && (c1 a).ok) c0 c1 (bits (binEls P r0.els).length) :=
    le_trans (le_min up0 up1) (le_newUp hmem hboth)
  have hup0 : newUp (fun a => (c0 a).ok && (c1 a).ok) c0 c1 (bits (binEls P r0.els).length) ≤ s.nb c := by
    refine newUp_le hnb0 fun a _ ha => ?_
    rw [Bool.and_eq_true] at ha
    exact le_trans (min_le_left _ _) (hnon a ha.1).2
  generalize newLo (s.nb c) (fun a => (c0 a).ok && (c1 a).ok) c0 c1 (bits (binEls P r0.els).length) = nLo at *
  generalize newUp (fun a => (c0 a).ok && (c1 a).ok) c0 c1 (bits (binEls P r0.els).length) = nUp at *
  have hinv : Inv P rows x (tighten rows c (s.nb c) nLo nUp s) := by
    unfold tighten
    split
    · have hwc := h.wid c hcol
      refine h.shift (by linarith) (by linarith) (by linarith) fun hb => ?_
      rw [n0] at hb; cases hb
    · exact h
  have htl : ∀ j, j ≠ c → (tighten rows c (s.nb c) nLo nUp s).tl j = s.tl j := by
    intro j hj
    unfold tighten
    split
    · exact Function.update_of_ne hj _ _
    · rfl
  split at hs
  · rename_i s2 hact
    obtain ⟨rfl, rfl⟩ := Prod.mk.inj (Except.ok.inj hs)
    refine ⟨rfl, Inv.act hw hinv (cols := binCols P r0.els) ?_ ?_ ?_ ?_ hact⟩
    · refine List.Nodup.sublist ?_ s0.nodup
      exact (List.filter_sublist).map _
    · intro j hj
      obtain ⟨p, hp, rfl⟩ := List.mem_map.mp hj
      exact (hbinmem p hp).1
    · exact verdict_feasible (a0 := fun a => (c0 a).ok) (a1 := fun a => (c1 a).ok) hmem ok0 ok1
    · intro j q hj
      have := fixed_spec (a0 := fun a => (c0 a).ok) (a1 := fun a => (c1 a).ok) hmem ok0 ok1 hj
      rw [← this, ← hav]
      unfold binCols vals
      rw [List.map_map]
      congr 1
      apply List.map_congr_left
      intro p hp
      show x p.1 - _ = _
      rw [htl]
      rintro hpc
      have := (hbinmem p hp).2
      rw [hpc, n0] at this
      cases this
  · split at hs
    · exact sameRows_inv hok hinv hik hi hk hsame hm hs
    · obtain ⟨rfl, rfl⟩ := Prod.mk.inj (Except.ok.inj hs)
      exact ⟨rfl, hinv⟩

theorem pair_inv {P : Prob} {rows : List SRow} {x : Nat → ℚ} (hok : RowsOK P rows)
    (hbd : ∀ j, Col P j → P.colUpper j - P.colLower j ≤ 10 ^ 30) {s : St} (h : Inv P rows x s)
    {i k : Nat} {r0 : SRow} (hik : i < k) (hi : rows[i]? = some r0) {i' : Nat} {s' : St}
    (hs : pair P rows r0 i k s = .ok (i', s')) : i' = i ∧ Inv P rows x s' := by
  unfold pair at hs
  split at hs
  · rename_i ri q0 r1 q1 hri hq0 hk hq1
    rw [hi] at hri
    obtain rfl := Option.some.inj hri
    have s0 := hok.small _ (List.mem_of_getElem? hi)
    have s1 := hok.small _ (List.mem_of_getElem? hk)
    split at hs
    · rename_i hsame
      split at hs
      · rename_i hb
        split at hs
        · obtain ⟨rfl, rfl⟩ := Prod.mk.inj (Except.ok.inj hs)
          exact ⟨rfl, h.pure hok hi hk hq0 hq1 (sameCols_eq s0 s1 hsame) (by simpa using hb)⟩
        · cases hs
      · rename_i hb
        exact h.mixed hok hbd hik hi hk hq0 hq1 hsame hb hs
    · obtain ⟨rfl, rfl⟩ := Prod.mk.inj (Except.ok.inj hs)
      exact ⟨rfl, h⟩
  · cases hs

theorem inner_inv {P : Prob} {rows : List SRow} {x : Nat → ℚ} (hok : RowsOK P rows)
    (hbd : ∀ j, Col P j → P.colUpper j - P.colLower j ≤ 10 ^ 30) {i : Nat} {r0 : SRow} (hi : rows[i]? = some r0)
    (ks : List Nat) (hks : ∀ k ∈ ks, i < k) {s : St} (h : Inv P rows x s) {i' : Nat} {s' : St}
    (hs : inner P rows r0 ks i s = .ok (i', s')) : i' = i ∧ Inv P rows x s' := by
  induction ks generalizing s with
  | nil =>
    obtain ⟨rfl, rfl⟩ := Prod.mk.inj (Except.ok.inj hs)
    exact ⟨rfl, h⟩
  | cons k ks ih =>
    have hks' : ∀ k ∈ ks, i < k := fun k' hk' => hks k' (List.mem_cons_of_mem _ hk')
    unfold inner at hs
    split at hs
    · split at hs
      · exact ih hks' h hs
      · split at hs
        · obtain ⟨rfl, rfl⟩ := Prod.mk.inj (Except.ok.inj hs)
          exact ⟨rfl, h⟩
        · split at hs
          · cases hs
          · rename_i i1 s1 hp
            obtain ⟨rfl, h1⟩ := pair_inv hok hbd h (hks k List.mem_cons_self) hi hp
            exact ih hks' h1 hs
    · cases hs

theorem outer_inv {P : Prob} {rows : List SRow} {x : Nat → ℚ} (hok : RowsOK P rows)
    (hbd : ∀ j, Col P j → P.colUpper j - P.colLower j ≤ 10 ^ 30) (n f : Nat) {i : Nat} {s : St} (h : Inv P rows x s)
    {s' : St} (hs : outer P rows n f i s = .ok s') : Inv P rows x s' := by
  induction f generalizing i s with
  | zero => obtain rfl := Except.ok.inj hs; exact h
  | succ f ih =>
    unfold outer at hs
    split at hs
    · split at hs
      · cases hs
      · rename_i r0 hi
        split at hs
        · cases hs
        · rename_i i1 s1 hin
          obtain ⟨-, h1⟩ := inner_inv hok hbd hi _ (by
            intro k hk
            rw [List.mem_range'_1] at hk
            omega) h hin
          exact ih h1 hs
    · obtain rfl := Except.ok.inj hs; exact h

end Cgl.DupRow
