import Verif.PostProc.Props

/-!
# Integer columns left without an integer value
-/

namespace Cgl.PostProc

/-- The coefficient of column `j` in the row. -/
def coefSum (v : SVec) (j : Nat) : ℚ := ((v.filter fun q => q.1 == j).map Prod.snd).sum

theorem coefSum_cons (p : Nat × ℚ) (v : SVec) (j) :
    coefSum (p :: v) j = (if p.1 = j then p.2 else 0) + coefSum v j := by
  unfold coefSum
  by_cases h : p.1 = j
  · rw [List.filter_cons_of_pos (by simpa using h), if_pos h]; simp
  · rw [List.filter_cons_of_neg (by simpa using h), if_neg h]; simp

theorem dot_update (v : SVec) (x : Nat → ℚ) (j : Nat) (w : ℚ) :
    v.dot (Function.update x j w) = v.dot x + (w - x j) * coefSum v j := by
  induction v with
  | nil => simp [coefSum]
  | cons p v ih =>
    rw [SVec.dot_cons, SVec.dot_cons, ih, coefSum_cons]
    by_cases h : p.1 = j
    · rw [if_pos h, h, Function.update_self]; ring
    · rw [if_neg h, Function.update_of_ne h]; ring

theorem coefSum_mem {v : SVec} (hn : (v.map Prod.fst).Nodup) {j : Nat} {a : ℚ} (h : (j, a) ∈ v) : coefSum v j = a := by
  induction v with
  | nil => cases h
  | cons p v ih =>
    rw [List.map_cons, List.nodup_cons] at hn
    rw [coefSum_cons]
    rcases List.mem_cons.mp h with h | h
    · subst h
      have : coefSum v j = 0 := by
        unfold coefSum
        rw [List.filter_eq_nil_iff.mpr]
        · rfl
        · intro q hq hc
          have : q.1 = j := by simpa using hc
          exact hn.1 (List.mem_map.mpr ⟨q, hq, this⟩)
      rw [if_pos rfl, this]; ring
    · have hne : p.1 ≠ j := by
        rintro rfl
        exact hn.1 (List.mem_map.mpr ⟨_, h, rfl⟩)
      rw [if_neg hne, ih hn.2 h]; ring

theorem coefSum_notMem {v : SVec} {j : Nat} (h : ∀ a, (j, a) ∉ v) : coefSum v j = 0 := by
  unfold coefSum
  rw [List.filter_eq_nil_iff.mpr]
  · rfl
  · intro q hq hc
    have : q.1 = j := by simpa using hc
    exact h q.2 (this ▸ hq)

/-! ### Columns and activities -/

theorem addColumn_at (es : List (Nat × ℚ)) (act : Nat → ℚ) (v : ℚ) (i : Nat) :
    addColumn act es v i = act i + v * coefSum es i := by
  induction es generalizing act with
  | nil => simp [addColumn, coefSum]
  | cons e es ih =>
    have : addColumn act (e :: es) v = addColumn (Function.update act e.1 (act e.1 + v * e.2)) es v := rfl
    rw [this, ih, coefSum_cons]
    by_cases h : e.1 = i
    · rw [if_pos h, h, Function.update_self]; ring
    · rw [if_neg h, Function.update_of_ne (Ne.symm h)]; ring

theorem coefSum_append (a b : SVec) (i) : coefSum (a ++ b) i = coefSum a i + coefSum b i := by
  unfold coefSum; simp

/-- The entries of one row in the column. -/
def block (P : Prob) (j i : Nat) : List (Nat × ℚ) :=
  match P.rows[i]? with
  | none => []
  | some r => (r.coefs.filter fun q => q.1 == j).map fun q => (i, q.2)

theorem column_eq (P : Prob) (j) : column P j = (List.range P.rows.length).flatMap (block P j) := rfl

theorem block_self (P : Prob) (j : Nat) {i : Nat} {r : Row} (h : P.rows[i]? = some r) :
    coefSum (block P j i) i = coefSum r.coefs j := by
  unfold block
  rw [h]
  dsimp only
  unfold coefSum
  congr 1
  rw [List.filter_map, List.map_map]
  have : ∀ l : List (Nat × ℚ), List.filter ((fun q => q.1 == i) ∘ fun q : Nat × ℚ => (i, q.2)) l = l := by
    intro l; apply List.filter_eq_self.mpr; intro a _; simp
  rw [this]
  rfl

theorem block_other (P : Prob) (j : Nat) {i k : Nat} (h : k ≠ i) : coefSum (block P j k) i = 0 := by
  apply coefSum_notMem
  intro a ha
  unfold block at ha
  split at ha
  · cases ha
  · simp only [List.mem_map, Prod.mk.injEq] at ha
    obtain ⟨q, -, hq, -⟩ := ha
    exact h hq

theorem coefSum_flatMap (P : Prob) (j i : Nat) (l : List Nat) (hl : l.Nodup) :
    coefSum (l.flatMap (block P j)) i = if i ∈ l then coefSum (block P j i) i else 0 := by
  induction l with
  | nil => simp [coefSum]
  | cons k l ih =>
    rw [List.nodup_cons] at hl
    rw [List.flatMap_cons, coefSum_append, ih hl.2]
    by_cases h : k = i
    · subst h
      rw [if_neg hl.1, if_pos List.mem_cons_self]; ring
    · rw [block_other P j h]
      by_cases hm : i ∈ l
      · rw [if_pos hm, if_pos (List.mem_cons_of_mem _ hm)]; ring
      · rw [if_neg hm, if_neg]
        · ring
        · intro hc
          rcases List.mem_cons.mp hc with h' | h'
          · exact h h'.symm
          · exact hm h'

theorem column_coef (P : Prob) (j : Nat) {i : Nat} {r : Row} (h : P.rows[i]? = some r) :
    coefSum (column P j) i = coefSum r.coefs j := by
  rw [column_eq, coefSum_flatMap _ _ _ _ List.nodup_range, if_pos, block_self P j h]
  rw [List.mem_range]
  exact (List.getElem?_eq_some_iff.mp h).1

theorem mem_column (P : Prob) {j i : Nat} {r : Row} {a : ℚ} (h : P.rows[i]? = some r) (ha : (j, a) ∈ r.coefs) :
    (i, a) ∈ column P j := by
  rw [column_eq, List.mem_flatMap]
  refine ⟨i, List.mem_range.mpr (List.getElem?_eq_some_iff.mp h).1, ?_⟩
  unfold block
  rw [h]
  exact List.mem_map.mpr ⟨(j, a), List.mem_filter.mpr ⟨ha, by simp⟩, rfl⟩

/-- A point with only the first columns. -/
def upTo (x : Nat → ℚ) (n : Nat) : Nat → ℚ := fun j => if j < n then x j else 0

theorem upTo_succ (x : Nat → ℚ) (n) : upTo x (n + 1) = Function.update (upTo x n) n (x n) := by
  funext j
  by_cases h : j = n
  · subst h; rw [Function.update_self]; unfold upTo; rw [if_pos (by omega)]
  · rw [Function.update_of_ne h]
    unfold upTo
    by_cases h2 : j < n
    · rw [if_pos h2, if_pos (by omega)]
    · rw [if_neg h2, if_neg (by omega)]

theorem activities_upTo (P : Prob) (x : Nat → ℚ) {i : Nat} {r : Row} (h : P.rows[i]? = some r) (n : Nat) :
    (List.range n).foldl (fun a j => addColumn a (column P j) (x j)) (fun _ => 0) i = r.coefs.dot (upTo x n) := by
  induction n with
  | zero =>
    simp only [List.range_zero, List.foldl_nil]
    have : ∀ v : SVec, v.dot (upTo x 0) = 0 := by
      intro v
      induction v with
      | nil => rfl
      | cons p v ih => rw [SVec.dot_cons, ih]; simp [upTo]
    rw [this]
  | succ n ih =>
    rw [List.range_succ, List.foldl_append, List.foldl_cons, List.foldl_nil, addColumn_at, ih, upTo_succ, dot_update,
      column_coef P n h]
    have : upTo x n n = 0 := by simp [upTo]
    rw [this]; ring

theorem dot_congr {v : SVec} {x y : Nat → ℚ} (h : ∀ p ∈ v, x p.1 = y p.1) : v.dot x = v.dot y := by
  induction v with
  | nil => rfl
  | cons p v ih =>
    rw [SVec.dot_cons, SVec.dot_cons, h p List.mem_cons_self, ih fun q hq => h q (List.mem_cons_of_mem _ hq)]

/-- The activities computed by columns are the values of the rows. -/
theorem activities_eq {P : Prob} (hwf : P.WF) (x : Nat → ℚ) {i : Nat} {r : Row} (h : P.rows[i]? = some r) :
    activities P x i = r.coefs.dot x := by
  unfold activities
  rw [activities_upTo P x h]
  apply dot_congr
  intro p hp
  unfold upTo
  rw [if_pos (hwf.cols r (List.mem_of_getElem? h) p hp)]

/-- A move that is allowed keeps every row within the tolerance. -/
theorem canMove_rows {P : Prob} (hwf : P.WF) {tol : ℚ} {act x : Nat → ℚ} {j : Nat} {v : ℚ}
    (hact : ∀ (i : Nat) (r : Row), P.rows[i]? = some r → act i = r.coefs.dot x)
    (h : canMove P tol act j (v - x j) = true) :
    ∀ r ∈ P.rows, RowNear tol r x → RowNear tol r (Function.update x j v) := by
  intro r hr hn
  obtain ⟨i, hi⟩ := List.mem_iff_getElem?.mp hr
  unfold RowNear
  rw [dot_update]
  by_cases hm : ∃ a, (j, a) ∈ r.coefs
  · obtain ⟨a, ha⟩ := hm
    rw [coefSum_mem (hwf.nodup r hr) ha]
    unfold canMove at h
    rw [List.all_eq_true] at h
    have := h _ (mem_column P hi ha)
    rw [hi] at this
    simp only [Bool.and_eq_true, decide_eq_true_eq] at this
    rw [hact i r hi] at this
    exact ⟨this.2, this.1⟩
  · rw [coefSum_notMem fun a ha => hm ⟨a, ha⟩, mul_zero, add_zero]
    exact hn

theorem column_mem {P : Prob} {j : Nat} {e : Nat × ℚ} (h : e ∈ column P j) :
    ∃ r, P.rows[e.1]? = some r ∧ (j, e.2) ∈ r.coefs := by
  rw [column_eq, List.mem_flatMap] at h
  obtain ⟨i, -, h⟩ := h
  unfold block at h
  split at h
  · cases h
  · rename_i r hr
    rw [List.mem_map] at h
    obtain ⟨q, hq, rfl⟩ := h
    rw [List.mem_filter] at hq
    have : q.1 = j := by simpa using hq.2
    exact ⟨r, hr, this ▸ hq.1⟩

/-- The column can take the value `v`: the rows it is in hold up to the tolerance. -/
def Fits (P : Prob) (tol : ℚ) (x : Nat → ℚ) (j : Nat) (v : ℚ) : Prop :=
  ∀ r ∈ P.rows, (∃ a, (j, a) ∈ r.coefs) → RowNear tol r (Function.update x j v)

theorem canMove_iff {P : Prob} (hwf : P.WF) {tol : ℚ} {act x : Nat → ℚ} {j : Nat} {v : ℚ}
    (hact : ∀ (i : Nat) (r : Row), P.rows[i]? = some r → act i = r.coefs.dot x) :
    canMove P tol act j (v - x j) = true ↔ Fits P tol x j v := by
  constructor
  · intro h r hr ⟨a, ha⟩
    obtain ⟨i, hi⟩ := List.mem_iff_getElem?.mp hr
    unfold RowNear
    rw [dot_update, coefSum_mem (hwf.nodup r hr) ha]
    unfold canMove at h
    rw [List.all_eq_true] at h
    have := h _ (mem_column P hi ha)
    rw [hi] at this
    simp only [Bool.and_eq_true, decide_eq_true_eq] at this
    rw [hact i r hi] at this
    exact ⟨this.2, this.1⟩
  · intro h
    unfold canMove
    rw [List.all_eq_true]
    intro e he
    obtain ⟨r, hr, ha⟩ := column_mem he
    rw [hr]
    simp only [Bool.and_eq_true, decide_eq_true_eq]
    have hm := List.mem_of_getElem? hr
    have := h r hm ⟨e.2, ha⟩
    unfold RowNear at this
    rw [dot_update, coefSum_mem (hwf.nodup r hm) ha] at this
    rw [hact _ r hr]
    exact ⟨this.2, this.1⟩

/-- What is known of a new value. -/
theorem newValue_spec {S : Solver} {tol : ℚ} {act : Nat → ℚ} {j : Nat} {v w : ℚ}
    (h : newValue S tol act j v = some w) :
    (w = (⌊v⌋ : ℤ) ∨ w = (⌊v⌋ : ℤ) + 1) ∧ canMove S.prob tol act j (w - v) = true := by
  unfold newValue at h
  dsimp only at h
  split at h
  · rename_i hb
    split at h
    · rw [← Option.some.inj h]; exact ⟨Or.inl rfl, hb.2⟩
    · rw [← Option.some.inj h]; exact ⟨Or.inr rfl, hb.1⟩
  · split at h
    · rename_i hb
      rw [← Option.some.inj h]; exact ⟨Or.inr rfl, hb⟩
    · split at h
      · rename_i hb
        rw [← Option.some.inj h]; exact ⟨Or.inl rfl, hb⟩
      · cases h

/-- A column that fits at one of the two integers next to its value moves, and to the cheaper one if both fit. -/
theorem newValue_best {S : Solver} (hwf : S.prob.WF) {tol : ℚ} {act x : Nat → ℚ} {j : Nat}
    (hact : ∀ (i : Nat) (r : Row), S.prob.rows[i]? = some r → act i = r.coefs.dot x) {w : ℚ}
    (hw : w = (⌊x j⌋ : ℤ) ∨ w = (⌊x j⌋ : ℤ) + 1) (hf : Fits S.prob tol x j w) :
    ∃ v, newValue S tol act j (x j) = some v ∧ S.sense * S.obj j * v ≤ S.sense * S.obj j * w := by
  have hup := canMove_iff hwf (tol := tol) (j := j) (v := (⌊x j⌋ : ℤ) + 1) hact
  have hdn := canMove_iff hwf (tol := tol) (j := j) (v := (⌊x j⌋ : ℤ)) hact
  unfold newValue
  dsimp only
  by_cases h1 : canMove S.prob tol act j ((⌊x j⌋ : ℤ) + 1 - x j) = true
  · by_cases h2 : canMove S.prob tol act j ((⌊x j⌋ : ℤ) - x j) = true
    · rw [if_pos ⟨h1, h2⟩]
      by_cases h3 : 0 < S.sense * S.obj j
      · rw [if_pos h3]
        refine ⟨_, rfl, ?_⟩
        rcases hw with rfl | rfl
        · exact le_refl _
        · nlinarith
      · rw [if_neg h3]
        refine ⟨_, rfl, ?_⟩
        rcases hw with rfl | rfl
        · nlinarith
        · exact le_refl _
    · rw [if_neg (fun h => h2 h.2), if_pos h1]
      refine ⟨_, rfl, ?_⟩
      rcases hw with rfl | rfl
      · exact absurd (hdn.mpr hf) h2
      · exact le_refl _
  · rw [if_neg (fun h => h1 h.1), if_neg h1]
    rcases hw with rfl | rfl
    · rw [if_pos (hdn.mpr hf)]
      exact ⟨_, rfl, le_refl _⟩
    · exact absurd (hup.mpr hf) h1

/-- The invariant of the loop. -/
structure SettleInv (S0 : Solver) (x0 : Nat → ℚ) (t : ℚ) (s : Settle) : Prop where
  re : Rebound S0 s.S
  act : ∀ (i : Nat) (r : Row), S0.prob.rows[i]? = some r → s.act i = r.coefs.dot s.x
  rows : ∀ r ∈ S0.prob.rows, RowNear t r x0 → RowNear t r s.x
  cols : ∀ j, (s.x j = x0 j ∧ s.S.prob.colLower j = S0.prob.colLower j ∧ s.S.prob.colUpper j = S0.prob.colUpper j) ∨
    (S0.prob.isInt j = true ∧ ¬ IsInteger (x0 j) ∧ (s.x j = (⌊x0 j⌋ : ℤ) ∨ s.x j = (⌊x0 j⌋ : ℤ) + 1) ∧
      s.S.prob.colLower j = s.x j ∧ s.S.prob.colUpper j = s.x j)

theorem settleColumn_inv {S0 : Solver} (hwf : S0.prob.WF) {x0 t s} (h : SettleInv S0 x0 t s) (j : Nat) :
    SettleInv S0 x0 t (settleColumn t s j) := by
  unfold settleColumn
  split
  · rename_i hc
    split
    · exact ⟨h.re, h.act, h.rows, h.cols⟩
    · rename_i v hv
      obtain ⟨h1, h2⟩ := newValue_spec hv
      have hprob : s.S.prob.rows = S0.prob.rows := h.re.rows
      have hcol : column s.S.prob j = column S0.prob j := by
        unfold column; rw [hprob]
      have hmove : canMove S0.prob t s.act j (v - s.x j) = true := by
        rw [← h2]; unfold canMove; rw [hcol, hprob]
      have hx0 : s.x j = x0 j ∧ ¬ IsInteger (x0 j) := by
        rcases h.cols j with hx | ⟨-, -, hx, -⟩
        · refine ⟨hx.1, ?_⟩
          rintro ⟨z, hz⟩
          apply hc.2
          rw [hx.1, hz, Int.floor_intCast]
        · exfalso
          apply hc.2
          rcases hx with hx | hx
          · rw [hx, Int.floor_intCast]
          · rw [hx]
            have : ((⌊x0 j⌋ : ℤ) : ℚ) + 1 = ((⌊x0 j⌋ + 1 : ℤ) : ℚ) := by push_cast; ring
            rw [this, Int.floor_intCast]
      refine ⟨h.re.trans ((rebound_setLower ..).trans (rebound_setUpper ..)), ?_, ?_, ?_⟩
      · intro i r hr
        dsimp only
        rw [addColumn_at, hcol, column_coef _ j hr, h.act i r hr, dot_update]
      · intro r hr hn
        dsimp only
        exact canMove_rows hwf h.act hmove r hr (h.rows r hr hn)
      · intro k
        dsimp only
        by_cases hk : k = j
        · subst hk
          right
          rw [Function.update_self]
          rw [hx0.1] at h1
          refine ⟨by rw [← h.re.isInt]; exact hc.1, hx0.2, h1, by simp, by simp⟩
        · rw [Function.update_of_ne hk, setUpper_lower, setLower_ne _ _ _ hk, setUpper_ne _ _ _ hk, setLower_upper]
          exact h.cols k
  · exact h

theorem settleFold_inv {S0 : Solver} (hwf : S0.prob.WF) {x0 t} (l : List Nat) {s} (h : SettleInv S0 x0 t s) :
    SettleInv S0 x0 t (l.foldl (settleColumn t) s) := by
  induction l generalizing s with
  | nil => exact h
  | cons j l ih => exact ih (settleColumn_inv hwf h j)

theorem rounded_eq {M : Solver} {x : Nat → ℚ} (h : Rounded M x) : x = roundedValue M := by
  funext j
  unfold roundedValue
  rcases h j with ⟨h1, z, h2, h3⟩ | ⟨h1, h2⟩
  · rw [if_pos ⟨h1, near_of h2⟩, roundHalf_near h2, h3]
  · rw [if_neg, h2]
    rintro ⟨a, b⟩
    rcases h1 with h1 | h1
    · rw [h1] at a; cases a
    · obtain ⟨z, hz, -⟩ := roundHalf_int (M.sol j)
      unfold near at b
      rw [hz] at b
      exact absurd b (not_lt.mpr (h1 z))

theorem settle_inv {M S : Solver} (hwf : S.prob.WF) :
    SettleInv S (roundedValue M) (10 * S.tol) (settle M S) := by
  unfold settle
  apply settleFold_inv hwf
  exact ⟨Rebound.refl S, fun i r hr => activities_eq hwf _ hr, fun _ _ h => h, fun j => Or.inl ⟨rfl, rfl, rfl⟩⟩

/-- What `backToOriginal` leaves when some integer column of the model unwound is not near an integer. -/
theorem backToOriginal_bad {M S S' : Solver} (h : backToOriginal M S = .ok S')
    (hb : ∃ j < S.prob.nCols, M.prob.isInt j = true ∧ ∀ z : ℤ, 1 / 1000 ≤ |M.sol j - z|) :
    S' = { (settle M ((List.range S.prob.nCols).foldl (fixColumn M) S)).S with
      sol := (settle M ((List.range S.prob.nCols).foldl (fixColumn M) S)).x } := by
  unfold backToOriginal at h
  split at h
  · cases h
  · dsimp only at h
    split at h
    · rename_i h0
      exfalso
      obtain ⟨j, hj, hi, hz⟩ := hb
      unfold numberBad at h0
      rw [List.length_eq_zero_iff, List.filter_eq_nil_iff] at h0
      apply h0 j (List.mem_range.mpr hj)
      simp only [Bool.and_eq_true, Bool.not_eq_true', decide_eq_false_iff_not]
      refine ⟨hi, ?_⟩
      obtain ⟨z, hz', -⟩ := roundHalf_int (M.sol j)
      unfold near
      rw [hz']
      exact not_lt.mpr (hz z)
    · split at h
      · cases h
      · exact (Except.ok.inj h).symm

/-- **C108.** Integer columns without a value near an integer: the others are rounded, and each of these is moved to one of
the two integers next to its value, or left.  Every row that holds, up to ten times the primal tolerance, at the rounded
point still holds so at the point written into the user's model; a column that moves was an integer column of the user's
model and is fixed at its new value. -/
theorem leftover_rows {M S S' : Solver} (hwf : S.prob.WF) (h : backToOriginal M S = .ok S')
    (hb : ∃ j < S.prob.nCols, M.prob.isInt j = true ∧ ∀ z : ℤ, 1 / 1000 ≤ |M.sol j - z|) {x : Nat → ℚ} (hx : Rounded M x) :
    (∀ r ∈ S.prob.rows, RowNear (10 * S.tol) r x → RowNear (10 * S.tol) r S'.sol) ∧
    ∀ j, S'.sol j = x j ∨ (S.prob.isInt j = true ∧ ¬ IsInteger (x j) ∧
      (S'.sol j = (⌊x j⌋ : ℤ) ∨ S'.sol j = (⌊x j⌋ : ℤ) + 1) ∧
      S'.prob.colLower j = S'.sol j ∧ S'.prob.colUpper j = S'.sol j) := by
  rw [backToOriginal_bad h hb, rounded_eq hx]
  have hre := rebound_fold _ (rebound_fixColumn M) (List.range S.prob.nCols) S
  set S1 := (List.range S.prob.nCols).foldl (fixColumn M) S
  have hwf1 : S1.prob.WF := ⟨by rw [hre.rows, hre.nCols]; exact hwf.cols, by rw [hre.rows]; exact hwf.nodup⟩
  have hinv := settle_inv (M := M) hwf1
  rw [hre.tol] at hinv
  refine ⟨?_, ?_⟩
  · intro r hr hn
    exact hinv.rows r (by rw [hre.rows]; exact hr) hn
  · intro j
    rcases hinv.cols j with h | ⟨h1, h2, h3, h4, h5⟩
    · exact Or.inl h.1
    · exact Or.inr ⟨by rw [← hre.isInt]; exact h1, h2, h3, h4, h5⟩

/-- **C108.** At its turn an integer column without an integer value that fits at one of the two integers next to its value
(the rows it is in hold up to the tolerance) is given such a value, the cheaper one if both fit; otherwise nothing
changes. -/
theorem leftover_turn {S0 : Solver} (hwf : S0.prob.WF) {x0 : Nat → ℚ} {t : ℚ} {s : Settle} (h : SettleInv S0 x0 t s)
    {j : Nat} (hj : S0.prob.isInt j = true) (hx : ¬ IsInteger (s.x j)) :
    (∀ w : ℚ, (w = (⌊s.x j⌋ : ℤ) ∨ w = (⌊s.x j⌋ : ℤ) + 1) → Fits S0.prob t s.x j w →
      ((settleColumn t s j).x j = (⌊s.x j⌋ : ℤ) ∨ (settleColumn t s j).x j = (⌊s.x j⌋ : ℤ) + 1) ∧
      Fits S0.prob t s.x j ((settleColumn t s j).x j) ∧
      S0.sense * S0.obj j * (settleColumn t s j).x j ≤ S0.sense * S0.obj j * w) ∧
    ((∀ w : ℚ, (w = (⌊s.x j⌋ : ℤ) ∨ w = (⌊s.x j⌋ : ℤ) + 1) → ¬ Fits S0.prob t s.x j w) →
      (settleColumn t s j).x = s.x ∧ (settleColumn t s j).S = s.S) := by
  have hwf' : s.S.prob.WF := ⟨by rw [h.re.rows, h.re.nCols]; exact hwf.cols, by rw [h.re.rows]; exact hwf.nodup⟩
  have hact : ∀ (i : Nat) (r : Row), s.S.prob.rows[i]? = some r → s.act i = r.coefs.dot s.x := by
    rw [h.re.rows]; exact h.act
  have hfit : ∀ w, Fits s.S.prob t s.x j w ↔ Fits S0.prob t s.x j w := by
    intro w; unfold Fits; rw [h.re.rows]
  have hc : s.S.prob.isInt j = true ∧ s.x j ≠ (⌊s.x j⌋ : ℤ) :=
    ⟨by rw [h.re.isInt]; exact hj, fun hc => hx ⟨_, hc⟩⟩
  have hsc : settleColumn t s j = match newValue s.S t s.act j (s.x j) with
      | none => { s with checked := s.checked + 1 }
      | some v =>
        { S := setUpper (setLower s.S j v) j v
          x := Function.update s.x j v
          act := addColumn s.act (column s.S.prob j) (v - s.x j)
          checked := s.checked + 1 } := by
    unfold settleColumn; rw [if_pos hc]
    cases newValue s.S t s.act j (s.x j) <;> rfl
  constructor
  · intro w hw hf
    obtain ⟨v, hv, hcost⟩ := newValue_best hwf' hact hw ((hfit w).mpr hf)
    obtain ⟨h1, h2⟩ := newValue_spec hv
    have hx' : (settleColumn t s j).x j = v := by
      rw [hsc, hv]; exact Function.update_self ..
    rw [hx']
    rw [h.re.sense, h.re.obj] at hcost
    exact ⟨h1, (hfit v).mp ((canMove_iff hwf' hact).mp h2), hcost⟩
  · intro hno
    cases hv : newValue s.S t s.act j (s.x j) with
    | none => rw [hsc, hv]; exact ⟨rfl, rfl⟩
    | some v =>
      exfalso
      obtain ⟨h1, h2⟩ := newValue_spec hv
      exact hno v h1 ((hfit v).mp ((canMove_iff hwf' hact).mp h2))

/-- **C108.** If the bounds of such a column are integers and its value lies between them, it does not leave them. -/
theorem leftover_bounds {M S S' : Solver} (hwf : S.prob.WF) (h : backToOriginal M S = .ok S')
    (hb : ∃ j < S.prob.nCols, M.prob.isInt j = true ∧ ∀ z : ℤ, 1 / 1000 ≤ |M.sol j - z|) {x : Nat → ℚ} (hx : Rounded M x)
    {j : Nat} {l u : ℤ} (h1 : (l : ℚ) ≤ x j) (h2 : x j ≤ u) : (l : ℚ) ≤ S'.sol j ∧ S'.sol j ≤ u := by
  rcases (leftover_rows hwf h hb hx).2 j with e | ⟨-, hn, e, -⟩
  · rw [e]; exact ⟨h1, h2⟩
  · have hlt : (⌊x j⌋ : ℤ) < u := by
      have : x j < u := lt_of_le_of_ne h2 fun hc => hn ⟨u, hc⟩
      have h3 : ((⌊x j⌋ : ℤ) : ℚ) < u := lt_of_le_of_lt (Int.floor_le _) this
      exact_mod_cast h3
    have hle : l ≤ ⌊x j⌋ := Int.le_floor.mpr h1
    have a1 : (l : ℚ) ≤ (⌊x j⌋ : ℤ) := by exact_mod_cast hle
    have a2 : ((⌊x j⌋ : ℤ) : ℚ) + 1 ≤ u := by exact_mod_cast hlt
    rcases e with e | e <;> rw [e]
    · exact ⟨a1, by linarith⟩
    · exact ⟨by linarith, a2⟩

end Cgl.PostProc
