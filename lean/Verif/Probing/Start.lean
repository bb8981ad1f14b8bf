import Verif.Probing.Loop
import Verif.Probing.Spec

/-!
# The state in which the passes start
-/

namespace Cgl.Probing

variable {P : Prob} {A : Params} {L : Lp} {x : Nat → ℚ}

/-! ### Bounds at the start -/

theorem Reach.lower (hD : Data P A L) (h : Reach P A L x) {c : Nat} (hc : c < P.nCols) : P.colLower c ≤ x c := by
  by_cases hl : -P.inf < P.colLower c
  · exact h.feasible.lower c hc hl
  · have := (abs_le.mp (h.size c hc)).1
    linarith [hD.inf, not_lt.mp hl]
theorem Reach.upper (hD : Data P A L) (h : Reach P A L x) {c : Nat} (hc : c < P.nCols) : x c ≤ P.colUpper c := by
  by_cases hl : P.colUpper c < P.inf
  · exact h.feasible.upper c hc hl
  · have := (abs_le.mp (h.size c hc)).2
    linarith [hD.inf, not_lt.mp hl]

theorem colType_two {c : Nat} (h : colType P c = 2) : P.isInt c = true := by
  unfold colType at h
  split at h
  · assumption
  · cases h

theorem start_box (hD : Data P A L) (h : Reach P A L x) {sol : Nat → ℚ} {c : Nat} (hc : c < P.nCols) :
    startLo P sol c ≤ x c ∧ x c ≤ startUp P sol c := by
  obtain ⟨h1, h2⟩ := abs_le.mp (h.size c hc)
  have hl := h.lower hD hc
  have hu := h.upper hD hc
  constructor
  · unfold startLo
    split
    · rename_i hh
      have := abs_le.mp (h.intSize c hc (colType_two hh.1))
      unfold reasonable; exact this.1
    · exact max_le hl (by norm_num at h1 ⊢; linarith)
  · unfold startUp
    split
    · rename_i hh
      have := abs_le.mp (h.intSize c hc (colType_two hh.1))
      unfold reasonable; exact this.2
    · exact le_min hu (by norm_num at h2 ⊢; linarith)

theorem startLo_ge (P : Prob) (sol : Nat → ℚ) (c : Nat) : P.colLower c ≤ startLo P sol c := by
  unfold startLo
  split
  · rename_i h
    unfold reasonable
    have h1 := le_trans (le_max_left (P.colLower c) (-10 ^ 29)) h.2.2.le
    exact le_trans h1 (by norm_num)
  · exact le_max_left _ _

theorem startUp_le (P : Prob) (sol : Nat → ℚ) (c : Nat) : startUp P sol c ≤ P.colUpper c := by
  unfold startUp
  split
  · rename_i h
    unfold reasonable
    have h1 := h.2.2.le
    refine le_trans ?_ (le_trans h1 (min_le_left (P.colUpper c) (10 ^ 29)))
    norm_num
  · exact min_le_left _ _

theorem int_max {a b : ℚ} (ha : IsInteger a) (hb : IsInteger b) : IsInteger (max a b) := by
  rcases max_choice a b with h | h <;> rw [h] <;> assumption
theorem int_min {a b : ℚ} (ha : IsInteger a) (hb : IsInteger b) : IsInteger (min a b) := by
  rcases min_choice a b with h | h <;> rw [h] <;> assumption

theorem start_int (hD : Data P A L) (sol : Nat → ℚ) : ∀ c < P.nCols, P.isInt c = true →
    IsInteger (startLo P sol c) ∧ IsInteger (startUp P sol c) := by
  intro c hc hi
  obtain ⟨h1, h2⟩ := hD.int c hc hi
  constructor
  · unfold startLo
    split
    · exact ⟨-12345678900, by unfold reasonable; norm_num⟩
    · exact int_max h1 ⟨-10 ^ 29, by norm_num⟩
  · unfold startUp
    split
    · exact ⟨12345678900, by unfold reasonable; norm_num⟩
    · exact int_min h2 ⟨10 ^ 29, by norm_num⟩

/-! ### Rows -/

theorem list_range_sum (f : Nat → ℚ) : ∀ m : Nat, ((List.range m).map f).sum = ∑ c ∈ Finset.range m, f c
  | 0 => rfl
  | m + 1 => by rw [List.range_succ, List.map_append, List.sum_append, list_range_sum f m, Finset.sum_range_succ]; simp

theorem sum_two_filters {α : Type*} {p q : α → Bool} (hpq : ∀ a, p a = true → q a = true → False) {f : α → ℚ}
    (hf : ∀ a, 0 ≤ f a) (l : List α) : ((l.filter p ++ l.filter q).map f).sum ≤ (l.map f).sum := by
  induction l with
  | nil => simp
  | cons a l ih =>
    rw [List.map_append, List.sum_append] at ih ⊢
    rw [List.map_cons, List.sum_cons]
    have := hf a
    rcases hp : p a with _ | _
    · rw [List.filter_cons_of_neg (by rw [hp]; decide)]
      rcases hq : q a with _ | _
      · rw [List.filter_cons_of_neg (by rw [hq]; decide)]; linarith
      · rw [List.filter_cons_of_pos hq, List.map_cons, List.sum_cons]; linarith
    · rw [List.filter_cons_of_pos hp, List.map_cons, List.sum_cons]
      rcases hq : q a with _ | _
      · rw [List.filter_cons_of_neg (by rw [hq]; decide)]; linarith
      · exact (hpq a hp hq).elim

theorem prepRow_size (lo up : Nat → ℚ) (r : Row) (x : Nat → ℚ) :
    ((prepRow lo up r).els.map fun p => |p.2| * (|x p.1| + 10 ^ 10)).sum ≤
      (r.coefs.map fun p => |p.2| * (|x p.1| + 10 ^ 10)).sum := by
  refine sum_two_filters ?_ (fun p => mul_nonneg (abs_nonneg _) (by have := abs_nonneg (x p.1); positivity)) r.coefs
  intro p h1 h2
  simp only [Bool.and_eq_true, decide_eq_true_eq] at h1 h2
  linarith [h1.2, h2.2]

theorem prepRow_mem {lo up : Nat → ℚ} {r : Row} {p : Nat × ℚ} (h : p ∈ (prepRow lo up r).els) : p ∈ r.coefs := by
  rcases List.mem_append.mp h with h | h <;> exact List.mem_of_mem_filter h

theorem prepRow_nodup {lo up : Nat → ℚ} {r : Row} (h : (r.coefs.map Prod.fst).Nodup) :
    ((prepRow lo up r).els.map Prod.fst).Nodup := by
  unfold PRow.els
  rw [List.map_append, List.nodup_append]
  refine ⟨h.sublist (List.filter_sublist.map _), h.sublist (List.filter_sublist.map _), ?_⟩
  intro k hk k' hk' hkk
  obtain ⟨p, hp, rfl⟩ := List.mem_map.mp hk
  obtain ⟨q, hq, rfl⟩ := List.mem_map.mp hk'
  obtain ⟨hp1, hp2⟩ := List.mem_filter.mp hp
  obtain ⟨hq1, hq2⟩ := List.mem_filter.mp hq
  have := List.inj_on_of_nodup_map h hp1 hq1 hkk
  subst this
  simp only [Bool.and_eq_true, decide_eq_true_eq] at hp2 hq2
  linarith [hp2.2, hq2.2]

theorem prep_dot {lo up : Nat → ℚ} : ∀ (v : SVec), (∀ p ∈ v, lo p.1 ≤ x p.1 ∧ x p.1 ≤ up p.1) →
    SVec.dot (v.filter fun p => decide (lo p.1 < up p.1) && decide (p.2 < 0)) x +
      SVec.dot (v.filter fun p => decide (lo p.1 < up p.1) && decide (0 < p.2)) x + fixedSum lo up v = SVec.dot v x
  | [], _ => by simp [fixedSum]
  | p :: v, h => by
    have ih := prep_dot v fun q hq => h q (List.mem_cons_of_mem _ hq)
    have hp := h p List.mem_cons_self
    unfold fixedSum at ih ⊢
    rw [SVec.dot_cons]
    by_cases hlt : lo p.1 < up p.1
    · rw [List.filter_cons_of_neg (p := fun p : Nat × ℚ => decide (up p.1 ≤ lo p.1)) (by simpa using hlt)]
      rcases lt_trichotomy p.2 0 with hs | hs | hs
      · rw [List.filter_cons_of_pos (by simp [hlt, hs]), List.filter_cons_of_neg (by simp [hs.le]), SVec.dot_cons]
        linarith
      · rw [List.filter_cons_of_neg (by simp [hs]), List.filter_cons_of_neg (by simp [hs]), hs]
        linarith
      · rw [List.filter_cons_of_neg (by simp [hs.le]), List.filter_cons_of_pos (by simp [hlt, hs]), SVec.dot_cons]
        linarith
    · rw [List.filter_cons_of_neg (by simp [hlt]), List.filter_cons_of_neg (by simp [hlt]),
        List.filter_cons_of_pos (by simpa using hlt), List.map_cons, List.sum_cons]
      have : x p.1 = up p.1 := le_antisymm hp.2 (le_trans (not_lt.mp hlt) hp.1)
      rw [this]; linarith

theorem prepRow_dot {lo up : Nat → ℚ} {r : Row} (h : ∀ p ∈ r.coefs, lo p.1 ≤ x p.1 ∧ x p.1 ≤ up p.1) :
    (prepRow lo up r).els.dot x + fixedSum lo up r.coefs = r.coefs.dot x := by
  rw [els_dot]
  exact prep_dot r.coefs h

/-- The row without fixed columns holds. -/
theorem prepRow_ok {lo up : Nat → ℚ} {r : Row} (h : ∀ p ∈ r.coefs, lo p.1 ≤ x p.1 ∧ x p.1 ≤ up p.1)
    (hs : (r.coefs.map fun p => |p.2| * (|x p.1| + 10 ^ 10)).sum ≤ 10 ^ 20)
    (hl : -10 ^ 20 < r.lb → r.lb ≤ r.coefs.dot x) (hu : r.ub < 10 ^ 20 → r.coefs.dot x ≤ r.ub) :
    (prepRow lo up r).lb ≤ (prepRow lo up r).els.dot x ∧ (prepRow lo up r).els.dot x ≤ (prepRow lo up r).ub := by
  have hd := prepRow_dot h
  have hab := abs_le.mp (le_trans (abs_dot_le _ _) (le_trans (prepRow_size lo up r x) hs))
  constructor
  · show (if -10 ^ 20 < r.lb then r.lb - fixedSum lo up r.coefs else r.lb) ≤ _
    split
    · rename_i hh; linarith [hl hh]
    · rename_i hh; linarith [not_lt.mp hh, hab.1]
  · show _ ≤ (if r.ub < 10 ^ 20 then r.ub - fixedSum lo up r.coefs else r.ub)
    split
    · rename_i hh; linarith [hu hh]
    · rename_i hh; linarith [not_lt.mp hh, hab.2]

/-- The cutoff of the code is the one the specification speaks of. -/
theorem cutoff_eq (P : Prob) (A : Params) (L : Lp) :
    cutoff P A L = L.sense * (if 0 ≤ A.usingObjective then L.limit.getD P.inf else P.inf) := by
  unfold cutoff
  rw [mul_comm]
  congr 1
  cases L.limit with
  | none => simp
  | some l =>
    by_cases h : 0 ≤ A.usingObjective
    · simp [h, not_lt.mpr h]
    · simp [h, not_le.mp h]

theorem obj_coefs_dot (sg : ℚ) (obj x : Nat → ℚ) : ∀ l : List Nat,
    SVec.dot ((l.filter fun c => decide (obj c ≠ 0)).map fun c => (c, sg * obj c)) x = sg * (l.map fun c => obj c * x c).sum
  | [] => by simp
  | c :: l => by
    have ih := obj_coefs_dot sg obj x l
    by_cases h : obj c ≠ 0
    · rw [List.filter_cons_of_pos (by simpa using h), List.map_cons, SVec.dot_cons, ih, List.map_cons, List.sum_cons]; ring
    · rw [List.filter_cons_of_neg (by simpa using h), ih, List.map_cons, List.sum_cons, not_not.mp h]; ring

theorem objRow_coefs (hD : Data P A L) : (objRow P A L).coefs =
    ((List.range P.nCols).filter fun c => decide (L.obj c ≠ 0)).map fun c => (c, L.sense * L.obj c) := by
  unfold objRow
  refine List.map_congr_left fun c _ => ?_
  rcases hD.sense with h | h <;> rw [h] <;> norm_num

theorem obj_size (obj x : Nat → ℚ) {sg : ℚ} (hs : |sg| = 1) : ∀ l : List Nat,
    ((((l.filter fun c => decide (obj c ≠ 0)).map fun c => (c, sg * obj c)) : SVec).map
      fun p => |p.2| * (|x p.1| + 10 ^ 10)).sum ≤ (l.map fun c => |obj c| * (|x c| + 10 ^ 10)).sum
  | [] => by simp
  | c :: l => by
    have ih := obj_size obj x hs l
    have hp : 0 ≤ |obj c| * (|x c| + 10 ^ 10) := mul_nonneg (abs_nonneg _) (by have := abs_nonneg (x c); positivity)
    by_cases h : obj c ≠ 0
    · rw [List.filter_cons_of_pos (by simpa using h), List.map_cons, List.map_cons, List.sum_cons, List.map_cons,
        List.sum_cons, abs_mul, hs, one_mul]
      linarith
    · rw [List.filter_cons_of_neg (by simpa using h), List.map_cons, List.sum_cons]; linarith

/-- Every row that is kept holds at the point. -/
theorem kept_ok (hD : Data P A L) (h : Reach P A L x) {r : Row} (hr : r ∈ keptRows P A L) :
    (∀ p ∈ r.coefs, p.1 < P.nCols) ∧ (r.coefs.map Prod.fst).Nodup ∧
    (r.coefs.map fun p => |p.2| * (|x p.1| + 10 ^ 10)).sum ≤ 10 ^ 20 ∧
    (-10 ^ 20 < r.lb → r.lb ≤ r.coefs.dot x) ∧ (r.ub < 10 ^ 20 → r.coefs.dot x ≤ r.ub) := by
  rcases List.mem_append.mp hr with hr | hr
  · have hm := List.mem_of_mem_filter hr
    obtain ⟨h1, h2⟩ := h.feasible.rows r hm
    have hi := hD.inf
    exact ⟨hD.wf.cols r hm, hD.wf.nodup r hm, h.rowSize r hm, fun hh => h1 (by linarith), fun hh => h2 (by linarith)⟩
  · have hm := List.mem_of_mem_filter hr
    unfold objRows at hm
    split at hm
    · rename_i huse
      obtain rfl := List.mem_singleton.mp hm
      have hsg : |L.sense| = 1 := by rcases hD.sense with h | h <;> rw [h] <;> norm_num
      rw [objRow_coefs hD]
      refine ⟨?_, ?_, ?_, ?_, ?_⟩
      · intro p hp
        obtain ⟨c, hc, rfl⟩ := List.mem_map.mp hp
        exact List.mem_range.mp (List.mem_of_mem_filter hc)
      · rw [List.map_map]
        have : (Prod.fst ∘ fun c => (c, L.sense * L.obj c)) = (id : Nat → Nat) := rfl
        rw [this, List.map_id]
        exact List.nodup_range.filter _
      · refine le_trans (obj_size L.obj x hsg _) ?_
        rw [list_range_sum]; exact h.objSize
      · intro hh
        have : (objRow P A L).lb = -dblMax := rfl
        rw [this] at hh
        have := dblMax_big
        have h31 : (10 : ℚ) ^ 20 ≤ 10 ^ 31 := by norm_num
        linarith
      · intro _
        rw [obj_coefs_dot, list_range_sum]
        have hl := h.limit
        unfold WithinLimit Lp.objValue at hl
        rw [← cutoff_eq] at hl
        show _ ≤ cutoff P A L + L.offset
        unfold useObj at huse
        simp only [decide_eq_true_eq] at huse
        rcases hD.sense with hs | hs
        · rw [hs] at hl ⊢; linarith
        · have := hD.offset hs huse.2
          rw [hs] at hl ⊢; linarith
    · cases hm

/-- The rows `tighten` and `probe` work with. -/
def workRows (P : Prob) (A : Params) (L : Lp) : List PRow :=
  (keptRows P A L).map (prepRow (startLo P L.sol) (startUp P L.sol))

theorem work_tenv (hD : Data P A L) (h : Reach P A L x) : TEnv (workRows P A L) P.isInt P.nCols x := by
  refine ⟨?_, ?_, ?_, h.feasible.int⟩
  · intro r hr
    obtain ⟨q, -, rfl⟩ := List.mem_map.mp hr
    exact prepRow_wf _ _ q
  · intro r hr p hp
    obtain ⟨q, hq, rfl⟩ := List.mem_map.mp hr
    exact (kept_ok hD h hq).1 p (prepRow_mem hp)
  · intro r hr
    obtain ⟨q, hq, rfl⟩ := List.mem_map.mp hr
    exact le_trans (abs_dot_le _ _) (le_trans (prepRow_size _ _ q x) (kept_ok hD h hq).2.2.1)

theorem work_row (hD : Data P A L) (h : Reach P A L x) : ∀ r ∈ workRows P A L, r.lb ≤ r.els.dot x ∧ r.els.dot x ≤ r.ub := by
  intro r hr
  obtain ⟨q, hq, rfl⟩ := List.mem_map.mp hr
  obtain ⟨h1, -, h3, h4, h5⟩ := kept_ok hD h hq
  exact prepRow_ok (fun p hp => start_box hD h (h1 p hp)) h3 h4 h5

theorem work_tighten (hD : Data P A L) (h : Reach P A L x) :
    TInv (workRows P A L) P.nCols x (startLo P L.sol) (startUp P L.sol)
      (tighten (workRows P A L) P.isInt (startLo P L.sol) (startUp P L.sol)) :=
  tighten_inv (work_tenv hD h) (work_row hD h) (fun _ hc => start_box hD h hc) (start_int hD L.sol)

/-! ### The configuration -/

theorem newRows_get {rows : List PRow} {t : TSt} {i : Nat} {r : PRow} (h : (newRows rows t)[i]? = some r) :
    ∃ q, rows[i]? = some q ∧ r = { q with
      lb := t.lb i
      ub := t.ub i } := by
  unfold newRows at h
  rw [List.getElem?_map, List.getElem?_zipIdx] at h
  rcases hq : rows[i]? with _ | q
  · rw [hq] at h; simp at h
  · rw [hq] at h
    simp only [Option.map_some, Option.some.injEq, Nat.zero_add] at h
    exact ⟨q, rfl, h.symm⟩

theorem newRows_mem {rows : List PRow} {t : TSt} {r : PRow} (h : r ∈ newRows rows t) :
    ∃ (i : Nat) (q : PRow), rows[i]? = some q ∧ r = { q with
      lb := t.lb i
      ub := t.ub i } := by
  obtain ⟨i, hi⟩ := List.mem_iff_getElem?.mp h
  obtain ⟨q, h1, h2⟩ := newRows_get hi
  exact ⟨i, q, h1, h2⟩

/-- The columns that are not fixed at the start. -/
def liveOf (t : TSt) (c : Nat) : Bool := decide (1 / 10 ^ 8 < t.up c - t.lo c)

theorem dj_nonneg (hD : Data P A L) (h : Reach P A L x) {c : Nat} (hc : c < P.nCols) :
    0 ≤ L.dj c * L.sense * (x c - L.sol c) := by
  rcases lt_trichotomy (L.dj c * L.sense) 0 with hs | hs | hs
  · have := hD.djUp c hc hs
    have := h.upper hD hc
    exact mul_nonneg_of_nonpos_of_nonpos hs.le (by linarith)
  · rw [hs, zero_mul]
  · have := hD.djLo c hc hs
    have := h.lower hD hc
    exact mul_nonneg hs.le (by linarith)

theorem clean_le (hD : Data P A L) (h : Reach P A L x) {lo up : Nat → ℚ} {c : Nat} (hc : c < P.nCols)
    (hlo : P.colLower c ≤ lo c) (hup : up c ≤ P.colUpper c) (hl : 1 / 10 ^ 8 < up c - lo c) :
    cleanDj lo up L c * (x c - cleanSol lo up L c) ≤ L.dj c * L.sense * (x c - L.sol c) := by
  have h0 := dj_nonneg hD h hc
  unfold cleanDj cleanSol
  rw [if_pos hl, if_pos hl]
  split
  · rcases max_cases 0 (L.dj c * L.sense) with ⟨hm, _⟩ | ⟨hm, hs⟩
    · rw [hm, zero_mul]; exact h0
    · rw [hm]
      have := hD.djLo c hc hs
      exact mul_le_mul_of_nonneg_left (by linarith) hs.le
  · split
    · rcases min_cases 0 (L.dj c * L.sense) with ⟨hm, _⟩ | ⟨hm, hs⟩
      · rw [hm, zero_mul]; exact h0
      · rw [hm]
        have := hD.djUp c hc hs
        exact mul_le_mul_of_nonpos_left (by linarith) hs.le
    · rw [zero_mul]; exact h0

theorem start_env (hD : Data P A L) (h : Reach P A L x) {t : TSt}
    (ht : TInv (workRows P A L) P.nCols x (startLo P L.sol) (startUp P L.sol) t) :
    Env (cfgOf P A L (workRows P A L) t) P.nCols x (liveOf t) := by
  have hT := work_tenv hD h
  refine ⟨?_, ?_, ?_, ?_, h.feasible.int, ?_⟩
  · intro r hr
    obtain ⟨i, q, hq, rfl⟩ := newRows_mem hr
    have := hT.wf q (List.mem_of_getElem? hq)
    exact ⟨this.neg, this.pos⟩
  · intro r hr p hp
    obtain ⟨i, q, hq, rfl⟩ := newRows_mem hr
    exact hT.cols q (List.mem_of_getElem? hq) p hp
  · intro r hr
    obtain ⟨i, q, hq, rfl⟩ := newRows_mem hr
    exact ht.rowLe i q hq
  · intro r hr
    obtain ⟨i, q, hq, rfl⟩ := newRows_mem hr
    obtain ⟨q', hq', rfl⟩ := List.mem_map.mp (List.mem_of_getElem? hq)
    exact le_trans (prepRow_size _ _ q' x) (kept_ok hD h hq').2.2.1
  · have hd := h.dual
    have hl := h.limit
    unfold WithinLimit at hl
    rw [← cutoff_eq] at hl
    unfold DualBound at hd
    have hs : ∑ c ∈ Finset.range P.nCols, (if liveOf t c = true then
        (cfgOf P A L (workRows P A L) t).dj c * (x c - (cfgOf P A L (workRows P A L) t).sol c) else 0) ≤
        ∑ c ∈ Finset.range P.nCols, L.dj c * L.sense * (x c - L.sol c) := by
      refine Finset.sum_le_sum fun c hc => ?_
      have hc := Finset.mem_range.mp hc
      split
      · rename_i hlv
        unfold liveOf at hlv
        exact clean_le hD h hc (le_trans (startLo_ge P L.sol c) (ht.mono c hc).1)
          (le_trans (ht.mono c hc).2 (startUp_le P L.sol c)) (by simpa using hlv)
      · exact dj_nonneg hD h hc
    show L.value * L.sense + _ ≤ cutoff P A L
    linarith

theorem start_nodup (hD : Data P A L) (h : Reach P A L x) (t : TSt) : NodupRows (cfgOf P A L (workRows P A L) t) := by
  intro r hr
  obtain ⟨i, q, hq, rfl⟩ := newRows_mem hr
  obtain ⟨q', hq', rfl⟩ := List.mem_map.mp (List.mem_of_getElem? hq)
  exact prepRow_nodup (kept_ok hD h hq').2.1

theorem start_l0 {t : TSt} (hti : ∀ c < P.nCols, P.isInt c = true → IsInteger (t.lo c) ∧ IsInteger (t.up c))
    (hex : (startSt P (workRows P A L) (startLo P L.sol) (startUp P L.sol) t).exact = true) :
    L0 (cfgOf P A L (workRows P A L) t) P.nCols (liveOf t)
      (startSt P (workRows P A L) (startLo P L.sol) (startUp P L.sol) t) := by
  refine ⟨?_, fun _ => rfl, ?_, hti, ?_⟩
  · intro c hc
    have hc' : (startMark (t.lo c) (t.up c)).any = true := hc
    show (startMark (t.lo c) (t.up c)).fixed = true
    unfold startMark at hc' ⊢
    split
    · rfl
    · rename_i hh; rw [if_neg hh] at hc'; cases hc'
  · intro c hc
    have hc' : (startMark (t.lo c) (t.up c)).fixed = false := hc
    unfold Bits
    show ((startMark (t.lo c) (t.up c)).upInf = false → t.up c ≤ _) ∧
      ((startMark (t.lo c) (t.up c)).lowInf = false → _ ≤ t.lo c)
    unfold startMark at hc' ⊢
    split
    · rename_i hh; rw [if_pos hh] at hc'; cases hc'
    · unfold Mark.clear
      simp only [decide_eq_false_iff_not, not_lt]
      exact ⟨id, id⟩
  · intro c hc hd
    unfold liveOf at hd
    simp only [decide_eq_false_iff_not, not_lt] at hd
    have hne := (List.all_eq_true.mp hex) c (List.mem_range.mpr hc)
    simp only [Bool.not_eq_true', decide_eq_false_iff_not] at hne
    show (startMark (t.lo c) (t.up c)).fixed = true
    unfold startMark
    rw [if_pos (lt_of_le_of_ne hd hne)]
    rfl

theorem start_g (hD : Data P A L) (h : Reach P A L x) {t : TSt}
    (ht : TInv (workRows P A L) P.nCols x (startLo P L.sol) (startUp P L.sol) t) :
    G (cfgOf P A L (workRows P A L) t) P.nCols x (liveOf t)
      (startSt P (workRows P A L) (startLo P L.sol) (startUp P L.sol) t) := by
  have hT := work_tenv hD h
  refine ⟨ht.box, ?_, fun _ _ => rfl, ?_, ?_, ?_⟩
  · intro c hc
    exact ⟨le_trans (startLo_ge P L.sol c) (ht.mono c hc).1, le_trans (ht.mono c hc).2 (startUp_le P L.sol c)⟩
  · intro i r hr
    obtain ⟨q, hq, rfl⟩ := newRows_get hr
    show initMin _ _ _ i ≤ low t.lo t.up q ∨ initMin _ _ _ i = _
    unfold initMin
    rw [hq]
    simp only [Option.map_some, Option.getD_some]
    unfold minAct
    split
    · exact Or.inr rfl
    · left
      have hm := List.mem_of_getElem? hq
      exact low_mono (hT.wf q hm) (fun p hp => (ht.mono p.1 (hT.cols q hm p hp)).1)
        (fun p hp => (ht.mono p.1 (hT.cols q hm p hp)).2)
  · intro i r hr
    obtain ⟨q, hq, rfl⟩ := newRows_get hr
    show hi t.lo t.up q ≤ initMax _ _ _ i ∨ initMax _ _ _ i = _
    unfold initMax
    rw [hq]
    simp only [Option.map_some, Option.getD_some]
    unfold maxAct
    split
    · exact Or.inr rfl
    · left
      have hm := List.mem_of_getElem? hq
      exact hi_mono (hT.wf q hm) (fun p hp => (ht.mono p.1 (hT.cols q hm p hp)).1)
        (fun p hp => (ht.mono p.1 (hT.cols q hm p hp)).2)
  · intro c hc hlv
    unfold liveOf at hlv
    have hlv : 1 / 10 ^ 8 < t.up c - t.lo c := by simpa using hlv
    show (0 < cleanDj t.lo t.up L c → cleanSol t.lo t.up L c ≤ t.lo c) ∧
      (cleanDj t.lo t.up L c < 0 → t.up c ≤ cleanSol t.lo t.up L c)
    unfold cleanDj cleanSol
    rw [if_pos hlv, if_pos hlv]
    split
    · exact ⟨fun _ => le_rfl, fun hh => absurd hh (not_lt.mpr (le_max_left _ _))⟩
    · split
      · exact ⟨fun hh => absurd hh (not_lt.mpr (min_le_left _ _)), fun _ => le_rfl⟩
      · exact ⟨fun hh => absurd hh (lt_irrefl _), fun hh => absurd hh (lt_irrefl _)⟩


/-! ### The call -/

theorem boundsCut_sat {lo up : Nat → ℚ} (h : ∀ c < P.nCols, lo c ≤ x c ∧ x c ≤ up c) : (boundsCut P lo up).Sat x := by
  constructor
  · intro p hp
    obtain ⟨c, hc, rfl⟩ := List.mem_map.mp hp
    exact (h c (List.mem_range.mp (List.mem_of_mem_filter hc))).1
  · intro p hp
    obtain ⟨c, hc, rfl⟩ := List.mem_map.mp hp
    exact (h c (List.mem_range.mp (List.mem_of_mem_filter hc))).2

theorem back_box (hD : Data P A L) (h : Reach P A L x) {lo up : Nat → ℚ} (hb : ∀ c < P.nCols, lo c ≤ x c ∧ x c ≤ up c) :
    ∀ c < P.nCols, backLo P lo c ≤ x c ∧ x c ≤ backUp P up c := by
  intro c hc
  constructor
  · unfold backLo; split
    · exact h.lower hD hc
    · exact (hb c hc).1
  · unfold backUp; split
    · exact h.upper hD hc
    · exact (hb c hc).2

/-- What holds of the results of a call at a point. -/
structure OutOk (P : Prob) (x : Nat → ℚ) (o : Out) : Prop where
  cols : ∀ c ∈ o.cols, c.Sat x
  cuts : ∀ c ∈ o.cuts, c.Sat x
  fixes : ∀ f ∈ o.fixes, f.Holds P x
  infeas : o.infeas = false
  box : ∀ c < P.nCols, o.lo c ≤ x c ∧ x c ≤ o.up c

theorem probe_inv (hD : Data P A L) (h : Reach P A L x) {dup : List RowCut → RowCut → Bool} {look : Nat → List Nat} {t : TSt}
    (ht : TInv (workRows P A L) P.nCols x (startLo P L.sol) (startUp P L.sol) t)
    (hti : ∀ c < P.nCols, P.isInt c = true → IsInteger (t.lo c) ∧ IsInteger (t.up c))
    (hex : (probe P A L dup look (workRows P A L) (startLo P L.sol) (startUp P L.sol) t).1.exact = true) :
    PInv (cfgOf P A L (workRows P A L) t) P.nCols x (liveOf t)
      (probe P A L dup look (workRows P A L) (startLo P L.sol) (startUp P L.sol) t) := by
  unfold probe at hex ⊢
  refine passes_inv (start_env hD h ht) (start_nodup hD h t) ?_ _ _ _ ?_ hex
  · intro p j hj
    have := (List.mem_filter.mp hj).2
    unfold candidate at this
    simp only [Bool.and_eq_true, decide_eq_true_eq] at this
    exact this.1.1
  · exact ⟨start_l0 hti (passes_exact _ _ _ hex), start_g hD h ht, ⟨by simp, by simp, by simp, rfl, rfl⟩⟩

theorem finish_ok (hD : Data P A L) (h : Reach P A L x) {dup : List RowCut → RowCut → Bool} {t : TSt} {cc : List ColCut}
    {r : St × Acc} (ht : TInv (workRows P A L) P.nCols x (startLo P L.sol) (startUp P L.sol) t)
    (hcc : ∀ c ∈ cc, c.Sat x) (hr : PInv (cfgOf P A L (workRows P A L) t) P.nCols x (liveOf t) r) :
    OutOk P x (finish P A L dup (workRows P A L) t cc r) := by
  unfold finish
  dsimp only
  rw [if_neg (by rw [hr.acc.infeas]; decide)]
  refine ⟨?_, ?_, hr.acc.fixes, rfl, back_box hD h hr.val.box⟩
  · intro c hc
    rcases List.mem_append.mp hc with hc | hc
    · exact hcc c hc
    · exact hr.acc.cols c hc
  · intro c hc
    exact bigMs_sat (start_env hD h ht) (start_nodup hD h t) hr.val hr.acc.cand c (addCuts_mem hc)

theorem guts_ok (hD : Data P A L) (h : Reach P A L x) {dup : List RowCut → RowCut → Bool} {look : Nat → List Nat} {o : Out}
    (ho : guts P A L dup look = .ok o) (hex : o.exact = true) : OutOk P x o := by
  unfold guts at ho
  split at ho
  · split at ho
    · cases ho
      exact ⟨by simp, by simp, by simp, rfl, back_box hD h fun c hc => start_box hD h hc⟩
    · have ht := work_tighten hD h
      have hti := tighten_int (work_tenv hD h).cols (start_int hD L.sol)
      change afterTighten P A L dup look (workRows P A L) _ _
        (tighten (workRows P A L) P.isInt (startLo P L.sol) (startUp P L.sol)) = _ at ho
      generalize tighten (workRows P A L) P.isInt (startLo P L.sol) (startUp P L.sol) = t at ht hti ho
      unfold afterTighten at ho
      rw [if_neg (by rw [ht.ok]; decide)] at ho
      have hcc : ∀ c ∈ addCol [] (boundsCut P t.lo t.up), c.Sat x :=
        addCol_sat (by simp) (boundsCut_sat ht.box)
      split at ho
      · split at ho
        · split at ho
          · cases ho
            have : (probe P A L dup look (workRows P A L) (startLo P L.sol) (startUp P L.sol) t).1.exact = true := by
              unfold finish at hex
              dsimp only at hex
              split at hex <;> exact hex
            exact finish_ok hD h ht hcc (probe_inv hD h ht hti this)
          · cases ho
        · cases ho
          exact ⟨hcc, by simp, by simp, rfl, back_box hD h ht.box⟩
      · cases ho
  · cases ho

end Cgl.Probing
