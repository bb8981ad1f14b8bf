import Verif.Probing.Way

/-!
# Restoring the state after a way, or keeping it
-/

namespace Cgl.Probing

variable {g : Cfg} {n : Nat} {x : Nat → ℚ} {live : Nat → Bool} {s s0 t : St}

/-! ### The two values -/

theorem int_le_of_lt_add_one {a b : ℚ} (ha : IsInteger a) (hb : IsInteger b) (h : a < b + 1) : a ≤ b := by
  obtain ⟨y, rfl⟩ := ha
  obtain ⟨z, rfl⟩ := hb
  have : y < z + 1 := by exact_mod_cast h
  exact_mod_cast Int.lt_add_one_iff.mp this

theorem int_add_one {a : ℚ} (h : IsInteger a) : IsInteger (a + 1) := by
  obtain ⟨z, rfl⟩ := h; exact ⟨z + 1, by push_cast; rfl⟩
theorem int_sub_one {a : ℚ} (h : IsInteger a) : IsInteger (a - 1) := by
  obtain ⟨z, rfl⟩ := h; exact ⟨z - 1, by push_cast; rfl⟩

/-- `down` and `up` are neighbouring integers within the bounds. -/
theorem choose_ok {sol lo up : ℚ} (hl : IsInteger lo) (hu : IsInteger up) (h : lo < up) :
    IsInteger (choose sol lo up).1 ∧ (choose sol lo up).2 = (choose sol lo up).1 + 1 ∧ lo ≤ (choose sol lo up).1 ∧
    (choose sol lo up).2 ≤ up ∧ (sol ≤ lo → (choose sol lo up).1 ≤ lo) ∧ (up ≤ sol → up ≤ (choose sol lo up).2) := by
  have h1 : lo + 1 ≤ up := int_le_of_lt_add_one (int_add_one hl) hu (by linarith)
  have ht : 0 < tol ∧ 100 * tol < 1 := by unfold tol; norm_num
  have f1 := Int.floor_le (sol + 10 * tol)
  have f2 := Int.lt_floor_add_one (sol + 10 * tol)
  have c1 := Int.le_ceil (sol - 10 * tol)
  have c2 := Int.ceil_lt_add_one (sol - 10 * tol)
  have fi : IsInteger ((⌊sol + 10 * tol⌋ : ℤ) : ℚ) := ⟨_, rfl⟩
  have ci : IsInteger ((⌈sol - 10 * tol⌉ : ℤ) : ℚ) := ⟨_, rfl⟩
  unfold choose
  dsimp only
  split
  · split
    · rename_i h2
      exact ⟨hl, rfl, le_rfl, h1, fun _ => le_rfl, fun hh => by linarith⟩
    · rename_i h2
      split
      · rename_i h3
        exact ⟨(int_sub_one hu), by ring, by linarith, le_rfl, fun hh => by linarith, fun _ => le_rfl⟩
      · rename_i h3
        push Not at h2 h3
        refine ⟨fi, rfl, ?_, ?_, fun hh => by linarith, fun hh => by linarith⟩
        · exact int_le_of_lt_add_one hl fi (by linarith)
        · exact int_le_of_lt_add_one (int_add_one fi) hu (by linarith)
  · rename_i h2
    push Not at h2
    obtain ⟨h2, h3, h4⟩ := h2
    have e1 : ((⌊sol + 10 * tol⌋ : ℤ) : ℚ) ≤ ((⌈sol - 10 * tol⌉ : ℤ) : ℚ) := int_le_of_lt_add_one fi ci (by linarith)
    have e2 : ((⌊sol + 10 * tol⌋ : ℤ) : ℚ) < ((⌈sol - 10 * tol⌉ : ℤ) : ℚ) := lt_of_le_of_ne e1 (Ne.symm h4)
    have e3 : ((⌊sol + 10 * tol⌋ : ℤ) : ℚ) + 1 ≤ ((⌈sol - 10 * tol⌉ : ℤ) : ℚ) :=
      int_le_of_lt_add_one (int_add_one fi) ci (by linarith)
    have e4 : ((⌈sol - 10 * tol⌉ : ℤ) : ℚ) ≤ ((⌊sol + 10 * tol⌋ : ℤ) : ℚ) + 1 :=
      int_le_of_lt_add_one ci (int_add_one fi) (by linarith)
    refine ⟨fi, le_antisymm e4 e3, ?_, ?_, fun hh => by linarith, fun hh => by linarith⟩
    · exact int_le_of_lt_add_one hl fi (by linarith)
    · exact int_le_of_lt_add_one ci hu (by linarith)

/-! ### Restoring columns -/

/-- Only columns are restored, from the entries of `l`. -/
structure Restored (l : List Save) (s t : St) : Prop where
  cols : ∀ c, (∃ v ∈ l, v.col = c ∧ t.lo c = v.lo ∧ t.up c = v.up ∧ t.gap c = v.up - v.lo - tol ∧
      (t.mark c = Mark.clear v.lo v.up ∨ t.mark c = Mark.three)) ∨
    ((∀ v ∈ l, v.col ≠ c) ∧ t.lo c = s.lo c ∧ t.up c = s.up c ∧ t.gap c = s.gap c ∧ t.mark c = s.mark c)
  rows : SameRows s t
  exact : t.exact = s.exact

theorem Restored.cons {l : List Save} (h : Restored l s t) {v : Save} {u : St}
    (hlo : u.lo = Function.update t.lo v.col v.lo) (hup : u.up = Function.update t.up v.col v.up)
    (hgap : u.gap = Function.update t.gap v.col (v.up - v.lo - tol)) {m : Mark}
    (hmark : u.mark = Function.update t.mark v.col m) (hm : m = Mark.clear v.lo v.up ∨ m = Mark.three)
    (hrows : SameRows t u) (hex : u.exact = t.exact) : Restored (v :: l) s u := by
  refine ⟨?_, ⟨hrows.minR.trans h.rows.minR, hrows.maxR.trans h.rows.maxR, hrows.markR.trans h.rows.markR,
    hrows.sR.trans h.rows.sR⟩, hex.trans h.exact⟩
  intro c
  rw [hlo, hup, hgap, hmark]
  by_cases hc : c = v.col
  · subst hc
    left
    refine ⟨v, List.mem_cons_self, rfl, ?_⟩
    simp only [Function.update_self]
    exact ⟨trivial, trivial, trivial, hm⟩
  · simp only [Function.update_of_ne hc]
    rcases h.cols c with ⟨w, hw, h1⟩ | ⟨hno, h1⟩
    · left; exact ⟨w, List.mem_cons_of_mem _ hw, h1⟩
    · right
      refine ⟨?_, h1⟩
      intro w hw
      rcases List.mem_cons.mp hw with rfl | hw
      · exact fun hh => hc hh.symm
      · exact hno w hw

theorem restored_nil (s : St) : Restored [] s s :=
  ⟨fun _ => Or.inr ⟨by simp, rfl, rfl, rfl, rfl⟩, ⟨rfl, rfl, rfl, rfl⟩, rfl⟩

theorem foldr_restore0 (s : St) : ∀ l : List Save, Restored l s (l.foldr restore0 s)
  | [] => restored_nil s
  | v :: l => (foldr_restore0 s l).cons rfl rfl rfl rfl (Or.inl rfl) ⟨rfl, rfl, rfl, rfl⟩ rfl

theorem foldr_restore1 (s : St) : ∀ l : List Save, Restored l s (l.foldr restore1 s)
  | [] => restored_nil s
  | v :: l => by
    refine (foldr_restore1 s l).cons rfl rfl rfl rfl ?_ ⟨rfl, rfl, rfl, rfl⟩ rfl
    split
    · exact Or.inl rfl
    · exact Or.inr rfl

/-- Only rows are restored, from the entries of `l`. -/
structure RestoredR (l : List SaveR) (s t : St) : Prop where
  rows : ∀ i, (∃ v ∈ l, v.row = i ∧ t.minR i = v.min ∧ t.maxR i = v.max ∧ t.markR i = false) ∨
    ((∀ v ∈ l, v.row ≠ i) ∧ t.minR i = s.minR i ∧ t.maxR i = s.maxR i ∧ t.markR i = s.markR i)
  lo : t.lo = s.lo
  up : t.up = s.up
  gap : t.gap = s.gap
  mark : t.mark = s.mark
  exact : t.exact = s.exact

theorem foldl_restoreRow : ∀ (l : List SaveR) (s : St), RestoredR l s (l.foldl (fun t v => restoreRow v t) s)
  | [], s => ⟨fun _ => Or.inr ⟨by simp, rfl, rfl, rfl⟩, rfl, rfl, rfl, rfl, rfl⟩
  | v :: l, s => by
    have h := foldl_restoreRow l (restoreRow v s)
    refine ⟨?_, h.lo, h.up, h.gap, h.mark, h.exact⟩
    intro i
    rcases h.rows i with ⟨w, hw, h1⟩ | ⟨hno, h1, h2, h3⟩
    · left; exact ⟨w, List.mem_cons_of_mem _ hw, h1⟩
    · by_cases hi : i = v.row
      · subst hi
        left
        refine ⟨v, List.mem_cons_self, rfl, ?_⟩
        rw [List.foldl_cons, h1, h2, h3]
        unfold restoreRow
        simp
      · right
        refine ⟨?_, ?_⟩
        · intro w hw
          rcases List.mem_cons.mp hw with rfl | hw
          · exact fun hh => hi hh.symm
          · exact hno w hw
        · rw [List.foldl_cons, h1, h2, h3]
          unfold restoreRow
          simp [Function.update_of_ne hi]

/-- What is left after restoring with the entries of `l`. -/
structure Undone (g : Cfg) (l : List Save) (s0 s t : St) : Prop where
  cols : ∀ c, (∃ v ∈ l, v.col = c ∧ t.lo c = v.lo ∧ t.up c = v.up ∧ t.gap c = v.up - v.lo - tol ∧
      (t.mark c = Mark.clear v.lo v.up ∨ t.mark c = Mark.three)) ∨
    (t.lo c = s0.lo c ∧ t.up c = s0.up c ∧ t.gap c = s0.gap c ∧ t.mark c = s0.mark c)
  minR : t.minR = s0.minR
  maxR : t.maxR = s0.maxR
  markR : ∀ i, t.markR i = false
  exact : t.exact = s.exact

theorem undone_of (hK : K g n s0 s) {l : List Save} (hl : l.map Save.col = s.sC.map Save.col) {s1 : St}
    (h : Restored l s s1) : Undone g l s0 s (s1.sR.foldl (fun t v => restoreRow v t) s1) := by
  have hr := foldl_restoreRow s1.sR s1
  rw [h.rows.sR] at hr ⊢
  have hmem : ∀ c, (∀ v ∈ l, v.col ≠ c) → ¬ OnStack s c := by
    rintro c hno ⟨v, hv, rfl⟩
    have : v.col ∈ l.map Save.col := by rw [hl]; exact List.mem_map_of_mem hv
    obtain ⟨w, hw, hwv⟩ := List.mem_map.mp this
    exact hno w hw hwv
  have hrow : ∀ i, (s.sR.foldl (fun t v => restoreRow v t) s1).minR i = s0.minR i ∧
      (s.sR.foldl (fun t v => restoreRow v t) s1).maxR i = s0.maxR i ∧
      (s.sR.foldl (fun t v => restoreRow v t) s1).markR i = false := by
    intro i
    rcases hr.rows i with ⟨v, hv, rfl, h1, h2, h3⟩ | ⟨hno, h1, h2, h3⟩
    · obtain ⟨e1, e2, -⟩ := hK.r.saved v hv
      exact ⟨h1.trans e1, h2.trans e2, h3⟩
    · have hm : s.markR i = false := by
        by_contra hc
        obtain ⟨v, hv, hvi⟩ := hK.r.on i (by simpa using hc)
        exact hno v hv hvi
      obtain ⟨e1, e2⟩ := hK.r.off i hm
      rw [h1, h2, h3, h.rows.minR, h.rows.maxR, h.rows.markR]
      exact ⟨e1, e2, hm⟩
  refine ⟨?_, funext fun i => (hrow i).1, funext fun i => (hrow i).2.1, fun i => (hrow i).2.2, hr.exact.trans h.exact⟩
  intro c
  rw [hr.lo, hr.up, hr.gap, hr.mark]
  rcases h.cols c with h1 | ⟨hno, h1, h2, h3, h4⟩
  · exact Or.inl h1
  · right
    obtain ⟨o1, o2, o3, o4⟩ := hK.c.off c (hmem c hno)
    exact ⟨h1.trans o1, h2.trans o2, h3.trans o3, h4.trans o4⟩

theorem undo0_undone (hK : K g n s0 s) : Undone g s.sC s0 s (undo0 s) :=
  undone_of hK rfl (foldr_restore0 s s.sC)

theorem undo1_undone (hK : K g n s0 s) {l : List Save} (hl : l.map Save.col = s.sC.map Save.col) (hne : l ≠ []) {ex : Bool} :
    ∃ t, Undone g l s0 { s with
      sC := l
      exact := ex } t ∧ undo1 { s with
      sC := l
      exact := ex } = t := by
  refine ⟨_, ?_, rfl⟩
  have hK' : K g n s0 { s with exact := ex } :=
    ⟨⟨hK.c.off, hK.c.on, hK.c.any, hK.c.int⟩, ⟨hK.r.off, hK.r.on, hK.r.saved⟩, hK.b⟩
  cases l with
  | nil => exact absurd rfl hne
  | cons v vs =>
    have h1 : Restored (v :: vs) { s with
        sC := v :: vs
        exact := ex } (restore0 v (vs.foldr restore1 { s with
        sC := v :: vs
        exact := ex })) :=
      (foldr_restore1 _ vs).cons rfl rfl rfl rfl (Or.inl rfl) ⟨rfl, rfl, rfl, rfl⟩ rfl
    have h2 : Restored (v :: vs) { s with exact := ex } (restore0 v (vs.foldr restore1 { s with
        sC := v :: vs
        exact := ex })) := ⟨h1.cols, ⟨h1.rows.minR, h1.rows.maxR, h1.rows.markR, h1.rows.sR⟩, h1.exact⟩
    have h3 := undone_of hK' hl h2
    exact ⟨h3.cols, h3.minR, h3.maxR, h3.markR, h3.exact⟩

/-- The entries are good for the point. -/
def SavesOk (g : Cfg) (n : Nat) (x : Nat → ℚ) (s0 : St) (l : List Save) : Prop :=
  ∀ v ∈ l, s0.lo v.col ≤ v.lo ∧ v.lo ≤ x v.col ∧ v.up = s0.up v.col ∧ (s0.mark v.col).fixed = false ∧ v.col < n ∧
    (g.isInt v.col = true → IsInteger v.lo)

theorem clear_any (lo up : ℚ) : (Mark.clear lo up).any = false := rfl
theorem clear_fixed (lo up : ℚ) : (Mark.clear lo up).fixed = false := rfl

theorem Undone.l0 {l : List Save} (h : Undone g l s0 s t) (hL : L0 g n live s0) (hl : SavesOk g n x s0 l) :
    L0 g n live t := by
  refine ⟨?_, h.markR, ?_, ?_, ?_⟩
  · intro c hc
    rcases h.cols c with ⟨v, hv, rfl, -, -, -, h5 | h5⟩ | ⟨-, -, -, h4⟩
    · rw [h5] at hc; cases hc
    · rw [h5]; rfl
    · rw [h4] at hc ⊢; exact hL.marks c hc
  · intro c hc
    rcases h.cols c with ⟨v, hv, rfl, h2, h3, -, h5 | h5⟩ | ⟨h1, h2, -, h4⟩
    · unfold Bits; rw [h5, h2, h3]
      unfold Mark.clear
      simp only [decide_eq_false_iff_not, not_lt]
      exact ⟨id, id⟩
    · rw [h5] at hc; cases hc
    · rw [h4] at hc
      have := hL.bits c hc
      unfold Bits at this ⊢
      rw [h4, h1, h2]; exact this
  · intro c hc hi
    rcases h.cols c with ⟨v, hv, rfl, h2, h3, -, -⟩ | ⟨h1, h2, -, -⟩
    · obtain ⟨-, -, h7, -, -, h8⟩ := hl v hv
      rw [h2, h3, h7]
      exact ⟨h8 hi, (hL.int _ hc hi).2⟩
    · rw [h1, h2]; exact hL.int c hc hi
  · intro c hc hd
    have := hL.dead c hc hd
    rcases h.cols c with ⟨v, hv, rfl, -, -, -, -⟩ | ⟨-, -, -, h4⟩
    · rw [(hl v hv).2.2.2.1] at this; cases this
    · rw [h4]; exact this

theorem Undone.le {l : List Save} (h : Undone g l s0 s t) (hl : SavesOk g n x s0 l) :
    (∀ c, s0.lo c ≤ t.lo c) ∧ ∀ c, t.up c = s0.up c := by
  refine ⟨?_, ?_⟩ <;> intro c <;>
    rcases h.cols c with ⟨v, hv, rfl, h2, h3, -, -⟩ | ⟨h1, h2, -, -⟩
  · rw [h2]; exact (hl v hv).1
  · rw [h1]
  · rw [h3]; exact (hl v hv).2.2.1
  · exact h2

theorem undone_g {l : List Save} (h : Undone g l s0 s t) (he : Env g n x live) (hG : G g n x live s0)
    (hl : SavesOk g n x s0 l) : G g n x live t := by
  obtain ⟨hlo, hup⟩ := h.le hl
  have hup' : t.up = s0.up := funext hup
  refine ⟨?_, ?_, ?_, ?_, ?_, ?_⟩
  · intro c hc
    refine ⟨?_, by rw [hup c]; exact (hG.box c hc).2⟩
    rcases h.cols c with ⟨v, hv, rfl, h2, -, -, -⟩ | ⟨h1, -, -, -⟩
    · rw [h2]; exact (hl v hv).2.1
    · rw [h1]; exact (hG.box c hc).1
  · intro c hc
    rw [hup c]
    exact ⟨le_trans (hG.mono c hc).1 (hlo c), (hG.mono c hc).2⟩
  · intro c hc
    rcases h.cols c with ⟨v, hv, rfl, h2, h3, h4, -⟩ | ⟨h1, h2, h3, -⟩
    · rw [h2, h3, h4]
    · rw [h1, h2, h3]; exact hG.gap c hc
  · intro i r hr
    have hm := List.mem_of_getElem? hr
    rw [h.minR, hup']
    exact (hG.min i r hr).imp_left fun hh =>
      le_trans hh (low_mono (he.wf r hm) (fun p _ => hlo p.1) (fun p _ => le_rfl))
  · intro i r hr
    have hm := List.mem_of_getElem? hr
    rw [h.maxR, hup']
    exact (hG.max i r hr).imp_left fun hh =>
      le_trans (hi_mono (he.wf r hm) (fun p _ => hlo p.1) (fun p _ => le_rfl)) hh
  · intro c hc hlv
    rw [hup']
    exact ⟨fun hd => le_trans ((hG.dj c hc hlv).1 hd) (hlo c), (hG.dj c hc hlv).2⟩

/-- The entries a way leaves are good. -/
theorem saves_ok (hL : L0 g n live s0) (hK : K g n s0 s) (hG : G g n x live s0) : SavesOk g n x s0 s.sC := by
  intro v hv
  obtain ⟨h1, h2, h3, h4⟩ := hK.c.on v hv
  exact ⟨h1.ge, by rw [h1]; exact (hG.box _ h4).1, h2, h3, h4, fun hi => by rw [h1]; exact (hL.int _ h4 hi).1⟩

theorem undo0_lo (hK : K g n s0 s) : (undo0 s).lo = s0.lo ∧ (undo0 s).up = s0.up := by
  have h := undo0_undone hK
  refine ⟨funext fun c => ?_, funext fun c => ?_⟩ <;>
    rcases h.cols c with ⟨v, hv, rfl, h2, h3, -, -⟩ | ⟨h1, h2, -, -⟩
  · rw [h2]; exact (hK.c.on v hv).1
  · exact h1
  · rw [h3]; exact (hK.c.on v hv).2.1
  · exact h2

/-! ### Keeping a way -/

/-- Only marks of columns of `l` have changed. -/
structure Kept (l : List Save) (s t : St) : Prop where
  mark : ∀ c, t.mark c = if c ∈ l.map Save.col then (if tol < s.up c - s.lo c then (s.mark c).drop else Mark.three)
    else s.mark c
  lo : t.lo = s.lo
  up : t.up = s.up
  gap : t.gap = s.gap
  minR : t.minR = s.minR
  maxR : t.maxR = s.maxR
  markR : t.markR = s.markR
  exact : t.exact = s.exact

theorem foldl_keepMark : ∀ (l : List Save) (s : St), Kept l s (l.foldl (fun t v => keepMark v t) s)
  | [], s => ⟨fun _ => by simp, rfl, rfl, rfl, rfl, rfl, rfl, rfl⟩
  | v :: l, s => by
    have h := foldl_keepMark l (keepMark v s)
    refine ⟨?_, h.lo, h.up, h.gap, h.minR, h.maxR, h.markR, h.exact⟩
    intro c
    rw [List.foldl_cons, h.mark c]
    unfold keepMark
    dsimp only
    by_cases hc : c = v.col
    · subst hc
      simp only [Function.update_self, List.map_cons, List.mem_cons, true_or, if_true]
      split
      · split
        · rfl
        · rfl
      · rfl
    · simp only [Function.update_of_ne hc, List.map_cons, List.mem_cons, hc, false_or]

theorem keep_st (g : Cfg) (s : St) (a : Acc) : ∃ t, Kept s.sC s t ∧ (keep g s a).1.mark = t.mark ∧
    (keep g s a).1.lo = s.lo ∧ (keep g s a).1.up = s.up ∧ (keep g s a).1.gap = s.gap ∧ (keep g s a).1.minR = s.minR ∧
    (keep g s a).1.maxR = s.maxR ∧ (keep g s a).1.exact = s.exact ∧
    ∀ i, (keep g s a).1.markR i = if i ∈ s.sR.map SaveR.row then false else s.markR i := by
  have h := foldl_keepMark s.sC s
  refine ⟨_, h, rfl, h.lo, h.up, h.gap, h.minR, h.maxR, h.exact, ?_⟩
  intro i
  unfold keep
  dsimp only
  rw [h.markR]

theorem keep_l0 (hL : L0 g n live s0) (hK : K g n s0 s) (a : Acc) : L0 g n live (keep g s a).1 := by
  obtain ⟨t, ht, hm, hlo, hup, -, -, -, -, hr⟩ := keep_st g s a
  have hon : ∀ c, c ∈ s.sC.map Save.col ↔ OnStack s c := by
    intro c; rw [List.mem_map]; rfl
  refine ⟨?_, ?_, ?_, ?_, ?_⟩
  · intro c hc
    rw [hm, ht.mark c] at hc ⊢
    split at hc
    · rename_i h1
      rw [if_pos h1]
      split at hc
      · cases hc
      · rename_i h2; rw [if_neg h2]; rfl
    · rename_i h1
      rw [if_neg h1]
      rw [hon] at h1
      rw [(hK.c.off c h1).2.2.2] at hc ⊢
      exact hL.marks c hc
  · intro i
    rw [hr i]
    split
    · rfl
    · rename_i hi
      by_contra hc
      obtain ⟨v, hv, hvi⟩ := hK.r.on i (by simpa using hc)
      exact hi (List.mem_map.mpr ⟨v, hv, hvi⟩)
  · intro c hc
    rw [hm, ht.mark c] at hc
    unfold Bits
    rw [hm, ht.mark c, hlo, hup]
    split at hc
    · rename_i h1
      rw [if_pos h1]
      have hb := hK.b c (Or.inr ((hon c).mp h1))
      split at hc
      · rename_i h2; rw [if_pos h2]; exact hb
      · cases hc
    · rename_i h1
      rw [if_neg h1]
      exact hK.b c (Or.inl hc)
  · rw [hlo, hup]; exact hK.c.int
  · intro c hc hd
    have := hL.dead c hc hd
    have hno : ¬ OnStack s c := by
      rintro ⟨v, hv, rfl⟩
      rw [(hK.c.on v hv).2.2.1] at this; cases this
    rw [hm, ht.mark c, if_neg (by rw [hon]; exact hno), (hK.c.off c hno).2.2.2]
    exact this

theorem keep_g (hG : G g n x live s) (a : Acc) : G g n x live (keep g s a).1 := by
  obtain ⟨t, -, -, hlo, hup, hgap, hmin, hmax, -, -⟩ := keep_st g s a
  exact hG.congr hlo hup hgap hmin hmax

theorem keep_exact (g : Cfg) (s : St) (a : Acc) : (keep g s a).1.exact = s.exact := by
  obtain ⟨t, -, -, -, -, -, -, -, h, -⟩ := keep_st g s a
  exact h

end Cgl.Probing
