import Verif.Snapshot.Facts

/-!
# Theorems about `snapshot`
-/

namespace Cgl.Snapshot
open Cgl.Probing

variable {P : Prob} {possible : Option (List Bool)} {x obj : Nat → ℚ} {sense : ℚ} {w : Bool}

theorem wanted_of_selected (hd : Data P possible) {i : Nat} (hi : i < P.rows.length) (h : selected possible i = true) :
    Wanted possible i := by
  intro l hl
  have hl' : possible = some l := hl
  have hlen := hd.len l hl
  unfold selected at h
  rw [hl'] at h
  simp only [Option.map_some, Option.getD_some] at h
  have hi' : i < l.length := by omega
  rw [List.getD_eq_getElem?_getD, List.getElem?_eq_getElem hi', Option.getD_some] at h
  rw [List.getElem?_eq_getElem hi', h]

theorem selected_of_wanted {i : Nat} (h : Wanted possible i) : selected possible i = true := by
  unfold selected
  cases hp : possible with
  | none => rfl
  | some l =>
    have := h l hp
    simp [this]

theorem tenv (hd : Data P possible) (hx : Point P possible x) : TEnv (copyRows P possible) P.isInt P.nCols x where
  wf := by
    intro q hq
    obtain ⟨i, r, hr, rfl⟩ := copyRows_mem hq
    exact splitRow_wf (hd.nonzero r (List.mem_of_getElem? hr))
  cols := by
    intro q hq p hp
    obtain ⟨i, r, hr, rfl⟩ := copyRows_mem hq
    exact hd.wf.cols r (List.mem_of_getElem? hr) p ((splitRow_perm _ r).mem_iff.mp hp)
  small := by
    intro q hq
    obtain ⟨i, r, hr, rfl⟩ := copyRows_mem hq
    rw [dot_perm (splitRow_perm _ r)]
    exact hx.rowSize r (List.mem_of_getElem? hr)
  int := hx.int

theorem tightened_inv (hd : Data P possible) (hx : Point P possible x) (next : List Nat) :
    TInv (copyRows P possible) P.nCols x P.colLower P.colUpper (tightened P possible next) := by
  unfold tightened
  refine tLoop_inv (tenv hd hx) hd.int 5 true _ hd.int ⟨rfl, ?_, ?_, fun _ _ => ⟨le_rfl, le_rfl⟩⟩
  · intro c hc
    have hs := abs_le.mp (hx.size c hc)
    have hi := hd.inf
    refine ⟨?_, ?_⟩
    · by_cases h : -P.inf < P.colLower c
      · exact hx.lower c hc h
      · show P.colLower c ≤ _
        linarith [not_lt.mp h, hs.1]
    · by_cases h : P.colUpper c < P.inf
      · exact hx.upper c hc h
      · show _ ≤ P.colUpper c
        linarith [not_lt.mp h, hs.2]
  · intro i q hq
    have hq' := hq
    rw [copyRows_get] at hq'
    rcases hr : P.rows[i]? with _ | r
    · rw [hr] at hq'; cases hq'
    · rw [hr] at hq'
      have hqq : q = splitRow (selected possible i) r := (Option.some.inj hq').symm
      have hs := abs_le.mp (hx.rowSize r (List.mem_of_getElem? hr))
      have hm := dblMax_big
      have h31 : (10 : ℚ) ^ 20 ≤ 10 ^ 31 := by norm_num
      have hinf := hd.inf
      show ((copyRows P possible)[i]?.map PRow.lb).getD 0 ≤ _ ∧ _ ≤ ((copyRows P possible)[i]?.map PRow.ub).getD 0
      rw [hq]
      subst hqq
      rw [dot_perm (splitRow_perm _ r)]
      show (if selected possible i then r.lb else -dblMax) ≤ _ ∧ _ ≤ (if selected possible i then r.ub else dblMax)
      cases hsel : selected possible i
      · simp only [Bool.false_eq_true, if_false]
        exact ⟨by linarith [hs.1], by linarith [hs.2]⟩
      · simp only [if_true]
        have hil : i < P.rows.length := by
          rcases Nat.lt_or_ge i P.rows.length with h | h
          · exact h
          · rw [List.getElem?_eq_none h] at hr; cases hr
        have hsat := hx.rows (r, i) (List.mem_zipIdx_iff_getElem?.mpr hr) (wanted_of_selected hd hil hsel)
        refine ⟨?_, ?_⟩
        · by_cases h : -P.inf < r.lb
          · exact hsat.1 h
          · linarith [not_lt.mp h, hs.1]
        · by_cases h : r.ub < P.inf
          · exact hsat.2 h
          · linarith [not_lt.mp h, hs.2]

/-- **C133.**  Every point of the problem made of the wanted rows is within the bounds and the rows of the copy, and the
call says that the problem is feasible. -/
theorem snapshot_keeps (hd : Data P possible) (hx : Point P possible x) :
    (snapshot P obj sense possible w).code = 0 ∧ InBounds P.nCols (snapshot P obj sense possible w) x ∧
      InRows (snapshot P obj sense possible w) x := by
  have hT := tightened_inv hd hx (firstRows (copyRows P possible))
  refine ⟨?_, hT.box, ?_⟩
  · show (if (tightened P possible (firstRows (copyRows P possible))).infeas then 1 else 0) = 0
    rw [hT.ok]; rfl
  · intro p hp b hb
    obtain ⟨i, hi⟩ := List.getElem?_of_mem hp
    rw [List.getElem?_zip_eq_some] at hi
    obtain ⟨h1, h2⟩ := hi
    have hb' : p.2 = some b := hb
    rw [hb'] at h2
    dsimp only [snapshot] at h1 h2
    rcases Nat.lt_or_ge i P.rows.length with hlt | hge
    · rw [List.getElem?_append_left (by simpa using hlt), List.getElem?_map,
        List.getElem?_eq_getElem (by simpa using hlt)] at h2
      simp only [List.getElem_range, Option.map_some, Option.some.injEq] at h2
      have hlen : (copyRows P possible).length = P.rows.length := by unfold copyRows; simp
      rw [List.getElem?_append_left (by simpa [hlen] using hlt), List.getElem?_map] at h1
      rcases hq : (copyRows P possible)[i]? with _ | q
      · rw [hq] at h1; cases h1
      · rw [hq] at h1
        have hpq : p.1 = q.els := (Option.some.inj h1).symm
        rw [hpq, ← h2]
        exact hT.rowLe i q hq
    · rw [List.getElem?_append_right (by simpa using hge)] at h2
      cases w
      · simp at h2
      · simp only [if_true, List.length_map, List.length_range] at h2
        rcases hk : i - P.rows.length with _ | k
        · rw [hk] at h2; simp at h2
        · rw [hk] at h2; simp at h2

/-- **C133**, the return code: 1 is returned only if the wanted rows have no point. -/
theorem snapshot_code (hd : Data P possible) (hc : (snapshot P obj sense possible w).code ≠ 0) : ¬ Point P possible x :=
  fun hx => hc (snapshot_keeps hd hx).1

theorem keep_of_data (hd : Data P possible) (next : List Nat) :
    Keep (copyRows P possible) P.isInt P.nCols (10 * tol) P.colLower P.colUpper (tightened P possible next) := by
  unfold tightened
  refine tLoop_keep hd.int 5 true _ ⟨fun _ _ => ⟨le_rfl, le_rfl⟩, ?_⟩
  intro i r hr
  left
  show ((copyRows P possible)[i]?.map PRow.lb).getD 0 = _ ∧ ((copyRows P possible)[i]?.map PRow.ub).getD 0 = _
  rw [hr]
  exact ⟨rfl, rfl⟩

/-- **C134**, bounds: the column bounds of the copy are not beyond those of the problem. -/
theorem snapshot_bounds (hd : Data P possible) : ∀ c < P.nCols,
    P.colLower c ≤ (snapshot P obj sense possible w).colLower c ∧
    (snapshot P obj sense possible w).colUpper c ≤ P.colUpper c :=
  (keep_of_data hd (firstRows (copyRows P possible))).mono

theorem tol_eq : (10 * tol : ℚ) = 11 / 10 ^ 7 := by unfold tol; norm_num

/-- **C134.**  A wanted row holds, up to the tolerances, at every point within the column bounds of the copy, if its entry
of the array was set to 0. -/
theorem snapshot_redundant {l m : List Bool} (hd : Data P (some l)) {i : Nat} {r : Row} (hr : P.rows[i]? = some r)
    (hw : l[i]? = some true) (hm : (snapshot P obj sense (some l) w).possible = some m) (h0 : m[i]? = some false)
    (hx : InBounds P.nCols (snapshot P obj sense (some l) w) x) : Nearly (slackOf P.isInt r) r x := by
  have hK := keep_of_data hd (firstRows (copyRows P (some l)))
  have hsel : selected (some l) i = true := selected_of_wanted fun l' hl' => by
    have : l' = l := by cases hl'; rfl
    rw [this]; exact hw
  have hq : (copyRows P (some l))[i]? = some (splitRow true r) := by rw [copyRows_get, hr, hsel]; rfl
  have hmm : m = l.zipIdx.map fun p => p.1 && !freed (tightened P (some l) (firstRows (copyRows P (some l)))) p.2 :=
    (Option.some.inj hm).symm
  have hf : freed (tightened P (some l) (firstRows (copyRows P (some l)))) i = true := by
    rw [hmm, List.getElem?_map, List.getElem?_zipIdx, hw] at h0
    simpa using h0
  unfold freed at hf
  rw [Bool.and_eq_true, decide_eq_true_eq, decide_eq_true_eq] at hf
  have hmem := List.mem_of_getElem? hr
  rcases hK.row i _ hq with ⟨a, b⟩ | himp
  · rw [a, b] at hf
    have f1 : r.lb < -10 ^ 30 := hf.1
    have f2 : 10 ^ 30 < r.ub := hf.2
    exact ⟨fun h => absurd h (not_le.mpr f1), fun h => absurd h (not_le.mpr f2)⟩
  · have hperm := splitRow_perm true r
    have := himp.nearly (splitRow_wf (hd.nonzero r hmem))
      (fun p hp => hd.wf.cols r hmem p (hperm.mem_iff.mp hp)) (by unfold tol; norm_num) hx
    rw [dot_perm hperm, tol_eq, (hperm.map fun p => |p.2| * giveBack P.isInt p.1).sum_eq] at this
    exact this

/-- **C134**, the array only changes from 1 to 0. -/
theorem snapshot_array {l m : List Bool} (hm : (snapshot P obj sense (some l) w).possible = some m) :
    m.length = l.length ∧ ∀ i : Nat, m[i]? = some true → l[i]? = some true := by
  have hmm : m = l.zipIdx.map fun p => p.1 && !freed (tightened P (some l) (firstRows (copyRows P (some l)))) p.2 :=
    (Option.some.inj hm).symm
  refine ⟨by rw [hmm]; simp, ?_⟩
  intro i hi
  rw [hmm, List.getElem?_map, List.getElem?_zipIdx] at hi
  rcases hl : l[i]? with _ | b
  · rw [hl] at hi; simp at hi
  · rw [hl] at hi
    cases b
    · simp at hi
    · rfl

/-- **C135** in part: without the objective, the first call leaves a whole copy.  (Missing: the objective, whose row has no
bounds, and a second call, which loses the rows: `Verif/Snapshot/Witness.lean`, `not_objective`, `again_lost`.) -/
theorem snapshot_whole_partial : Whole P false (snapshot P obj sense possible false) where
  number := rfl
  rows := by simp [snapshot, copyRows]
  same := by
    intro i hi r hr v hv
    have hr' : P.rows[i]? = some r := hr
    have hv' : (snapshot P obj sense possible false).rows[i]? = some v := hv
    dsimp only [snapshot] at hv'
    have hlen : (copyRows P possible).length = P.rows.length := by unfold copyRows; simp
    rw [List.getElem?_append_left (by simpa [hlen] using hi), List.getElem?_map, copyRows_get, hr'] at hv'
    have : v = (splitRow (selected possible i) r).els := (Option.some.inj hv').symm
    rw [this]
    exact splitRow_perm _ r
  bounds := by
    intro i hi
    have hi' : i < P.rows.length := hi
    dsimp only [snapshot]
    rw [List.getElem?_append_left (by simpa using hi'), List.getElem?_map,
      List.getElem?_eq_getElem (by simpa using hi')]
    exact ⟨_, rfl⟩

theorem obj_dot (sense : ℚ) (obj x : Nat → ℚ) : ∀ l : List Nat,
    SVec.dot ((l.filter fun c => decide (obj c ≠ 0)).map fun c => (c, if sense = -1 then -obj c else obj c)) x =
      (if sense = -1 then -1 else 1) * (l.map fun c => obj c * x c).sum
  | [] => by simp [SVec.dot]
  | c :: l => by
    have ih := obj_dot sense obj x l
    rw [List.map_cons, List.sum_cons]
    by_cases h : obj c = 0
    · rw [List.filter_cons_of_neg (by simp [h]), ih, h]; ring
    · rw [List.filter_cons_of_pos (by simp [h]), List.map_cons]
      simp only [SVec.dot, List.map_cons, List.sum_cons] at ih ⊢
      rw [ih]
      split <;> ring

/-- **C135**, the objective: the copy has one more row than the problem, and its value is the objective to be
minimised. -/
theorem snapshot_objective_partial :
    (snapshot P obj sense possible true).numberRows = P.rows.length + 1 ∧
    ∃ v, (snapshot P obj sense possible true).rows[P.rows.length]? = some v ∧
      ∀ x, v.dot x = (if sense = -1 then -1 else 1) * ((List.range P.nCols).map fun c => obj c * x c).sum := by
  have hlen : (copyRows P possible).length = P.rows.length := by unfold copyRows; simp
  refine ⟨rfl, objRow P.nCols obj sense, ?_, fun x => obj_dot sense obj x _⟩
  dsimp only [snapshot]
  rw [List.getElem?_append_right (by simp [hlen])]
  simp [hlen]

end Cgl.Snapshot
