import Verif.ZeroHalf.Core
import Mathlib.Data.List.Nodup

/-!
# Cuts of `get_cut` and of the separation
-/

namespace Cgl.ZeroHalf

/-- The well-formedness of an integer program. -/
def Ilp.WF (I : Ilp) : Prop := ∀ r ∈ I.rows, r.WF I.bnds.length

/-- `y` satisfies the rows, is integer where they have entries, and respects the bounds that can be used at `x`. -/
structure PointOK (I : Ilp) (x y : Nat → ℚ) : Prop where
  rows : ∀ r ∈ I.rows, r.Holds y
  int : ∀ r ∈ I.rows, ∀ p ∈ r.coefs, IsInteger (y p.1)
  lo : ∀ r ∈ I.rows, ∀ p ∈ r.coefs, x p.1 - (bnd I.bnds p.1).1 ≤ 1 → ((bnd I.bnds p.1).1 : ℚ) ≤ y p.1
  up : ∀ r ∈ I.rows, ∀ p ∈ r.coefs, ((bnd I.bnds p.1).2 : ℚ) - x p.1 ≤ 1 → y p.1 ≤ (bnd I.bnds p.1).2

/-- The offers of the odd columns. -/
def offersOf (I : Ilp) (x : Nat → ℚ) (js : List Nat) : List Weak :=
  js.map fun j => possWeak (x j) (bnd I.bnds j).1 (bnd I.bnds j).2

theorem offersOf_fits (I : Ilp) (x : Nat → ℚ) (js : List Nat) :
    List.Forall₂ (fun w b => Weak.Fits b w) (offersOf I x js) (js.map (bnd I.bnds)) := by
  induction js with
  | nil => exact List.Forall₂.nil
  | cons j t ih => exact List.Forall₂.cons (possWeak_fits _ _) ih

theorem offersOf_side (I : Ilp) (x : Nat → ℚ) (js : List Nat) (ts : List Side)
    (h : List.Forall₂ (fun w t => Weak.offers w t) (offersOf I x js) ts) (p : Nat × Side) (hp : p ∈ js.zip ts) :
    p.1 ∈ js ∧ (possWeak (x p.1) (bnd I.bnds p.1).1 (bnd I.bnds p.1).2).offers p.2 := by
  induction js generalizing ts with
  | nil => simp at hp
  | cons j t ih =>
    cases h with
    | cons h1 h2 =>
      simp only [List.zip_cons_cons, List.mem_cons] at hp
      rcases hp with rfl | hp
      · exact ⟨List.mem_cons_self, h1⟩
      · have := ih _ h2 hp
        exact ⟨List.mem_cons_of_mem _ this.1, this.2⟩

theorem oddCols_nodup (mc : Nat) (c : Nat → ℤ) : (oddCols mc c).Nodup := List.nodup_range.filter _

theorem mem_oddCols {mc : Nat} {c : Nat → ℤ} {j : Nat} : j ∈ oddCols mc c ↔ j < mc ∧ isOdd (c j) = true := by
  simp [oddCols]

theorem bestCut_ok {I : Ilp} {x : Nat → ℚ} {s s'' : (Nat → ℤ) × ℤ} {v : ℚ}
    (h : bestCut I x s = .ok (some (s'', v))) :
    ∃ ts slack s', bestWeakening (offersOf I x (oddCols I.bnds.length s.1)) (isOdd s.2)
        (s.2 - lin I.bnds.length s.1 x) = some (ts, slack) ∧
      applyAll I.bnds ((oddCols I.bnds.length s.1).zip ts) s = .ok s' ∧ halve I.bnds.length s' = .ok s'' := by
  unfold bestCut at h
  split at h
  · simp at h
  split at h
  · simp at h
  · rename_i ts slack hbw
    simp only [bind_ok, pure_ok, Option.some.injEq, Prod.mk.injEq] at h
    obtain ⟨s', h1, s2, h2, rfl, _⟩ := h
    exact ⟨ts, slack, s', hbw, h1, h2⟩

theorem zip_fst (js : List Nat) (ts : List Side) (h : ts.length = js.length) : (js.zip ts).map Prod.fst = js :=
  List.map_fst_zip (by omega)

theorem offers_length {I : Ilp} {x : Nat → ℚ} {js : List Nat} {ts : List Side}
    (h : List.Forall₂ (fun w t => Weak.offers w t) (offersOf I x js) ts) : ts.length = js.length := by
  have := h.length_eq
  simpa [offersOf] using this.symm

theorem bestCut_valid {I : Ilp} {x y : Nat → ℚ} {s s'' : (Nat → ℤ) × ℤ} {v : ℚ}
    (h : bestCut I x s = .ok (some (s'', v))) (hs : ∀ j, s.1 j ≠ 0 → ∃ r ∈ I.rows, ∃ p ∈ r.coefs, p.1 = j)
    (hy : PointOK I x y) (h0 : lin I.bnds.length s.1 y ≤ s.2) : lin I.bnds.length s''.1 y ≤ s''.2 := by
  obtain ⟨ts, slack, s', h1, h2, h3⟩ := bestCut_ok h
  obtain ⟨ho, -⟩ := bestWeakening_spec _ _ (offersOf_fits I x _) _ _ _ _ h1
  have hne : ∀ j, isOdd (s.1 j) = true → s.1 j ≠ 0 := by
    intro j hj h0; rw [h0] at hj; simp [isOdd] at hj
  refine halve_valid _ y s' s'' h3 ?_ (applyAll_valid _ _ y _ s s' ?_ ?_ h2 h0)
  · intro j hj hj0
    have hc := applyAll_coef _ _ _ _ (by rw [zip_fst _ _ (offers_length ho)]; exact oddCols_nodup _ _) h2 j
    have : s.1 j ≠ 0 := by
      split at hc
      · rename_i hm
        rw [zip_fst _ _ (offers_length ho)] at hm
        exact hne j (mem_oddCols.mp hm).2
      · rw [← hc]; exact hj0
    obtain ⟨r, hr, p, hp, rfl⟩ := hs j this
    exact hy.int r hr p hp
  · intro p hp
    exact (mem_oddCols.mp (offersOf_side I x _ _ ho p hp).1).1
  · intro p hp
    obtain ⟨hm, hof⟩ := offersOf_side I x _ _ ho p hp
    obtain ⟨r, hr, q, hq, hqp⟩ := hs p.1 (hne _ (mem_oddCols.mp hm).2)
    have hside := possWeak_offers _ _ _ hof
    rcases p with ⟨j, t⟩
    simp only at hqp
    subst hqp
    cases t
    · exact hy.lo r hr q hq hside
    · exact hy.up r hr q hq hside

/-- The two checks never fail. -/
theorem halve_noExit {I : Ilp} {x : Nat → ℚ} {s s' : (Nat → ℤ) × ℤ} {ts : List Side} {slack : ℚ}
    (h1 : bestWeakening (offersOf I x (oddCols I.bnds.length s.1)) (isOdd s.2)
        (s.2 - lin I.bnds.length s.1 x) = some (ts, slack))
    (h2 : applyAll I.bnds ((oddCols I.bnds.length s.1).zip ts) s = .ok s') :
    halve I.bnds.length s' = .ok (fun j => (s'.1 j).tdiv 2, (s'.2 - 1).tdiv 2) := by
  obtain ⟨ho, hp⟩ := bestWeakening_spec _ _ (offersOf_fits I x _) _ _ _ _ h1
  have hl := offers_length ho
  unfold halve
  rw [if_neg, if_neg]
  · rw [applyAll_rhs _ _ _ _ _ h2, hp]; simp
  · intro hc
    obtain ⟨j, hj, hjo⟩ := List.any_eq_true.mp hc
    have hj := List.mem_range.mp hj
    have h3 := applyAll_coef _ _ _ _ (by rw [zip_fst _ _ hl]; exact oddCols_nodup _ _) h2 j
    rw [zip_fst _ _ hl] at h3
    split at h3
    · rename_i hm
      have := (mem_oddCols.mp hm).2
      rcases h3 with h3 | h3 <;> rw [h3] at hjo
      · rw [isOdd_add, this] at hjo; simp [isOdd] at hjo
      · rw [isOdd_sub, this] at hjo; simp [isOdd] at hjo
    · rename_i hm
      rw [h3] at hjo
      exact hm (mem_oddCols.mpr ⟨hj, hjo⟩)

/-! ### `get_cut` -/

theorem getCut_ok {I : Ilp} {x : Nat → ℚ} {cyc : List Nat} {c : ZCut} (h : getCut I x cyc = .ok (.cut c)) :
    ∃ s s' v, addRows ((comb cyc []).filterMap fun i => I.rows[i]?) (fun _ => 0, 0) = .ok s ∧
      bestCut I x s = .ok (some (s', v)) ∧ c = defineCut I.bnds.length s' := by
  unfold getCut at h
  simp only [bind_ok] at h
  obtain ⟨o, ho, h⟩ := h
  unfold oriCut at ho
  split at ho
  · simp only [Except.ok.injEq] at ho; subst ho; simp [pure, Except.pure] at h
  simp only [bind_ok, pure_ok] at ho
  obtain ⟨s, hs, rfl⟩ := ho
  simp only [bind_ok] at h
  obtain ⟨b, hb, h⟩ := h
  rcases b with _ | ⟨s', v⟩
  · simp [pure, Except.pure] at h
  simp only [pure_ok] at h
  refine ⟨s, s', v, hs, hb, ?_⟩
  unfold checkCut at h
  split at h
  · cases h
  · injection h with h; exact h.symm

theorem picked_mem {I : Ilp} {l : List Nat} {r : IRow} (h : r ∈ l.filterMap fun i => I.rows[i]?) : r ∈ I.rows := by
  obtain ⟨i, -, hi⟩ := List.mem_filterMap.mp h
  exact List.mem_of_getElem? hi

theorem getCut_valid {I : Ilp} {x y : Nat → ℚ} {cyc : List Nat} {c : ZCut} (hI : I.WF)
    (h : getCut I x cyc = .ok (.cut c)) (hy : PointOK I x y) : idot c.coefs y ≤ c.rhs := by
  obtain ⟨s, s', v, h1, h2, rfl⟩ := getCut_ok h
  rw [idot_define]
  refine bestCut_valid h2 ?_ hy ?_
  · intro j hj
    rcases addRows_supp _ _ _ h1 j hj with h3 | ⟨r, hr, h3⟩
    · exact absurd rfl h3
    · exact ⟨r, picked_mem hr, h3⟩
  · refine addRows_valid _ y _ _ s (fun r hr => hI r (picked_mem hr)) (fun r hr => hy.rows r (picked_mem hr)) h1 ?_
    rw [lin_zero]; simp

/-! ### The separation -/

/-- A cut found at `x`. -/
def Found (I : Ilp) (x : Nat → ℚ) (c : ZCut) : Prop :=
  (∃ cyc, getCut I x cyc = .ok (.cut c)) ∧ c.violation x > minViol

theorem mem_addCut {cuts : List ZCut} {c d : ZCut} (h : d ∈ addCut cuts c) : d ∈ cuts ∨ d = c := by
  unfold addCut at h; split at h
  · exact Or.inl h
  · simpa using h

theorem addCut_nodup {cuts : List ZCut} {c : ZCut} (h : cuts.Nodup) : (addCut cuts c).Nodup := by
  unfold addCut; split
  · exact h
  · rename_i hc
    exact List.Nodup.append h (List.nodup_singleton c) (by simpa using hc)

/-- The list has only cuts found at `x`, none twice. -/
def SepOK (I : Ilp) (x : Nat → ℚ) (s : Sep) : Prop := (∀ c ∈ s.cuts, Found I x c) ∧ s.cuts.Nodup

theorem takeCut_ok {I : Ilp} {x : Nat → ℚ} {s : Sep} {c : ZCut} {cyc : List Nat} (hs : SepOK I x s)
    (hc : getCut I x cyc = .ok (.cut c)) : SepOK I x (takeCut x s c) := by
  unfold takeCut
  split
  · rename_i hv
    refine ⟨?_, addCut_nodup hs.2⟩
    intro d hd
    rcases mem_addCut hd with h | rfl
    · exact hs.1 d h
    · exact ⟨⟨cyc, hc⟩, hv⟩
  · exact hs

theorem nodeLoop_ok {env : Env} {I : Ilp} {x : Nat → ℚ} (cycs : List (List Nat)) (s s' : Sep) (hs : SepOK I x s)
    (h : nodeLoop env I x cycs s = .ok s') : SepOK I x s' := by
  induction cycs generalizing s with
  | nil => simp only [nodeLoop, Except.ok.injEq] at h; subst h; exact hs
  | cons cyc t ih =>
    unfold nodeLoop at h
    split at h
    · simp only [Except.ok.injEq] at h; subst h; exact hs
    simp only [bind_ok] at h
    obtain ⟨g, hg, h⟩ := h
    cases g with
    | null =>
      simp only at h
      split at h
      · simp only [pure_ok] at h; subst h; exact hs
      · exact ih { s with calls := s.calls + 1 } hs h
    | bad => simp only [pure_ok] at h; subst h; exact hs
    | cut c =>
      simp only at h
      split at h
      · simp only [pure_ok] at h; subst h; exact takeCut_ok hs hg
      · exact ih _ (takeCut_ok hs hg) h

theorem sepLoop_ok {env : Env} {I : Ilp} {x : Nat → ℚ} (nodes : List (List (List Nat))) (s s' : Sep)
    (hs : SepOK I x s) (h : sepLoop env I x nodes s = .ok s') : SepOK I x s' := by
  induction nodes generalizing s with
  | nil => simp only [sepLoop, Except.ok.injEq] at h; subst h; exact hs
  | cons cycs t ih =>
    simp only [sepLoop, bind_ok] at h
    obtain ⟨s1, h1, h⟩ := h
    have := nodeLoop_ok _ _ _ hs h1
    split at h
    · simp only [pure_ok] at h; subst h; exact this
    · exact ih s1 this h

theorem separate_ok {env : Env} {I : Ilp} {x : Nat → ℚ} {zs : List ZCut} (h : separate env I x = .ok zs) :
    (∀ c ∈ zs, Found I x c) ∧ zs.Nodup := by
  unfold separate at h
  split at h
  · cases h
  simp only [bind_ok, pure_ok] at h
  obtain ⟨s, hs, rfl⟩ := h
  exact sepLoop_ok _ _ _ ⟨by simp, by simp⟩ hs

theorem foldl_insert_mem (l : List RowCut) (cs : List RowCut) (c : RowCut)
    (h : c ∈ l.foldl insertIfNotDuplicate cs) : c ∈ cs ∨ c ∈ l := by
  induction l generalizing cs with
  | nil => exact Or.inl h
  | cons d t ih =>
    rcases ih _ h with h | h
    · rcases mem_insertIfNotDuplicate.mp h with h | rfl
      · exact Or.inl h
      · exact Or.inr List.mem_cons_self
    · exact Or.inr (List.mem_cons_of_mem _ h)

/-- What a call adds. -/
theorem generate_ok {env : Env} {o o' : Obj} {P : Prob} {x : Nat → ℚ} {cs cs' : List RowCut}
    (h : generate env o P x cs = .ok (cs', o')) :
    (o.ilp = none ∧ cs' = cs ∧ o' = o) ∨ ∃ I L, o.ilp = some I ∧ P.nCols = I.bnds.length ∧
      callBounds P o I.bnds = .ok L ∧ o' = { o with ilp := some ⟨L, I.rows⟩ } ∧
      ∀ c ∈ cs', c ∈ cs ∨ ∃ z, Found ⟨L, I.rows⟩ x z ∧ c = toRowCut z ∧ o.loaded = true := by
  unfold generate at h
  split at h
  · rename_i hn
    simp only [Except.ok.injEq, Prod.mk.injEq] at h
    exact Or.inl ⟨hn, h.1.symm, h.2.symm⟩
  rename_i I hI
  split at h
  · cases h
  rename_i hc
  push Not at hc
  simp only [bind_ok, pure_ok, Prod.mk.injEq] at h
  obtain ⟨L, hL, cs1, hcs, rfl, rfl⟩ := h
  refine Or.inr ⟨I, L, hI, hc, hL, rfl, ?_⟩
  intro c hcm
  unfold callCuts at hcs
  split at hcs
  · rename_i hl
    simp only [bind_ok, pure_ok] at hcs
    obtain ⟨zs, hz, rfl⟩ := hcs
    rcases foldl_insert_mem _ _ _ hcm with h | h
    · exact Or.inl h
    · obtain ⟨z, hzm, rfl⟩ := List.mem_map.mp h
      exact Or.inr ⟨z, (separate_ok hz).1 z hzm, rfl, hl⟩
  · simp only [Except.ok.injEq] at hcs
    subst hcs
    exact Or.inl hcm

end Cgl.ZeroHalf
