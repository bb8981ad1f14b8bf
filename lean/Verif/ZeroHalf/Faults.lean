import Verif.ZeroHalf.Load
import Mathlib.Data.List.Perm.Subperm
import Mathlib.Data.List.Induction

/-!
# What can go wrong in a call, and when nothing does
-/

namespace Cgl.ZeroHalf

/-! ### Only overflows -/

theorem addEntries_error (r : IRow) (l : List (Nat × ℤ)) (c : Nat → ℤ) (e : Fault)
    (h : addEntries r l c = .error e) : e = .overflow := by
  induction l generalizing c with
  | nil => simp [addEntries] at h
  | cons p t ih =>
    simp only [addEntries, bind_error] at h
    rcases h with h | ⟨v, -, h⟩
    · exact (ck_error h).1
    · exact ih _ h

theorem addRows_error (rs : List IRow) (s : (Nat → ℤ) × ℤ) (e : Fault) (h : addRows rs s = .error e) :
    e = .overflow := by
  induction rs generalizing s with
  | nil => simp [addRows] at h
  | cons r t ih =>
    simp only [addRows, addRow, bind_error] at h
    rcases h with (h | ⟨c, -, h | ⟨b, -, h⟩⟩) | ⟨s', -, h⟩
    · exact addEntries_error _ _ _ _ h
    · exact (ck_error h).1
    · exact absurd h pure_error
    · exact ih _ h

theorem applyAll_error (L : List (ℤ × ℤ)) (ps : List (Nat × Side)) (s : (Nat → ℤ) × ℤ) (e : Fault)
    (h : applyAll L ps s = .error e) : e = .overflow := by
  induction ps generalizing s with
  | nil => simp [applyAll] at h
  | cons p t ih =>
    simp only [applyAll, bind_error] at h
    rcases h with h | ⟨s', -, h⟩
    · unfold applyOne at h
      split at h <;> simp only [bind_error] at h <;> rcases h with h | ⟨v, -, h | ⟨b, -, h⟩⟩
      · exact (ck_error h).1
      · exact (ck_error h).1
      · exact absurd h pure_error
      · exact (ck_error h).1
      · exact (ck_error h).1
      · exact absurd h pure_error
    · exact ih _ h

theorem bestCut_error (I : Ilp) (x : Nat → ℚ) (s : (Nat → ℤ) × ℤ) (e : Fault) (h : bestCut I x s = .error e) :
    e = .overflow := by
  unfold bestCut at h
  split at h
  · cases h
  split at h
  · cases h
  · rename_i ts slack hbw
    simp only [bind_error] at h
    rcases h with h | ⟨s', hs', h | ⟨s'', -, h⟩⟩
    · exact applyAll_error _ _ _ _ h
    · rw [halve_noExit (x := x) hbw hs'] at h; cases h
    · exact absurd h pure_error

theorem getCut_error (I : Ilp) (x : Nat → ℚ) (cyc : List Nat) (e : Fault) (h : getCut I x cyc = .error e) :
    e = .overflow := by
  unfold getCut at h
  simp only [bind_error] at h
  rcases h with h | ⟨o, -, h⟩
  · unfold oriCut at h
    split at h
    · cases h
    · simp only [bind_error] at h
      rcases h with h | ⟨s, -, h⟩
      · exact addRows_error _ _ _ h
      · exact absurd h pure_error
  · rcases o with _ | s
    · exact absurd h pure_error
    · simp only [bind_error] at h
      rcases h with h | ⟨b, -, h⟩
      · exact bestCut_error _ _ _ _ h
      · rcases b with _ | ⟨s', v⟩ <;> exact absurd h pure_error

theorem nodeLoop_error {env : Env} {I : Ilp} {x : Nat → ℚ} (cycs : List (List Nat)) (s : Sep) (e : Fault)
    (h : nodeLoop env I x cycs s = .error e) : ∃ cyc ∈ cycs, getCut I x cyc = .error e := by
  induction cycs generalizing s with
  | nil => simp [nodeLoop] at h
  | cons cyc t ih =>
    unfold nodeLoop at h
    split at h
    · cases h
    simp only [bind_error] at h
    rcases h with h | ⟨g, -, h⟩
    · exact ⟨cyc, List.mem_cons_self, h⟩
    · have key : ∀ s', nodeLoop env I x t s' = .error e → ∃ c ∈ cyc :: t, getCut I x c = .error e := by
        intro s' hs'
        obtain ⟨c, hc, h⟩ := ih s' hs'
        exact ⟨c, List.mem_cons_of_mem _ hc, h⟩
      cases g with
      | null =>
        simp only at h
        split at h
        · exact absurd h pure_error
        · exact key _ h
      | bad => exact absurd h pure_error
      | cut c =>
        simp only at h
        split at h
        · exact absurd h pure_error
        · exact key _ h

theorem sepLoop_error {env : Env} {I : Ilp} {x : Nat → ℚ} (nodes : List (List (List Nat))) (s : Sep) (e : Fault)
    (h : sepLoop env I x nodes s = .error e) : ∃ cyc, getCut I x cyc = .error e := by
  induction nodes generalizing s with
  | nil => simp [sepLoop] at h
  | cons cycs t ih =>
    simp only [sepLoop, bind_error] at h
    rcases h with h | ⟨s', -, h⟩
    · obtain ⟨c, -, h⟩ := nodeLoop_error _ _ _ h
      exact ⟨c, h⟩
    · split at h
      · exact absurd h pure_error
      · exact ih _ h

theorem separate_error {env : Env} {I : Ilp} {x : Nat → ℚ} {e : Fault} (hI : I.WF)
    (h : separate env I x = .error e) : ∃ cyc, getCut I x cyc = .error e := by
  unfold separate at h
  split at h
  · rename_i hz
    obtain ⟨r, hr, h0⟩ := List.any_eq_true.mp hz
    have := rowGcd_pos r (hI r hr).ne (hI r hr).nz
    have h0 : rowGcd r = 0 := by simpa using h0
    omega
  · simp only [bind_error] at h
    rcases h with h | ⟨s, -, h⟩
    · exact sepLoop_error _ _ _ h
    · exact absurd h pure_error

theorem generate_error {env : Env} {o : Obj} {P : Prob} {x : Nat → ℚ} {cs : List RowCut} {e : Fault} {I : Ilp}
    (hI : o.ilp = some I) (hn : P.nCols = I.bnds.length) (hw : ∀ r ∈ I.rows, r.WF P.nCols)
    (h : generate env o P x cs = .error e) :
    (∃ L, redoBounds P I.bnds = .error e ∧ L = I.bnds ∧ o.glob = false) ∨
      ∃ L cyc, callBounds P o I.bnds = .ok L ∧ getCut ⟨L, I.rows⟩ x cyc = .error e := by
  unfold generate at h
  rw [hI] at h
  simp only at h
  rw [if_neg (by simpa using hn)] at h
  simp only [bind_error] at h
  rcases h with h | ⟨L, hL, h | ⟨c, -, h⟩⟩
  · unfold callBounds at h
    split at h
    · cases h
    · rename_i hg; exact Or.inl ⟨_, h, rfl, by simpa using hg⟩
  · refine Or.inr ⟨L, ?_⟩
    unfold callCuts at h
    split at h
    · simp only [bind_error] at h
      rcases h with h | ⟨zs, -, h⟩
      · have hlen : L.length = P.nCols := by
          unfold callBounds at hL
          split at hL
          · simp only [Except.ok.injEq] at hL; subst hL; exact hn.symm
          · exact (redo_spec hL).1
        obtain ⟨cyc, hc⟩ := separate_error (I := ⟨L, I.rows⟩)
          (fun r hr => by simpa [hlen] using hw r hr) h
        exact ⟨cyc, hL, hc⟩
      · exact absurd h pure_error
    · cases h
  · exact absurd h pure_error

/-! ### No overflow with small numbers -/

/-- Sum of the absolute values of the entries. -/
def absSum (l : List (Nat × ℤ)) : ℚ := (l.map fun p => |(p.2 : ℚ)|).sum

theorem absSum_nonneg (l : List (Nat × ℤ)) : 0 ≤ absSum l :=
  List.sum_nonneg (by intro a ha; obtain ⟨p, -, rfl⟩ := List.mem_map.mp ha; exact abs_nonneg _)

theorem share_abs (r : IRow) (a : ℤ) : |(share r a : ℚ)| ≤ |(a : ℚ)| := by
  have : |share r a| ≤ |a| := by
    unfold share
    have h : |a.tdiv (rowGcd r)| ≤ |a| := by
      rw [Int.abs_eq_natAbs, Int.abs_eq_natAbs, Int.natAbs_tdiv]
      exact_mod_cast Nat.div_le_self _ _
    split
    · rw [abs_neg]; exact h
    · exact h
  exact_mod_cast this

theorem ck_fits {z : ℤ} (h : |(z : ℚ)| ≤ intMax) : ck z = .ok z := by
  unfold ck
  rw [if_pos]
  have h' : |z| ≤ intMax := by exact_mod_cast h
  obtain ⟨h1, h2⟩ := abs_le.mp h'
  exact ⟨by unfold intMin; unfold intMax at h1; omega, h2⟩

theorem addEntries_fits (r : IRow) (l : List (Nat × ℤ)) (c : Nat → ℤ) (B : ℚ) (hB : 0 ≤ B)
    (hc : ∀ j, |(c j : ℚ)| ≤ B) (h : B + absSum l ≤ intMax) :
    ∃ c', addEntries r l c = .ok c' ∧ ∀ j, |(c' j : ℚ)| ≤ B + absSum l := by
  induction l generalizing c B with
  | nil => exact ⟨c, rfl, by simpa [absSum] using hc⟩
  | cons p t ih =>
    have e : absSum (p :: t) = |(p.2 : ℚ)| + absSum t := by simp [absSum]
    have ht := absSum_nonneg t
    have hs := share_abs r p.2
    have h1 : |((c p.1 + share r p.2 : ℤ) : ℚ)| ≤ B + |(p.2 : ℚ)| := by
      push_cast
      exact (abs_add_le _ _).trans (add_le_add (hc p.1) hs)
    have hck := ck_fits (z := c p.1 + share r p.2) (h1.trans (by linarith))
    obtain ⟨c', h2, h3⟩ := ih (upd c p.1 (c p.1 + share r p.2)) (B + |(p.2 : ℚ)|) (by positivity) (by
      intro j
      unfold upd
      split
      · exact h1
      · exact (hc j).trans (by have := abs_nonneg (p.2 : ℚ); linarith)) (by linarith)
    refine ⟨c', ?_, ?_⟩
    · simp only [addEntries, hck, bind, Except.bind]
      exact h2
    · intro j; rw [e]; have := h3 j; linarith

/-- Sums over rows. -/
def coefTotal (rs : List IRow) : ℚ := (rs.map fun r => absSum r.coefs).sum
def rhsTotal (rs : List IRow) : ℚ := (rs.map fun r => |(r.rhs : ℚ)|).sum

theorem coefTotal_nonneg (rs : List IRow) : 0 ≤ coefTotal rs :=
  List.sum_nonneg (by intro a ha; obtain ⟨r, -, rfl⟩ := List.mem_map.mp ha; exact absSum_nonneg _)

theorem rhsTotal_nonneg (rs : List IRow) : 0 ≤ rhsTotal rs :=
  List.sum_nonneg (by intro a ha; obtain ⟨r, -, rfl⟩ := List.mem_map.mp ha; exact abs_nonneg _)

theorem addRows_fits (rs : List IRow) (s : (Nat → ℤ) × ℤ) (B R : ℚ) (hB : 0 ≤ B) (hR : 0 ≤ R)
    (hc : ∀ j, |(s.1 j : ℚ)| ≤ B) (hb : |(s.2 : ℚ)| ≤ R) (h : B + coefTotal rs ≤ intMax)
    (h' : R + rhsTotal rs ≤ intMax) :
    ∃ s', addRows rs s = .ok s' ∧ (∀ j, |(s'.1 j : ℚ)| ≤ B + coefTotal rs) ∧ |(s'.2 : ℚ)| ≤ R + rhsTotal rs := by
  induction rs generalizing s B R with
  | nil => exact ⟨s, rfl, by simpa [coefTotal] using hc, by simpa [rhsTotal] using hb⟩
  | cons r t ih =>
    have e : coefTotal (r :: t) = absSum r.coefs + coefTotal t := by simp [coefTotal]
    have e' : rhsTotal (r :: t) = |(r.rhs : ℚ)| + rhsTotal t := by simp [rhsTotal]
    have n1 := coefTotal_nonneg t
    have n2 := rhsTotal_nonneg t
    have n3 := absSum_nonneg r.coefs
    have n4 := abs_nonneg (r.rhs : ℚ)
    obtain ⟨c, h1, h2⟩ := addEntries_fits r r.coefs s.1 B hB hc (by linarith)
    have h3 : |((s.2 + share r r.rhs : ℤ) : ℚ)| ≤ R + |(r.rhs : ℚ)| := by
      push_cast
      exact (abs_add_le _ _).trans (add_le_add hb (share_abs r r.rhs))
    have hck := ck_fits (z := s.2 + share r r.rhs) (h3.trans (by linarith))
    obtain ⟨s', h4, h5, h6⟩ := ih (c, s.2 + share r r.rhs) (B + absSum r.coefs) (R + |(r.rhs : ℚ)|) (by linarith)
      (by linarith) h2 h3 (by linarith) (by linarith)
    refine ⟨s', ?_, ?_, by rw [e']; linarith⟩
    · simp only [addRows, addRow, h1, hck, bind, Except.bind, pure, Except.pure]
      exact h4
    · intro j; rw [e]; have := h5 j; linarith

/-! ### The rows of a cycle -/

theorem comb_nodup (cyc acc : List Nat) (h : acc.Nodup) : (comb cyc acc).Nodup := by
  induction cyc generalizing acc with
  | nil => exact h
  | cons i t ih =>
    unfold comb
    split
    · exact ih _ h
    · rename_i hi
      exact ih _ (List.Nodup.append h (List.nodup_singleton i) (by simpa using hi))

theorem all_rows (rows : List IRow) : ((List.range rows.length).filterMap fun i => rows[i]?) = rows := by
  induction rows using List.reverseRecOn with
  | nil => simp
  | append_singleton t r ih =>
    rw [List.length_append, List.length_singleton, List.range_succ, List.filterMap_append]
    have : (List.filterMap (fun i => (t ++ [r])[i]?) (List.range t.length)) =
        List.filterMap (fun i => t[i]?) (List.range t.length) := by
      apply List.filterMap_congr
      intro k hk
      have := List.mem_range.mp hk
      rw [List.getElem?_append_left this]
    rw [this, ih]
    simp

theorem picked_le (rows : List IRow) (l : List Nat) (hl : l.Nodup) (f : IRow → ℚ) (hf : ∀ r, 0 ≤ f r) :
    ((l.filterMap fun i => rows[i]?).map f).sum ≤ (rows.map f).sum := by
  have key : ∀ k : List Nat, ((k.filterMap fun i => rows[i]?).map f).sum =
      (k.map fun i => (rows[i]?.map f).getD 0).sum := by
    intro k
    induction k with
    | nil => rfl
    | cons i t ih =>
      rw [List.map_cons, List.sum_cons, ← ih]
      rcases h : rows[i]? with _ | r <;> simp [h]
  have hall := all_rows rows
  calc ((l.filterMap fun i => rows[i]?).map f).sum
      = (((l.filter fun i => decide (i < rows.length)).filterMap fun i => rows[i]?).map f).sum := by
        congr 2
        induction l with
        | nil => rfl
        | cons i t ih =>
          have ih := ih (List.nodup_cons.mp hl).2
          by_cases h : i < rows.length
          · simp only [List.filter_cons, h, decide_true, if_true, List.filterMap_cons]
            rw [ih]
          · have : rows[i]? = none := List.getElem?_eq_none (by omega)
            simp only [List.filter_cons, h, decide_false, Bool.false_eq_true, if_false, List.filterMap_cons, this]
            exact ih
    _ = ((l.filter fun i => decide (i < rows.length)).map fun i => (rows[i]?.map f).getD 0).sum := key _
    _ ≤ ((List.range rows.length).map fun i => (rows[i]?.map f).getD 0).sum := by
        have hsub : (l.filter fun i => decide (i < rows.length)).Subperm (List.range rows.length) :=
          List.subperm_of_subset (hl.filter _) (by
            intro i hi
            exact List.mem_range.mpr (by simpa using (List.mem_filter.mp hi).2))
        obtain ⟨m, hm, hs⟩ := hsub
        rw [← (hm.map _).sum_eq]
        refine (hs.map _).sum_le_sum ?_
        intro a ha
        obtain ⟨i, -, rfl⟩ := List.mem_map.mp ha
        rcases rows[i]? with _ | r
        · simp
        · simpa using hf r
    _ = (rows.map f).sum := by rw [← key, hall]

/-! ### The changes -/

/-- Size of the bounds that are used. -/
def sideTotal (L : List (ℤ × ℤ)) (ps : List (Nat × Side)) : ℚ :=
  (ps.map fun p => |(sideBnd (bnd L p.1) p.2 : ℚ)|).sum

theorem sideTotal_nonneg (L : List (ℤ × ℤ)) (ps : List (Nat × Side)) : 0 ≤ sideTotal L ps :=
  List.sum_nonneg (by intro a ha; obtain ⟨p, -, rfl⟩ := List.mem_map.mp ha; exact abs_nonneg _)

theorem applyAll_fits (L : List (ℤ × ℤ)) (ps : List (Nat × Side)) (s : (Nat → ℤ) × ℤ) (B R : ℚ)
    (hn : (ps.map Prod.fst).Nodup) (hc : ∀ p ∈ ps, |(s.1 p.1 : ℚ)| ≤ B) (hb : |(s.2 : ℚ)| ≤ R)
    (h : B + 1 ≤ intMax) (h' : R + sideTotal L ps ≤ intMax) : ∃ s', applyAll L ps s = .ok s' := by
  induction ps generalizing s R with
  | nil => exact ⟨s, rfl⟩
  | cons p t ih =>
    have e : sideTotal L (p :: t) = |(sideBnd (bnd L p.1) p.2 : ℚ)| + sideTotal L t := by simp [sideTotal]
    have n1 := sideTotal_nonneg L t
    have hn' := List.nodup_cons.mp (by simpa using hn : (p.1 :: t.map Prod.fst).Nodup)
    have hcp := abs_le.mp (hc p List.mem_cons_self)
    have hrest : ∀ v : ℤ, ∀ q ∈ t, |(upd s.1 p.1 v q.1 : ℚ)| ≤ B := by
      intro v q hq
      have : q.1 ≠ p.1 := fun he => hn'.1 (he ▸ List.mem_map_of_mem hq)
      unfold upd
      rw [if_neg this]
      exact hc q (List.mem_cons_of_mem _ hq)
    rcases p with ⟨j, u⟩
    cases u
    · simp only [sideBnd] at e
      have h1 : |((s.2 - (bnd L j).1 : ℤ) : ℚ)| ≤ R + |((bnd L j).1 : ℚ)| := by
        push_cast; exact (abs_sub _ _).trans (by linarith)
      have c1 := ck_fits (z := s.1 j - 1) (by
        push_cast; rw [abs_le]; constructor <;> [skip; skip] <;> simp only at hcp <;> linarith [hcp.1, hcp.2])
      have c2 := ck_fits (z := s.2 - (bnd L j).1) (h1.trans (by linarith))
      obtain ⟨s', hs'⟩ := ih (upd s.1 j (s.1 j - 1), s.2 - (bnd L j).1) (R + |((bnd L j).1 : ℚ)|) hn'.2
        (hrest _) h1 (by linarith)
      refine ⟨s', ?_⟩
      simp only [applyAll, applyOne, c1, c2, bind, Except.bind, pure, Except.pure]
      exact hs'
    · simp only [sideBnd] at e
      have h1 : |((s.2 + (bnd L j).2 : ℤ) : ℚ)| ≤ R + |((bnd L j).2 : ℚ)| := by
        push_cast; exact (abs_add_le _ _).trans (by linarith)
      have c1 := ck_fits (z := s.1 j + 1) (by
        push_cast; rw [abs_le]; constructor <;> [skip; skip] <;> simp only at hcp <;> linarith [hcp.1, hcp.2])
      have c2 := ck_fits (z := s.2 + (bnd L j).2) (h1.trans (by linarith))
      obtain ⟨s', hs'⟩ := ih (upd s.1 j (s.1 j + 1), s.2 + (bnd L j).2) (R + |((bnd L j).2 : ℚ)|) hn'.2
        (hrest _) h1 (by linarith)
      refine ⟨s', ?_⟩
      simp only [applyAll, applyOne, c1, c2, bind, Except.bind, pure, Except.pure]
      exact hs'

/-- What the usable bounds can add. -/
structure Cost (I : Ilp) (x : Nat → ℚ) (cost : Nat → ℚ) : Prop where
  nonneg : ∀ j, 0 ≤ cost j
  lo : ∀ r ∈ I.rows, ∀ p ∈ r.coefs, x p.1 - (bnd I.bnds p.1).1 ≤ 1 → |((bnd I.bnds p.1).1 : ℚ)| ≤ cost p.1
  up : ∀ r ∈ I.rows, ∀ p ∈ r.coefs, ((bnd I.bnds p.1).2 : ℚ) - x p.1 ≤ 1 → |((bnd I.bnds p.1).2 : ℚ)| ≤ cost p.1

theorem getCut_fits {I : Ilp} {x : Nat → ℚ} {cost : Nat → ℚ} (hc : Cost I x cost)
    (h1 : coefTotal I.rows + 1 ≤ intMax)
    (h2 : rhsTotal I.rows + ((List.range I.bnds.length).map cost).sum ≤ intMax) (cyc : List Nat) (e : Fault) :
    getCut I x cyc ≠ .error e := by
  intro h
  have hpc : coefTotal ((comb cyc []).filterMap fun i => I.rows[i]?) ≤ coefTotal I.rows :=
    picked_le I.rows _ (comb_nodup _ _ List.nodup_nil) _ (fun r => absSum_nonneg _)
  have hpr : rhsTotal ((comb cyc []).filterMap fun i => I.rows[i]?) ≤ rhsTotal I.rows :=
    picked_le I.rows _ (comb_nodup _ _ List.nodup_nil) _ (fun r => abs_nonneg _)
  have hcn : 0 ≤ ((List.range I.bnds.length).map cost).sum :=
    List.sum_nonneg (by intro a ha; obtain ⟨j, -, rfl⟩ := List.mem_map.mp ha; exact hc.nonneg j)
  obtain ⟨s, hs, hsc, hsr⟩ := addRows_fits ((comb cyc []).filterMap fun i => I.rows[i]?) (fun _ => 0, 0) 0 0 le_rfl
    le_rfl (by simp) (by simp) (by linarith) (by linarith)
  unfold getCut at h
  simp only [bind_error] at h
  rcases h with h | ⟨o, ho, h⟩
  · unfold oriCut at h
    split at h
    · cases h
    · simp only [bind_error, hs] at h
      rcases h with h | ⟨s', -, h⟩
      · cases h
      · exact absurd h pure_error
  rcases o with _ | s1
  · exact absurd h pure_error
  have hs1 : s1 = s := by
    unfold oriCut at ho
    split at ho
    · simp at ho
    · simp only [bind_ok, pure_ok, hs, Except.ok.injEq] at ho
      obtain ⟨a, rfl, h⟩ := ho
      exact (Option.some.inj h).symm
  subst hs1
  simp only [bind_error] at h
  rcases h with h | ⟨b, -, h⟩
  swap
  · rcases b with _ | ⟨s', v⟩ <;> exact absurd h pure_error
  unfold bestCut at h
  split at h
  · cases h
  split at h
  · cases h
  rename_i ts slack hbw
  obtain ⟨ho', -⟩ := bestWeakening_spec _ _ (offersOf_fits I x _) _ _ _ _ hbw
  have hz := zip_fst _ _ (offers_length ho')
  have hside : sideTotal I.bnds ((oddCols I.bnds.length s1.1).zip ts) ≤ ((List.range I.bnds.length).map cost).sum := by
    calc sideTotal I.bnds ((oddCols I.bnds.length s1.1).zip ts)
        ≤ ((((oddCols I.bnds.length s1.1).zip ts).map Prod.fst).map cost).sum := by
          unfold sideTotal
          rw [List.map_map]
          apply List.sum_le_sum
          intro p hp
          obtain ⟨hm, hof⟩ := offersOf_side I x _ _ ho' p hp
          have hodd := (mem_oddCols.mp hm).2
          have hne : s1.1 p.1 ≠ 0 := by intro h0; rw [h0] at hodd; simp [isOdd] at hodd
          rcases addRows_supp _ _ _ hs p.1 hne with h3 | ⟨r, hr, q, hq, hqp⟩
          · exact absurd rfl h3
          have hside := possWeak_offers _ _ _ hof
          rcases p with ⟨j, t⟩
          simp only at hqp
          subst hqp
          cases t
          · exact hc.lo r (picked_mem hr) q hq hside
          · exact hc.up r (picked_mem hr) q hq hside
      _ = ((oddCols I.bnds.length s1.1).map cost).sum := by rw [hz]
      _ ≤ _ := by
          refine (List.filter_sublist.map cost).sum_le_sum ?_
          intro a ha
          obtain ⟨j, -, rfl⟩ := List.mem_map.mp ha
          exact hc.nonneg j
  obtain ⟨s', hs'⟩ := applyAll_fits I.bnds ((oddCols I.bnds.length s1.1).zip ts) s1
    (0 + coefTotal ((comb cyc []).filterMap fun i => I.rows[i]?))
    (0 + rhsTotal ((comb cyc []).filterMap fun i => I.rows[i]?)) (by rw [hz]; exact oddCols_nodup _ _)
    (fun p _ => hsc p.1) hsr (by linarith) (by linarith)
  simp only [bind_error, hs'] at h
  rcases h with h | ⟨s2, h2', h | ⟨s3, -, h⟩⟩
  · cases h
  · simp only [Except.ok.injEq] at h2'
    subst h2'
    rw [halve_noExit (x := x) hbw hs'] at h; cases h
  · exact absurd h pure_error

end Cgl.ZeroHalf
