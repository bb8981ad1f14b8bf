import Verif.FlowCover.Back
import Verif.FlowCover.Spec
import Verif.SimpleRounding.Lemmas

/-!
# Properties of the flow cover generator
-/

namespace Cgl.FlowCover

open Cgl.MIR (Representable lower_le le_upper)

/-! ### Where the cuts come from -/

theorem tryAll_new {P : Prob} {pre : Pre} {xlp : Nat → ℚ} {m : ℤ} {c : RowCut} : ∀ (ws : List (SVec × Bool × ℚ)) (n : ℤ)
    (cs : List RowCut), c ∈ (tryAll P pre xlp m ws n cs).2 →
      c ∈ cs ∨ ∃ w ∈ ws, generateOneFlowCut P pre xlp w.1 w.2.1 w.2.2 = some c
  | [], n, cs, h => Or.inl h
  | w :: ws, n, cs, h => by
    rw [tryAll] at h
    rcases hg : generateOneFlowCut P pre xlp w.1 w.2.1 w.2.2 with _ | d
    · rw [hg] at h
      rcases tryAll_new ws n cs h with h | ⟨w', hw', h⟩
      · exact Or.inl h
      · exact Or.inr ⟨w', by simp [hw'], h⟩
    · rw [hg] at h
      simp only at h
      have hd : ∀ c, c ∈ insertIfNotDuplicate cs d → c ∈ cs ∨ c = d := fun c hc => mem_insertIfNotDuplicate.1 hc
      split at h
      · rcases hd c h with h | rfl
        · exact Or.inl h
        · exact Or.inr ⟨w, by simp, hg⟩
      · rcases tryAll_new ws _ _ h with h | ⟨w', hw', h⟩
        · rcases hd c h with h | rfl
          · exact Or.inl h
          · exact Or.inr ⟨w, by simp, hg⟩
        · exact Or.inr ⟨w', by simp [hw'], h⟩

theorem generateCuts_new {o : Obj} {P : Prob} {xlp : Nat → ℚ} {cs : List RowCut} {c : RowCut}
    (h : c ∈ (generateCuts o P xlp cs).2) (hn : c ∉ cs) :
    ∃ w ∈ tries P, generateOneFlowCut P (preprocess P) xlp w.1 w.2.1 w.2.2 = some c := by
  unfold generateCuts at h
  split at h
  · exact absurd h hn
  · exact (tryAll_new _ _ _ h).resolve_left hn

/-- What is tried: a row without its fixed columns, in a direction its sense allows. -/
theorem tries_spec {P : Prob} {w : SVec × Bool × ℚ} (h : w ∈ tries P) : ∃ r ∈ P.rows,
    w.1 = freeCoefs P r.coefs ∧ w.2.2 = freeRhs P r.coefs (r.senseRhs P.inf).2 ∧
      w.2.1 ∈ directions (r.senseRhs P.inf).1 := by
  unfold tries at h
  obtain ⟨r, hr, h⟩ := List.mem_flatMap.1 h
  split at h
  · obtain ⟨g, hg, rfl⟩ := List.mem_map.1 h
    exact ⟨r, hr, rfl, rfl, hg⟩
  · simp at h

/-- Taking the fixed columns to the right-hand side. -/
theorem free_dot {P : Prob} {x : Nat → ℚ} (hf : P.Feasible x) (hr : Representable P x) {v : SVec}
    (hcols : ∀ p ∈ v, p.1 < P.nCols) (rhs : ℚ) : freeRhs P v rhs - (freeCoefs P v).dot x = rhs - v.dot x := by
  unfold freeRhs freeCoefs
  induction v with
  | nil => simp
  | cons p v ih =>
    have ih := ih fun q hq => hcols q (by simp [hq])
    by_cases h : P.colLower p.1 < P.colUpper p.1
    · rw [List.filter_cons_of_neg (by simpa using h), List.filter_cons_of_pos (by simpa using h), SVec.dot_cons, SVec.dot_cons]
      linarith
    · rw [List.filter_cons_of_pos (by simpa using h), List.filter_cons_of_neg (by simpa using h), SVec.dot_cons,
        List.map_cons, List.sum_cons]
      have h1 := lower_le hf hr (hcols p (by simp))
      have h2 := le_upper hf hr (hcols p (by simp))
      have h3 : x p.1 = P.colLower p.1 := by linarith
      have h4 : p.2 * x p.1 = P.colLower p.1 * p.2 := by rw [h3]; ring
      linarith

theorem length_le_nCols {P : Prob} {v : SVec} (hcols : ∀ p ∈ v, p.1 < P.nCols) (hnd : (v.map Prod.fst).Nodup) :
    v.length ≤ P.nCols := by
  have h1 : (v.map Prod.fst).toFinset ⊆ Finset.range P.nCols := by
    intro j hj
    rw [List.mem_toFinset] at hj
    obtain ⟨p, hp, rfl⟩ := List.mem_map.1 hj
    exact Finset.mem_range.2 (hcols p hp)
  have h2 := Finset.card_le_card h1
  rw [List.toFinset_card_of_nodup hnd, Finset.card_range, List.length_map] at h2
  exact h2

theorem worth_big {xlp : Nat → ℚ} {v : SVec} (h : worth xlp v = true) : ∀ p ∈ v, eps < |p.2| := by
  unfold worth at h
  rw [Bool.and_eq_true, List.all_eq_true] at h
  intro p hp
  simpa using h.2 p hp

/-- The class of numbers is respected by the data of a row. -/
structure RowGrid (P : Prob) (G : ℚ → Prop) (r : Row) : Prop where
  rhs : G (r.senseRhs P.inf).2
  fixed : ∀ p ∈ r.coefs, ¬ P.colLower p.1 < P.colUpper p.1 → G (P.colLower p.1 * p.2)
  arc : ∀ p ∈ r.coefs, EntryGrid P (preprocess P) G p

theorem cut_holds {P : Prob} {x xlp : Nat → ℚ} {G : ℚ → Prop} {e : ℚ} (T : Tol G e) (hinf : 1 < P.inf) (hW : P.WF)
    (hE : Exact P) (hG : ∀ r ∈ P.rows, RowGrid P G r) (hf : P.Feasible x) (hr : Representable P x) {o : Obj}
    {cs : List RowCut} {c : RowCut} (h : c ∈ (generateCuts o P xlp cs).2) (hn : c ∉ cs) :
    c.lb = -P.inf ∧ c.row.dot x ≤ c.ub + e * P.nCols := by
  obtain ⟨w, hw, hg⟩ := generateCuts_new h hn
  obtain ⟨r, hrm, e1, e2, hdir⟩ := tries_spec hw
  rw [e1, e2] at hg
  have ok := preprocess_ok hW hE hf
  have hcolsr := hW.cols r hrm
  have hcols : ∀ p ∈ freeCoefs P r.coefs, p.1 < P.nCols := fun p hp => hcolsr p (List.mem_filter.1 hp).1
  have hnd : ((freeCoefs P r.coefs).map Prod.fst).Nodup :=
    (hW.nodup r hrm).sublist (List.filter_sublist.map _)
  have hfd := free_dot hf hr hcolsr (r.senseRhs P.inf).2
  have hsound := Cgl.SimpleRounding.senseRhs_sound P.inf r x (hf.rows r hrm)
  have hgr := hG r hrm
  have hrg : G (freeRhs P r.coefs (r.senseRhs P.inf).2) := by
    unfold freeRhs
    refine T.sub hgr.rhs (T.sum ?_)
    intro a ha
    obtain ⟨p, hp, rfl⟩ := List.mem_map.1 ha
    obtain ⟨hp1, hp2⟩ := List.mem_filter.1 hp
    exact hgr.fixed p hp1 (by simpa using hp2)
  have hlen : ((freeCoefs P r.coefs).length : ℚ) ≤ P.nCols := by exact_mod_cast length_le_nCols hcols hnd
  have hmul : e * ((freeCoefs P r.coefs).length : ℚ) ≤ e * P.nCols := mul_le_mul_of_nonneg_left hlen T.nonneg
  unfold generateOneFlowCut at hg
  split at hg
  · rename_i hwo
    have hbig := worth_big hwo
    have harc : ∀ p ∈ freeCoefs P r.coefs, EntryGrid P (preprocess P) G p := fun p hp => hgr.arc p (List.mem_filter.1 hp).1
    rcases hs : r.senseRhs P.inf with ⟨s, rh⟩
    rw [hs] at hg hdir hsound hfd hrg
    split at hg
    · rename_i hge
      rw [hge] at hdir
      have hrow : rh ≤ r.coefs.dot x := by
        cases s <;> simp [directions] at hdir <;> simp only at hsound <;> linarith
      have hres := flowCutL_holds T hinf hE hf hr ok (v := flipCoefs (freeCoefs P r.coefs)) (xlp := xlp)
        (rhs := -freeRhs P r.coefs rh)
        (by intro p hp; obtain ⟨q, hq, rfl⟩ := List.mem_map.1 hp; exact hcols q hq)
        (by
          have : (flipCoefs (freeCoefs P r.coefs)).map Prod.fst = (freeCoefs P r.coefs).map Prod.fst := by simp [flipCoefs]
          rw [this]; exact hnd)
        (by intro p hp; obtain ⟨q, hq, rfl⟩ := List.mem_map.1 hp; simpa using hbig q hq)
        (by
          intro p hp; obtain ⟨q, hq, rfl⟩ := List.mem_map.1 hp
          have := harc q hq
          unfold EntryGrid at this ⊢
          simpa using this)
        (T.neg _ hrg) (by rw [dot_flip]; simp only at hfd; linarith) hg
      have hl : (flipCoefs (freeCoefs P r.coefs)).length = (freeCoefs P r.coefs).length := by simp [flipCoefs]
      rw [hl] at hres
      exact ⟨hres.1, by linarith [hres.2]⟩
    · rename_i hge
      have hge' : w.2.1 = false := by simpa using hge
      rw [hge'] at hdir
      have hrow : r.coefs.dot x ≤ rh := by
        cases s <;> simp [directions] at hdir <;> simp only at hsound <;> linarith
      have hres := flowCutL_holds T hinf hE hf hr ok (v := freeCoefs P r.coefs) (xlp := xlp) (rhs := freeRhs P r.coefs rh)
        hcols hnd hbig harc hrg (by simp only at hfd; linarith) hg
      exact ⟨hres.1, by linarith [hres.2]⟩
  · cases hg

/-! ### C28: validity -/

/-- Every flow cover cut that a call adds holds at every feasible point.  Partial: for problems whose two-column rows, lower
bounds and variable bounds are outside the tolerance (`Exact`, which also excludes free rows with two columns), whose data lie on
a grid coarser than 1e-6 (`Grid`), and at points within the solver's infinity. -/
theorem generateCuts_valid_partial {P : Prob} {δ : ℚ} (hinf : 1 < P.inf) (hW : P.WF) (hE : Exact P) (hG : Grid P δ) (o : Obj)
    (xlp : Nat → ℚ) (cs : List RowCut) (c : RowCut) (hc : c ∈ (generateCuts o P xlp cs).2) (hn : c ∉ cs) (x : Nat → ℚ)
    (hx : P.Feasible x) (hr : ∀ j < P.nCols, |x j| ≤ P.inf) : c.SatIn P.inf x := by
  have h := cut_holds (tol_grid hG.step) hinf hW hE (fun r hr => ⟨hG.rhs r hr, hG.fixed r hr, hG.arc r hr⟩) hx hr hc hn
  rw [zero_mul, add_zero] at h
  exact ⟨fun hl => by rw [h.1] at hl; exact absurd hl (lt_irrefl _), fun _ => h.2⟩

/-- Without any condition on how fine the data are: every feasible point satisfies the cut up to 1e-6 per column of the problem
(what the generator drops as zero). -/
theorem generateCuts_valid_upto_partial {P : Prob} (hinf : 1 < P.inf) (hW : P.WF) (hE : Exact P) (o : Obj) (xlp : Nat → ℚ)
    (cs : List RowCut) (c : RowCut) (hc : c ∈ (generateCuts o P xlp cs).2) (hn : c ∉ cs) (x : Nat → ℚ) (hx : P.Feasible x)
    (hr : ∀ j < P.nCols, |x j| ≤ P.inf) : c.row.dot x ≤ c.ub + 1 / 10 ^ 6 * P.nCols :=
  (cut_holds tol_all hinf hW hE (fun _ _ => ⟨trivial, fun _ _ _ => trivial, fun _ _ => trivial⟩) hx hr hc hn).2

/-! ### C50: the cuts cut off the LP point and have a good shape -/

theorem flowCutL_finish {P : Prob} {pre : Pre} {xlp : Nat → ℚ} {v : SVec} {rhs : ℚ} {c : RowCut}
    (h : flowCutL P pre xlp v rhs = some c) : ∃ ps lam, ps.map Prod.fst = v.map (mkItem P pre xlp) ∧
      finish P pre xlp (inequality rhs lam ps).1 (inequality rhs lam ps).2 = some c := by
  unfold flowCutL at h
  split at h
  · cases h
  · rcases hfc : findCover rhs (v.map (mkItem P pre xlp)) with _ | ⟨ps, lam⟩
    · rw [hfc] at h; cases h
    · rw [hfc] at h
      simp only at h
      split at h
      · cases h
      · exact ⟨ps, lam, (findCover_spec hfc).1, h⟩

theorem finish_spec {P : Prob} {pre : Pre} {xlp : Nat → ℚ} {cs : List Coef} {rhs : ℚ} {c : RowCut}
    (h : finish P pre xlp cs rhs = some c) : c.lb = -P.inf ∧ c.row = mergeCut (cs.flatMap (backEntries pre)) ∧ c.row ≠ [] ∧
      tol < c.row.dot xlp - c.ub := by
  unfold finish at h
  split at h
  · simp only at h
    split at h
    · cases h
    · rename_i hne
      split at h
      · rename_i hv
        simp only [Option.some.injEq] at h
        subst h
        exact ⟨rfl, rfl, by simpa using hne, hv⟩
      · cases h
  · cases h

theorem mergeRuns_shape (n : Nat) : ∀ (v : SVec) (j : Nat) (a : ℚ), ((j, a) :: v).Pairwise (fun p q => p.1 ≤ q.1) →
    (∀ p ∈ (j, a) :: v, p.1 < n) →
    (∀ p ∈ mergeRuns j a v, j ≤ p.1 ∧ p.1 < n ∧ eps ≤ |p.2|) ∧ (mergeRuns j a v).Pairwise fun p q => p.1 < q.1 := by
  have hk : ∀ (j : Nat) (a : ℚ), ∀ p ∈ keep j a, p.1 = j ∧ eps ≤ |p.2| := by
    intro j a p hp
    unfold keep at hp
    split at hp
    · simp only [List.mem_singleton] at hp; subst hp; exact ⟨rfl, by assumption⟩
    · simp at hp
  have hkp : ∀ (j : Nat) (a : ℚ), (keep j a).Pairwise fun p q => p.1 < q.1 := by
    intro j a; unfold keep; split <;> simp
  intro v
  induction v with
  | nil =>
    intro j a _ hn
    rw [mergeRuns]
    exact ⟨fun p hp => ⟨(hk j a p hp).1.ge, by rw [(hk j a p hp).1]; exact hn (j, a) (by simp), (hk j a p hp).2⟩, hkp j a⟩
  | cons p v ih =>
    intro j a hs hn
    rw [mergeRuns]
    split
    · rename_i hlt
      obtain ⟨h1, h2⟩ := ih p.1 p.2 (List.pairwise_cons.1 hs).2 (fun q hq => hn q (List.mem_cons_of_mem _ hq))
      refine ⟨?_, ?_⟩
      · intro q hq
        rcases List.mem_append.1 hq with hq | hq
        · exact ⟨(hk j a q hq).1.ge, by rw [(hk j a q hq).1]; exact hn (j, a) (by simp), (hk j a q hq).2⟩
        · exact ⟨by have := (h1 q hq).1; omega, (h1 q hq).2⟩
      · rw [List.pairwise_append]
        refine ⟨hkp j a, h2, ?_⟩
        intro q hq q' hq'
        rw [(hk j a q hq).1]
        have := (h1 q' hq').1
        omega
    · exact ih j (a + p.2)
        (List.pairwise_cons.2 ⟨fun q hq => List.rel_of_pairwise_cons hs (a' := q) (by simp [hq]),
          (List.pairwise_cons.1 (List.pairwise_cons.1 hs).2).2⟩)
        (by
          intro q hq
          rcases List.mem_cons.1 hq with rfl | hq
          · exact hn (j, a) (by simp)
          · exact hn q (by simp [hq]))

theorem mergeCut_shape {n : Nat} {v : SVec} (hn : ∀ p ∈ v, p.1 < n) :
    (∀ p ∈ mergeCut v, p.1 < n ∧ eps ≤ |p.2|) ∧ (mergeCut v).Pairwise fun p q => p.1 < q.1 := by
  have hperm := List.perm_insertionSort (fun p q : Nat × ℚ => p.1 ≤ q.1) v
  have : Std.Total (fun p q : Nat × ℚ => p.1 ≤ q.1) := ⟨fun a b => le_total _ _⟩
  have : IsTrans (Nat × ℚ) (fun p q : Nat × ℚ => p.1 ≤ q.1) := ⟨fun a b c h h' => le_trans h h'⟩
  have hsort := List.pairwise_insertionSort (fun p q : Nat × ℚ => p.1 ≤ q.1) v
  have hok' : ∀ p ∈ v.insertionSort fun p q => p.1 ≤ q.1, p.1 < n := fun p hp => hn p (hperm.mem_iff.1 hp)
  unfold mergeCut
  rcases h : v.insertionSort (fun p q => p.1 ≤ q.1) with _ | ⟨p, w⟩
  · rw [h]; simp
  · rw [h] at hsort hok' ⊢
    obtain ⟨h1, h2⟩ := mergeRuns_shape n w p.1 p.2 hsort hok'
    exact ⟨fun q hq => (h1 q hq).2, h2⟩

theorem boundOf_cols {P : Prob} {v : SVec} {y b : Nat} {val : ℚ} (hb : boundOf P v = some (y, b, val)) :
    b ∈ v.map Prod.fst := boundOf_mem hb

/-- The binary columns of the recorded variable bounds are columns of the problem. -/
theorem preprocess_cols {P : Prob} (hW : P.WF) : ∀ j b, (preprocess P).vub j = some b → b.1 < P.nCols := by
  unfold preprocess
  have : ∀ (rs : List Row) (pre : Pre), (∀ r ∈ rs, r ∈ P.rows) → (∀ j b, pre.vub j = some b → b.1 < P.nCols) →
      ∀ j b, (rs.foldl (recordRow P) pre).vub j = some b → b.1 < P.nCols := by
    intro rs
    induction rs with
    | nil => intro pre _ h; exact h
    | cons r rs ih =>
      intro pre hm h
      refine ih _ (fun r' hr' => hm r' (by simp [hr'])) ?_
      unfold recordRow
      rcases hb : boundOf P r.coefs with _ | ⟨y, b, val⟩
      · exact h
      · have hlt : b < P.nCols := by
          obtain ⟨p, hp, rfl⟩ := List.mem_map.1 (boundOf_mem hb)
          exact hW.cols r (hm r (by simp)) p hp
        have hup : ∀ j c, upd pre.vub y (some (b, val)) j = some c → c.1 < P.nCols := by
          intro j c hc
          unfold upd at hc
          split at hc
          · cases hc; exact hlt
          · exact h j c hc
        simp only
        split
        · exact hup
        · exact h
        · exact hup
        · exact h
  exact this _ _ (fun _ h => h) (by simp)

theorem backEntries_cols {P : Prob} (hW : P.WF) {c : Coef} (hj : c.it.j < P.nCols) :
    ∀ p ∈ backEntries (preprocess P) c, p.1 < P.nCols := by
  intro p hp
  unfold backEntries at hp
  simp only at hp
  split at hp
  · split at hp
    · simp only [List.mem_singleton] at hp; rw [hp]; exact hj
    · simp at hp
  · rcases List.mem_append.1 hp with hp | hp
    · split at hp
      · simp only [List.mem_singleton] at hp; rw [hp]; exact hj
      · simp at hp
    · split at hp
      · split at hp
        · rename_i b hv
          simp only [List.mem_singleton] at hp; rw [hp]; exact preprocess_cols hW _ b hv
        · simp at hp
      · simp at hp

theorem new_cut {P : Prob} (hW : P.WF) {xlp : Nat → ℚ} {o : Obj} {cs : List RowCut} {c : RowCut}
    (h : c ∈ (generateCuts o P xlp cs).2) (hn : c ∉ cs) : WellShaped P c ∧ tol < c.row.dot xlp - c.ub := by
  obtain ⟨w, hw, hg⟩ := generateCuts_new h hn
  obtain ⟨r, hrm, e1, e2, hdir⟩ := tries_spec hw
  have hcols : ∀ p ∈ w.1, p.1 < P.nCols := fun p hp => hW.cols r hrm p (by rw [e1] at hp; exact (List.mem_filter.1 hp).1)
  have key : ∀ v rhs, (∀ p ∈ v, p.1 < P.nCols) → flowCutL P (preprocess P) xlp v rhs = some c →
      WellShaped P c ∧ tol < c.row.dot xlp - c.ub := by
    intro v rhs hv hfl
    obtain ⟨ps, lam, hps, hfin⟩ := flowCutL_finish hfl
    obtain ⟨h1, h2, h3, h4⟩ := finish_spec hfin
    have hent : ∀ p ∈ (inequality rhs lam ps).1.flatMap (backEntries (preprocess P)), p.1 < P.nCols := by
      intro p hp
      obtain ⟨d, hd, hp⟩ := List.mem_flatMap.1 hp
      refine backEntries_cols hW ?_ p hp
      have : d.it ∈ (inequality rhs lam ps).1.map Coef.it := List.mem_map_of_mem hd
      rw [ineq_items, hps] at this
      obtain ⟨q, hq, e⟩ := List.mem_map.1 this
      rw [← e, mkItem_j]; exact hv q hq
    obtain ⟨h5, h6⟩ := mergeCut_shape hent
    rw [← h2] at h5 h6
    exact ⟨⟨h1, h3, fun p hp => (h5 p hp).1, h6, fun p hp => (h5 p hp).2⟩, h4⟩
  unfold generateOneFlowCut at hg
  split at hg
  · split at hg
    · refine key _ _ ?_ hg
      intro p hp; obtain ⟨q, hq, rfl⟩ := List.mem_map.1 hp; exact hcols q hq
    · exact key _ _ hcols hg
  · cases hg

/-- Every cut a call adds is violated by more than 0.05 at the LP solution. -/
theorem generateCuts_violated {P : Prob} (hW : P.WF) (o : Obj) (xlp : Nat → ℚ) (cs : List RowCut) (c : RowCut)
    (hc : c ∈ (generateCuts o P xlp cs).2) (hn : c ∉ cs) : c.ub + 1 / 20 < c.row.dot xlp := by
  have := (new_cut hW hc hn).2
  unfold tol at this; linarith

/-- Every cut a call adds has a good shape. -/
theorem generateCuts_shape {P : Prob} (hW : P.WF) (o : Obj) (xlp : Nat → ℚ) (cs : List RowCut) (c : RowCut)
    (hc : c ∈ (generateCuts o P xlp cs).2) (hn : c ∉ cs) : WellShaped P c := (new_cut hW hc hn).1

/-! ### C51: limits -/

theorem tryAll_limit {P : Prob} {pre : Pre} {xlp : Nat → ℚ} {m : ℤ} : ∀ (ws : List (SVec × Bool × ℚ)) (n : ℤ)
    (cs : List RowCut), n < m → n ≤ (tryAll P pre xlp m ws n cs).1 ∧ (tryAll P pre xlp m ws n cs).1 ≤ m ∧
      cs <+: (tryAll P pre xlp m ws n cs).2 ∧
      ((tryAll P pre xlp m ws n cs).2.length : ℤ) ≤ cs.length + ((tryAll P pre xlp m ws n cs).1 - n)
  | [], n, cs, h => ⟨le_refl _, h.le, List.prefix_refl _, by simp [tryAll]⟩
  | w :: ws, n, cs, h => by
    rw [tryAll]
    have hpre : ∀ d, cs <+: insertIfNotDuplicate cs d ∧ ((insertIfNotDuplicate cs d).length : ℤ) ≤ cs.length + 1 := by
      intro d
      unfold insertIfNotDuplicate
      split
      · exact ⟨List.prefix_refl _, by omega⟩
      · exact ⟨List.prefix_append _ _, by simp⟩
    rcases generateOneFlowCut P pre xlp w.1 w.2.1 w.2.2 with _ | d
    · exact tryAll_limit ws n cs h
    · simp only
      obtain ⟨h1, h2⟩ := hpre d
      split
      · exact ⟨by omega, by omega, h1, by simp only; omega⟩
      · rename_i hlt
        obtain ⟨i1, i2, i3, i4⟩ := tryAll_limit (P := P) (pre := pre) (xlp := xlp) ws (n + 1) (insertIfNotDuplicate cs d)
          (m := m) (by omega)
        exact ⟨by omega, i2, h1.trans i3, by omega⟩

/-- One call: cuts are only appended, at most as many as the counter moves, and the counter does not pass the limit; once it is
reached nothing happens. -/
theorem generateCuts_limit (o : Obj) (P : Prob) (xlp : Nat → ℚ) (cs : List RowCut) :
    cs <+: (generateCuts o P xlp cs).2 ∧ (generateCuts o P xlp cs).1.maxNum = o.maxNum ∧
      o.num ≤ (generateCuts o P xlp cs).1.num ∧ (generateCuts o P xlp cs).1.num ≤ max o.num o.maxNum ∧
      ((generateCuts o P xlp cs).2.length : ℤ) ≤ cs.length + ((generateCuts o P xlp cs).1.num - o.num) ∧
      (o.maxNum ≤ o.num → generateCuts o P xlp cs = (o, cs)) := by
  unfold generateCuts
  split
  · exact ⟨List.prefix_refl _, rfl, le_refl _, le_max_left _ _, by simp, fun _ => rfl⟩
  · rename_i h
    obtain ⟨i1, i2, i3, i4⟩ := tryAll_limit (P := P) (pre := preprocess P) (xlp := xlp) (tries P) o.num cs
      (m := o.maxNum) (by omega)
    exact ⟨i3, rfl, i1, le_trans i2 (le_max_right _ _), i4, fun hc => absurd (Or.inr hc) h⟩

theorem run_limit : ∀ (ops : List Op) (o : Obj), (∀ op ∈ ops, op.quiet) →
    (run o ops).1.maxNum = o.maxNum ∧ (run o ops).1.num ≤ max o.num o.maxNum ∧
      (((run o ops).2 : ℕ) : ℤ) ≤ (run o ops).1.num - o.num
  | [], o, _ => ⟨rfl, le_max_left _ _, by simp [run]⟩
  | op :: ops, o, h => by
    have hq := h op (by simp)
    obtain ⟨i1, i2, i3⟩ := run_limit ops (step o op).1 fun q hq => h q (by simp [hq])
    cases op with
    | setMax n => exact absurd hq id
    | setNum n => exact absurd hq id
    | copy => simp only [run, step, Nat.zero_add] at *; exact ⟨i1, i2, i3⟩
    | generate P xlp cs =>
      obtain ⟨j1, j2, j3, j4, j5, -⟩ := generateCuts_limit o P xlp cs
      have hl := j1.length_le
      simp only [run, step] at *
      rw [j2] at i1 i2
      refine ⟨i1, ?_, ?_⟩
      · exact le_trans i2 (max_le j4 (le_max_right _ _))
      · push_cast [Nat.cast_sub hl]
        omega

/-- Whatever sequence of calls and copies follows `setMaxNumCuts(n)` on a generator that has counted no cuts: in total at most `n`
cuts are added (none if `n` is negative), and the counter says at most `n`. -/
theorem history_limit (n : ℤ) (ops : List Op) (h : ∀ op ∈ ops, op.quiet) :
    (((run Obj.new (.setMax n :: ops)).2 : ℕ) : ℤ) ≤ max 0 n ∧ (run Obj.new (.setMax n :: ops)).1.num ≤ max 0 n ∧
      (run Obj.new (.setMax n :: ops)).1.maxNum = n := by
  obtain ⟨i1, i2, i3⟩ := run_limit ops { Obj.new with maxNum := n } h
  simp only [run, step, Nat.zero_add]
  have e : Obj.new.num = 0 := rfl
  simp only [e] at i2 i3 ⊢
  exact ⟨by omega, i2, i1⟩

/-- Nothing is added with a limit of zero. -/
theorem zero_limit (o : Obj) (P : Prob) (xlp : Nat → ℚ) (cs : List RowCut) (h : o.maxNum ≤ 0) :
    generateCuts o P xlp cs = (o, cs) := by
  unfold generateCuts; rw [if_pos (Or.inl h)]

/-! ### C52: the search for a cover ends -/

/-- The two loops of the cover search (promotion of secondary candidates, greedy cover) end after at most as many rounds as the
row has columns: allowing any number of further rounds changes nothing. -/
theorem search_ends (knap : ℚ) (is : List Item) (n : Nat) :
    promote knap (is.length + 1 + n) (is.map mkCand) (primeSum (is.map mkCand)) =
        promote knap (is.length + 1) (is.map mkCand) (primeSum (is.map mkCand)) ∧
      ∀ cs, promote knap (is.length + 1) (is.map mkCand) (primeSum (is.map mkCand)) = some cs →
        cover knap (is.length + 1 + n) (cs.map zeroRatio) (zeroSum cs) =
          cover knap (is.length + 1) (cs.map zeroRatio) (zeroSum cs) := by
  refine ⟨promote_fuel _ _ _ _ (numSec_le is), fun cs hcs => cover_fuel _ _ _ _ ?_⟩
  refine numOut_le ?_
  obtain ⟨h1, -⟩ := promote_spec _ _ _ _ (mkCand_ok is) hcs
  rw [← mkCand_map is]
  exact h1

end Cgl.FlowCover
