import Verif.TreeInfo.Lemmas
import Verif.TreeInfo.Spec
import Mathlib.Data.List.Nodup
import Mathlib.Data.List.Perm.Subperm

/-!
# Helper lemmas: invariants of every reachable state, and what a history of `fixes` calls leaves in the tables
-/

namespace Cgl.TreeInfo

/-- The number `fixes` writes for a target column. -/
def code (s : Info) (k : Nat) : Nat :=
  match s.backward[k]? with
  | some (some i) => i
  | _ => s.numberIntegers + k

theorem Cols.lt {P : Prob} {s : Info} (h : Cols P s) {i c : Nat} (hi : s.integerVariable[i]? = some c) :
    i < s.numberIntegers := by
  rw [h.ni]; exact (List.getElem?_eq_some_iff.mp hi).1

theorem filter_len_le {P : Prob} {s : Info} (h : Cols P s) : s.numberIntegers ≤ P.nCols := by
  by_contra hc
  have hinj : ∀ (i j c : Nat), s.integerVariable[i]? = some c → s.integerVariable[j]? = some c → i = j := by
    intro i j c h1 h2
    have e1 := (h.inv i c h1).2.2
    have e2 := (h.inv j c h2).2.2
    rw [e1] at e2; simpa using e2
  have hnd : s.integerVariable.Nodup := by
    rw [List.nodup_iff_injective_getElem]
    intro a b hab
    have hab' : s.integerVariable[a.1] = s.integerVariable[b.1] := hab
    have := hinj a.1 b.1 s.integerVariable[a.1] (by simp) (by rw [hab']; simp)
    exact Fin.ext this
  have hsub : s.integerVariable ⊆ List.range P.nCols := by
    intro c hc
    obtain ⟨i, hi⟩ := List.getElem?_of_mem hc
    exact List.mem_range.mpr (h.inv i c hi).1
  have := (hnd.subperm hsub).length_le
  rw [List.length_range, ← h.ni] at this
  omega

theorem code_lt {P : Prob} {s : Info} (h : Cols P s) (hn : P.nCols < 2 ^ 30) {k : Nat} (hk : k < P.nCols) :
    code s k < 2 ^ 31 := by
  have hni := filter_len_le h
  unfold code
  by_cases hc : colType P k = 1
  · obtain ⟨i, h1, h2⟩ := h.bin k hk hc
    rw [h1]; have := h.lt h2; simp only; omega
  · rw [h.nonbin k hk hc]; simp only; omega

/-- Decoding what `fixes` encodes. -/
theorem decode {P : Prob} {s : Info} (h : Cols P s) (hn : P.nCols < 2 ^ 30) {k : Nat} (hk : k < P.nCols) (one : Bool) :
    targetCol s (mk (code s k) one) = some k ∧ oneFixes (mk (code s k) one) = one := by
  have hcode := code_lt h hn hk
  refine ⟨?_, oneFixes_mk hcode one⟩
  unfold targetCol
  rw [sequence_mk hcode]
  unfold code
  by_cases hc : colType P k = 1
  · obtain ⟨i, h1, h2⟩ := h.bin k hk hc
    rw [h1]; simp only [h.lt h2, if_true, h2]
  · rw [h.nonbin k hk hc]; simp

/-- What one successful `fixes` call does. -/
theorem fixes_spec {P : Prob} {s s' : Info} (h : Cols P s) {v : Nat} {up : Bool} {t : Nat} {lo b : Bool}
    (hf : fixes s v up t lo = some (s', b)) :
    v < P.nCols ∧ Cols P s' ∧ code s' = code s ∧ s'.integerVariable = s.integerVariable ∧
    ((colType P v ≠ 1 ∧ s' = s) ∨
      (colType P v = 1 ∧ t < P.nCols ∧ ∃ i es, s.integerVariable[i]? = some v ∧ s.phase = .collecting es ∧
        ((b = true ∧ s'.phase = .collecting (es ++ [((if up then 2 * i + 1 else 2 * i), mk (code s t) (!lo))])) ∨
          (b = false ∧ s' = s)))) := by
  unfold fixes at hf
  split at hf
  · cases hf
  · rename_i hb
    have hv : v < P.nCols := by rw [← h.len]; exact (List.getElem?_eq_some_iff.mp hb).1
    simp only [Option.some.injEq, Prod.mk.injEq] at hf
    obtain ⟨rfl, rfl⟩ := hf
    have hc : colType P v ≠ 1 := by
      intro hc
      obtain ⟨i, h1, _⟩ := h.bin v hv hc
      rw [hb] at h1; simp at h1
    exact ⟨hv, h, rfl, rfl, Or.inl ⟨hc, rfl⟩⟩
  · rename_i iv hb
    have hv : v < P.nCols := by rw [← h.len]; exact (List.getElem?_eq_some_iff.mp hb).1
    have hc : colType P v = 1 := by
      by_contra hc
      rw [h.nonbin v hv hc] at hb; simp at hb
    have hiv : s.integerVariable[iv]? = some v := by
      obtain ⟨i, h1, h2⟩ := h.bin v hv hc
      rw [hb] at h1
      simp only [Option.some.injEq] at h1
      rw [h1]; exact h2
    split at hf
    · cases hf
    · rename_i bw hbt
      have ht : t < P.nCols := by rw [← h.len]; exact (List.getElem?_eq_some_iff.mp hbt).1
      have hcode : code s t = targetCode s.numberIntegers t bw := by
        unfold code; rw [hbt]; cases bw <;> rfl
      dsimp only at hf
      rw [← hcode] at hf
      split at hf
      · cases hf
      · rename_i es hph
        split at hf
        · simp only [Option.some.injEq, Prod.mk.injEq] at hf
          obtain ⟨rfl, rfl⟩ := hf
          exact ⟨hv, h, rfl, rfl, Or.inr ⟨hc, ht, iv, es, hiv, hph, Or.inr ⟨rfl, rfl⟩⟩⟩
        · simp only [Option.some.injEq, Prod.mk.injEq] at hf
          obtain ⟨rfl, rfl⟩ := hf
          exact ⟨hv, h.of_fields rfl rfl rfl rfl, rfl, rfl,
            Or.inr ⟨hc, ht, iv, es, hiv, hph, Or.inl ⟨rfl, rfl⟩⟩⟩

/-- Invariant of reachable states. -/
structure Inv (P : Prob) (s : Info) : Prop where
  cols : Cols P s
  tab : (∃ es, s.phase = .collecting es) ∨ ∃ segs, HasTable s segs

theorem Inv.convert {P : Prob} {s : Info} (h : Inv P s) : Inv P (convert s) ∧ ∃ segs, HasTable (convert s) segs := by
  have hf := convert_fields s
  have hc : Cols P (TreeInfo.convert s) := h.cols.of_fields hf.2.1 hf.1 hf.2.2.1 hf.2.2.2
  have ht : ∃ segs, HasTable (TreeInfo.convert s) segs := by
    rcases h.tab with ⟨es, he⟩ | ⟨segs, hs⟩
    · obtain ⟨segs, h1, _⟩ := convert_table s es he
      exact ⟨segs, h1⟩
    · exact ⟨segs, by rw [convert_of_table hs]; exact hs⟩
  exact ⟨⟨hc, Or.inr ht⟩, ht⟩

theorem packDown_fields (s : Info) : (packDown s).1.numberIntegers = s.numberIntegers ∧
    (packDown s).1.numberVariables = s.numberVariables ∧ (packDown s).1.integerVariable = s.integerVariable ∧
    (packDown s).1.backward = s.backward := by
  have hf := convert_fields s
  unfold packDown
  split <;> exact hf

theorem reachable_inv {P : Prob} {s : Info} (h : Reachable P s) : Inv P s := by
  induction h with
  | init => exact ⟨init_cols P, Or.inl ⟨[], rfl⟩⟩
  | fixes v up t lo _ hf ih =>
    obtain ⟨_, hc, _, _, hcase⟩ := fixes_spec ih.cols hf
    refine ⟨hc, ?_⟩
    rcases hcase with ⟨_, rfl⟩ | ⟨_, _, i, es, _, _, ⟨_, hp⟩ | ⟨_, rfl⟩⟩
    · exact ih.tab
    · exact Or.inl ⟨_, hp⟩
    · exact ih.tab
  | convert _ ih => exact ih.convert.1
  | packDown _ ih =>
    rename_i s _
    obtain ⟨segs, hs⟩ := ih.convert.2
    have hf := packDown_fields s
    exact ⟨ih.cols.of_fields hf.2.1 hf.1 hf.2.2.1 hf.2.2.2, Or.inr ⟨_, (packDown_table s hs).1⟩⟩

theorem run_reachable {P : Prob} {s s' : Info} {cs : List Call} (h : Reachable P s) (hr : run s cs = some s') :
    Reachable P s' := by
  induction cs generalizing s with
  | nil => simp only [run, Option.some.injEq] at hr; exact hr ▸ h
  | cons c cs ih =>
    unfold run at hr
    split at hr
    · rename_i s1 hf
      exact ih (Reachable.fixes _ _ _ _ h hf) hr
    · cases hr

/-- The pairs left by a history of successful calls. -/
theorem run_entries {P : Prob} {s s' : Info} {cs : List Call} {es : List (Nat × CliqueEntry)} (h : Cols P s)
    (hp : s.phase = .collecting es) (hr : run s cs = some s') :
    Cols P s' ∧ code s' = code s ∧ s'.integerVariable = s.integerVariable ∧
    ∃ es', s'.phase = .collecting es' ∧
      ∀ q, q ∈ es' ↔ q ∈ es ∨ ∃ c ∈ cs, ∃ i, s.integerVariable[i]? = some c.var ∧ c.target < P.nCols ∧
        q = ((if c.up then 2 * i + 1 else 2 * i), mk (code s c.target) (!c.toLower)) := by
  induction cs generalizing s es with
  | nil =>
    simp only [run, Option.some.injEq] at hr
    subst hr
    exact ⟨h, rfl, rfl, es, hp, by simp⟩
  | cons c cs ih =>
    unfold run at hr
    split at hr
    · rename_i s1 hf
      obtain ⟨hv, hc1, hcode, hiv, hcase⟩ := fixes_spec h hf
      rcases hcase with ⟨hct, rfl⟩ | ⟨hct, htl, i, es0, hi, hp0, ⟨_, hp1⟩ | ⟨hb, _⟩⟩
      · obtain ⟨a, b, d, es', he, hm⟩ := ih h hp hr
        refine ⟨a, b, d, es', he, ?_⟩
        intro q
        rw [hm]
        refine or_congr Iff.rfl ?_
        constructor
        · rintro ⟨c', hc', r⟩; exact ⟨c', List.mem_cons_of_mem _ hc', r⟩
        · rintro ⟨c', hc', i, r1, r2⟩
          rcases List.mem_cons.mp hc' with rfl | hc'
          · exact absurd (h.inv _ _ r1).2.1 hct
          · exact ⟨c', hc', i, r1, r2⟩
      · rw [hp] at hp0
        simp only [Phase.collecting.injEq] at hp0
        subst hp0
        obtain ⟨a, b, d, es', he, hm⟩ := ih hc1 hp1 hr
        refine ⟨a, by rw [b, hcode], by rw [d, hiv], es', he, ?_⟩
        intro q
        rw [hm, List.mem_append, List.mem_singleton, hiv, hcode, or_assoc]
        refine or_congr Iff.rfl ?_
        constructor
        · rintro (rfl | ⟨c', hc', r⟩)
          · exact ⟨c, List.mem_cons_self .., i, hi, htl, rfl⟩
          · exact ⟨c', List.mem_cons_of_mem _ hc', r⟩
        · rintro ⟨c', hc', i', r1, r2, r3⟩
          rcases List.mem_cons.mp hc' with rfl | hc'
          · left
            have e1 := (h.inv _ _ r1).2.2
            have e2 := (h.inv _ _ hi).2.2
            rw [e1] at e2
            simp only [Option.some.injEq] at e2
            rw [r3, e2]
          · exact Or.inr ⟨c', hc', i', r1, r2, r3⟩
      · simp at hb
    · cases hr

/-- Contents of the ordered table after a history. -/
theorem exposed_run {P : Prob} {s : Info} {cs : List Call} (hr : run (initializeFixing P) cs = some s) (i : Nat)
    (j : Nat) (hi : s.integerVariable[i]? = some j) (up : Bool) :
    ∃ seg, implied (convert s) i up = some (cleanSegment s.numberVariables seg) ∧
      ∀ e, e ∈ seg ↔ ∃ c ∈ cs, c.var = j ∧ c.up = up ∧ c.target < P.nCols ∧ e = mk (code s c.target) (!c.toLower) := by
  obtain ⟨hc, hcode, hiv, es, hes, hmem⟩ := run_entries (init_cols P) (es := []) rfl hr
  obtain ⟨segs, htab, hseg⟩ := convert_table s es hes
  obtain ⟨s0, s1, g1, g2, g3⟩ := hseg i (hc.lt hi)
  obtain ⟨r0, r1⟩ := implied_of_table htab i _ g1
  have hinj : ∀ (i' c : Nat), (initializeFixing P).integerVariable[i']? = some c → (i' = i ↔ c = j) := by
    intro i' c h'
    rw [← hiv] at h'
    constructor
    · rintro rfl; rw [hi] at h'; simpa using h'.symm
    · rintro rfl
      have e1 := (hc.inv _ _ h').2.2
      have e2 := (hc.inv _ _ hi).2.2
      rw [e1] at e2; simpa using e2
  rw [← hcode] at hmem
  cases up with
  | false =>
    refine ⟨s0, r0, ?_⟩
    intro e
    rw [g2, hmem]
    simp only [List.not_mem_nil, false_or, Prod.mk.injEq]
    constructor
    · rintro ⟨c, h1, i', h2, h3, h4, h5⟩
      have : c.up = false ∧ i' = i := by
        cases hu : c.up <;> simp only [hu, if_true, if_false, Bool.false_eq_true] at h4 <;> constructor <;> first | rfl | omega
      exact ⟨c, h1, (hinj _ _ h2).mp this.2, this.1, h3, h5⟩
    · rintro ⟨c, h1, h2, h3, h4, h5⟩
      rw [hiv] at hi
      exact ⟨c, h1, i, by rw [h2]; exact hi, h4, by simp [h3], h5⟩
  | true =>
    refine ⟨s1, r1, ?_⟩
    intro e
    rw [g3, hmem]
    simp only [List.not_mem_nil, false_or, Prod.mk.injEq]
    constructor
    · rintro ⟨c, h1, i', h2, h3, h4, h5⟩
      have : c.up = true ∧ i' = i := by
        cases hu : c.up <;> simp only [hu, if_true, if_false, Bool.false_eq_true] at h4 <;> constructor <;> first | rfl | omega
      exact ⟨c, h1, (hinj _ _ h2).mp this.2, this.1, h3, h5⟩
    · rintro ⟨c, h1, h2, h3, h4, h5⟩
      rw [hiv] at hi
      exact ⟨c, h1, i, by rw [h2]; exact hi, h4, by simp [h3], h5⟩

end Cgl.TreeInfo
