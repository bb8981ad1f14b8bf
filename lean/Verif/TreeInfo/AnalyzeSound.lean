import Verif.TreeInfo.Analyze
import Verif.TreeInfo.Props
import Mathlib.Algebra.Order.BigOperators.Group.List

/-!
# Cliques found by `analyze` are satisfied
-/

namespace Cgl.TreeInfo

/-- Value of an entry at a point: the column, or one minus the column. -/
def litVal (s : Info) (x : Nat → ℚ) (e : Nat × Bool) : ℚ :=
  if e.2 then x (s.integerVariable[e.1]?.getD 0) else 1 - x (s.integerVariable[e.1]?.getD 0)

/-- At most one entry of the clique is one at the point, exactly one if the type is 'E'. -/
def Clique.Holds (s : Info) (x : Nat → ℚ) (c : Clique) : Prop :=
  (c.lits.map (litVal s x)).sum ≤ 1 ∧ (c.eq = true → (c.lits.map (litVal s x)).sum = 1)

instance (s : Info) (x : Nat → ℚ) (c : Clique) : Decidable (c.Holds s x) := by unfold Clique.Holds; infer_instance

/-- The clique is about 0-1 columns. -/
def Clique.Range (N : Nat) (c : Clique) : Prop := ∀ e ∈ c.lits, e.1 < N

theorem sorted_perm (c : Clique) : c.sorted.lits.Perm c.lits := List.perm_insertionSort _ _

theorem sorted_holds {s : Info} {x : Nat → ℚ} {c : Clique} : c.sorted.Holds s x ↔ c.Holds s x := by
  have : (c.sorted.lits.map (litVal s x)).sum = (c.lits.map (litVal s x)).sum := ((sorted_perm c).map _).sum_eq
  unfold Clique.Holds
  rw [this]
  rfl

theorem keepLoop_sub (allow : Nat) (cs : List Clique) (k : Nat) : ∀ c ∈ keepLoop allow cs k, c ∈ cs := by
  induction cs generalizing k with
  | nil => intro c h; exact h
  | cons a cs ih =>
    intro c h
    unfold keepLoop at h
    split at h
    · rcases List.mem_cons.mp h with h | h
      · exact h ▸ List.mem_cons_self
      · exact List.mem_cons_of_mem _ (ih _ _ h)
    · split at h
      · rcases List.mem_cons.mp h with h | h
        · exact h ▸ List.mem_cons_self
        · exact List.mem_cons_of_mem _ (ih _ _ h)
      · exact List.mem_cons_of_mem _ (ih _ _ h)

theorem keepLong_sub (nM : Nat) (cs : List Clique) : ∀ c ∈ keepLong nM cs, c ∈ cs := by
  intro c h
  unfold keepLong at h
  split at h
  · rcases List.mem_append.mp h with h | h
    · exact List.mem_of_mem_take h
    · exact List.mem_of_mem_drop (keepLoop_sub _ _ _ c h)
  · exact h

/-- The clean-up makes up nothing: what it returns are sorted copies of what it is given. -/
theorem outDupsEtc_sub {N : Nat} {cs : List Clique} {nM : Nat} {t : ℤ} {r : Cleaned}
    (h : outDupsEtc N cs nM t = some r) : ∀ c ∈ r.cliques, ∃ c0 ∈ cs, c = c0.sorted := by
  have key : ∀ c ∈ (keepLong nM cs).map Clique.sorted, ∃ c0 ∈ cs, c = c0.sorted := by
    intro c hc
    obtain ⟨c0, h0, rfl⟩ := List.mem_map.mp hc
    exact ⟨c0, keepLong_sub _ _ _ h0, rfl⟩
  unfold outDupsEtc at h
  dsimp only at h
  split at h
  · cases h
  split at h
  · cases h
  split at h
  · cases h
  split at h
  · cases h; exact key
  · cases h
    intro c hc
    obtain ⟨k, hk, hc⟩ := List.mem_filterMap.mp hc
    exact key c (List.mem_of_getElem? hc)

theorem bit_eq {v : ℚ} (h : v = 0 ∨ v = 1) (b : Bool) : v = bit b ∨ v = bit (!b) := by
  rcases h with h | h <;> cases b <;> simp [bit, h]

theorem litVal_bin {s : Info} {x : Nat → ℚ} (hb : Binary s x) {e : Nat × Bool} (he : e.1 < s.integerVariable.length) :
    litVal s x e = 0 ∨ litVal s x e = 1 := by
  unfold litVal
  rw [List.getElem?_eq_getElem he, Option.getD_some]
  rcases hb _ (List.getElem_mem he) with h | h <;> rw [h] <;> split <;> simp

theorem litVal_sum_nonneg {s : Info} {x : Nat → ℚ} (hb : Binary s x) (l : List (Nat × Bool))
    (hl : ∀ e ∈ l, e.1 < s.integerVariable.length) : 0 ≤ (l.map (litVal s x)).sum := by
  apply List.sum_nonneg
  intro a ha
  obtain ⟨e, he, rfl⟩ := List.mem_map.mp ha
  rcases litVal_bin hb (hl e he) with h | h <;> rw [h] <;> norm_num

/-- Two entries at different places of a clique that holds are not both one. -/
theorem pair_conflict {s : Info} {x : Nat → ℚ} (hb : Binary s x) (l : List (Nat × Bool))
    (hl : ∀ e ∈ l, e.1 < s.integerVariable.length) (hs : (l.map (litVal s x)).sum ≤ 1) {e e' : Nat × Bool}
    (h1 : e ∈ l) (h2 : e' ∈ l) (hne : e ≠ e') (hv : litVal s x e = 1) : litVal s x e' = 0 := by
  have hp := List.perm_cons_erase h1
  have h2' : e' ∈ l.erase e := by
    rcases List.mem_cons.mp (hp.mem_iff.mp h2) with h | h
    · exact absurd h.symm hne
    · exact h
  have hp2 := List.perm_cons_erase h2'
  have e1 := (hp.map (litVal s x)).sum_eq
  have e2 := (hp2.map (litVal s x)).sum_eq
  rw [List.map_cons, List.sum_cons] at e1 e2
  have hn := litVal_sum_nonneg hb ((l.erase e).erase e') fun a ha =>
    hl a (List.mem_of_mem_erase (List.mem_of_mem_erase ha))
  rcases litVal_bin hb (hl e' h2) with h | h
  · exact h
  · linarith

/-! ### Strengthening -/

theorem mem_occurs {cs : List Clique} {e : Nat × Bool} {k : Nat} (h : k ∈ occurs cs e) :
    ∃ c, cs[k]? = some c ∧ e ∈ c.lits := by
  unfold occurs at h
  obtain ⟨i, hi, h⟩ := List.mem_flatMap.mp h
  obtain ⟨q, hq, rfl⟩ := List.mem_map.mp h
  obtain ⟨h1, h2⟩ := List.mem_filter.mp hq
  have h2 : q = e := by simpa using h2
  have hlt : i < cs.length := List.mem_range.mp hi
  refine ⟨cs[i], List.getElem?_eq_getElem hlt, ?_⟩
  rw [List.getElem?_eq_getElem hlt, Option.getD_some] at h1
  exact h2 ▸ h1

theorem count_occurs (cs : List Clique) (e : Nat × Bool) (k : Nat) :
    (occurs cs e).count k = (cs[k]?.getD (⟨[], false⟩ : Clique)).lits.count e := by
  unfold occurs
  rw [List.count_flatMap]
  have hone : ∀ i : Nat, ((cs[i]?.getD (⟨[], false⟩ : Clique)).lits.filter (fun q => decide (q = e))).length =
      (cs[i]?.getD (⟨[], false⟩ : Clique)).lits.count e := by
    intro i
    rw [List.count_eq_length_filter]
    congr 1
    apply List.filter_congr
    intro q _
    simp only [beq_eq_decide]
  have hcnt : ∀ i : Nat, List.count k (((cs[i]?.getD (⟨[], false⟩ : Clique)).lits.filter fun q => decide (q = e)).map fun _ => i) =
      if i = k then (cs[k]?.getD (⟨[], false⟩ : Clique)).lits.count e else 0 := by
    intro i
    rw [List.map_const', List.count_replicate, hone]
    by_cases h : i = k <;> simp [h]
  have : (List.map (List.count k ∘ fun k => ((cs[k]?.getD (⟨[], false⟩ : Clique)).lits.filter fun q => decide (q = e)).map fun _ => k)
      (List.range cs.length)) = (List.range cs.length).map fun i => if i = k then (cs[k]?.getD (⟨[], false⟩ : Clique)).lits.count e else 0 := by
    apply List.map_congr_left
    intro i _
    exact hcnt i
  rw [this]
  by_cases hk : k < cs.length
  · have h1 : ∀ (l : List Nat), l.Nodup → ∀ (v : Nat), (l.map fun i => if i = k then v else 0).sum = if k ∈ l then v else 0 := by
      intro l hl v
      induction l with
      | nil => simp
      | cons a l ih =>
        have hl' := List.nodup_cons.mp hl
        rw [List.map_cons, List.sum_cons, ih hl'.2]
        by_cases ha : a = k
        · subst ha
          simp [hl'.1]
        · have : (k ∈ a :: l) ↔ k ∈ l := by
            rw [List.mem_cons]
            constructor
            · rintro (h | h)
              · exact absurd h.symm ha
              · exact h
            · exact Or.inr
          simp only [if_neg ha, Nat.zero_add, this]
    rw [h1 _ List.nodup_range, if_pos (List.mem_range.mpr hk)]
  · rw [List.getElem?_eq_none (by omega)]
    apply List.sum_eq_zero
    intro a ha
    obtain ⟨i, hi, rfl⟩ := List.mem_map.mp ha
    simp

/-- What is marked: entries of later columns in a common clique, each once. -/
structure MarkInv (src : List (Nat × Bool)) (i : Nat) (m : List (Nat × Bool)) : Prop where
  sub : ∀ e ∈ m, e ∈ src ∧ i < e.1
  nodup : (m.map Prod.fst).Nodup

theorem mark_fold {src : List (Nat × Bool)} {i : Nat} (l m : List (Nat × Bool)) (hl : ∀ e ∈ l, e ∈ src)
    (h : MarkInv src i m) :
    MarkInv src i (l.foldl (fun m e => if i < e.1 ∧ e.1 ∉ m.map Prod.fst then m ++ [e] else m) m) := by
  induction l generalizing m with
  | nil => exact h
  | cons a l ih =>
    rw [List.foldl_cons]
    apply ih _ fun e he => hl e (List.mem_cons_of_mem _ he)
    split
    · rename_i hc
      refine ⟨?_, ?_⟩
      · intro e he
        rcases List.mem_append.mp he with he | he
        · exact h.sub e he
        · rw [List.mem_singleton] at he
          subst he
          exact ⟨hl _ List.mem_cons_self, hc.1⟩
      · rw [List.map_append, List.nodup_append]
        refine ⟨h.nodup, List.nodup_singleton _, ?_⟩
        intro p hp q hq
        rw [List.map_singleton, List.mem_singleton] at hq
        rintro rfl
        exact hc.2 (hq ▸ hp)
    · exact h

theorem marked_spec (cs : List Clique) (i : Nat) (b : Bool) :
    (marked cs i b).Nodup ∧ ∀ e ∈ marked cs i b, i < e.1 ∧ ∃ c ∈ cs, (i, b) ∈ c.lits ∧ e ∈ c.lits := by
  have h : MarkInv ((occurs cs (i, b)).flatMap fun k => (cs[k]?.getD (⟨[], false⟩ : Clique)).lits) i (marked cs i b) := by
    unfold marked
    apply mark_fold
    · exact fun e he => he
    · exact ⟨fun e he => (by cases he), List.nodup_nil⟩
  refine ⟨List.Nodup.of_map _ h.nodup, ?_⟩
  intro e he
  obtain ⟨h1, h2⟩ := h.sub e he
  refine ⟨h2, ?_⟩
  obtain ⟨k, hk, he⟩ := List.mem_flatMap.mp h1
  obtain ⟨c, hc, hi⟩ := mem_occurs hk
  rw [hc, Option.getD_some] at he
  exact ⟨c, List.mem_of_getElem? hc, hi, he⟩

theorem count_sum_le {m l : List (Nat × Bool)} (hm : m.Nodup) (h : (m.map fun e => l.count e).sum = l.length) :
    ∀ e ∈ l, e ∈ m := by
  induction m generalizing l with
  | nil =>
    have : l = [] := List.eq_nil_of_length_eq_zero (by simpa using h.symm)
    subst this
    intro e he; cases he
  | cons a m ih =>
    have hm' := List.nodup_cons.mp hm
    rw [List.map_cons, List.sum_cons] at h
    have hsplit : l.length = l.count a + (l.filter fun e => ! decide (e = a)).length := by
      have h1 := List.length_eq_length_filter_add (l := l) (fun e => decide (e = a))
      have h2 : l.count a = (l.filter fun e => decide (e = a)).length := by
        rw [List.count_eq_length_filter]
        congr 1
        apply List.filter_congr
        intro q _
        simp only [beq_eq_decide]
      rw [h1, h2]
    have hsame : (m.map fun e => (l.filter fun e => ! decide (e = a)).count e) = m.map fun e => l.count e := by
      apply List.map_congr_left
      intro e he
      have hne : e ≠ a := fun h => hm'.1 (h ▸ he)
      exact List.count_filter (by simpa using hne)
    have := ih (l := l.filter fun e => ! decide (e = a)) hm'.2 (by rw [hsame]; omega)
    intro e he
    by_cases hea : e = a
    · exact hea ▸ List.mem_cons_self
    · exact List.mem_cons_of_mem _ (this e (List.mem_filter.mpr ⟨he, by simpa using hea⟩))

theorem extend_holds {s : Info} {x : Nat → ℚ} (hb : Binary s x) (hN : s.numberIntegers = s.integerVariable.length)
    {cs : List Clique} (hr : ∀ c ∈ cs, c.Range s.numberIntegers) (hh : ∀ c ∈ cs, c.Holds s x) {i : Nat} {b : Bool}
    (hi : i < s.numberIntegers) : ∀ c ∈ extend cs i b, c.Range s.numberIntegers ∧ c.Holds s x := by
  intro c hc
  unfold extend at hc
  dsimp only at hc
  obtain ⟨k, hk, rfl⟩ := List.mem_map.mp hc
  obtain ⟨hk1, hk2⟩ := List.mem_filter.mp hk
  have hk2 := of_decide_eq_true hk2
  clear hk hc
  -- the clique that is extended
  have hmem : k ∈ (marked cs i b).flatMap (occurs cs) := by
    have : ∀ (l acc : List Nat), k ∈ l.foldl (fun l k => if k ∈ l then l else l ++ [k]) acc → k ∈ acc ∨ k ∈ l := by
      intro l
      induction l with
      | nil => intro acc h; exact Or.inl h
      | cons a l ih =>
        intro acc h
        rw [List.foldl_cons] at h
        rcases ih _ h with h | h
        · split at h
          · exact Or.inl h
          · rcases List.mem_append.mp h with h | h
            · exact Or.inl h
            · exact Or.inr (List.mem_singleton.mp h ▸ List.mem_cons_self)
        · exact Or.inr (List.mem_cons_of_mem _ h)
    rcases this _ _ hk1 with h | h
    · cases h
    · exact h
  obtain ⟨e0, _, ho⟩ := List.mem_flatMap.mp hmem
  obtain ⟨c, hc, _⟩ := mem_occurs ho
  have hcm := List.mem_of_getElem? hc
  rw [hc, Option.getD_some] at hk2 ⊢
  obtain ⟨hnd, hms⟩ := marked_spec cs i b
  have hall : ∀ e ∈ c.lits, e ∈ marked cs i b := by
    apply count_sum_le hnd
    rw [← hk2, List.count_flatMap]
    congr 1
    apply List.map_congr_left
    intro e _
    rw [Function.comp_apply, count_occurs, hc, Option.getD_some]
  have hrange : ∀ e ∈ (i, b) :: c.lits, e.1 < s.numberIntegers := by
    intro e he
    rcases List.mem_cons.mp he with he | he
    · subst he; exact hi
    · exact hr c hcm e he
  refine ⟨fun e he => hrange e ((sorted_perm _).mem_iff.mp he), ?_⟩
  rw [sorted_holds]
  refine ⟨?_, fun h => (by cases h)⟩
  rw [List.map_cons, List.sum_cons]
  rcases litVal_bin hb (e := (i, b)) (by rw [← hN]; exact hi) with h0 | h1
  · have := (hh c hcm).1
    linarith
  · have hz : (c.lits.map (litVal s x)).sum = 0 := by
      apply List.sum_eq_zero
      intro v hv
      obtain ⟨e, he, rfl⟩ := List.mem_map.mp hv
      obtain ⟨hlt, d, hd, hd1, hd2⟩ := hms e (hall e he)
      exact pair_conflict hb d.lits (fun q hq => by rw [← hN]; exact hr d hd q hq) (hh d hd).1 hd1 hd2
        (fun h => by rw [← h] at hlt; exact absurd hlt (lt_irrefl _)) h1
    rw [hz, h1, add_zero]

/-- Everything holds. -/
def AllHold (s : Info) (x : Nat → ℚ) (cs : List Clique) : Prop :=
  ∀ c ∈ cs, c.Range s.numberIntegers ∧ c.Holds s x

theorem AllHold.out {s : Info} {x : Nat → ℚ} {cs : List Clique} (h : AllHold s x cs) {nM : Nat} {t : ℤ} {r : Cleaned}
    (hr : outDupsEtc s.numberIntegers cs nM t = some r) : AllHold s x r.cliques := by
  intro c hc
  obtain ⟨c0, h0, rfl⟩ := outDupsEtc_sub hr c hc
  exact ⟨fun e he => (h c0 h0).1 e ((sorted_perm _).mem_iff.mp he), sorted_holds.mpr (h c0 h0).2⟩

theorem passes_hold {s : Info} {x : Nat → ℚ} (hb : Binary s x) (hN : s.numberIntegers = s.integerVariable.length)
    (f iPass : Nat) {cs : List Clique} (h : AllHold s x cs) (nM : Nat) {cs' : List Clique} {nM' : Nat}
    (hp : passes s.numberIntegers f iPass cs nM = some (cs', nM')) : AllHold s x cs' := by
  induction f generalizing iPass cs nM with
  | zero =>
    unfold passes at hp
    simp only [Option.some.injEq, Prod.mk.injEq] at hp
    exact hp.1 ▸ h
  | succ f ih =>
    unfold passes at hp
    dsimp only at hp
    split at hp
    · simp only [Option.some.injEq, Prod.mk.injEq] at hp
      exact hp.1 ▸ h
    · split at hp
      · cases hp
      · rename_i r hr
        have hr' : AllHold s x r.cliques := by
          apply AllHold.out _ hr
          intro c hc
          rcases List.mem_append.mp hc with hc | hc
          · exact h c hc
          · unfold strengthen at hc
            obtain ⟨i, hi, hc⟩ := List.mem_flatMap.mp hc
            have hi := List.mem_range.mp hi
            rcases List.mem_append.mp hc with hc | hc <;>
            exact extend_holds hb hN (fun c hc => (h c hc).1) (fun c hc => (h c hc).2) hi c hc
        split at hp
        · simp only [Option.some.injEq, Prod.mk.injEq] at hp
          exact hp.1 ▸ hr'
        · exact ih _ hr' _ hp

/-! ### Cliques from the table -/

/-- The listed implications between 0-1 columns are true. -/
def PairsHold (s : Info) (x : Nat → ℚ) : Prop :=
  ∀ i < s.numberIntegers, ∀ up, ∀ q ∈ impliedPairs s i up, q.1 < s.numberIntegers →
    x (s.integerVariable[i]?.getD 0) = bit up → x (s.integerVariable[q.1]?.getD 0) = bit q.2

theorem twoFrom_hold {s : Info} {x : Nat → ℚ} (hb : Binary s x) (hN : s.numberIntegers = s.integerVariable.length)
    (hp : PairsHold s x) {i : Nat} (hi : i < s.numberIntegers) {up : Bool} {e : Nat × Bool}
    (he : e ∈ impliedPairs s i up) : ∀ c ∈ twoFrom s i up e, c.Range s.numberIntegers ∧ c.Holds s x := by
  intro c hc
  unfold twoFrom at hc
  split at hc
  · rename_i hlt
    have h1 := hp i hi up e he (by omega)
    have hbi : x (s.integerVariable[i]?.getD 0) = 0 ∨ x (s.integerVariable[i]?.getD 0) = 1 := by
      rw [List.getElem?_eq_getElem (by omega), Option.getD_some]
      exact hb _ (List.getElem_mem _)
    have hbe : x (s.integerVariable[e.1]?.getD 0) = 0 ∨ x (s.integerVariable[e.1]?.getD 0) = 1 := by
      rw [List.getElem?_eq_getElem (by omega), Option.getD_some]
      exact hb _ (List.getElem_mem _)
    rcases List.mem_append.mp hc with hc | hc
    all_goals
      obtain ⟨q, hq, rfl⟩ := List.mem_map.mp hc
      have hq2 := of_decide_eq_true (List.mem_filter.mp hq).2
      refine ⟨fun a ha => ?_, ?_, fun h => (by cases h)⟩
      · simp only [List.mem_cons, List.not_mem_nil, or_false] at ha
        rcases ha with rfl | rfl
        · exact hi
        · show e.1 < s.numberIntegers
          omega
      · simp only [List.map_cons, List.map_nil, List.sum_cons, List.sum_nil, litVal, hq2.2.1, bit] at h1 ⊢
        cases up <;> rcases hbi with h | h <;> rcases hbe with h' | h' <;> simp_all
  · cases hc

theorem twoCliques_hold {s : Info} {x : Nat → ℚ} (hb : Binary s x) (hN : s.numberIntegers = s.integerVariable.length)
    (hp : PairsHold s x) : AllHold s x (twoCliques s) := by
  intro c hc
  unfold twoCliques at hc
  obtain ⟨i, hi, hc⟩ := List.mem_flatMap.mp hc
  have hi := List.mem_range.mp hi
  rcases List.mem_append.mp hc with hc | hc
  all_goals
    obtain ⟨e, he, hc⟩ := List.mem_flatMap.mp hc
    exact twoFrom_hold hb hN hp hi he c hc

end Cgl.TreeInfo
