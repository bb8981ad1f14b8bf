import Verif.TreeInfo.History

/-!
# Helper lemmas: `fixColumns` and `generateCuts` keep every point that respects the table
-/

namespace Cgl.TreeInfo

/-- `x` satisfies entry `e` outright. -/
def EntryTrue (s : Info) (x : Nat → ℚ) (e : CliqueEntry) : Prop :=
  ∀ k, s.integerVariable[sequence e]? = some k → x k = bit (oneFixes e)

theorem entryTrue_of_respects {s : Info} {x : Nat → ℚ} (hni : s.numberIntegers = s.integerVariable.length)
    (h : Respects s x) {i j : Nat} {up : Bool}
    (hi : s.integerVariable[i]? = some j) {es} (hes : implied s i up = some es) (hx : x j = bit up) :
    ∀ e ∈ es, EntryTrue s x e := by
  intro e he k hk
  refine h j up k (oneFixes e) ⟨i, es, e, hi, hes, he, ?_, rfl⟩ hx
  unfold targetCol
  have : sequence e < s.numberIntegers := by
    rw [hni]; exact (List.getElem?_eq_some_iff.mp hk).1
  rw [if_pos this, hk]

/-- Invariant of the fixing loops. -/
structure FixInv (s : Info) (x : Nat → ℚ) (st : FixState) : Prop where
  within : Within st.lower st.upper x
  feas : st.feasible = true
  count : 0 ≤ st.nFix
  lo : ∀ k ∈ s.integerVariable, 0 ≤ st.lower k
  hi : ∀ k ∈ s.integerVariable, st.upper k ≤ 1

theorem fixEntry_inv {s : Info} {x : Nat → ℚ} {st st' : FixState} (h : FixInv s x st)
    {e : CliqueEntry} (he : EntryTrue s x e) (hf : fixEntry s st e = some st') : FixInv s x st' := by
  unfold fixEntry at hf
  split at hf
  · cases hf
  · rename_i k hk
    have hkm : k ∈ s.integerVariable := List.mem_of_getElem? hk
    have hxk := he k hk
    have hw := h.within k
    split at hf
    · rename_i hone
      rw [hone] at hxk
      simp only [bit, if_true] at hxk
      split at hf
      · split at hf
        · simp only [Option.some.injEq] at hf
          subst hf
          refine ⟨?_, h.feas, by have := h.count; simp only; omega, ?_, h.hi⟩
          · intro j
            simp only [upd]
            split
            · rename_i hj; subst hj; exact ⟨by rw [hxk], (h.within j).2⟩
            · exact h.within j
          · intro j hj
            simp only [upd]
            split
            · norm_num
            · exact h.lo j hj
        · rename_i hne
          exact absurd (le_antisymm (h.hi k hkm) (by rw [← hxk]; exact hw.2)) hne
      · simp only [Option.some.injEq] at hf; subst hf; exact h
    · rename_i hone
      simp only [Bool.not_eq_true] at hone
      rw [hone] at hxk
      simp only [bit, Bool.false_eq_true, if_false] at hxk
      split at hf
      · split at hf
        · simp only [Option.some.injEq] at hf
          subst hf
          refine ⟨?_, h.feas, by have := h.count; simp only; omega, h.lo, ?_⟩
          · intro j
            simp only [upd]
            split
            · rename_i hj; subst hj; exact ⟨(h.within j).1, by rw [hxk]⟩
            · exact h.within j
          · intro j hj
            simp only [upd]
            split
            · norm_num
            · exact h.hi j hj
        · rename_i hne
          exact absurd (le_antisymm (by rw [← hxk]; exact hw.1) (h.lo k hkm)) hne
      · simp only [Option.some.injEq] at hf; subst hf; exact h

theorem fixEntries_inv {s : Info} {x : Nat → ℚ} {es : List CliqueEntry} {st st' : FixState} (h : FixInv s x st)
    (he : ∀ e ∈ es, EntryTrue s x e) (hf : fixEntries s es st = some st') : FixInv s x st' := by
  induction es generalizing st with
  | nil => simp only [fixEntries, Option.some.injEq] at hf; exact hf ▸ h
  | cons e es ih =>
    unfold fixEntries at hf
    split at hf
    · cases hf
    · rename_i st1 h1
      exact ih (fixEntry_inv h (he e (List.mem_cons_self ..)) h1)
        (fun e' h' => he e' (List.mem_cons_of_mem _ h')) hf

theorem fixLoop_inv {s : Info} {x : Nat → ℚ} (hni : s.numberIntegers = s.integerVariable.length)
    (hr : Respects s x) (hb : Binary s x) (fuel i : Nat) {st st' : FixState} (h : FixInv s x st)
    (hf : fixLoop s fuel i st = some st') : FixInv s x st' := by
  induction fuel generalizing i st with
  | zero => simp only [fixLoop, Option.some.injEq] at hf; exact hf ▸ h
  | succ n ih =>
    unfold fixLoop at hf
    split at hf
    · cases hf
    · rename_i c hc
      have hcm : c ∈ s.integerVariable := List.mem_of_getElem? hc
      have hw := h.within c
      have hbc := hb c hcm
      split at hf
      · rename_i hu
        have hx : x c = bit false := by
          simp only [bit, Bool.false_eq_true, if_false]
          rcases hbc with h0 | h1
          · exact h0
          · rw [hu, h1] at hw; exact absurd hw.2 (by norm_num)
        split at hf
        · cases hf
        · rename_i es hes
          split at hf
          · cases hf
          · rename_i st1 h1
            exact ih _ (fixEntries_inv h (entryTrue_of_respects hni hr hc hes hx) h1) hf
      · split at hf
        · rename_i hl
          have hx : x c = bit true := by
            simp only [bit, if_true]
            rcases hbc with h0 | h1
            · rw [hl, h0] at hw; exact absurd hw.1 (by norm_num)
            · exact h1
          split at hf
          · cases hf
          · rename_i es hes
            split at hf
            · cases hf
            · rename_i st1 h1
              exact ih _ (fixEntries_inv h (entryTrue_of_respects hni hr hc hes hx) h1) hf
        · exact ih _ h hf

/-! ### `generateCuts` -/

theorem pair_dot (i k : Nat) (a b : ℚ) (x : Nat → ℚ) : SVec.dot [(i, a), (k, b)] x = a * x i + b * x k := by
  simp [SVec.dot]

theorem rowCut_ge {lb : ℚ} {row : SVec} {x : Nat → ℚ} (h : lb ≤ row.dot x) : (⟨lb, dblMax, row⟩ : RowCut).Sat x :=
  ⟨fun _ => h, fun h' => absurd h' (lt_irrefl _)⟩

theorem rowCut_le {ub : ℚ} {row : SVec} {x : Nat → ℚ} (h : row.dot x ≤ ub) : (⟨-dblMax, ub, row⟩ : RowCut).Sat x :=
  ⟨fun h' => absurd h' (lt_irrefl _), fun _ => h⟩

/-- All cuts hold at `x` except perhaps those that were there before. -/
def CutsOk (rcs : List RowCut) (x : Nat → ℚ) (cs : List RowCut) : Prop := ∀ c ∈ cs, c ∈ rcs ∨ c.Sat x

theorem CutsOk.insert {rcs cs : List RowCut} {x : Nat → ℚ} (h : CutsOk rcs x cs) {c : RowCut} (hc : c.Sat x) :
    CutsOk rcs x (insertIfNotDuplicate cs c) := by
  intro d hd
  unfold insertIfNotDuplicate at hd
  split at hd
  · exact h d hd
  · rcases List.mem_append.mp hd with hd | hd
    · exact h d hd
    · rw [List.mem_singleton.mp hd]; exact Or.inr hc

/-- Entry condition when the column's value is not known. -/
def EntryIf (s : Info) (x : Nat → ℚ) (j : Nat) (up : Bool) (e : CliqueEntry) : Prop :=
  x j = bit up → EntryTrue s x e

theorem cutZero_ok {s : Info} {lower upper sol x : Nat → ℚ} {j : Nat} {rcs cs cs' : List RowCut} {e : CliqueEntry}
    (hb : Binary s x) (hj : x j = 0 ∨ x j = 1) (he : EntryIf s x j false e) (h : CutsOk rcs x cs)
    (hf : cutZero s lower upper sol j cs e = some cs') : CutsOk rcs x cs' := by
  unfold cutZero at hf
  split at hf
  · cases hf
  · rename_i k hk
    have hkb := hb k (List.mem_of_getElem? hk)
    have hek : x j = 0 → x k = bit (oneFixes e) := fun h0 => he (by simpa [bit] using h0) k hk
    split at hf
    · split at hf
      · rename_i hone
        rw [hone] at hek; simp only [bit, if_true] at hek
        split at hf <;> simp only [Option.some.injEq] at hf <;> subst hf
        · refine h.insert (rowCut_ge ?_)
          rw [pair_dot]
          rcases hj with h0 | h1
          · rw [h0, hek h0]; norm_num
          · rcases hkb with h0 | h0 <;> rw [h1, h0] <;> norm_num
        · exact h
      · rename_i hone
        simp only [Bool.not_eq_true] at hone
        rw [hone] at hek; simp only [bit, Bool.false_eq_true, if_false] at hek
        split at hf <;> simp only [Option.some.injEq] at hf <;> subst hf
        · refine h.insert (rowCut_ge ?_)
          rw [pair_dot]
          rcases hj with h0 | h1
          · rw [h0, hek h0]; norm_num
          · rcases hkb with h0 | h0 <;> rw [h1, h0] <;> norm_num
        · exact h
    · simp only [Option.some.injEq] at hf; subst hf; exact h

theorem cutOne_ok {s : Info} {lower upper sol x : Nat → ℚ} {j : Nat} {rcs cs cs' : List RowCut} {e : CliqueEntry}
    (hb : Binary s x) (hj : x j = 0 ∨ x j = 1) (he : EntryIf s x j true e) (h : CutsOk rcs x cs)
    (hf : cutOne s lower upper sol j cs e = some cs') : CutsOk rcs x cs' := by
  unfold cutOne at hf
  split at hf
  · cases hf
  · rename_i k hk
    have hkb := hb k (List.mem_of_getElem? hk)
    have hek : x j = 1 → x k = bit (oneFixes e) := fun h0 => he (by simpa [bit] using h0) k hk
    split at hf
    · split at hf
      · rename_i hone
        rw [hone] at hek; simp only [bit, if_true] at hek
        split at hf <;> simp only [Option.some.injEq] at hf <;> subst hf
        · refine h.insert (rowCut_le ?_)
          rw [pair_dot]
          rcases hj with h0 | h1
          · rcases hkb with h1 | h1 <;> rw [h1, h0] <;> norm_num
          · rw [h1, hek h1]; norm_num
        · exact h
      · rename_i hone
        simp only [Bool.not_eq_true] at hone
        rw [hone] at hek; simp only [bit, Bool.false_eq_true, if_false] at hek
        split at hf <;> simp only [Option.some.injEq] at hf <;> subst hf
        · refine h.insert (rowCut_le ?_)
          rw [pair_dot]
          rcases hj with h0 | h1
          · rcases hkb with h1 | h1 <;> rw [h1, h0] <;> norm_num
          · rw [h1, hek h1]; norm_num
        · exact h
    · simp only [Option.some.injEq] at hf; subst hf; exact h

theorem optFold_ok {α β : Type} {f : α → β → Option α} {Q : α → Prop} {bs : List β} {a a' : α}
    (hstep : ∀ a b a', b ∈ bs → Q a → f a b = some a' → Q a') (ha : Q a) (hf : optFold f bs a = some a') : Q a' := by
  induction bs generalizing a with
  | nil => simp only [optFold, Option.some.injEq] at hf; exact hf ▸ ha
  | cons b bs ih =>
    unfold optFold at hf
    split at hf
    · cases hf
    · rename_i a1 h1
      exact ih (fun a b' a' hb' => hstep a b' a' (List.mem_cons_of_mem _ hb'))
        (hstep a b a1 (List.mem_cons_self ..) ha h1) hf

/-- Invariant of the `generateCuts` loop. -/
structure GenInv (s : Info) (rcs : List RowCut) (x : Nat → ℚ) (g : GenState) : Prop where
  cuts : CutsOk rcs x g.rowCuts
  lbs : ∀ p ∈ g.lbs, p.2 ≤ x p.1
  ubs : ∀ p ∈ g.ubs, x p.1 ≤ p.2
  one : ∀ i, g.fixedOne i = true → ∃ k, s.integerVariable[i]? = some k ∧ x k = 1
  zer : ∀ i, g.fixedZero i = true → ∃ k, s.integerVariable[i]? = some k ∧ x k = 0

theorem fixImplied_ok {s : Info} {lower upper x : Nat → ℚ} {rcs : List RowCut} {g g' : GenState} {e : CliqueEntry}
    {stop : Bool} (hw : Within lower upper x) (he : EntryTrue s x e) (h : GenInv s rcs x g)
    (hf : fixImplied s lower upper g e = some (g', stop)) : GenInv s rcs x g' ∧ stop = false := by
  unfold fixImplied at hf
  split at hf
  · cases hf
  · rename_i k hk
    have hxk := he k hk
    split at hf
    · split at hf
      · rename_i hone
        rw [hone] at hxk; simp only [bit, if_true] at hxk
        split at hf <;> simp only [Option.some.injEq, Prod.mk.injEq] at hf <;> obtain ⟨rfl, rfl⟩ := hf
        · refine ⟨⟨h.cuts, ?_, h.ubs, ?_, h.zer⟩, rfl⟩
          · intro p hp
            rcases List.mem_append.mp hp with hp | hp
            · exact h.lbs p hp
            · rw [List.mem_singleton.mp hp]; exact le_of_eq hxk.symm
          · intro i hi
            simp only at hi
            split at hi
            · rename_i hie; exact ⟨k, by rw [hie]; exact hk, hxk⟩
            · exact h.one i hi
        · exact ⟨⟨h.cuts, h.lbs, h.ubs, h.one, h.zer⟩, rfl⟩
      · rename_i hone
        simp only [Bool.not_eq_true] at hone
        rw [hone] at hxk; simp only [bit, Bool.false_eq_true, if_false] at hxk
        split at hf <;> simp only [Option.some.injEq, Prod.mk.injEq] at hf <;> obtain ⟨rfl, rfl⟩ := hf
        · refine ⟨⟨h.cuts, h.lbs, ?_, h.one, ?_⟩, rfl⟩
          · intro p hp
            rcases List.mem_append.mp hp with hp | hp
            · exact h.ubs p hp
            · rw [List.mem_singleton.mp hp]; exact le_of_eq hxk
          · intro i hi
            simp only at hi
            split at hi
            · rename_i hie; exact ⟨k, by rw [hie]; exact hk, hxk⟩
            · exact h.zer i hi
        · exact ⟨⟨h.cuts, h.lbs, h.ubs, h.one, h.zer⟩, rfl⟩
    · split at hf
      · rename_i hbad
        exfalso
        have hwk := hw k
        rcases hbad with ⟨h1, h2⟩ | ⟨h1, h2⟩
        · rw [h1] at hxk; simp only [bit, if_true] at hxk
          rw [hxk, h2] at hwk; exact absurd hwk.2 (by norm_num)
        · rw [h1] at hxk; simp only [bit, Bool.false_eq_true, if_false] at hxk
          rw [hxk, h2] at hwk; exact absurd hwk.1 (by norm_num)
      · simp only [Option.some.injEq, Prod.mk.injEq] at hf
        obtain ⟨rfl, rfl⟩ := hf
        exact ⟨h, rfl⟩

theorem fixImpliedLoop_ok {s : Info} {lower upper x : Nat → ℚ} {rcs : List RowCut} {es : List CliqueEntry}
    {g g' : GenState} {stop : Bool} (hw : Within lower upper x) (he : ∀ e ∈ es, EntryTrue s x e)
    (h : GenInv s rcs x g) (hf : fixImpliedLoop s lower upper es g = some (g', stop)) :
    GenInv s rcs x g' ∧ stop = false := by
  induction es generalizing g with
  | nil =>
    simp only [fixImpliedLoop, Option.some.injEq, Prod.mk.injEq] at hf
    exact ⟨hf.1 ▸ h, hf.2.symm⟩
  | cons e es ih =>
    unfold fixImpliedLoop at hf
    split at hf
    · cases hf
    · rename_i g1 h1
      exact absurd (fixImplied_ok hw (he e (List.mem_cons_self ..)) h h1).2 (by simp)
    · rename_i g1 h1
      exact ih (fun e' h' => he e' (List.mem_cons_of_mem _ h'))
        (fixImplied_ok hw (he e (List.mem_cons_self ..)) h h1).1 hf

theorem genLoop_ok {s : Info} {lower upper sol x : Nat → ℚ} {rcs : List RowCut}
    (hni : s.numberIntegers = s.integerVariable.length) (hr : Respects s x) (hb : Binary s x)
    (hw : Within lower upper x)
    (hint : ∀ j ∈ s.integerVariable, (lower j = 0 ∨ lower j = 1) ∧ (upper j = 0 ∨ upper j = 1))
    (fuel i : Nat) {g g' : GenState} {stop : Bool} (h : GenInv s rcs x g)
    (hf : genLoop s lower upper sol fuel i g = some (g', stop)) : GenInv s rcs x g' ∧ stop = false := by
  induction fuel generalizing i g with
  | zero =>
    simp only [genLoop, Option.some.injEq, Prod.mk.injEq] at hf
    exact ⟨hf.1 ▸ h, hf.2.symm⟩
  | succ n ih =>
    unfold genLoop at hf
    split at hf
    · cases hf
    · rename_i c hc
      have hcm : c ∈ s.integerVariable := List.mem_of_getElem? hc
      have hbc := hb c hcm
      have hwc := hw c
      split at hf
      · split at hf
        · rename_i es0 es1 he0 he1
          split at hf
          · cases hf
          · rename_i cs0 hcs0
            split at hf
            · cases hf
            · rename_i cs1 hcs1
              have k0 : CutsOk rcs x cs0 := optFold_ok (Q := CutsOk rcs x) (fun a e a' he ha hs =>
                cutZero_ok hb hbc (fun hx => entryTrue_of_respects hni hr hc he0 hx e he) ha hs) h.cuts hcs0
              have k1 : CutsOk rcs x cs1 := optFold_ok (Q := CutsOk rcs x) (fun a e a' he ha hs =>
                cutOne_ok hb hbc (fun hx => entryTrue_of_respects hni hr hc he1 hx e he) ha hs) k0 hcs1
              exact ih _ (g := { g with rowCuts := cs1 }) ⟨k1, h.lbs, h.ubs, h.one, h.zer⟩ hf
        · cases hf
      · rename_i hfree
        split at hf
        · cases hf
        · rename_i es hes
          have hx : x c = bit (if upper c = 0 then false else true) := by
            have hi := hint c hcm
            by_cases hu : upper c = 0
            · rw [if_pos hu]; simp only [bit, Bool.false_eq_true, if_false]
              rcases hbc with h0 | h1
              · exact h0
              · rw [hu, h1] at hwc; exact absurd hwc.2 (by norm_num)
            · rw [if_neg hu]; simp only [bit, if_true]
              have hu1 : upper c = 1 := hi.2.resolve_left hu
              have hl1 : lower c = 1 := hi.1.resolve_left (fun hl => hfree ⟨hl, hu1⟩)
              rcases hbc with h0 | h1
              · rw [hl1, h0] at hwc; exact absurd hwc.1 (by norm_num)
              · exact h1
          split at hf
          · cases hf
          · rename_i g1 h1
            exact absurd (fixImpliedLoop_ok hw (entryTrue_of_respects hni hr hc hes hx) h h1).2 (by simp)
          · rename_i g1 h1
            exact ih _ (fixImpliedLoop_ok hw (entryTrue_of_respects hni hr hc hes hx) h h1).1 hf

/-! ### No undefined behaviour on a packed table -/

/-- Every entry of the table has a 0-1 target. -/
def AllBinary (s : Info) : Prop :=
  ∀ i < s.numberIntegers, ∀ up, ∃ es, implied s i up = some es ∧ ∀ e ∈ es, sequence e < s.numberIntegers

theorem packDown_allBinary {P : Prob} {s : Info} (h : Reachable P s) : AllBinary (packDown s).1 := by
  obtain ⟨segs, hs⟩ := (reachable_inv h).convert.2
  have ht := (packDown_table s hs).1
  intro i hi up
  have hlen := ht.1
  rw [List.length_map] at hlen
  rw [← hlen] at hi
  have hg : segs[i]? = some segs[i] := List.getElem?_eq_getElem hi
  have := implied_of_table ht i _ (by rw [List.getElem?_map, hg]; rfl)
  rw [(packDown_fields s).1]
  cases up
  · exact ⟨_, this.1, fun e he => by simpa using (List.mem_filter.mp he).2⟩
  · exact ⟨_, this.2, fun e he => by simpa using (List.mem_filter.mp he).2⟩

theorem fixEntry_def {s : Info} (hni : s.numberIntegers = s.integerVariable.length) (st : FixState) {e : CliqueEntry}
    (he : sequence e < s.numberIntegers) : ∃ st', fixEntry s st e = some st' := by
  unfold fixEntry
  rw [hni] at he
  rw [List.getElem?_eq_getElem he]
  simp only
  repeat' split
  all_goals exact ⟨_, rfl⟩

theorem fixEntries_def {s : Info} (hni : s.numberIntegers = s.integerVariable.length) (es : List CliqueEntry)
    (st : FixState) (he : ∀ e ∈ es, sequence e < s.numberIntegers) : ∃ st', fixEntries s es st = some st' := by
  induction es generalizing st with
  | nil => exact ⟨st, rfl⟩
  | cons e es ih =>
    obtain ⟨st1, h1⟩ := fixEntry_def hni st (he e (List.mem_cons_self ..))
    unfold fixEntries
    rw [h1]
    exact ih st1 (fun e' h' => he e' (List.mem_cons_of_mem _ h'))

theorem fixLoop_def {s : Info} (hni : s.numberIntegers = s.integerVariable.length) (ha : AllBinary s) (fuel i : Nat)
    (hi : i + fuel = s.numberIntegers) (st : FixState) : ∃ st', fixLoop s fuel i st = some st' := by
  induction fuel generalizing i st with
  | zero => exact ⟨st, rfl⟩
  | succ n ih =>
    have hin : i < s.numberIntegers := by omega
    unfold fixLoop
    rw [List.getElem?_eq_getElem (by rw [← hni]; exact hin)]
    simp only
    split
    · obtain ⟨es, h1, h2⟩ := ha i hin false
      rw [h1]
      obtain ⟨st1, h3⟩ := fixEntries_def hni es st h2
      simp only [h3]
      exact ih _ (by omega) _
    · split
      · obtain ⟨es, h1, h2⟩ := ha i hin true
        rw [h1]
        obtain ⟨st1, h3⟩ := fixEntries_def hni es st h2
        simp only [h3]
        exact ih _ (by omega) _
      · exact ih _ (by omega) _

theorem optFold_def {α β : Type} {f : α → β → Option α} {bs : List β} (a : α)
    (h : ∀ a, ∀ b ∈ bs, ∃ a', f a b = some a') : ∃ a', optFold f bs a = some a' := by
  induction bs generalizing a with
  | nil => exact ⟨a, rfl⟩
  | cons b bs ih =>
    obtain ⟨a1, h1⟩ := h a b (List.mem_cons_self ..)
    unfold optFold
    rw [h1]
    exact ih a1 (fun a b' hb' => h a b' (List.mem_cons_of_mem _ hb'))

theorem fixImpliedLoop_def {s : Info} (hni : s.numberIntegers = s.integerVariable.length) (lower upper : Nat → ℚ)
    (es : List CliqueEntry) (g : GenState) (he : ∀ e ∈ es, sequence e < s.numberIntegers) :
    ∃ r, fixImpliedLoop s lower upper es g = some r := by
  induction es generalizing g with
  | nil => exact ⟨_, rfl⟩
  | cons e es ih =>
    have h1 : ∃ r, fixImplied s lower upper g e = some r := by
      have he' := he e (List.mem_cons_self ..)
      rw [hni] at he'
      unfold fixImplied
      rw [List.getElem?_eq_getElem he']
      simp only
      repeat' split
      all_goals exact ⟨_, rfl⟩
    obtain ⟨⟨g1, b⟩, h1⟩ := h1
    unfold fixImpliedLoop
    rw [h1]
    cases b
    · exact ih g1 (fun e' h' => he e' (List.mem_cons_of_mem _ h'))
    · exact ⟨_, rfl⟩

theorem genLoop_def {s : Info} (hni : s.numberIntegers = s.integerVariable.length) (ha : AllBinary s)
    (lower upper sol : Nat → ℚ) (fuel i : Nat) (hi : i + fuel = s.numberIntegers) (g : GenState) :
    ∃ r, genLoop s lower upper sol fuel i g = some r := by
  induction fuel generalizing i g with
  | zero => exact ⟨_, rfl⟩
  | succ n ih =>
    have hin : i < s.numberIntegers := by omega
    unfold genLoop
    rw [List.getElem?_eq_getElem (by rw [← hni]; exact hin)]
    simp only
    split
    · obtain ⟨es0, h1, h2⟩ := ha i hin false
      obtain ⟨es1, h3, h4⟩ := ha i hin true
      rw [h1, h3]
      simp only
      obtain ⟨cs0, k0⟩ := optFold_def (f := cutZero s lower upper sol (s.integerVariable[i]'(by rw [← hni]; exact hin)))
        (bs := es0) g.rowCuts (fun a e he => by
          have he' := h2 e he
          rw [hni] at he'
          unfold cutZero
          rw [List.getElem?_eq_getElem he']
          simp only
          repeat' split
          all_goals exact ⟨_, rfl⟩)
      obtain ⟨cs1, k1⟩ := optFold_def (f := cutOne s lower upper sol (s.integerVariable[i]'(by rw [← hni]; exact hin)))
        (bs := es1) cs0 (fun a e he => by
          have he' := h4 e he
          rw [hni] at he'
          unfold cutOne
          rw [List.getElem?_eq_getElem he']
          simp only
          repeat' split
          all_goals exact ⟨_, rfl⟩)
      rw [k0]
      simp only [k1]
      exact ih _ (by omega) _
    · obtain ⟨es, h1, h2⟩ := ha i hin (if upper (s.integerVariable[i]'(by rw [← hni]; exact hin)) = 0 then false else true)
      rw [h1]
      simp only
      obtain ⟨⟨g1, b⟩, h3⟩ := fixImpliedLoop_def hni lower upper es g h2
      rw [h3]
      cases b
      · exact ih _ (by omega) _
      · exact ⟨_, rfl⟩

end Cgl.TreeInfo
