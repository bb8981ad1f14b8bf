import Verif.Stored.Model
import Verif.TreeInfo.Props

/-!
# Helper lemmas for `CglStored`
-/

namespace Cgl.Stored

open TreeInfo

/-! ### Bytes -/

theorem word32 (w : BitVec 32) : (w.extractLsb' 24 8 ++ w.extractLsb' 16 8 ++ w.extractLsb' 8 8 ++ w.extractLsb' 0 8 : BitVec 32) = w := by
  apply BitVec.eq_of_getLsbD_eq
  intro i hi
  simp only [BitVec.getLsbD_append, BitVec.getLsbD_extractLsb']
  repeat' split
  all_goals (rw [decide_eq_true (by omega)]; simp only [Bool.true_and]; congr 1; omega)
theorem word64 (w : BitVec 64) : (w.extractLsb' 56 8 ++ w.extractLsb' 48 8 ++ w.extractLsb' 40 8 ++ w.extractLsb' 32 8 ++ w.extractLsb' 24 8 ++ w.extractLsb' 16 8 ++ w.extractLsb' 8 8 ++ w.extractLsb' 0 8 : BitVec 64) = w := by
  apply BitVec.eq_of_getLsbD_eq
  intro i hi
  simp only [BitVec.getLsbD_append, BitVec.getLsbD_extractLsb']
  repeat' split
  all_goals (rw [decide_eq_true (by omega)]; simp only [Bool.true_and]; congr 1; omega)
theorem byte32 (a b c d : BitVec 8) :
   let w : BitVec 32 := (d ++ c ++ b ++ a : BitVec 32)
   w.extractLsb' 0 8 = a ∧ w.extractLsb' 8 8 = b ∧ w.extractLsb' 16 8 = c ∧ w.extractLsb' 24 8 = d := by
  refine ⟨?_, ?_, ?_, ?_⟩ <;>
  · apply BitVec.eq_of_getLsbD_eq
    intro i hi
    simp only [BitVec.getLsbD_append, BitVec.getLsbD_extractLsb']
    rw [decide_eq_true hi]
    simp only [Bool.true_and]
    repeat' split
    all_goals first | (exfalso; omega) | (congr 1; omega)
theorem byte64 (a b c d e f g h : BitVec 8) :
   let w : BitVec 64 := (h ++ g ++ f ++ e ++ d ++ c ++ b ++ a : BitVec 64)
   w.extractLsb' 0 8 = a ∧ w.extractLsb' 8 8 = b ∧ w.extractLsb' 16 8 = c ∧ w.extractLsb' 24 8 = d ∧
   w.extractLsb' 32 8 = e ∧ w.extractLsb' 40 8 = f ∧ w.extractLsb' 48 8 = g ∧ w.extractLsb' 56 8 = h := by
  refine ⟨?_, ?_, ?_, ?_, ?_, ?_, ?_, ?_⟩ <;>
  · apply BitVec.eq_of_getLsbD_eq
    intro i hi
    simp only [BitVec.getLsbD_append, BitVec.getLsbD_extractLsb']
    rw [decide_eq_true hi]
    simp only [Bool.true_and]
    repeat' split
    all_goals first | (exfalso; omega) | (congr 1; omega)

/-- Little-endian bytes of a 32-bit word. -/
def bytes32 (w : BitVec 32) : List Byte :=
  [w.extractLsb' 0 8, w.extractLsb' 8 8, w.extractLsb' 16 8, w.extractLsb' 24 8]

/-- Little-endian bytes of a 64-bit word. -/
def bytes64 (w : BitVec 64) : List Byte :=
  [w.extractLsb' 0 8, w.extractLsb' 8 8, w.extractLsb' 16 8, w.extractLsb' 24 8,
   w.extractLsb' 32 8, w.extractLsb' 40 8, w.extractLsb' 48 8, w.extractLsb' 56 8]

theorem readInt_bytes (w : BitVec 32) (rest : List Byte) : readInt (bytes32 w ++ rest) = some (w.toInt, rest) := by
  simp only [bytes32, List.cons_append, List.nil_append, readInt]
  rw [word32]

theorem readDouble_bytes (w : BitVec 64) (rest : List Byte) : readDouble (bytes64 w ++ rest) = some (w, rest) := by
  simp only [bytes64, List.cons_append, List.nil_append, readDouble]
  rw [word64]

theorem readInt_inv {bs : List Byte} {n : Int} {rest : List Byte} (h : readInt bs = some (n, rest)) :
    ∃ w : BitVec 32, w.toInt = n ∧ bs = bytes32 w ++ rest := by
  unfold readInt at h
  split at h
  · rename_i a b c d r
    simp only [Option.some.injEq, Prod.mk.injEq] at h
    obtain ⟨h1, rfl⟩ := h
    refine ⟨_, h1, ?_⟩
    obtain ⟨e1, e2, e3, e4⟩ := byte32 a b c d
    simp only [bytes32, e1, e2, e3, e4, List.cons_append, List.nil_append]
  · cases h

theorem readDouble_inv {bs : List Byte} {w : BitVec 64} {rest : List Byte} (h : readDouble bs = some (w, rest)) :
    bs = bytes64 w ++ rest := by
  unfold readDouble at h
  split at h
  · rename_i a b c d e f g i r
    simp only [Option.some.injEq, Prod.mk.injEq] at h
    obtain ⟨rfl, rfl⟩ := h
    obtain ⟨e1, e2, e3, e4, e5, e6, e7, e8⟩ := byte64 a b c d e f g i
    simp only [bytes64, e1, e2, e3, e4, e5, e6, e7, e8, List.cons_append, List.nil_append]
  · cases h

theorem readMany_append {α : Type} {rd : List Byte → Option (α × List Byte)} {enc : α → List Byte} (as : List α)
    (hrt : ∀ a ∈ as, ∀ rest, rd (enc a ++ rest) = some (a, rest)) (rest : List Byte) :
    readMany rd as.length ((as.map enc).flatten ++ rest) = some (as, rest) := by
  induction as with
  | nil => rfl
  | cons a as ih =>
    simp only [List.length_cons, readMany, List.map_cons, List.flatten_cons, List.append_assoc]
    rw [hrt a (List.mem_cons_self ..)]
    simp only [ih (fun b hb => hrt b (List.mem_cons_of_mem _ hb))]

theorem readMany_inv {α : Type} {rd : List Byte → Option (α × List Byte)} {R : α → List Byte → Prop}
    (hrd : ∀ bs a rest, rd bs = some (a, rest) → ∃ p, R a p ∧ bs = p ++ rest) (n : Nat) {bs : List Byte}
    {as : List α} {rest : List Byte} (h : readMany rd n bs = some (as, rest)) :
    as.length = n ∧ ∃ ps, List.Forall₂ R as ps ∧ bs = ps.flatten ++ rest := by
  induction n generalizing bs as with
  | zero =>
    simp only [readMany, Option.some.injEq, Prod.mk.injEq] at h
    obtain ⟨rfl, rfl⟩ := h
    exact ⟨rfl, [], List.Forall₂.nil, rfl⟩
  | succ n ih =>
    unfold readMany at h
    split at h
    · cases h
    · rename_i a bs' h1
      split at h
      · cases h
      · rename_i as' bs'' h2
        simp only [Option.some.injEq, Prod.mk.injEq] at h
        obtain ⟨rfl, rfl⟩ := h
        obtain ⟨p, hp, rfl⟩ := hrd _ _ _ h1
        obtain ⟨hl, ps, hps, rfl⟩ := ih h2
        exact ⟨by simp [hl], p :: ps, List.Forall₂.cons hp hps, by simp⟩

/-! ### Stored cuts -/

theorem storedLoop_eq (req : ℚ) (sol : Nat → ℚ) (cuts cs : List OsiRowCut) :
    storedLoop req sol cuts cs = cs ++ cuts.filter (fun c => decide (violated c.cut sol ≥ req)) := by
  induction cuts generalizing cs with
  | nil => simp [storedLoop]
  | cons c rest ih =>
    unfold storedLoop
    by_cases h : violated c.cut sol ≥ req
    · rw [if_pos h, ih, List.filter_cons, if_pos (by simpa using h)]; simp
    · rw [if_neg h, ih, List.filter_cons, if_neg (by simpa using h)]

/-! ### Cuts from implications -/

/-- Every listed implication is true of `x`, for the current bounds. -/
def TrueAt (t : Info) (lower upper x : Nat → ℚ) : Prop :=
  ∀ j up k one, Exposed t j up k one → x j = bit up →
    if k ∈ t.integerVariable then x k = bit one else if one then upper k ≤ x k else x k ≤ lower k

/-- The two halves needed about one entry. -/
structure EntryOk (t : Info) (lower upper x : Nat → ℚ) (j : Nat) (up : Bool) (e : CliqueEntry) : Prop where
  bin : ∀ k, sequence e < t.numberIntegers → t.integerVariable[sequence e]? = some k → x j = bit up →
    x k = bit (oneFixes e)
  gen : ¬ sequence e < t.numberIntegers → x j = bit up →
    if oneFixes e then upper (sequence e - t.numberIntegers) ≤ x (sequence e - t.numberIntegers)
    else x (sequence e - t.numberIntegers) ≤ lower (sequence e - t.numberIntegers)
  within : ¬ sequence e < t.numberIntegers → lower (sequence e - t.numberIntegers) ≤ x (sequence e - t.numberIntegers) ∧
    x (sequence e - t.numberIntegers) ≤ upper (sequence e - t.numberIntegers)

/-- All cuts were there before or hold at `x`. -/
def Ok (base : List OsiRowCut) (x : Nat → ℚ) (cs : List OsiRowCut) : Prop := ∀ c ∈ cs, c ∈ base ∨ c.cut.Sat x

theorem Ok.insert {base cs : List OsiRowCut} {x : Nat → ℚ} (h : Ok base x cs) {c : OsiRowCut} (hc : c.cut.Sat x) :
    Ok base x (insertOsi cs c) := by
  intro d hd
  unfold insertOsi at hd
  split at hd
  · exact h d hd
  · rcases List.mem_append.mp hd with hd | hd
    · exact h d hd
    · rw [List.mem_singleton.mp hd]; exact Or.inr hc

theorem entryZero_ok {t : Info} {req : ℚ} {lower upper sol x : Nat → ℚ} {i : Nat} {base cs cs' : List OsiRowCut}
    {e : CliqueEntry} (hb : Binary t x) (hi : x i = 0 ∨ x i = 1) (he : EntryOk t lower upper x i false e)
    (h : Ok base x cs) (hf : entryZero t req lower upper sol i cs e = some cs') : Ok base x cs' := by
  unfold entryZero at hf
  split at hf
  · rename_i hseq
    split at hf
    · cases hf
    · rename_i k hk
      have hkb := hb k (List.mem_of_getElem? hk)
      have hek : x i = 0 → x k = bit (oneFixes e) := fun h0 => he.bin k hseq hk (by simpa [bit] using h0)
      split at hf
      · rename_i hone
        rw [hone] at hek; simp only [bit, if_true] at hek
        dsimp only at hf
        split at hf <;> simp only [Option.some.injEq] at hf <;> subst hf
        · refine h.insert (rowCut_ge ?_)
          rw [pair_dot]
          rcases hi with h0 | h1
          · rw [h0, hek h0]; norm_num
          · rcases hkb with h0 | h0 <;> rw [h1, h0] <;> norm_num
        · exact h
      · rename_i hone
        simp only [Bool.not_eq_true] at hone
        rw [hone] at hek; simp only [bit, Bool.false_eq_true, if_false] at hek
        dsimp only at hf
        split at hf <;> simp only [Option.some.injEq] at hf <;> subst hf
        · refine h.insert (rowCut_ge ?_)
          rw [pair_dot]
          rcases hi with h0 | h1
          · rw [h0, hek h0]; norm_num
          · rcases hkb with h0 | h0 <;> rw [h1, h0] <;> norm_num
        · exact h
  · rename_i hseq
    have hw := he.within hseq
    have hg := he.gen hseq
    split at hf
    · rename_i hone
      rw [if_pos hone] at hg
      dsimp only at hf
      split at hf <;> simp only [Option.some.injEq] at hf <;> subst hf
      · refine h.insert (rowCut_ge ?_)
        rw [pair_dot]
        rcases hi with h0 | h1
        · have := hg (by simpa [bit] using h0)
          rw [h0]; linarith
        · rw [h1]; linarith
      · exact h
    · rename_i hone
      rw [if_neg hone] at hg
      dsimp only at hf
      split at hf <;> simp only [Option.some.injEq] at hf <;> subst hf
      · refine h.insert (rowCut_ge ?_)
        rw [pair_dot]
        rcases hi with h0 | h1
        · have := hg (by simpa [bit] using h0)
          rw [h0]; linarith
        · rw [h1]; linarith
      · exact h

theorem entryOne_ok {t : Info} {req : ℚ} {lower upper sol x : Nat → ℚ} {i : Nat} {base cs cs' : List OsiRowCut}
    {e : CliqueEntry} (hb : Binary t x) (hi : x i = 0 ∨ x i = 1) (he : EntryOk t lower upper x i true e)
    (h : Ok base x cs) (hf : entryOne t req lower upper sol i cs e = some cs') : Ok base x cs' := by
  unfold entryOne at hf
  split at hf
  · rename_i hseq
    split at hf
    · cases hf
    · rename_i k hk
      have hkb := hb k (List.mem_of_getElem? hk)
      have hek : x i = 1 → x k = bit (oneFixes e) := fun h0 => he.bin k hseq hk (by simpa [bit] using h0)
      split at hf
      · rename_i hone
        rw [hone] at hek; simp only [bit, if_true] at hek
        dsimp only at hf
        split at hf <;> simp only [Option.some.injEq] at hf <;> subst hf
        · refine h.insert (rowCut_le ?_)
          rw [pair_dot]
          rcases hi with h0 | h1
          · rcases hkb with h1 | h1 <;> rw [h1, h0] <;> norm_num
          · rw [h1, hek h1]; norm_num
        · exact h
      · rename_i hone
        simp only [Bool.not_eq_true] at hone
        rw [hone] at hek; simp only [bit, Bool.false_eq_true, if_false] at hek
        dsimp only at hf
        split at hf <;> simp only [Option.some.injEq] at hf <;> subst hf
        · refine h.insert (rowCut_le ?_)
          rw [pair_dot]
          rcases hi with h0 | h1
          · rcases hkb with h1 | h1 <;> rw [h1, h0] <;> norm_num
          · rw [h1, hek h1]; norm_num
        · exact h
  · rename_i hseq
    have hw := he.within hseq
    have hg := he.gen hseq
    split at hf
    · rename_i hone
      rw [if_pos hone] at hg
      dsimp only at hf
      split at hf <;> simp only [Option.some.injEq] at hf <;> subst hf
      · refine h.insert (rowCut_le ?_)
        rw [pair_dot]
        rcases hi with h0 | h1
        · rw [h0]; linarith
        · have := hg (by simpa [bit] using h1)
          rw [h1]; linarith
      · exact h
    · rename_i hone
      rw [if_neg hone] at hg
      dsimp only at hf
      split at hf <;> simp only [Option.some.injEq] at hf <;> subst hf
      · refine h.insert (rowCut_le ?_)
        rw [pair_dot]
        rcases hi with h0 | h1
        · rw [h0]; linarith
        · have := hg (by simpa [bit] using h1)
          rw [h1]; linarith
      · exact h

theorem probingLoop_ok {t : Info} {req : ℚ} {lower upper sol x : Nat → ℚ} {base : List OsiRowCut} (hb : Binary t x)
    (he : ∀ i j up es, t.integerVariable[i]? = some j → implied t i up = some es →
      ∀ e ∈ es, EntryOk t lower upper x j up e)
    (fuel i : Nat) {cs cs' : List OsiRowCut} (h : Ok base x cs)
    (hf : probingLoop t req lower upper sol fuel i cs = some cs') : Ok base x cs' := by
  induction fuel generalizing i cs with
  | zero => simp only [probingLoop, Option.some.injEq] at hf; exact hf ▸ h
  | succ n ih =>
    unfold probingLoop at hf
    split at hf
    · cases hf
    · rename_i c hc
      have hbc := hb c (List.mem_of_getElem? hc)
      split at hf
      · exact ih _ h hf
      · split at hf
        · rename_i es0 es1 h0 h1
          split at hf
          · cases hf
          · rename_i cs0 hcs0
            split at hf
            · cases hf
            · rename_i cs1 hcs1
              have k0 : Ok base x cs0 := optFold_ok (Q := Ok base x) (fun a e a' hm ha hs =>
                entryZero_ok hb hbc (he i c false es0 hc h0 e hm) ha hs) h hcs0
              have k1 : Ok base x cs1 := optFold_ok (Q := Ok base x) (fun a e a' hm ha hs =>
                entryOne_ok hb hbc (he i c true es1 hc h1 e hm) ha hs) k0 hcs1
              exact ih _ k1 hf
        · cases hf

theorem probingLoop_def {t : Info} (hni : t.numberIntegers = t.integerVariable.length)
    (ht : ∀ i < t.numberIntegers, ∀ up, ∃ es, implied t i up = some es) (req : ℚ) (lower upper sol : Nat → ℚ)
    (fuel i : Nat) (hi : i + fuel = t.numberIntegers) (cs : List OsiRowCut) :
    ∃ cs', probingLoop t req lower upper sol fuel i cs = some cs' := by
  induction fuel generalizing i cs with
  | zero => exact ⟨_, rfl⟩
  | succ n ih =>
    have hin : i < t.numberIntegers := by omega
    unfold probingLoop
    rw [List.getElem?_eq_getElem (by rw [← hni]; exact hin)]
    simp only
    split
    · exact ih _ (by omega) _
    · obtain ⟨es0, h0⟩ := ht i hin false
      obtain ⟨es1, h1⟩ := ht i hin true
      rw [h0, h1]
      simp only
      obtain ⟨cs0, k0⟩ := optFold_def (f := entryZero t req lower upper sol (t.integerVariable[i]'(by rw [← hni]; exact hin)))
        (bs := es0) cs (fun a e _ => by
          unfold entryZero
          by_cases hs : sequence e < t.numberIntegers
          · rw [if_pos hs]
            rw [hni] at hs
            rw [List.getElem?_eq_getElem hs]
            simp only
            repeat' split
            all_goals exact ⟨_, rfl⟩
          · rw [if_neg hs]
            simp only
            repeat' split
            all_goals exact ⟨_, rfl⟩)
      obtain ⟨cs1, k1⟩ := optFold_def (f := entryOne t req lower upper sol (t.integerVariable[i]'(by rw [← hni]; exact hin)))
        (bs := es1) cs0 (fun a e _ => by
          unfold entryOne
          by_cases hs : sequence e < t.numberIntegers
          · rw [if_pos hs]
            rw [hni] at hs
            rw [List.getElem?_eq_getElem hs]
            simp only
            repeat' split
            all_goals exact ⟨_, rfl⟩
          · rw [if_neg hs]
            simp only
            repeat' split
            all_goals exact ⟨_, rfl⟩)
      rw [k0]
      simp only [k1]
      exact ih _ (by omega) _

end Cgl.Stored
