import Verif.TreeInfo.Model

/-!
# Bit-level facts about clique entries
-/

namespace Cgl.TreeInfo

theorem lowMask_get (i : Nat) : (0x7fffffff#32).getLsbD i = decide (i < 31) := by
  by_cases h : i < 32
  · have : ∀ i : Fin 32, (0x7fffffff#32).getLsbD i = decide ((i : Nat) < 31) := by decide
    exact this ⟨i, h⟩
  · rw [BitVec.getLsbD_of_ge _ _ (by omega)]; simp; omega

theorem highMask_get (i : Nat) : (0x80000000#32).getLsbD i = decide (i = 31) := by
  by_cases h : i < 32
  · have : ∀ i : Fin 32, (0x80000000#32).getLsbD i = decide ((i : Nat) = 31) := by decide
    exact this ⟨i, h⟩
  · rw [BitVec.getLsbD_of_ge _ _ (by omega)]; simp; omega

theorem sequence_eq (e : CliqueEntry) : sequence e = e.toNat % 2 ^ 31 := by
  unfold sequence
  rw [BitVec.toNat_and]
  have : (0x7fffffff#32).toNat = 2 ^ 31 - 1 := by decide
  rw [this, Nat.and_two_pow_sub_one_eq_mod]

theorem sequence_lt (e : CliqueEntry) : sequence e < 2 ^ 31 := by
  rw [sequence_eq]; exact Nat.mod_lt _ (by decide)

theorem oneFixes_eq (e : CliqueEntry) : oneFixes e = e.getLsbD 31 := by
  unfold oneFixes
  cases h : e.getLsbD 31
  · have : e &&& 0x80000000#32 = 0#32 := by
      apply BitVec.eq_of_getLsbD_eq
      intro i hi
      simp only [BitVec.getLsbD_and, highMask_get, BitVec.getLsbD_zero]
      by_cases hi31 : i = 31
      · subst hi31; rw [h]; rfl
      · simp [hi31]
    simp [this]
  · simp only [bne_iff_ne, ne_eq]
    intro hc
    have := congrArg (fun v => BitVec.getLsbD v 31) hc
    simp only [BitVec.getLsbD_and, highMask_get, h] at this
    exact absurd this (by decide)

theorem getLsbD_of_lt_pow {s : BitVec 32} (hs : s.toNat < 2 ^ 31) : s.getLsbD 31 = false := by
  rw [BitVec.getLsbD, Nat.testBit_lt_two_pow hs]

theorem getLsbD_setSequence (e s : BitVec 32) (i : Nat) :
    (setSequence e s).getLsbD i = (s.getLsbD i || (e.getLsbD i && decide (i = 31))) := by
  unfold setSequence; simp [highMask_get]

theorem getLsbD_setOneFixes (e : BitVec 32) (b : Bool) (i : Nat) :
    (setOneFixes e b).getLsbD i = ((b && decide (i = 31)) || (e.getLsbD i && decide (i < 31))) := by
  unfold setOneFixes
  cases b <;> simp [highMask_get, lowMask_get]

theorem oneFixes_setSequence (e s : BitVec 32) (hs : s.toNat < 2 ^ 31) :
    oneFixes (setSequence e s) = oneFixes e := by
  rw [oneFixes_eq, oneFixes_eq, getLsbD_setSequence, getLsbD_of_lt_pow hs]
  simp only [Bool.false_or, decide_true, Bool.and_true]

theorem oneFixes_setOneFixes (e : BitVec 32) (b : Bool) : oneFixes (setOneFixes e b) = b := by
  rw [oneFixes_eq, getLsbD_setOneFixes]
  simp

theorem sequence_ext {a b : BitVec 32} (h : ∀ i < 31, a.getLsbD i = b.getLsbD i) : sequence a = sequence b := by
  unfold sequence
  congr 1
  apply BitVec.eq_of_getLsbD_eq
  intro i hi
  simp only [BitVec.getLsbD_and, lowMask_get]
  by_cases h31 : i < 31
  · simp [h i h31]
  · simp [h31]

theorem sequence_setOneFixes (e : BitVec 32) (b : Bool) : sequence (setOneFixes e b) = sequence e := by
  apply sequence_ext
  intro i hi
  have : ¬ i = 31 := by omega
  simp [getLsbD_setOneFixes, hi, this]

theorem sequence_setSequence (e s : BitVec 32) (hs : s.toNat < 2 ^ 31) :
    sequence (setSequence e s) = s.toNat := by
  have : sequence (setSequence e s) = sequence s := by
    apply sequence_ext
    intro i hi
    have : ¬ i = 31 := by omega
    simp [getLsbD_setSequence, this]
  rw [this, sequence_eq, Nat.mod_eq_of_lt hs]

/-- The two fields determine the entry. -/
theorem entry_ext {a b : CliqueEntry} (h1 : sequence a = sequence b) (h2 : oneFixes a = oneFixes b) : a = b := by
  apply BitVec.eq_of_getLsbD_eq
  intro i hi
  by_cases h31 : i < 31
  · have := congrArg (fun n => Nat.testBit n i) h1
    simp only [sequence_eq, Nat.testBit_mod_two_pow, h31, decide_true, Bool.true_and] at this
    exact this
  · have : i = 31 := by omega
    subst this
    rw [oneFixes_eq, oneFixes_eq] at h2; exact h2

/-- Entry with the given fields. -/
def mk (seq : Nat) (one : Bool) : CliqueEntry := setSequence (setOneFixes 0#32 one) (BitVec.ofNat 32 seq)

theorem sequence_mk {seq : Nat} (h : seq < 2 ^ 31) (one : Bool) : sequence (mk seq one) = seq := by
  unfold mk
  have : (BitVec.ofNat 32 seq).toNat = seq := by
    rw [BitVec.toNat_ofNat]; exact Nat.mod_eq_of_lt (by omega)
  rw [sequence_setSequence _ _ (by omega), this]

theorem oneFixes_mk {seq : Nat} (h : seq < 2 ^ 31) (one : Bool) : oneFixes (mk seq one) = one := by
  unfold mk
  have : (BitVec.ofNat 32 seq).toNat = seq := by
    rw [BitVec.toNat_ofNat]; exact Nat.mod_eq_of_lt (by omega)
  rw [oneFixes_setSequence _ _ (by omega), oneFixes_setOneFixes]

end Cgl.TreeInfo
