import Verif.Param.Probing
import Mathlib.Tactic.SplitIfs

/-! C32 and C45 for the parameters of `CglProbing`. -/

namespace Cgl.Param.Probing

theorem and7 (v : BitVec 32) : (v &&& 7#32).toNat = v.toNat % 8 := by
  rw [BitVec.toNat_and]
  exact Nat.and_two_pow_sub_one_eq_mod v.toNat 3

theorem and15 (v : BitVec 32) : (v &&& 15#32).toNat = v.toNat % 16 := by
  rw [BitVec.toNat_and]
  exact Nat.and_two_pow_sub_one_eq_mod v.toNat 4

theorem merge (m v : BitVec 32) : ((m &&& ~~~ 15#32) ||| v) &&& 15#32 = v &&& 15#32 := by
  ext i hi
  simp only [BitVec.getElem_and, BitVec.getElem_or, BitVec.getElem_not]
  cases (15#32)[i] <;> simp

theorem lt_iff (a b : BitVec 32) : lt a b = true ↔ a.toInt < b.toInt := by
  simp [lt, BitVec.slt]

theorem not_lt_zero (v : BitVec 32) : (!lt v 0#32) = true ↔ 0 ≤ v.toInt := by
  simp [lt, BitVec.slt]

theorem zero_lt (v : BitVec 32) : lt 0#32 v = true ↔ 0 < v.toInt := by
  simp [lt, BitVec.slt]

theorem mode_cond (v : BitVec 32) :
    (!lt (v &&& 7#32) 0#32 && lt (v &&& 7#32) 3#32) = true ↔ v.toNat % 8 < 3 := by
  have h := and7 v
  have hlt : (v &&& 7#32).toNat < 8 := by omega
  have e : (v &&& 7#32).toInt = ((v &&& 7#32).toNat : ℤ) :=
    BitVec.toInt_eq_toNat_of_lt (by omega)
  rw [Bool.and_eq_true, not_lt_zero, lt_iff, e, h]
  have : (3#32).toInt = 3 := by decide
  rw [this]
  omega

theorem rowCuts_cond (v : BitVec 32) :
    (lt (-5#32) v && lt v 5#32) = true ↔ -5 < v.toInt ∧ v.toInt < 5 := by
  rw [Bool.and_eq_true, lt_iff, lt_iff]
  have h1 : (-5#32 : BitVec 32).toInt = -5 := by decide
  have h2 : (5#32 : BitVec 32).toInt = 5 := by decide
  rw [h1, h2]

theorem stored_mode (v : BitVec 32) : v &&& 15#32 = BitVec.ofNat 32 (v.toNat % 16) := by
  apply BitVec.eq_of_toNat_eq
  rw [and15, BitVec.toNat_ofNat]
  omega

theorem set_other (o : Obj) (n : Name) (v : BitVec 32) (m : Name) (hm : m ≠ n) :
    get (set o n v) m = get o m := by
  cases n <;> unfold set <;> dsimp only <;> (try split_ifs) <;> first
    | rfl
    | (cases m <;> first | rfl | exact absurd rfl hm)

theorem set_rejected (o : Obj) (n : Name) (v : BitVec 32) (hv : ¬ accepts n v) (m : Name) :
    get (set o n v) m = get o m := by
  cases n <;> simp only [accepts, range, not_true_eq_false, ← mode_cond, ← rowCuts_cond,
    ← zero_lt, ← not_lt_zero] at hv <;> simp only [set, if_neg hv]

theorem set_same (o : Obj) (n : Name) (v : BitVec 32) (hv : accepts n v) :
    get (set o n v) n = stored n v := by
  cases n <;> simp only [accepts, range, ← mode_cond, ← rowCuts_cond,
    ← zero_lt, ← not_lt_zero] at hv <;> simp only [set, if_pos hv, get, stored]
  rw [merge, stored_mode]

theorem stored_range (n : Name) (v : BitVec 32) (hv : accepts n v) : range n (stored n v) := by
  cases n <;> first
    | exact hv
    | (simp only [accepts] at hv
       simp only [range, stored, BitVec.toNat_ofNat]
       omega)

theorem set_range (o : Obj) (n : Name) (v : BitVec 32) (ho : ∀ m, range m (get o m)) (m : Name) :
    range m (get (set o n v) m) := by
  by_cases hm : m = n
  · subst hm
    by_cases hv : accepts m v
    · rw [set_same o m v hv]; exact stored_range m v hv
    · rw [set_rejected o m v hv]; exact ho m
  · rw [set_other o n v m hm]; exact ho m

theorem fresh_range (n : Name) : range n (get fresh n) := by
  cases n <;> simp only [range] <;> decide

theorem get_copy (o : Obj) (n : Name) : get (copy o) n = get o n := by
  cases n <;> rfl

theorem get_assign (a b : Obj) (n : Name) : get (assign a b) n = get b n := by
  cases n <;> rfl

/-- C32 for `CglProbing`: ranges. -/
theorem ranges : impl.KeepsRanges doc :=
  Impl.keepsRanges _ _ fresh_range set_range get_copy get_assign

/-- C32 for `CglProbing`: rejected calls. -/
theorem rejected : impl.RejectsQuietly doc :=
  Impl.rejectsQuietly _ _ set_rejected

/-- C45 for `CglProbing`: read back. -/
theorem readback : impl.ReadsBack doc (fun _ => True) (fun _ => True) := by
  refine Impl.readsBack _ _ _ _ (fun n _ => by cases n <;> rfl) ?_ (fun o n _ => get_copy o n)
    (fun a b n _ => get_assign a b n)
  intro _ o n v _ m _
  change get (set o n v) m = _
  by_cases hm : m = n
  · subst hm
    by_cases hv : doc.accepts m v
    · rw [set_same o m v hv]; simp only [Doc.update, hv, and_self, if_true]; rfl
    · rw [set_rejected o m v hv m]; simp only [Doc.update, hv, and_false, if_false]; rfl
  · rw [set_other o n v m hm]; simp only [Doc.update, hm, false_and, if_false]; rfl

/-- A history that meets the hypotheses and does something: the mode is set on a copy, whose
original keeps its own; a bad mode and a bad pass count are ignored. -/
example : (impl.run [.new, .copy 0, .set 1 .mode 10, .set 1 .mode 3, .set 0 .maxPass (-1#32)]).map
    (fun o => (get o .mode, get o .maxPass)) = [(1#32, 3#32), (10#32, 3#32)] := by
  decide

end Cgl.Param.Probing
