import Verif.Param.Model
import Verif.Param.Generic
import Mathlib.Tactic.NormNum
import Mathlib.Tactic.SplitIfs

/-! The local conditions of `Verif/Param/Generic.lean`, class by class. -/

namespace Cgl.Param

theorem dblMax_pos : (0 : ℚ) < dblMax := by decide +kernel

namespace Base

theorem fresh_range (n : Name) : range n (get fresh n) := by
  cases n <;> simp [range, get, fresh, dblMax_pos] <;> norm_num

theorem set_range (o : Obj) (n : Name) (v : ℚ) (ho : ∀ m, range m (get o m)) (m : Name) :
    range m (get (set o n v) m) := by
  cases n <;> unfold set <;> dsimp only <;> (try split_ifs) <;> first
    | exact ho m
    | (cases m <;> first | exact ho _ | assumption | trivial)

theorem set_rejected (o : Obj) (n : Name) (v : ℚ) (hv : ¬ range n v) (m : Name) :
    get (set o n v) m = get o m := by
  cases n <;> simp only [range, not_true_eq_false] at hv <;> simp only [set, if_neg hv]

theorem set_other (o : Obj) (n : Name) (v : ℚ) (m : Name) (hm : m ≠ n) :
    get (set o n v) m = get o m := by
  cases n <;> unfold set <;> dsimp only <;> (try split_ifs) <;> first
    | rfl
    | (cases m <;> first | rfl | exact absurd rfl hm)

theorem set_same (o : Obj) (n : Name) (v : ℚ) (hv : range n v) :
    get (set o n v) n = v := by
  cases n <;> simp only [range] at hv <;> simp only [set, hv, if_true, and_self, get]

theorem get_fresh (n : Name) : get fresh n = dflt n := by
  cases n <;> rfl

theorem get_copy (o : Obj) (n : Name) : get (copy o) n = get o n := by
  cases n <;> rfl

theorem get_assign (a b : Obj) (n : Name) : get (assign a b) n = get b n := by
  cases n <;> rfl

end Base

namespace GMI

theorem fresh_range (n : Name) : range n (get fresh n) := by
  cases n <;> simp [range, get, fresh, dblMax_pos] <;> norm_num

theorem set_range (o : Obj) (n : Name) (v : ℚ) (ho : ∀ m, range m (get o m)) (m : Name) :
    range m (get (set o n v) m) := by
  cases n <;> unfold set <;> dsimp only <;> (try split_ifs) <;> first
    | exact ho m
    | (cases m <;> first | exact ho _ | assumption | trivial)

theorem set_rejected (o : Obj) (n : Name) (v : ℚ) (hv : ¬ range n v) (m : Name) :
    get (set o n v) m = get o m := by
  cases n <;> simp only [range, not_true_eq_false] at hv <;> simp only [set, if_neg hv]

theorem set_other (o : Obj) (n : Name) (v : ℚ) (m : Name) (hm : m ≠ n) :
    get (set o n v) m = get o m := by
  cases n <;> unfold set <;> dsimp only <;> (try split_ifs) <;> first
    | rfl
    | (cases m <;> first | rfl | exact absurd rfl hm)

theorem set_same (o : Obj) (n : Name) (v : ℚ) (hv : range n v) :
    get (set o n v) n = v := by
  cases n <;> simp only [range] at hv <;> simp only [set, hv, if_true, and_self, get]

theorem get_fresh (n : Name) : get fresh n = dflt n := by
  cases n <;> rfl

theorem get_copy (o : Obj) (n : Name) : get (copy o) n = get o n := by
  cases n <;> rfl

theorem get_assign (a b : Obj) (n : Name) : get (assign a b) n = get b n := by
  cases n <;> rfl

end GMI

namespace RedSplit

theorem fresh_range (n : Name) : range n (get fresh n) := by
  cases n <;> simp [range, get, fresh, dblMax_pos] <;> norm_num

theorem set_range (o : Obj) (n : Name) (v : ℚ) (ho : ∀ m, range m (get o m)) (m : Name) :
    range m (get (set o n v) m) := by
  cases n <;> unfold set <;> dsimp only <;> (try split_ifs) <;> first
    | exact ho m
    | (cases m <;> first | exact ho _ | assumption | trivial)

theorem set_rejected (o : Obj) (n : Name) (v : ℚ) (hv : ¬ range n v) (m : Name) :
    get (set o n v) m = get o m := by
  cases n <;> simp only [range, not_true_eq_false] at hv <;> simp only [set, if_neg hv]

theorem set_other (o : Obj) (n : Name) (v : ℚ) (m : Name) (hm : m ≠ n) (hg : m ≠ .MAXDYN) :
    get (set o n v) m = get o m := by
  cases n <;> unfold set <;> dsimp only <;> (try split_ifs) <;> first
    | rfl
    | (cases m <;> first | rfl | exact absurd rfl hm | exact absurd rfl hg)

theorem set_same (o : Obj) (n : Name) (v : ℚ) (hg : n ≠ .MAXDYN) (hv : range n v) :
    get (set o n v) n = v := by
  cases n <;> simp only [range] at hv <;> first
    | exact absurd rfl hg
    | simp only [set, hv, if_true, and_self, get]

theorem get_fresh (n : Name) (hg : n ≠ .MAXDYN) : get fresh n = dflt n := by
  cases n <;> first | rfl | exact absurd rfl hg

theorem get_copy (o : Obj) (n : Name) : get (copy o) n = get o n := by
  cases n <;> rfl

theorem get_assign (a b : Obj) (n : Name) : get (assign a b) n = get b n := by
  cases n <;> rfl

end RedSplit

namespace RedSplit2

theorem fresh_range (n : Name) : range n (get fresh n) := by
  cases n <;> simp [range, get, fresh, dblMax_pos] <;> norm_num

theorem set_range (o : Obj) (n : Name) (v : ℚ) (ho : ∀ m, range m (get o m)) (m : Name) :
    range m (get (set o n v) m) := by
  cases n <;> unfold set <;> dsimp only <;> (try split_ifs) <;> first
    | exact ho m
    | (cases m <;> first | exact ho _ | assumption | trivial)

theorem set_rejected (o : Obj) (n : Name) (v : ℚ) (hv : ¬ accepts n v) (m : Name) :
    get (set o n v) m = get o m := by
  cases n <;> simp only [accepts, range, not_true_eq_false] at hv <;> simp only [set, if_neg hv]

theorem set_other (o : Obj) (n : Name) (v : ℚ) (m : Name) (hm : m ≠ n) (hn : n ≠ .MAX_SUPP_REL) :
    get (set o n v) m = get o m := by
  cases n <;> unfold set <;> dsimp only <;> (try split_ifs) <;> first
    | rfl
    | (cases m <;> first | rfl | exact absurd rfl hm | exact absurd rfl hn)

theorem set_same (o : Obj) (n : Name) (v : ℚ) (hn : n ≠ .MAX_SUPP_REL) (hv : accepts n v) :
    get (set o n v) n = stored n v := by
  by_cases h : n = .timeLimit
  · subst h
    simp only [set, stored]
    split_ifs with h0
    · exact (max_eq_left h0).symm
    · exact (max_eq_right (le_of_lt (not_le.mp h0))).symm
  · cases n <;> simp only [accepts, range] at hv <;> first
      | exact absurd rfl hn
      | exact absurd rfl h
      | (simp only [set, stored, hv, if_true, and_self, get])

/-- Without restriction on the history: the getters other than those of the two parameters that
`setMAX_SUPP_REL` confuses. -/
theorem set_untouched (o : Obj) (n : Name) (v : ℚ) (m : Name) (hm : m ≠ n) (h1 : m ≠ .MINVIOL) :
    get (set o n v) m = get o m := by
  cases n <;> unfold set <;> dsimp only <;> (try split_ifs) <;> first
    | rfl
    | (cases m <;> first | rfl | exact absurd rfl hm | exact absurd rfl h1)

theorem get_fresh (n : Name) : get fresh n = dflt n := by
  cases n <;> rfl

theorem get_copy (o : Obj) (n : Name) : get (copy o) n = get o n := by
  cases n <;> rfl

theorem get_assign (a b : Obj) (n : Name) : get (assign a b) n = get b n := by
  cases n <;> rfl

end RedSplit2

namespace Gomory

theorem fresh_range (n : Name) : range n (get fresh n) := by
  cases n <;> simp [range, get, fresh, dblMax_pos] <;> norm_num

theorem set_range (o : Obj) (n : Name) (v : ℚ) (ho : ∀ m, range m (get o m)) (m : Name) :
    range m (get (set o n v) m) := by
  cases n <;> unfold set <;> dsimp only <;> (try split_ifs) <;> first
    | exact ho m
    | (cases m <;> first | exact ho _ | assumption | trivial)

theorem set_rejected (o : Obj) (n : Name) (v : ℚ) (hv : ¬ range n v) (m : Name) :
    get (set o n v) m = get o m := by
  cases n <;> simp only [range, not_true_eq_false] at hv <;> simp only [set, if_neg hv]

theorem set_other (o : Obj) (n : Name) (v : ℚ) (m : Name) (hm : m ≠ n) :
    get (set o n v) m = get o m := by
  cases n <;> unfold set <;> dsimp only <;> (try split_ifs) <;> first
    | rfl
    | (cases m <;> first | rfl | exact absurd rfl hm)

theorem set_same (o : Obj) (n : Name) (v : ℚ) (hv : range n v) :
    get (set o n v) n = v := by
  cases n <;> simp only [range] at hv <;> simp only [set, hv, if_true, and_self, get]

theorem get_fresh (n : Name) : get fresh n = dflt n := by
  cases n <;> rfl

theorem get_copy (o : Obj) (n : Name) : get (copy o) n = get o n := by
  cases n <;> rfl

theorem get_assign (a b : Obj) (n : Name) : get (assign a b) n = get b n := by
  cases n <;> rfl

end Gomory

namespace Twomir

theorem fresh_range (n : Name) : range n (get fresh n) := by
  cases n <;> simp [range, get, fresh, dblMax_pos] <;> norm_num

theorem set_range (o : Obj) (n : Name) (v : ℚ) (ho : ∀ m, range m (get o m)) (m : Name) :
    range m (get (set o n v) m) := by
  cases n <;> unfold set <;> dsimp only <;> (try split_ifs) <;> first
    | exact ho m
    | (cases m <;> first | exact ho _ | assumption | trivial)

theorem set_rejected (o : Obj) (n : Name) (v : ℚ) (hv : ¬ range n v) (m : Name) :
    get (set o n v) m = get o m := by
  cases n <;> simp only [range, not_true_eq_false] at hv <;> simp only [set, if_neg hv]

theorem set_other (o : Obj) (n : Name) (v : ℚ) (m : Name) (hm : m ≠ n) :
    get (set o n v) m = get o m := by
  cases n <;> unfold set <;> dsimp only <;> (try split_ifs) <;> first
    | rfl
    | (cases m <;> first | rfl | exact absurd rfl hm)

theorem set_same (o : Obj) (n : Name) (v : ℚ) (hv : range n v) :
    get (set o n v) n = v := by
  cases n <;> simp only [range] at hv <;> simp only [set, hv, if_true, and_self, get]

theorem get_fresh (n : Name) : get fresh n = dflt n := by
  cases n <;> rfl

theorem get_copy (o : Obj) (n : Name) : get (copy o) n = get o n := by
  cases n <;> rfl

theorem get_assign (a b : Obj) (n : Name) : get (assign a b) n = get b n := by
  cases n <;> rfl

end Twomir

end Cgl.Param
