import Verif.Param.Lemmas

/-!
# Copies and assigned objects are equal to the original in every member (also those no getter shows)
-/

namespace Cgl.Param

theorem Base.copy_eq (a : Base.Obj) : Base.copy a = a := by cases a; rfl
theorem Base.assign_eq (a b : Base.Obj) : Base.assign a b = b := by cases a; cases b; rfl
theorem GMI.copy_eq (a : GMI.Obj) : GMI.copy a = a := by cases a; rfl
theorem GMI.assign_eq (a b : GMI.Obj) : GMI.assign a b = b := by cases a; cases b; rfl
theorem RedSplit.copy_eq (a : RedSplit.Obj) : RedSplit.copy a = a := by cases a; rfl
theorem RedSplit.assign_eq (a b : RedSplit.Obj) : RedSplit.assign a b = b := by cases a; cases b; rfl
theorem RedSplit2.copy_eq (a : RedSplit2.Obj) : RedSplit2.copy a = a := by cases a; rfl
theorem RedSplit2.assign_eq (a b : RedSplit2.Obj) : RedSplit2.assign a b = b := by cases a; cases b; rfl
theorem Gomory.copy_eq (a : Gomory.Obj) : Gomory.copy a = a := by cases a; rfl
theorem Gomory.assign_eq (a b : Gomory.Obj) : Gomory.assign a b = b := by cases a; cases b; rfl
theorem Twomir.copy_eq (a : Twomir.Obj) : Twomir.copy a = a := by cases a; rfl
theorem Twomir.assign_eq (a b : Twomir.Obj) : Twomir.assign a b = b := by cases a; cases b; rfl

end Cgl.Param
