import Verif.Param.Lemmas

/-!
C32: after any history of constructions, copies, assignments and setter calls, every parameter of
every object lies in its documented range, and a rejected call changes nothing.

C45: the getters return what the last accepted calls asked for.  This is false for two classes:
`CglRedSplitParam::getMAXDYN` returns another parameter, and
`CglRedSplit2Param::setMAX_SUPP_REL` writes another parameter; the witnesses are in
`Verif/Param/Witness.lean` and the theorems for these classes exclude exactly these calls.
-/

namespace Cgl.Param

/-- C32 for `CglParam`: ranges. -/
theorem Base.ranges : Base.impl.KeepsRanges Base.doc :=
  Impl.keepsRanges _ _ Base.fresh_range Base.set_range Base.get_copy Base.get_assign

/-- C32 for `CglParam`: rejected calls. -/
theorem Base.rejected : Base.impl.RejectsQuietly Base.doc :=
  Impl.rejectsQuietly _ _ Base.set_rejected

/-- C45 for `CglParam`: read back. -/
theorem Base.readback : Base.impl.ReadsBack Base.doc (fun _ => True) (fun _ => True) := by
  refine Impl.readsBack _ _ _ _ (fun n _ => Base.get_fresh n) ?_ (fun o n _ => Base.get_copy o n)
    (fun a b n _ => Base.get_assign a b n)
  intro _ o n v _ m _
  by_cases hm : m = n
  · subst hm
    by_cases hv : Base.doc.accepts m v
    · simp only [Doc.update, hv, and_self, if_true]; exact Base.set_same o m v hv
    · simp only [Doc.update, hv, and_false, if_false]; exact Base.set_rejected o m v hv m
  · simp only [Doc.update, hm, false_and, if_false]; exact Base.set_other o n v m hm

/-- C32 for `CglGMIParam`: ranges. -/
theorem GMI.ranges : GMI.impl.KeepsRanges GMI.doc :=
  Impl.keepsRanges _ _ GMI.fresh_range GMI.set_range GMI.get_copy GMI.get_assign

/-- C32 for `CglGMIParam`: rejected calls. -/
theorem GMI.rejected : GMI.impl.RejectsQuietly GMI.doc :=
  Impl.rejectsQuietly _ _ GMI.set_rejected

/-- C45 for `CglGMIParam`: read back. -/
theorem GMI.readback : GMI.impl.ReadsBack GMI.doc (fun _ => True) (fun _ => True) := by
  refine Impl.readsBack _ _ _ _ (fun n _ => GMI.get_fresh n) ?_ (fun o n _ => GMI.get_copy o n)
    (fun a b n _ => GMI.get_assign a b n)
  intro _ o n v _ m _
  by_cases hm : m = n
  · subst hm
    by_cases hv : GMI.doc.accepts m v
    · simp only [Doc.update, hv, and_self, if_true]; exact GMI.set_same o m v hv
    · simp only [Doc.update, hv, and_false, if_false]; exact GMI.set_rejected o m v hv m
  · simp only [Doc.update, hm, false_and, if_false]; exact GMI.set_other o n v m hm

/-- C32 for `CglRedSplitParam`: ranges. -/
theorem RedSplit.ranges : RedSplit.impl.KeepsRanges RedSplit.doc :=
  Impl.keepsRanges _ _ RedSplit.fresh_range RedSplit.set_range RedSplit.get_copy RedSplit.get_assign

/-- C32 for `CglRedSplitParam`: rejected calls. -/
theorem RedSplit.rejected : RedSplit.impl.RejectsQuietly RedSplit.doc :=
  Impl.rejectsQuietly _ _ RedSplit.set_rejected

/-- C32 for `CglRedSplit2Param`: ranges. -/
theorem RedSplit2.ranges : RedSplit2.impl.KeepsRanges RedSplit2.doc :=
  Impl.keepsRanges _ _ RedSplit2.fresh_range RedSplit2.set_range RedSplit2.get_copy RedSplit2.get_assign

/-- C32 for `CglRedSplit2Param`: rejected calls. -/
theorem RedSplit2.rejected : RedSplit2.impl.RejectsQuietly RedSplit2.doc :=
  Impl.rejectsQuietly _ _ RedSplit2.set_rejected

/-- C32 for `CglGomory`: ranges. -/
theorem Gomory.ranges : Gomory.impl.KeepsRanges Gomory.doc :=
  Impl.keepsRanges _ _ Gomory.fresh_range Gomory.set_range Gomory.get_copy Gomory.get_assign

/-- C32 for `CglGomory`: rejected calls. -/
theorem Gomory.rejected : Gomory.impl.RejectsQuietly Gomory.doc :=
  Impl.rejectsQuietly _ _ Gomory.set_rejected

/-- C45 for `CglGomory`: read back. -/
theorem Gomory.readback : Gomory.impl.ReadsBack Gomory.doc (fun _ => True) (fun _ => True) := by
  refine Impl.readsBack _ _ _ _ (fun n _ => Gomory.get_fresh n) ?_ (fun o n _ => Gomory.get_copy o n)
    (fun a b n _ => Gomory.get_assign a b n)
  intro _ o n v _ m _
  by_cases hm : m = n
  · subst hm
    by_cases hv : Gomory.doc.accepts m v
    · simp only [Doc.update, hv, and_self, if_true]; exact Gomory.set_same o m v hv
    · simp only [Doc.update, hv, and_false, if_false]; exact Gomory.set_rejected o m v hv m
  · simp only [Doc.update, hm, false_and, if_false]; exact Gomory.set_other o n v m hm

/-- C32 for `CglTwomir`: ranges. -/
theorem Twomir.ranges : Twomir.impl.KeepsRanges Twomir.doc :=
  Impl.keepsRanges _ _ Twomir.fresh_range Twomir.set_range Twomir.get_copy Twomir.get_assign

/-- C32 for `CglTwomir`: rejected calls. -/
theorem Twomir.rejected : Twomir.impl.RejectsQuietly Twomir.doc :=
  Impl.rejectsQuietly _ _ Twomir.set_rejected

/-- C45 for `CglTwomir`: read back. -/
theorem Twomir.readback : Twomir.impl.ReadsBack Twomir.doc (fun _ => True) (fun _ => True) := by
  refine Impl.readsBack _ _ _ _ (fun n _ => Twomir.get_fresh n) ?_ (fun o n _ => Twomir.get_copy o n)
    (fun a b n _ => Twomir.get_assign a b n)
  intro _ o n v _ m _
  by_cases hm : m = n
  · subst hm
    by_cases hv : Twomir.doc.accepts m v
    · simp only [Doc.update, hv, and_self, if_true]; exact Twomir.set_same o m v hv
    · simp only [Doc.update, hv, and_false, if_false]; exact Twomir.set_rejected o m v hv m
  · simp only [Doc.update, hm, false_and, if_false]; exact Twomir.set_other o n v m hm

/-- C45 for `CglRedSplitParam`: read back, for every history and every getter but `getMAXDYN`.
Missing: `getMAXDYN`, for which it is false (`Verif/Param/Witness.lean`). -/
theorem RedSplit.readback_partial :
    RedSplit.impl.ReadsBack RedSplit.doc (fun n => n ≠ .MAXDYN) (fun _ => True) := by
  refine Impl.readsBack _ _ _ _ (fun n hg => RedSplit.get_fresh n hg) ?_
    (fun o n _ => RedSplit.get_copy o n) (fun a b n _ => RedSplit.get_assign a b n)
  intro _ o n v _ m hg
  by_cases hm : m = n
  · subst hm
    by_cases hv : RedSplit.doc.accepts m v
    · simp only [Doc.update, hv, and_self, if_true]; exact RedSplit.set_same o m v hg hv
    · simp only [Doc.update, hv, and_false, if_false]; exact RedSplit.set_rejected o m v hv m
  · simp only [Doc.update, hm, false_and, if_false]; exact RedSplit.set_other o n v m hm hg

/-- C45 for `CglRedSplit2Param`: read back, for every history that never calls
`setMAX_SUPP_REL`.  Missing: the histories that do, for which it is false
(`Verif/Param/Witness.lean`). -/
theorem RedSplit2.readback_partial :
    RedSplit2.impl.ReadsBack RedSplit2.doc (fun _ => True) (Op.avoids .MAX_SUPP_REL) := by
  refine Impl.readsBack _ _ _ _ (fun n _ => RedSplit2.get_fresh n) ?_
    (fun o n _ => RedSplit2.get_copy o n) (fun a b n _ => RedSplit2.get_assign a b n)
  intro _ o n v hn m _
  by_cases hm : m = n
  · subst hm
    by_cases hv : RedSplit2.doc.accepts m v
    · simp only [Doc.update, hv, and_self, if_true]; exact RedSplit2.set_same o m v hn hv
    · simp only [Doc.update, hv, and_false, if_false]; exact RedSplit2.set_rejected o m v hv m
  · simp only [Doc.update, hm, false_and, if_false]; exact RedSplit2.set_other o n v m hm hn

/-- C45 for `CglRedSplit2Param`: for every history, calls of `setMAX_SUPP_REL` included, every
getter but `getMINVIOL` and `getMAX_SUPP_REL` reads back. -/
theorem RedSplit2.readback_others_partial :
    RedSplit2.impl.ReadsBack RedSplit2.doc
      (fun n => n ≠ .MINVIOL ∧ n ≠ .MAX_SUPP_REL) (fun _ => True) := by
  refine Impl.readsBack _ _ _ _ (fun n _ => RedSplit2.get_fresh n) ?_
    (fun o n _ => RedSplit2.get_copy o n) (fun a b n _ => RedSplit2.get_assign a b n)
  intro _ o n v _ m hg
  by_cases hm : m = n
  · subst hm
    by_cases hv : RedSplit2.doc.accepts m v
    · simp only [Doc.update, hv, and_self, if_true]; exact RedSplit2.set_same o m v hg.2 hv
    · simp only [Doc.update, hv, and_false, if_false]; exact RedSplit2.set_rejected o m v hv m
  · simp only [Doc.update, hm, false_and, if_false]; exact RedSplit2.set_untouched o n v m hm hg.1

end Cgl.Param
