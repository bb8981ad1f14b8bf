import Verif.Param.Props

/-!
Where reading back fails, and histories that meet the hypotheses of the theorems of
`Verif/Param/Props.lean`.
-/

namespace Cgl.Param

/-- C45 is false of `CglRedSplitParam`: `setMAXDYN(100)` is accepted (100 > 1) and `getMAXDYN()`
still returns `1e13`, the value of `MAXDYN_LUB`. -/
theorem RedSplit.maxdyn_not_read_back :
    ¬ RedSplit.impl.ReadsBack RedSplit.doc (fun _ => True) (fun _ => True) := by
  intro h
  have := h [.new, .set 0 .MAXDYN 100] (by simp) 0 .MAXDYN trivial
  have hr : RedSplit.range .MAXDYN 100 := by simp only [RedSplit.range]; norm_num
  simp [Impl.run, Impl.step, Doc.run, Doc.step, Doc.update, RedSplit.impl, RedSplit.doc,
    RedSplit.get, RedSplit.set, RedSplit.fresh, hr] at this
  obtain ⟨a, ha, hb⟩ := this
  have ha := Option.some.inj ha
  subst ha
  norm_num at hb

/-- C45 is false of `CglRedSplit2Param`: `setMAX_SUPP_REL(0.05)` is accepted, and changes the
value that `getMINVIOL()` returns. -/
theorem RedSplit2.max_supp_rel_changes_minviol :
    ¬ RedSplit2.impl.ReadsBack RedSplit2.doc (fun n => n = .MINVIOL) (fun _ => True) := by
  intro h
  have := h [.new, .set 0 .MAX_SUPP_REL (1/20)] (by simp) 0 .MINVIOL rfl
  simp [Impl.run, Impl.step, Doc.run, Doc.step, Doc.update, RedSplit2.impl, RedSplit2.doc,
    RedSplit2.get, RedSplit2.set, RedSplit2.fresh, RedSplit2.dflt] at this
  obtain ⟨a, ha, hb⟩ := this
  have ha := Option.some.inj ha
  subst ha
  norm_num at hb

/-- And `getMAX_SUPP_REL()` does not return the value asked for. -/
theorem RedSplit2.max_supp_rel_not_read_back :
    ¬ RedSplit2.impl.ReadsBack RedSplit2.doc (fun n => n = .MAX_SUPP_REL) (fun _ => True) := by
  intro h
  have := h [.new, .set 0 .MAX_SUPP_REL (1/20)] (by simp) 0 .MAX_SUPP_REL rfl
  have hr : RedSplit2.accepts .MAX_SUPP_REL (1/20) := by
    simp only [RedSplit2.accepts, RedSplit2.range]; norm_num
  have e : ((RedSplit2.impl.run [.new, .set 0 .MAX_SUPP_REL (1/20)])[0]?).map
      (fun o => RedSplit2.impl.get o .MAX_SUPP_REL) = some (1/10) := by decide +kernel
  rw [e] at this
  simp [Doc.run, Doc.step, Doc.update, RedSplit2.doc, RedSplit2.stored] at this
  rw [if_pos (by simpa using hr)] at this
  norm_num at this

/-- A history with a copy, an assignment, accepted and rejected calls, on `CglGMIParam`: the
values of `AWAY` of the three objects afterwards. -/
example : (GMI.impl.run [.new, .set 0 .AWAY (1/4), .copy 0, .set 0 .AWAY (3/4), .new,
    .set 1 .AWAY (1/2), .assign 2 0]).map (fun o => GMI.get o .AWAY) = [1/4, 1/2, 1/4] := by
  decide +kernel

/-- The same for `CglRedSplit2Param`, avoiding `setMAX_SUPP_REL`: a negative time limit is read
as 0. -/
example : (∀ op ∈ ([.new, .set 0 .timeLimit (-3), .copy 0, .set 1 .MINVIOL (1/50)] :
    List (Op RedSplit2.Name ℚ)), Op.avoids .MAX_SUPP_REL op) ∧
    (RedSplit2.impl.run [.new, .set 0 .timeLimit (-3), .copy 0, .set 1 .MINVIOL (1/50)]).map
      (fun o => (RedSplit2.get o .timeLimit, RedSplit2.get o .MINVIOL)) =
      [(0, 1/1000), (0, 1/50)] := by
  refine ⟨?_, by decide +kernel⟩
  intro op hop
  simp only [List.mem_cons, List.not_mem_nil, or_false] at hop
  rcases hop with rfl | rfl | rfl | rfl <;> simp [Op.avoids]

end Cgl.Param
