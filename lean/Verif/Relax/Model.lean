import Verif.Spec

/-!
# Bounds of fixed continuous columns are relaxed before the problem is solved again

`/repo/src/CglPreProcess/CglPreProcess.cpp:3122-3142` in `CglPreProcess::preProcessNonDefault`, if the relaxation is not solved to
optimality and not unbounded.  `double` is `ℚ`.
-/

namespace Cgl.Relax

/-- One column, :3133-3140.  `O` is the problem of the user, `P` the one that is worked on. -/
def step (O : Prob) (tol : ℚ) (P : Prob) (i : Nat) : Prob :=
  if P.isInt i = false ∧ P.colUpper i - P.colLower i < tol then
    { P with
      colLower := fun k => if k = i then max (O.colLower i) (P.colLower i - tol) else P.colLower k
      colUpper := fun k => if k = i then min (O.colUpper i) (P.colUpper i + tol) else P.colUpper k }
  else P

/-- All columns, if the numbers of columns agree, :3125-3142. -/
def relax (O : Prob) (tol : ℚ) (P : Prob) : Prob :=
  if O.nCols = P.nCols then (List.range O.nCols).foldl (step O tol) P else P

end Cgl.Relax
