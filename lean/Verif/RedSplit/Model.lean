import Verif.Tableau
import Verif.Param.Model

/-!
# Model of CglRedSplit

`src/CglRedSplit/CglRedSplit.cpp`, `src/CglRedSplit/CglRedSplit.hpp`, without a given optimal solution
(`set_given_optsol`, a debugging aid) and without the tracing macros.  `double` is read as exact rational arithmetic; the
tolerances are kept.  The parameters are read through the getters of `CglRedSplitParam` (`Verif.Param.Model`), so
`MAXDYN` is what `getMAXDYN` returns.  An index below `ncol` is a column, `ncol + i` is the slack of row `i`.
-/

namespace Cgl.RedSplit

/-- The parameters of the generator. -/
abbrev Prm := Param.RedSplit.Obj

/-- The getters of `CglRedSplitParam`. -/
abbrev par (prm : Prm) : Param.RedSplit.Name → ℚ := Param.RedSplit.get prm

/-- What the generator reads from the LP solver besides the problem: `getBasisStatus` (0 free, 1 basic, 2 at upper,
3 at lower), `getColSolution`, `getRowActivity`, `getBasics` and the two arrays filled by `getBInvARow` for each row of the
tableau (`CglRedSplit.cpp` 1186-1196, 1216, 1228, 1466). -/
structure Lp where
  cstat : Nat → Nat
  rstat : Nat → Nat
  xlp : Nat → ℚ
  act : Nat → ℚ
  basis : Nat → Nat
  z : Nat → Nat → ℚ
  slack : Nat → Nat → ℚ

/-- `rs_above_integer` (`CglRedSplit.cpp` 43-50). -/
def aboveInteger (prm : Prm) (v : ℚ) : ℚ :=
  if abs ((⌊v + 1 / 2⌋ : ℚ) - v) < par prm .EPS * (|(⌊v + 1 / 2⌋ : ℚ)| + 1) then 0 else v - ⌊v⌋

/-- `compute_is_integer` (`CglRedSplit.cpp` 1639-1680): integer columns, and continuous columns fixed at an integer. -/
def isInteger (prm : Prm) (P : Prob) (j : Nat) : Bool :=
  if P.isInt j then true
  else decide (P.colUpper j - P.colLower j < par prm .EPS) && decide (aboveInteger prm (P.colUpper j) < par prm .EPS)

/-- `low_is_lub` (`CglRedSplit.cpp` 1623-1636). -/
def lowLub (prm : Prm) (P : Prob) (j : Nat) : Bool := decide (par prm .LUB < |P.colLower j|)

/-- `up_is_lub` (`CglRedSplit.cpp` 1623-1636). -/
def upLub (prm : Prm) (P : Prob) (j : Nat) : Bool := decide (par prm .LUB < |P.colUpper j|)

/-- Status of a column or slack. -/
def stat (P : Prob) (lp : Lp) (j : Nat) : Nat := if j < P.nCols then lp.cstat j else lp.rstat (j - P.nCols)

/-- Columns and slacks. -/
def indices (P : Prob) : List Nat := List.range (P.nCols + P.rows.length)

/-- Nonbasic at a bound. -/
def nonBasic (P : Prob) (lp : Lp) (j : Nat) : Bool := decide (stat P lp j = 2) || decide (stat P lp j = 3)

/-- Member of `intNonBasicVar` (`CglRedSplit.cpp` 1270-1273, 1288-1291). -/
def intNB (prm : Prm) (P : Prob) (lp : Lp) (j : Nat) : Bool :=
  nonBasic P lp j && decide (j < P.nCols) && isInteger prm P j

/-- Member of `contNonBasicVar` (`CglRedSplit.cpp` 1274-1277, 1292-1295, 1313-1327): slacks are never treated as integer. -/
def contNB (prm : Prm) (P : Prob) (lp : Lp) (j : Nat) : Bool := nonBasic P lp j && ! intNB prm P lp j

/-- `contNonBasicVar`. -/
def contVars (prm : Prm) (P : Prob) (lp : Lp) : List Nat := (indices P).filter (contNB prm P lp)

/-- `goodModel` (`CglRedSplit.cpp` 1298-1304, 1329-1335). -/
def goodModel (P : Prob) (lp : Lp) : Bool := (indices P).all fun j => decide (stat P lp j = 1) || nonBasic P lp j

/-- `cv_intBasicVar_frac` (`CglRedSplit.cpp` 1247-1258). -/
def isFrac (prm : Prm) (P : Prob) (lp : Lp) (j : Nat) : Bool :=
  decide (lp.cstat j = 1) && isInteger prm P j && decide (par prm .away < aboveInteger prm (lp.xlp j)) &&
    decide (aboveInteger prm (lp.xlp j) < 1 - par prm .away)

/-- `card_intBasicVar_frac` after the first loop. -/
def numFrac (prm : Prm) (P : Prob) (lp : Lp) : Nat := ((List.range P.nCols).filter (isFrac prm P lp)).length

/-- `new_mTab` (`CglRedSplit.cpp` 1361-1374).  `sqrt` and `cbrt` are the library functions, any functions here; `none`
stands for the undefined behaviour of a conversion to `int` out of range. -/
def rowLimit (prm : Prm) (sqrt cbrt : ℚ → ℚ) (nCont : Nat) : Option ℤ :=
  if par prm .maxTab < (nCont : ℚ) * nCont * nCont then castInt (sqrt (par prm .maxTab / nCont))
  else castInt (cbrt (par prm .maxTab))

/-- `rs_genalea` (`CglRedSplit.cpp` 223-237). -/
def genalea (x0 : ℤ) : ℚ :=
  let k := Int.tdiv x0 127773
  let x1 := 16807 * (x0 - k * 127773) - k * 2836
  (if x1 < 0 then x1 + 2147483647 else x1 : ℤ) / 2147483647

/-- `mTab` and `start` (`CglRedSplit.cpp` 1393-1412, 1435). -/
def tabSize (P : Prob) (card : Nat) (limit : ℤ) : Nat × Nat :=
  if limit < card then (limit.toNat, (truncQ (P.rows.length * genalea card)).toNat) else (card, 0)

/-- The loop that picks rows of the tableau (`CglRedSplit.cpp` 1446-1491), for the remaining values of its counter and the
number of rows still wanted.  The wrap-around test is `ind_row > nrow`, so `basis_index[nrow]` can be read: `none`. -/
def pickRows (prm : Prm) (P : Prob) (lp : Lp) (start : Nat) : List Nat → Nat → Option (List Nat)
  | [], _ => some []
  | _ :: _, 0 => some []
  | i :: l, m + 1 =>
    let r := if P.rows.length < start + i then start + i - P.rows.length else start + i
    if r = P.rows.length then none
    else if P.nCols ≤ lp.basis r then pickRows prm P lp start l (m + 1)
    else if isFrac prm P lp (lp.basis r) then
      match pickRows prm P lp start l m with
      | none => none
      | some rs => some (r :: rs)
    else pickRows prm P lp start l (m + 1)

/-! ### Reduction of the rows -/

/-- Working data of `reduce_contNonBasicTab`: `pi_mat`, `contNonBasicTab`, `norm`, `changed`, `checked`.
Simplification: the second index of `contNonBasicTab` is the variable, not its position in `contNonBasicVar`. -/
structure St where
  pi : Nat → Nat → ℤ
  tab : Nat → Nat → ℚ
  norm : Nat → ℚ
  changed : Nat → ℤ
  checked : Nat → Nat → ℤ

/-- `rs_dotProd` (`CglRedSplit.cpp` 201-209). -/
def dotTab (cont : List Nat) (u v : Nat → ℚ) : ℚ := (cont.map fun j => u j * v j).sum

/-- Change one entry of a matrix. -/
def set2 {α : Type} (f : Nat → Nat → α) (a b : Nat) (v : α) : Nat → Nat → α :=
  fun i j => if i = a ∧ j = b then v else f i j

/-- The step taken when it is rounded to `t`: the squared norm of row `r1` afterwards (`CglRedSplit.cpp` 268-269). -/
def stepVal (n1 n2 btb t : ℚ) : ℚ := n1 + t * t * n2 - 2 * btb * t

/-- `find_step` (`CglRedSplit.cpp` 259-279): step and reduction.  `none` stands for undefined behaviour: with `norm[r2]`
zero or a quotient out of range the conversion to `int` is undefined. -/
def findStep (cont : List Nat) (s : St) (r1 r2 : Nat) : Option (ℤ × ℚ) :=
  let btb := dotTab cont (s.tab r1) (s.tab r2)
  let f : ℤ := ⌊btb / s.norm r2⌋
  let vf := stepVal (s.norm r1) (s.norm r2) btb f
  let vc := stepVal (s.norm r1) (s.norm r2) btb (f + 1)
  if s.norm r2 = 0 then none
  else if vf ≤ vc then (castInt f).map fun t => (t, s.norm r1 - vf)
  else (castInt (f + 1)).map fun t => (t, s.norm r1 - vc)

/-- Representable as `int`. -/
def fitsInt (v : ℤ) : Bool := decide (intMin ≤ v ∧ v ≤ intMax)

/-- `update_pi_mat` and `update_redTab` (`CglRedSplit.cpp` 240-256) and the new norm (292); `none` stands for the overflow
of an `int`. -/
def applyStep (cont : List Nat) (m : Nat) (s : St) (r1 r2 : Nat) (step : ℤ) : Option St :=
  if (List.range m).all fun j => fitsInt (step * s.pi r2 j) && fitsInt (s.pi r1 j - step * s.pi r2 j) then
    let row : Nat → ℚ := fun j => s.tab r1 j - step * s.tab r2 j
    some { s with
      pi := Function.update s.pi r1 fun j => s.pi r1 j - step * s.pi r2 j
      tab := Function.update s.tab r1 row
      norm := Function.update s.norm r1 (dotTab cont row row) }
  else none

/-- `test_pair` (`CglRedSplit.cpp` 282-302); with `norm[r1]` zero the quotient is a NaN and the test fails. -/
def testPair (prm : Prm) (cont : List Nat) (m : Nat) (s : St) (r1 r2 : Nat) : Option (St × Bool) :=
  match findStep cont s r1 r2 with
  | none => none
  | some (step, reduc) =>
    if s.norm r1 ≠ 0 ∧ par prm .minReduc ≤ reduc / s.norm r1 then
      (applyStep cont m s r1 r2 step).map fun t => (t, true)
    else some (s, false)

/-- One test and its bookkeeping (`CglRedSplit.cpp` 353-357, 361-365); the flag is `done`. -/
def tryPair (prm : Prm) (cont : List Nat) (m : Nat) (iter : ℤ) (a b : Nat) (s : St × Bool) : Option (St × Bool) :=
  match testPair prm cont m s.1 a b with
  | none => none
  | some (t, ok) =>
    some ({ t with
      changed := if ok then Function.update t.changed a (iter + 1) else t.changed
      checked := set2 t.checked a b iter }, s.2 && ! ok)

/-- The pair must be checked (`CglRedSplit.cpp` 352, 359-360). -/
def stale (s : St) (a b : Nat) (i j : Nat) : Bool :=
  decide (s.checked a b < s.changed i) || decide (s.checked a b < s.changed j)

/-- Body of the inner loop (`CglRedSplit.cpp` 351-368). -/
def pairStep (prm : Prm) (cont : List Nat) (m : Nat) (iter : ℤ) (i j : Nat) (s : St × Bool) : Option (St × Bool) :=
  if par prm .normIsZero < s.1.norm j ∧ stale s.1 i j i j = true then
    match tryPair prm cont m iter i j s with
    | none => none
    | some s => if stale s.1 j i i j then tryPair prm cont m iter j i s else some s
  else some s

/-- The inner loop (`CglRedSplit.cpp` 350-369). -/
def innerLoop (prm : Prm) (cont : List Nat) (m : Nat) (iter : ℤ) (i : Nat) : List Nat → St × Bool → Option (St × Bool)
  | [], s => some s
  | j :: l, s =>
    match pairStep prm cont m iter i j s with
    | none => none
    | some s => innerLoop prm cont m iter i l s

/-- The loop over `i` (`CglRedSplit.cpp` 348-371). -/
def outerLoop (prm : Prm) (cont : List Nat) (m : Nat) (iter : ℤ) : List Nat → St × Bool → Option (St × Bool)
  | [], s => some s
  | i :: l, s =>
    if par prm .normIsZero < s.1.norm i then
      match innerLoop prm cont m iter i ((List.range m).filter fun j => decide (i < j)) s with
      | none => none
      | some s => outerLoop prm cont m iter l s
    else outerLoop prm cont m iter l s

/-- How a run can fail to come back with a result: undefined behaviour, or more rounds than the model was given. -/
inductive Fault
  | undef
  | fuel
deriving DecidableEq, Repr

/-- The loop `while(!done)` (`CglRedSplit.cpp` 337-373), for at most `fuel` rounds. -/
def reduceLoop (prm : Prm) (cont : List Nat) (m : Nat) : Nat → ℤ → St → Except Fault St
  | 0, _, _ => .error .fuel
  | fuel + 1, iter, s =>
    match outerLoop prm cont m iter (List.range m) (s, true) with
    | none => .error .undef
    | some (t, true) => .ok t
    | some (t, false) => reduceLoop prm cont m fuel (iter + 1) t

/-- The data before the reduction (`CglRedSplit.cpp` 309-335, 1467-1487, 1493-1500); `sel` are the rows picked. -/
def initSt (P : Prob) (lp : Lp) (cont sel : List Nat) : St :=
  let tab : Nat → Nat → ℚ := fun k j =>
    if j < P.nCols then lp.z (sel.getD k 0) j else lp.slack (sel.getD k 0) (j - P.nCols)
  { pi := fun i j => if i = j then 1 else 0
    tab := tab
    norm := fun i => dotTab cont (tab i) (tab i)
    changed := fun _ => 0
    checked := fun i j => if i = j then 0 else -1 }

/-! ### The cut of one combination -/

/-- `generate_row` (`CglRedSplit.cpp` 399-422) for the combination in row `r` of `s`. -/
def comboRow (prm : Prm) (P : Prob) (lp : Lp) (sel : List Nat) (s : St) (r j : Nat) : ℚ :=
  if contNB prm P lp j then s.tab r j
  else if intNB prm P lp j then ((List.range sel.length).map fun k => (s.pi r k : ℚ) * lp.z (sel.getD k 0) j).sum
  else if par prm .USE_CG2 = 0 then
    ((List.range sel.length).map fun k => if lp.basis (sel.getD k 0) = j then (s.pi r k : ℚ) else 0).sum
  else 0

/-- `tabrowrhs` (`CglRedSplit.cpp` 1465, 1550). -/
def comboRhs (lp : Lp) (sel : List Nat) (s : St) (r : Nat) : ℚ :=
  ((List.range sel.length).map fun k => (s.pi r k : ℚ) * lp.xlp (lp.basis (sel.getD k 0))).sum

/-- `flip` (`CglRedSplit.cpp` 576-582). -/
def flip (P : Prob) (lp : Lp) (row : Nat → ℚ) (j : Nat) : ℚ := if stat P lp j = 2 then - row j else row j

/-- Coefficient in `generate_cgcut` (`CglRedSplit.cpp` 443-460). -/
def cgCoef (f0 : ℚ) (int cont : Bool) (f v : ℚ) : ℚ :=
  if int then (if f0 < f then v - f + (f - f0) / (1 - f0) else v - f)
  else if cont then (if v < 0 then v / (1 - f0) else 0)
  else v

/-- Coefficient in `generate_cgcut_2` (`CglRedSplit.cpp` 512-533). -/
def cg2Coef (f0 : ℚ) (int cont : Bool) (f v : ℚ) : ℚ :=
  if int then (if f0 < f then - (f0 / (1 - f0)) * (1 - f) else - f)
  else if cont then (if v < 0 then v * (f0 / (1 - f0)) else - v)
  else v

/-- A dense row with its right-hand side. -/
structure Dense where
  row : Nat → ℚ
  rhs : ℚ

/-- `generate_cgcut` and `generate_cgcut_2` (`CglRedSplit.cpp` 425-542); `none` if they return 0. -/
def cgCut (prm : Prm) (P : Prob) (lp : Lp) (d : Dense) : Option Dense :=
  let f0 := aboveInteger prm d.rhs
  if f0 < par prm .away ∨ 1 - f0 < par prm .away then none
  else if par prm .USE_CG2 = 0 then
    some ⟨fun j => cgCoef f0 (intNB prm P lp j) (contNB prm P lp j) (aboveInteger prm (d.row j)) (d.row j), d.rhs - f0⟩
  else
    some ⟨fun j => cg2Coef f0 (intNB prm P lp j) (contNB prm P lp j) (aboveInteger prm (d.row j)) (d.row j), - f0⟩

/-- The value a nonbasic variable is measured from (`CglRedSplit.cpp` 590-595, 600-605); `slack_val` is 1416-1418. -/
def bound (P : Prob) (lp : Lp) (j : Nat) : ℚ :=
  if j < P.nCols then (if stat P lp j = 2 then P.colUpper j else P.colLower j)
  else P.rhs (j - P.nCols) - lp.act (j - P.nCols)

/-- `unflip` (`CglRedSplit.cpp` 585-613). -/
def unflip (P : Prob) (lp : Lp) (d : Dense) : Dense :=
  ⟨flip P lp d.row,
   d.rhs + ((indices P).map fun j => if nonBasic P lp j then flip P lp d.row j * bound P lp j else 0).sum⟩

/-- The slacks that are substituted by `eliminate_slacks` (`CglRedSplit.cpp` 553-558). -/
def eliminated (prm : Prm) (P : Prob) (d : Dense) (i : Nat) : Bool :=
  decide (par prm .EPS_ELIM < |d.row (P.nCols + i)|) && ! decide ((P.row i).ub - par prm .EPS < (P.row i).lb)

/-- `eliminate_slacks` (`CglRedSplit.cpp` 545-573). -/
def eliminate (prm : Prm) (P : Prob) (d : Dense) : Dense :=
  let l := (List.range P.rows.length).filter (eliminated prm P d)
  ⟨fun j => d.row j - (l.map fun i => d.row (P.nCols + i) * (P.row i).coef j).sum,
   d.rhs - (l.map fun i => d.row (P.nCols + i) * P.rhs i).sum⟩

/-- The coefficient counts in `row_scale_factor` (`CglRedSplit.cpp` 626-638). -/
def counts (prm : Prm) (P : Prob) (row : Nat → ℚ) (j : Nat) : Bool :=
  if lowLub prm P j || upLub prm P j then decide (par prm .EPS_COEFF_LUB < |row j|)
  else decide (par prm .EPS_COEFF < |row j|)

/-- The value of `retval` before it is checked (`CglRedSplit.cpp` 641-650). -/
def rawScale (sqrt : ℚ → ℚ) (norm : ℚ) (nelem : Nat) : ℚ :=
  if norm < 1 / 2 * nelem then 1 / 2 * sqrt (norm / nelem)
  else if 100 * nelem < norm then 10 * sqrt (norm / nelem) else 1

/-- `retval` of `row_scale_factor` from the sum of squares and the number of coefficients (`CglRedSplit.cpp` 641-652); with
no coefficient and a positive sum it is infinite. -/
def scaleValue (sqrt : ℚ → ℚ) (norm : ℚ) (nelem : Nat) : Option ℚ :=
  if nelem = 0 then (if norm = 0 then some 1 else none)
  else if rawScale sqrt norm nelem < 1 / 50 ∨ 50 < rawScale sqrt norm nelem then none
  else some (rawScale sqrt norm nelem)

/-- The sizes of the coefficients are accepted (`CglRedSplit.cpp` 619-640, 654-672). -/
def dynOk (prm : Prm) (P : Prob) (row : Nat → ℚ) : Bool :=
  let cols := List.range P.nCols
  let counted := cols.filter (counts prm P row)
  let maxVal := cols.foldl (fun m j => max m |row j|) 0
  let minVal := counted.foldl (fun m j => min m |row j|) (par prm .INFINIT)
  let hasLub := counted.any fun j => lowLub prm P j || upLub prm P j
  let small := if hasLub then par prm .EPS_COEFF_LUB else par prm .EPS_COEFF
  let dyn := if hasLub then par prm .MAXDYN_LUB else par prm .MAXDYN
  decide (small < maxVal ∧ maxVal < dyn * minVal ∧ minVal ≤ maxVal)

/-- `row_scale_factor` (`CglRedSplit.cpp` 616-675); `none` is the value -1. -/
def scaleFactor (prm : Prm) (P : Prob) (sqrt : ℚ → ℚ) (row : Nat → ℚ) : Option ℚ :=
  if dynOk prm P row then
    scaleValue sqrt ((List.range P.nCols).map fun j => |row j| * |row j|).sum
      ((List.range P.nCols).filter (counts prm P row)).length
  else none

/-- A coefficient goes into the packed row (`CglRedSplit.cpp` 700, 712-718). -/
def kept (prm : Prm) (P : Prob) (j : Nat) (v : ℚ) : Bool :=
  if par prm .EPS_COEFF < |v| then true
  else if 0 < v ∧ lowLub prm P j = false then false
  else if v < 0 ∧ upLub prm P j = false then false
  else decide (par prm .EPS_COEFF_LUB < |v|)

/-- What is taken off the right-hand side for a small coefficient (`CglRedSplit.cpp` 712-717). -/
def taken (prm : Prm) (P : Prob) (j : Nat) (v : ℚ) : ℚ :=
  if par prm .EPS_COEFF < |v| then 0
  else if 0 < v ∧ lowLub prm P j = false then v * P.colLower j
  else if v < 0 ∧ upLub prm P j = false then v * P.colUpper j
  else 0

/-- `generate_packed_row` (`CglRedSplit.cpp` 678-750): the row and its right-hand side, `none` if it returns 0. -/
def packRow (prm : Prm) (P : Prob) (sqrt : ℚ → ℚ) (xlp : Nat → ℚ) (d : Dense) : Option (SVec × ℚ) :=
  match scaleFactor prm P sqrt d.row with
  | none => none
  | some s =>
    let es := ((List.range P.nCols).filter fun j => kept prm P j (d.row j / s)).map fun j => (j, d.row j / s)
    let rhs := d.rhs / s - ((List.range P.nCols).map fun j => taken prm P j (d.row j / s)).sum
    if par prm .MAX_SUPPORT < es.length then none
    else if rhs < SVec.dot es xlp ∧ SVec.dot es xlp - rhs < par prm .MINVIOL * es.length then none
    else some (es, rhs)

/-- The dense cut of combination `r` (`CglRedSplit.cpp` 1541-1572). -/
def denseCut (prm : Prm) (P : Prob) (lp : Lp) (sel : List Nat) (s : St) (r : Nat) : Option Dense :=
  match cgCut prm P lp ⟨flip P lp (comboRow prm P lp sel s r), comboRhs lp sel s r⟩ with
  | none => none
  | some d => some (eliminate prm P (unflip P lp d))

/-- `adjust` (`CglRedSplit.cpp` 1579-1582). -/
def adjust (prm : Prm) (rhs : ℚ) : ℚ :=
  if 0 < par prm .EPS_RELAX_REL then par prm .EPS_RELAX_ABS + |rhs| * par prm .EPS_RELAX_REL
  else par prm .EPS_RELAX_ABS

/-- Body of the last loop (`CglRedSplit.cpp` 1540-1588).  `insertIfNotDuplicate` compares with the tolerance `EPS_COEFF`
there; here equal cuts are duplicates. -/
def oneCut (prm : Prm) (P : Prob) (lp : Lp) (sqrt : ℚ → ℚ) (sel : List Nat) (s : St) (r : Nat) (cs : List RowCut) :
    List RowCut :=
  match denseCut prm P lp sel s r with
  | none => cs
  | some d =>
    match packRow prm P sqrt lp.xlp d with
    | none => cs
    | some (es, rhs) =>
      if es.length < 300 then
        insertIfNotDuplicate cs ⟨- par prm .INFINIT, rhs + adjust prm rhs, es⟩
      else cs

/-- The last loop. -/
def cutLoop (prm : Prm) (P : Prob) (lp : Lp) (sqrt : ℚ → ℚ) (sel : List Nat) (s : St) : List Nat → List RowCut → List RowCut
  | [], cs => cs
  | r :: l, cs => cutLoop prm P lp sqrt sel s l (oneCut prm P lp sqrt sel s r cs)

/-- The rows of the tableau that are combined (`CglRedSplit.cpp` 1242-1491): `ok none` if the call returns without work.
Too few rows leave entries of `rhsTab` uninitialised that are read later: undefined behaviour. -/
def selection (prm : Prm) (P : Prob) (lp : Lp) (sqrt cbrt : ℚ → ℚ) : Except Fault (Option (List Nat)) :=
  if (contVars prm P lp).length = 0 ∨ numFrac prm P lp = 0 ∨ goodModel P lp = false then .ok none
  else
    match rowLimit prm sqrt cbrt (contVars prm P lp).length with
    | none => .error .undef
    | some limit =>
      if limit = 0 then .ok none
      else
        let size := tabSize P (numFrac prm P lp) limit
        match pickRows prm P lp size.2 (List.range P.rows.length) size.1 with
        | none => .error .undef
        | some sel => if sel.length = size.1 then .ok (some sel) else .error .undef

/-- The rows after the reduction (`CglRedSplit.cpp` 1435-1524). -/
def reduced (prm : Prm) (P : Prob) (lp : Lp) (sel : List Nat) (fuel : Nat) : Except Fault St :=
  reduceLoop prm (contVars prm P lp) sel.length fuel 0 (initSt P lp (contVars prm P lp) sel)

/-- `generateCuts` (`CglRedSplit.cpp` 1163-1615) when an optimal basis is available, with at most `fuel` rounds of the
reduction. -/
def generateCuts (prm : Prm) (P : Prob) (lp : Lp) (sqrt cbrt : ℚ → ℚ) (fuel : Nat) (cs : List RowCut) :
    Except Fault (List RowCut) :=
  match selection prm P lp sqrt cbrt with
  | .error e => .error e
  | .ok none => .ok cs
  | .ok (some sel) =>
    match reduced prm P lp sel fuel with
    | .error e => .error e
    | .ok s => .ok (cutLoop prm P lp sqrt sel s (List.range sel.length) cs)

end Cgl.RedSplit
