import Verif.Tableau

/-!
# Model of CglGMI

`src/CglGMI/CglGMI.cpp`, `src/CglGMI/CglGMI.hpp`, compiled without `OSI_TABLEAU` (the default) and without the tracing
and rejection-counting macros.  `double` is read as exact rational arithmetic; the tolerances are kept.
-/

namespace Cgl.GMI

/-- `CglGMIParam::CleaningProcedure` (`CglGMIParam.hpp`). -/
inductive Proc
  | landp1 | landp2 | redsplit | integral | landp1Int | landp1ScaleMax | landp1ScaleRhs
deriving DecidableEq, Repr

/-- The fields of `CglGMIParam` (and of its base class `CglParam`) read by `CglGMI`. -/
structure Prm where
  infinit : ℚ
  eps : ℚ
  epsCoeff : ℚ
  away : ℚ
  epsElim : ℚ
  epsRelaxAbs : ℚ
  epsRelaxRel : ℚ
  maxDyn : ℚ
  minViol : ℚ
  maxSupportAbs : ℤ
  maxSupportRel : ℚ
  integralScaleCont : Bool
  enforceScaling : Bool
  proc : Proc

/-- What the generator reads from the LP solver besides the problem: `getBasisStatus` (0 free, 1 basic, 2 at upper,
3 at lower), `getColSolution`, `getRowActivity`, and the outcome of the factorization (`CglGMI.cpp` 1088-1091 and
1156-1161): `none` if it fails, otherwise for a basic column the nonzeros of its row of the inverse of the basis
matrix.  `CoinFactorization` is outside `/repo`. -/
structure Lp where
  cstat : Nat → Nat
  rstat : Nat → Nat
  xlp : Nat → ℚ
  act : Nat → ℚ
  binv : Option (Nat → SVec)

/-- `areEqual` (`CglGMI.hpp` 83-88) with both tolerances `eps`. -/
def areEqual (eps x y : ℚ) : Bool := decide (|x - y| ≤ max eps (eps * max |x| |y|))

/-- `isZero` (`CglGMI.hpp` 91-93). -/
def isZero (x : ℚ) : Bool := decide (|x| ≤ 1 / 10 ^ 20)

/-- `isIntegerValue` (`CglGMI.hpp` 97-102). -/
def isIntegerValue (x : ℚ) : Bool := decide (|x - ⌊x + 1 / 2⌋| ≤ max (1 / 10 ^ 9) (1 / 10 ^ 15 * |x|))

/-- `aboveInteger` (`CglGMI.cpp` 194-196). -/
def aboveInteger (v : ℚ) : ℚ := v - ⌊v⌋

/-- `computeIsInteger` (`CglGMI.cpp` 1315-1332): integer columns, and continuous columns fixed at an integer. -/
def isInteger (prm : Prm) (P : Prob) (j : Nat) : Bool :=
  if P.isInt j then true
  else areEqual prm.eps (P.colLower j) (P.colUpper j) && isIntegerValue (P.colUpper j)

/-- `computeCutFractionality` (`CglGMI.cpp` 253-262): `none` if it rejects, otherwise `f0`; the right-hand side of
the cut is `-f0`. -/
def cutFractionality (prm : Prm) (varRhs : ℚ) : Option ℚ :=
  let f0 := aboveInteger varRhs
  if f0 < prm.away ∨ 1 - f0 < prm.away then none else some f0

/-- `computeCutCoefficient` (`CglGMI.cpp` 265-288); `int` is `index < ncol && isInteger[index]`. -/
def cutCoefficient (f0 : ℚ) (int : Bool) (rowElem : ℚ) : ℚ :=
  if int then
    let f := aboveInteger rowElem
    if f0 < f then - ((1 - f) * (f0 / (1 - f0))) else - f
  else if rowElem < 0 then rowElem * (f0 / (1 - f0)) else - rowElem

/-- The cut under construction in dense form (`cut`, `cutRhs`). -/
structure Dense where
  cut : Nat → ℚ
  rhs : ℚ

/-- `flip` (`CglGMI.cpp` 316-321); `stat` is the status of the column or of the slack. -/
def flip (stat : Nat) (e : ℚ) : ℚ := if stat = 2 then - e else e

/-- `unflipOrig` (`CglGMI.cpp` 324-334): new coefficient and amount added to the right-hand side. -/
def unflipOrig (stat : Nat) (lower upper c : ℚ) : ℚ × ℚ :=
  if stat = 2 then (- c, - c * upper) else if stat = 3 then (c, c * lower) else (c, 0)

/-- `unflipSlack` (`CglGMI.cpp` 337-349). -/
def unflipSlack (stat : Nat) (slackVal c : ℚ) : ℚ × ℚ :=
  if stat = 2 then (- c, - c * slackVal) else if stat = 3 then (c, c * slackVal) else (c, 0)

/-- `eliminateSlack` (`CglGMI.cpp` 291-313) for row `r` with right-hand side `rhs`. -/
def eliminateSlack (prm : Prm) (r : Row) (rhs c : ℚ) (d : Dense) : Dense :=
  if prm.epsElim < |c| then
    if areEqual prm.eps r.lb r.ub then d
    else ⟨r.coefs.foldl (fun cut p => Function.update cut p.1 (cut p.1 - c * p.2)) d.cut, d.rhs - c * rhs⟩
  else d

/-- Body of the loop over the columns (`CglGMI.cpp` 1172-1202). -/
def colStep (prm : Prm) (P : Prob) (lp : Lp) (ρ : SVec) (f0 : ℚ) (d : Dense) (j : Nat) : Dense :=
  if lp.cstat j = 1 ∨ areEqual prm.eps (P.colLower j) (P.colUpper j) = true then d
  else
    let rowElem := tabEntry P ρ j
    if isZero rowElem then d
    else
      let c := cutCoefficient f0 (isInteger prm P j) (flip (lp.cstat j) rowElem)
      if isZero c then d
      else
        let u := unflipOrig (lp.cstat j) (P.colLower j) (P.colUpper j) c
        ⟨Function.update d.cut j u.1, d.rhs + u.2⟩

/-- Body of the loop over the slacks (`CglGMI.cpp` 1216-1239): entry `p` of the row of the basis inverse. -/
def slackStep (prm : Prm) (P : Prob) (lp : Lp) (f0 : ℚ) (d : Dense) (p : Nat × ℚ) : Dense :=
  if isZero p.2 then d
  else
    let c := cutCoefficient f0 false (flip (lp.rstat p.1) p.2)
    if isZero c then d
    else
      let u := unflipSlack (lp.rstat p.1) (P.rhs p.1 - lp.act p.1) c
      eliminateSlack prm (P.row p.1) (P.rhs p.1) u.1 ⟨d.cut, d.rhs + u.2⟩

/-- The dense cut of one tableau row (`CglGMI.cpp` 1163-1239). -/
def denseCut (prm : Prm) (P : Prob) (lp : Lp) (ρ : SVec) (f0 : ℚ) : Dense :=
  ρ.foldl (slackStep prm P lp f0)
    ((List.range P.nCols).foldl (colStep prm P lp ρ f0) ⟨fun _ => 0, - f0⟩)

/-- A cut `elems · x ≤ rhs` in sparse form. -/
structure Cut where
  elems : SVec
  rhs : ℚ
deriving DecidableEq, Repr

/-- `packRow` (`CglGMI.cpp` 352-362). -/
def packRow (n : Nat) (d : Dense) : Cut :=
  ⟨((List.range n).filter fun j => ! isZero (d.cut j)).map fun j => (j, d.cut j), d.rhs⟩

/-- `checkViolation` (`CglGMI.cpp` 708-727). -/
def checkViolation (prm : Prm) (xbar : Nat → ℚ) (c : Cut) : Bool :=
  let v := SVec.dot c.elems xbar - c.rhs
  decide (prm.minViol ≤ if 1 < |c.rhs| then v / |c.rhs| else v)

/-- The pair `(min, max)` computed by `checkDynamism` (`CglGMI.cpp` 732-741). -/
def minMax (inf : ℚ) (v : SVec) : ℚ × ℚ :=
  v.foldl (fun m p => if isZero p.2 then m else (min m.1 |p.2|, max m.2 |p.2|)) (inf, 0)

/-- `checkDynamism` (`CglGMI.cpp` 730-752). -/
def checkDynamism (prm : Prm) (c : Cut) : Bool :=
  ! decide ((minMax prm.infinit c.elems).1 * prm.maxDyn < (minMax prm.infinit c.elems).2)

/-- `checkSupport` (`CglGMI.cpp` 755-765). -/
def checkSupport (prm : Prm) (nCols : Nat) (c : Cut) : Bool :=
  ! decide ((prm.maxSupportAbs : ℚ) + prm.maxSupportRel * nCols < c.elems.length)

/-- Loop of `removeSmallCoefficients` (`CglGMI.cpp` 773-792). -/
def removeSmallLoop (prm : Prm) (P : Prob) : SVec → ℚ → Cut
  | [], rhs => ⟨[], rhs⟩
  | (col, v) :: l, rhs =>
    if isZero v = false ∧ |v| ≤ prm.epsCoeff then
      if 0 < v ∧ - prm.infinit < P.colLower col then removeSmallLoop prm P l (rhs - v * P.colLower col)
      else if v < 0 ∧ P.colUpper col < prm.infinit then removeSmallLoop prm P l (rhs - v * P.colUpper col)
      else removeSmallLoop prm P l rhs
    else if prm.epsCoeff < |v| then
      let c := removeSmallLoop prm P l rhs
      ⟨(col, v) :: c.elems, c.rhs⟩
    else removeSmallLoop prm P l rhs

/-- `removeSmallCoefficients` (`CglGMI.cpp` 768-796). -/
def removeSmall (prm : Prm) (P : Prob) (c : Cut) : Cut := removeSmallLoop prm P c.elems c.rhs

/-- `relaxRhs` (`CglGMI.cpp` 799-806). -/
def relaxRhs (prm : Prm) (c : Cut) : Cut :=
  if 0 < prm.epsRelaxRel then ⟨c.elems, c.rhs + (|c.rhs| * prm.epsRelaxRel + prm.epsRelaxAbs)⟩
  else ⟨c.elems, c.rhs + prm.epsRelaxAbs⟩

/-- Outcome of a scaling attempt. -/
inductive Scaled
  /-- returns `false`, the cut is unchanged -/
  | fail
  /-- returns `true` -/
  | done (c : Cut)
  /-- a division by zero: the numbers in the cut are infinities or NaN -/
  | nan
  /-- overflow of `int64_t`, a signed `INT64_MIN / -1`, or a call of `exit` -/
  | undef
deriving DecidableEq, Repr

/-- Multiply a cut by `k`. -/
def Cut.scale (k : ℚ) (c : Cut) : Cut := ⟨c.elems.map fun p => (p.1, p.2 * k), c.rhs * k⟩

/-- Divide a cut by `k` (`CglGMI.cpp` 835-838, 851-854, 873-876). -/
def Cut.divide (k : ℚ) (c : Cut) : Cut := ⟨c.elems.map fun p => (p.1, p.2 / k), c.rhs / k⟩

/-- Largest magnitude in the cut (`CglGMI.cpp` 821-826). -/
def maxAbs (c : Cut) : ℚ := c.elems.foldl (fun m p => if isZero p.2 then m else max m |p.2|) |c.rhs|

/-- Scaling types 1 and 2 after the computation of `max` (`CglGMI.cpp` 827-840, 844-857). -/
def scaleBy (prm : Prm) (m : ℚ) (c : Cut) : Scaled :=
  if m < prm.eps ∨ prm.maxDyn < m then .fail else if m = 0 then .nan else .done (c.divide m)

/-- Number of nonzeros and sum of squares (`CglGMI.cpp` 860-867). -/
def normSq (c : Cut) : Nat × ℚ :=
  c.elems.foldl (fun s p => if isZero p.2 then s else (s.1 + 1, s.2 + p.2 * p.2)) (0, 0)

/-- Scaling type 3 (`CglGMI.cpp` 859-880).  `sqrt` is `std::sqrt`, any function here; with no nonzero the code computes
`0.0 / 0`, and a NaN passes the two tests. -/
def scaleNorm (sqrt : ℚ → ℚ) (c : Cut) : Scaled :=
  if (normSq c).1 = 0 then .nan
  else
    let s := sqrt ((normSq c).2 / (normSq c).1)
    if s < 1 / 50 ∨ 100 < s then .fail else .done (c.divide s)

/-- Fits in `int64_t`. -/
def fits (z : ℤ) : Bool := decide (-2 ^ 63 ≤ z ∧ z < 2 ^ 63)

/-- Loop of `computeGcd` (`CglGMI.cpp` 956-960); `%` truncates.  The fuel is the magnitude of `a`. -/
def gcdLoop : Nat → ℤ → ℤ → ℤ
  | 0, _, b => b
  | n + 1, a, b => if Int.tmod b a = 0 then a else gcdLoop n (Int.tmod b a) a

/-- `computeGcd` (`CglGMI.cpp` 936-962); `none` is the call of `exit(1)` on two zeros. -/
def computeGcd (a b : ℤ) : Option ℤ :=
  let lo := if b < a then b else a
  let hi := if b < a then a else b
  if lo = 0 then (if hi = 0 then none else some hi) else some (gcdLoop lo.natAbs lo hi)

/-- Loop over the coefficients in `scaleCutIntegral` (`CglGMI.cpp` 904-919).  `rat v` is numerator and denominator of
`CoinRational(v, EPS, 1000)`, which is outside `/repo`: any function here.  `.done` carries `(gcd, lcm)` as a cut-free
pair. -/
def gcdLcm (prm : Prm) (P : Prob) (rat : ℚ → ℤ × ℤ) : SVec → ℤ → ℤ → Except Scaled (ℤ × ℤ)
  | [], g, l => .ok (g, l)
  | (col, v) :: cs, g, l =>
    if P.isInt col = false ∧ prm.integralScaleCont = false then gcdLcm prm P rat cs g l
    else if (rat v).1 = 0 then .error .fail
    else
      match computeGcd g (rat v).1, computeGcd l (rat v).2 with
      | some g', some d =>
        if fits g' ∧ fits (Int.tdiv (rat v).2 d) ∧ fits (l * Int.tdiv (rat v).2 d) then
          gcdLcm prm P rat cs g' (l * Int.tdiv (rat v).2 d)
        else .error .undef
      | _, _ => .error .undef

/-- `scaleCutIntegral` (`CglGMI.cpp` 885-933). -/
def scaleIntegral (prm : Prm) (P : Prob) (rat : ℚ → ℤ × ℤ) (c : Cut) : Scaled :=
  if (rat c.rhs).1 = 0 then .fail
  else
    match gcdLcm prm P rat c.elems |(rat c.rhs).1| (rat c.rhs).2 with
    | .error e => e
    | .ok (g, l) =>
      if 1000 < |(l : ℚ) / g| then .fail else .done (c.scale ((l : ℚ) / g))

/-- Outcome of `cleanCut`. -/
inductive Res
  /-- returns `false` -/
  | reject
  /-- returns `true` with this cut -/
  | ok (c : Cut)
  /-- the arithmetic has left the rationals, or undefined behaviour -/
  | undef
deriving DecidableEq, Repr

/-- `if (!scaleCut(...) && ENFORCE_SCALING) return false;` and what follows. -/
def andThen (prm : Prm) (s : Scaled) (onFail : Cut) (k : Cut → Res) : Res :=
  match s with
  | .fail => if prm.enforceScaling then .reject else k onFail
  | .done c => k c
  | .nan => .undef
  | .undef => .undef

/-- `cleanCut` (`CglGMI.cpp` 365-705).  `sqrt` and `rat` are the library functions. -/
def cleanCut (prm : Prm) (P : Prob) (sqrt : ℚ → ℚ) (rat : ℚ → ℤ × ℤ) (xbar : Nat → ℚ) (c : Cut) : Res :=
  match prm.proc with
  | .landp1 =>
    if checkViolation prm xbar c then
      let c := removeSmall prm P (relaxRhs prm c)
      if checkSupport prm P.nCols c then
        if checkDynamism prm c then
          if checkViolation prm xbar c then .ok c else .reject
        else .reject
      else .reject
    else .reject
  | .landp2 =>
    if checkViolation prm xbar c then
      let c := relaxRhs prm c
      if checkDynamism prm c then
        andThen prm (scaleBy prm (maxAbs c) c) c fun c =>
          let c := removeSmall prm P c
          if checkSupport prm P.nCols c then
            if checkViolation prm xbar c then .ok c else .reject
          else .reject
      else .reject
    else .reject
  | .redsplit =>
    andThen prm (scaleNorm sqrt c) c fun c =>
      let c := removeSmall prm P c
      if checkDynamism prm c then
        if checkSupport prm P.nCols c then
          if checkViolation prm xbar c then .ok (relaxRhs prm c) else .reject
        else .reject
      else .reject
  | .integral =>
    let c := removeSmall prm P c
    if checkSupport prm P.nCols c then
      if checkDynamism prm c then
        andThen prm (scaleIntegral prm P rat c) c fun c =>
          if checkViolation prm xbar c then .ok c else .reject
      else .reject
    else .reject
  | .landp1Int =>
    if checkViolation prm xbar c then
      let c := removeSmall prm P c
      if checkSupport prm P.nCols c then
        if checkDynamism prm c then
          andThen prm (scaleIntegral prm P rat c) (relaxRhs prm c) fun c =>
            if checkViolation prm xbar c then .ok c else .reject
        else .reject
      else .reject
    else .reject
  | .landp1ScaleMax =>
    if checkViolation prm xbar c then
      andThen prm (scaleBy prm (maxAbs c) c) c fun c =>
        let c := removeSmall prm P (relaxRhs prm c)
        if checkSupport prm P.nCols c then
          if checkDynamism prm c then
            if checkViolation prm xbar c then .ok c else .reject
          else .reject
        else .reject
    else .reject
  | .landp1ScaleRhs =>
    if checkViolation prm xbar c then
      andThen prm (scaleBy prm |c.rhs| c) c fun c =>
        let c := removeSmall prm P (relaxRhs prm c)
        if checkSupport prm P.nCols c then
          if checkDynamism prm c then
            if checkViolation prm xbar c then .ok c else .reject
          else .reject
        else .reject
    else .reject

/-- The relaxation for integer columns with a large range (`CglGMI.cpp` 1259-1267). -/
def relaxRange (prm : Prm) (P : Prob) (v : SVec) (rhs : ℚ) : ℚ :=
  v.foldl (fun r p =>
    if isInteger prm P p.1 ∧ 10 < P.colUpper p.1 - P.colLower p.1 then
      r + 1 / 10 ^ 8 * (P.colUpper p.1 - P.colLower p.1)
    else r) rhs

/-- The basic integer columns with a fractional value (`CglGMI.cpp` 999-1021). -/
def fracBasics (prm : Prm) (P : Prob) (lp : Lp) : List Nat :=
  (List.range P.nCols).filter fun i =>
    decide (lp.cstat i = 1) && isInteger prm P i &&
      decide (prm.away < min (aboveInteger (lp.xlp i)) (1 - aboveInteger (lp.xlp i)))

/-- Body of the main loop (`CglGMI.cpp` 1135-1280) for the basic column `b`: the cuts after it, or `none` if the
arithmetic leaves the rationals.  `insertIfNotDuplicateAndClean` is outside `/repo` and read as
`insertIfNotDuplicate`. -/
def oneRow (prm : Prm) (P : Prob) (lp : Lp) (sqrt : ℚ → ℚ) (rat : ℚ → ℤ × ℤ) (binv : Nat → SVec) (b : Nat)
    (cs : List RowCut) : Option (List RowCut) :=
  match cutFractionality prm (lp.xlp b) with
  | none => some cs
  | some f0 =>
    let c := packRow P.nCols (denseCut prm P lp (binv b) f0)
    if c.elems = [] then some cs
    else
      match cleanCut prm P sqrt rat lp.xlp c with
      | .undef => none
      | .reject => some cs
      | .ok c =>
        if c.elems = [] then some cs
        else some (insertIfNotDuplicate cs ⟨- prm.infinit, relaxRange prm P c.elems c.rhs, c.elems⟩)

/-- The main loop. -/
def rowLoop (prm : Prm) (P : Prob) (lp : Lp) (sqrt : ℚ → ℚ) (rat : ℚ → ℤ × ℤ) (binv : Nat → SVec) :
    List Nat → List RowCut → Option (List RowCut)
  | [], cs => some cs
  | b :: l, cs =>
    match oneRow prm P lp sqrt rat binv b cs with
    | none => none
    | some cs => rowLoop prm P lp sqrt rat binv l cs

/-- `generateCuts` (`CglGMI.cpp` 966-1307) when an optimal basis is available. -/
def generateCuts (prm : Prm) (P : Prob) (lp : Lp) (sqrt : ℚ → ℚ) (rat : ℚ → ℤ × ℤ) (cs : List RowCut) :
    Option (List RowCut) :=
  match fracBasics prm P lp with
  | [] => some cs
  | l =>
    match lp.binv with
    | none => some cs
    | some binv => rowLoop prm P lp sqrt rat binv l cs

end Cgl.GMI
