import Verif.Tableau

/-!
# Model of CglTwomir

`src/CglTwomir/CglTwomir.cpp` and `CglTwomir.hpp`, compiled with their default macros: `CBC_CHECK_CUT` and
`TWOMIR_LESS_MALLOC` defined, `CGL_HAS_CLP_TWOMIR` and `CGL_DEBUG` not.  `double` is read as exact rational arithmetic;
the tolerances are kept.

Not modelled: the second solver of `twomirType_` (only with Clp), the marking of cuts as globally valid, printing and the
allocation of memory.

Simplification, in several definitions: the arrays `x`, `rc` and `isint` that the code computes beside a constraint hold
for each entry a value that depends only on the column of the entry; the model computes that value from the column.
-/

namespace Cgl.Twomir

/-- `frac_part` and `ABOV` (`CglTwomir.hpp` 422, 427-430). -/
def frac (v : ℚ) : ℚ := v - ⌊v⌋

/-- `sense` of a `DGG_constraint_t`. -/
inductive Sns | E | G | L
deriving DecidableEq, Repr

/-- `DGG_constraint_t` (`CglTwomir.hpp`): the entries `index`/`coeff`, the right-hand side and the sense. -/
structure Con where
  es : SVec
  rhs : ℚ
  sense : Sns
deriving DecidableEq, Repr

/-- What the generator reads from the solver: the problem, the LP solution, the reduced costs (for index `ncol + i` the
dual value of row `i`) and which columns are basic. -/
structure Data where
  P : Prob
  sol : Nat → ℚ
  rc : Nat → ℚ
  basic : Nat → Bool

/-! ### `DGG_getData` (`CglTwomir.cpp` 691-925): indices below `ncol` are columns, `ncol + i` is the slack of row `i` -/

/-- `DGG_isConstraintBoundedAbove` (`CglTwomir.cpp` 821-822). -/
def above (P : Prob) (i : Nat) : Bool := decide ((P.row i).ub < P.inf)
/-- `DGG_isConstraintBoundedBelow` (`CglTwomir.cpp` 823-824). -/
def below (P : Prob) (i : Nat) : Bool := decide (-P.inf < (P.row i).lb)
/-- `DGG_isEqualityConstraint` (`CglTwomir.cpp` 817-818). -/
def isEq (P : Prob) (i : Nat) : Bool := decide (|(P.row i).ub - (P.row i).lb| ≤ 1 / 10 ^ 6)

/-- `data->lb` (`CglTwomir.cpp` 777-788, 826). -/
def lbD (P : Prob) (j : Nat) : ℚ :=
  if j < P.nCols then (if P.isInt j then (⌈P.colLower j⌉ : ℚ) else P.colLower j) else 0

/-- `data->ub` (`CglTwomir.cpp` 778-788, 827-830). -/
def ubD (P : Prob) (j : Nat) : ℚ :=
  if j < P.nCols then (if P.isInt j then (⌊P.colUpper j⌋ : ℚ) else P.colUpper j)
  else if above P (j - P.nCols) && below P (j - P.nCols) then
    (P.row (j - P.nCols)).ub - (P.row (j - P.nCols)).lb
  else P.inf

/-- Value of the slack of row `i` at `x` (`CglTwomir.cpp` 836-848, comment 804-810). -/
def slack (P : Prob) (x : Nat → ℚ) (i : Nat) : ℚ :=
  if above P i then (P.row i).ub - P.activity x i else P.activity x i - (P.row i).lb

/-- A point with its slacks: `data->x` if `x` is the LP solution (`CglTwomir.cpp` 791, 845-848). -/
def ext (P : Prob) (x : Nat → ℚ) (j : Nat) : ℚ := if j < P.nCols then x j else slack P x (j - P.nCols)

/-- The test that a slack is integer (`CglTwomir.cpp` 884-910). -/
def intSlack (P : Prob) (i : Nat) : Bool :=
  (if above P i then decide (frac (P.row i).ub ≤ 1 / 10 ^ 10) &&
      (! below P i || decide (frac (P.row i).lb ≤ 1 / 10 ^ 10))
   else decide (frac (P.row i).lb ≤ 1 / 10 ^ 10)) &&
  (P.row i).coefs.all fun p => decide (frac p.2 ≤ 1 / 10 ^ 10) && P.isInt p.1

/-- `DGG_isInteger` (`CglTwomir.cpp` 782-784, 908). -/
def isIntD (P : Prob) (j : Nat) : Bool := if j < P.nCols then P.isInt j else intSlack P (j - P.nCols)

/-! ### Constraints -/

/-- The test "close to its upper bound" of `DGG_transformConstraint` and `DGG_unTransformConstraint`
(`CglTwomir.cpp` 1331-1333, 1370-1372). -/
def flip (D : Data) (j : Nat) : Bool :=
  decide (ubD D.P j - ext D.P D.sol j < (ubD D.P j - lbD D.P j) / 2)

/-- The bound a variable is measured from. -/
def anchor (D : Data) (j : Nat) : ℚ := if flip D j then ubD D.P j else lbD D.P j

/-- Coefficient of the transformed variable. -/
def turn (D : Data) (p : Nat × ℚ) : Nat × ℚ := (p.1, if flip D p.1 then - p.2 else p.2)

/-- `DGG_transformConstraint` (`CglTwomir.cpp` 1307-1359): variables are replaced by their distance to a bound. -/
def transform (D : Data) (c : Con) : Con :=
  { c with es := c.es.map (turn D), rhs := c.rhs - (c.es.map fun p => p.2 * anchor D p.1).sum }

/-- The array `x` computed by `DGG_transformConstraint` (`CglTwomir.cpp` 1333-1346). -/
def px (D : Data) (j : Nat) : ℚ :=
  let v := if flip D j then ubD D.P j - ext D.P D.sol j else ext D.P D.sol j - lbD D.P j
  if |v| ≤ 1 / 10 ^ 6 then 0 else v

/-- `DGG_unTransformConstraint` (`CglTwomir.cpp` 1362-1380). -/
def unTransform (D : Data) (c : Con) : Con :=
  { c with
    es := c.es.map (turn D)
    rhs := c.rhs + (c.es.map fun p => if flip D p.1 then - (p.2 * ubD D.P p.1) else p.2 * lbD D.P p.1).sum }

/-- `DGG_getSlackExpression` (`CglTwomir.cpp` 928-977), coefficient of column `j` in the slack of row `i`. -/
def slackCoef (P : Prob) (i j : Nat) : ℚ := if above P i then - (P.row i).coef j else (P.row i).coef j

/-- `DGG_getSlackExpression` (`CglTwomir.cpp` 970-974), constant term of the slack of row `i`. -/
def slackConst (P : Prob) (i : Nat) : ℚ := if above P i then (P.row i).ub else - (P.row i).lb

/-- `lcut[j]` of `DGG_substituteSlacks` (`CglTwomir.cpp` 1401-1415). -/
def lcut (P : Prob) (c : Con) (j : Nat) : ℚ :=
  (c.es.map fun p =>
    if p.1 < P.nCols then (if p.1 = j then p.2 else 0) else slackCoef P (p.1 - P.nCols) j * p.2).sum

/-- `DGG_substituteSlacks` (`CglTwomir.cpp` 1383-1447). -/
def substitute (P : Prob) (c : Con) : Con :=
  { c with
    es := ((List.range P.nCols).filter fun j => decide (1 / 10 ^ 12 < |lcut P c j|)).map fun j => (j, lcut P c j)
    rhs := c.rhs - (c.es.map fun p =>
      if p.1 < P.nCols then 0 else slackConst P (p.1 - P.nCols) * p.2).sum }

/-- First loop of `DGG_nicefyConstraint` (`CglTwomir.cpp` 1459-1461). -/
def deNoise (v : ℚ) : ℚ := if |v| < 1 / 10 ^ 13 then 0 else v

/-- One entry of the second loop of `DGG_nicefyConstraint` (`CglTwomir.cpp` 1463-1500): new coefficient and what is taken
off the right-hand side.  The loop uses `data->ub`, also where the variable has been replaced by its distance to a
bound. -/
def niceEntry (P : Prob) (j : Nat) (v : ℚ) : ℚ × ℚ :=
  if isIntD P j then
    if frac v < 1 / 10 ^ 7 then
      if frac v * ubD P j < 1 / 10 ^ 6 then ((⌊v⌋ : ℚ), frac v * ubD P j) else ((⌊v⌋ : ℚ) + 1 / 10 ^ 7, 0)
    else if 1 - frac v < 1 / 10 ^ 7 then ((⌈v⌉ : ℚ), 0)
    else (v, 0)
  else if v < 1 / 10 ^ 13 then (0, 0)
  else if v < 1 / 10 ^ 7 then
    if v * ubD P j < 1 / 10 ^ 6 then (0, v * ubD P j) else (1 / 10 ^ 7, 0)
  else (v, 0)

/-- `DGG_nicefyConstraint` (`CglTwomir.cpp` 1449-1513).  The error return for sense `L` is not modelled: the callers never
pass such a constraint (`prepared_sense`). -/
def nicefy (P : Prob) (c : Con) : Con where
  es := c.es.map fun p => (p.1, (niceEntry P p.1 (deNoise p.2)).1)
  rhs := c.rhs - (c.es.map fun p => (niceEntry P p.1 (deNoise p.2)).2).sum
  sense := .G

/-- `DGG_scaleConstraint` (`CglTwomir.cpp` 1241-1251). -/
def scale (t : ℤ) (c : Con) : Con where
  es := c.es.map fun p => (p.1, p.2 * t)
  rhs := c.rhs * t
  sense := if t < 0 then (match c.sense with | .G => .L | .L => .G | .E => .E) else c.sense

/-! ### The two inequalities -/

/-- Coefficient of `DGG_buildMir` (`CglTwomir.cpp` 1978-1987). -/
def mirCoef (bht : ℚ) (int : Bool) (v : ℚ) : ℚ :=
  if int then bht * ⌊v⌋ + min bht (frac v) else if 0 < v then v else 0

/-- `DGG_buildMir` (`CglTwomir.cpp` 1961-1999).  The error returns (sense `L`, no entries) are not modelled: the caller
never passes such a constraint. -/
def buildMir (P : Prob) (c : Con) : Con where
  es := c.es.map fun p => (p.1, mirCoef (frac c.rhs) (isIntD P p.1) p.2)
  rhs := frac c.rhs * ⌈c.rhs⌉
  sense := .G

/-- `k` of `DGG_build2step` (`CglTwomir.cpp` 2046). -/
def stepK (tau : ℤ) (alpha vht : ℚ) : ℤ := min (tau - 1) ⌊vht / alpha⌋

/-- Coefficient of `DGG_build2step` (`CglTwomir.cpp` 2038-2048). -/
def stepCoef (tau : ℤ) (rho alpha : ℚ) (int : Bool) (v : ℚ) : ℚ :=
  if int then
    ⌊v⌋ * tau * rho + stepK tau alpha (frac v) * rho + min rho (frac v - stepK tau alpha (frac v) * alpha)
  else if 0 < v then v else 0

/-- `DGG_is_a_multiple_of_b(a, b)` (`CglTwomir.cpp` 2182-2190). -/
def isMultiple (a b : ℚ) : Bool := decide (b - a * ⌊b / a⌋ < 1 / 10 ^ 7)

/-- `DGG_build2step` (`CglTwomir.cpp` 2001-2056); `none` is an error return.  The error returns for sense `L` and for no
entries are not modelled: the caller never passes such a constraint. -/
def build2step (P : Prob) (alpha : ℚ) (c : Con) : Option Con :=
  let bht := frac c.rhs
  let tau := ⌈bht / alpha⌉
  let rho := bht - alpha * ⌊bht / alpha⌋
  if bht ≤ alpha ∨ alpha ≤ 0 then none
  else if isMultiple alpha bht then none
  else if rho < 1 / 10 ^ 7 then none
  else some {
    es := c.es.map fun p => (p.1, stepCoef tau rho alpha (isIntD P p.1) p.2)
    rhs := ⌈c.rhs⌉ * tau * rho
    sense := .G }

/-- `DGG_is2stepValid` (`CglTwomir.cpp` 2067-2093). -/
def is2stepValid (alpha bht : ℚ) : Bool :=
  if alpha < 1 / 10 ^ 7 then false
  else if isMultiple alpha bht then false
  else decide (alpha < bht ∧ 0 < alpha ∧ (⌈bht / alpha⌉ : ℚ) ≤ 1 / alpha)

/-- The loop that looks for an `alpha` (`CglTwomir.cpp` 1910-1915), from the value `kk` of its counter; `n` is the number
of rounds left until `kk > 1000`. -/
def alphaLoop (aMax : ℤ) (vht bht : ℚ) : Nat → ℚ → Nat → ℚ
  | 0, alpha, _ => alpha
  | n + 1, alpha, kk =>
    if ! is2stepValid alpha bht && decide (bht / alpha ≤ aMax) then
      alphaLoop aMax vht bht n (vht / kk) (kk + 1)
    else alpha

/-- One round of the loop of `DGG_add2stepToList` (`CglTwomir.cpp` 1901-1917), for an entry with coefficient `v` and
reduced cost `rc`: the `alpha` it proposes.  With `a_max = 0` the quotient `bht/a_max` is infinite. -/
def proposeAlpha (aMax : ℤ) (cutoff bht : ℚ) (int : Bool) (rc v : ℚ) : Option ℚ :=
  if ! int then none
  else if |rc| ≤ cutoff then none
  else if bht ≤ frac v then none
  else if aMax = 0 ∨ frac v < bht / aMax then none
  else
    let alpha := alphaLoop aMax (frac v) bht 1000 (frac v) 1
    if is2stepValid alpha bht then some alpha else none

/-- The `alpha` kept by `DGG_add2stepToList` (`CglTwomir.cpp` 1896-1944).  The loops inside the loop use its counter, so
the loop ends after the first entry that proposes an `alpha`. -/
def firstAlpha (D : Data) (aMax : ℤ) (c : Con) : Option ℚ :=
  let best := (c.es.filter fun p => isIntD D.P p.1).foldl (fun m p => max m |D.rc p.1|) 0
  c.es.findSome? fun p => proposeAlpha aMax (best / 10) (frac c.rhs) (isIntD D.P p.1) (D.rc p.1) p.2

/-- `rc_val` (`CglTwomir.cpp` 1922-1927). -/
def rcVal (D : Data) (cut : Con) : ℚ :=
  ((cut.es.filter fun p => decide (1 / 10 ^ 6 < p.2)).foldl (fun m p => min m (|D.rc p.1| / p.2)) dblMax) * cut.rhs

/-- `norm_val` (`CglTwomir.cpp` 1929-1935). -/
def normVal (cut : Con) : ℚ :=
  ((cut.es.filter fun p => decide (1 / 10 ^ 6 < p.2)).map fun p => p.2 * p.2).sum / (cut.rhs * cut.rhs + 1)

/-- `DGG_add2stepToList` (`CglTwomir.cpp` 1884-1959): the cuts it appends. -/
def add2step (D : Data) (aMax : ℤ) (c : Con) : List Con :=
  match firstAlpha D aMax c with
  | none => []
  | some alpha =>
    match build2step D.P alpha c with
    | none => []
    | some cut =>
      if (rcVal D cut < dblMax ∧ 1 / 10 ^ 6 < rcVal D cut) ∨ normVal cut < dblMax then [cut] else []

/-! ### `DGG_generateCutsFromBase` -/

/-- `data->cparams` and `gomory_threshold` as set by `generateCuts` (`CglTwomir.cpp` 291-312). -/
structure Par where
  tMin : ℤ
  tMax : ℤ
  qMin : ℤ
  qMax : ℤ
  aMax : ℤ
  maxElements : ℤ
  threshold : ℚ

/-- The values of `t` the loops of `DGG_generateCutsFromBase` run over (`CglTwomir.cpp` 1783-1784, 1809-1810). -/
def steps (lo hi : ℤ) : List ℤ :=
  ((List.range (hi + 1 - lo).toNat).map fun (i : Nat) => lo + (i : ℤ)).filter fun t => decide (t ≠ 0)

/-- `min_t`, `min_q` (`CglTwomir.cpp` 1764-1767). -/
def minStep (s : Sns) (m : ℤ) : ℤ := if s = .G ∧ m < 1 then 1 else m

/-- `not_nicefied` is set to false (`CglTwomir.cpp` 1769-1772). -/
def early (par : Par) (c : Con) : Bool :=
  decide (0 < minStep c.sense par.qMin ∧ 0 < minStep c.sense par.tMin)

/-- The constraint the inequality is built from, for one `t` (`CglTwomir.cpp` 1769-1795, 1812-1821). -/
def prepared (P : Prob) (par : Par) (c : Con) (t : ℤ) : Con :=
  if early par c then scale t (nicefy P c) else nicefy P (scale t c)

/-- `DGG_isBaseTrivial` (`CglTwomir.cpp` 2100-2112). -/
def trivialBase (par : Par) (c : Con) : Bool :=
  decide (frac (frac c.rhs) < par.threshold) || decide (1 - frac (frac c.rhs) < par.threshold)

/-- The two loops of `DGG_generateCutsFromBase` (`CglTwomir.cpp` 1783-1835), after the transformation: the cuts appended
to the list. -/
def rawCuts (D : Data) (par : Par) (c : Con) : List Con :=
  ((steps (minStep c.sense par.tMin) par.tMax).flatMap fun t =>
    if trivialBase par (prepared D.P par c t) then [] else [buildMir D.P (prepared D.P par c t)]) ++
  ((steps (minStep c.sense par.qMin) par.qMax).flatMap fun t =>
    if trivialBase par (prepared D.P par c t) then [] else add2step D par.aMax (prepared D.P par c t))

/-- `DGG_isCutDesirable` (`CglTwomir.cpp` 2147-2168). -/
def desirable (D : Data) (c : Con) : Bool :=
  let lhs := SVec.dot c.es (ext D.P D.sol)
  if 500 < c.es.length then false
  else match c.sense with
    | .G => ! decide (c.rhs - 1 / 10 ^ 5 < lhs)
    | .L => ! decide (lhs < c.rhs + 1 / 10 ^ 5)
    | .E => ! decide (|lhs - c.rhs| < 1 / 10 ^ 5)

/-- A cut in terms of the columns (`CglTwomir.cpp` 1841-1845). -/
def finishCut (D : Data) (c : Con) : Con := substitute D.P (unTransform D c)

/-- The last loop of `DGG_generateCutsFromBase` (`CglTwomir.cpp` 1837-1852), from the last cut to the first;
`DGG_list_delcut` (1286-1296) puts the last cut of the list in the place of the deleted one. -/
def finishAll (D : Data) : List Con → List Con
  | [] => []
  | c :: cs =>
    let done := finishAll D cs
    if desirable D (finishCut D c) then finishCut D c :: done
    else match done.getLast? with
      | none => []
      | some l => l :: done.dropLast

/-- `DGG_generateCutsFromBase` (`CglTwomir.cpp` 1728-1865): the cuts it adds to the list. -/
def fromBase (D : Data) (par : Par) (c : Con) : List Con :=
  if c.sense = .L then []
  else if c.es = [] then []
  else if 10 ^ 10 < |c.rhs| then []
  else
    let f := frac (transform D c).rhs
    if f < par.threshold ∨ 1 - par.threshold < f then []
    else finishAll D (rawCuts D par (transform D c))

/-! ### Base constraints -/

/-- `DGG_getTableauConstraint` (`CglTwomir.cpp` 981-1102) with `mode` 0, from the nonzeros `ρ` of the row of the inverse of
the basis matrix that belongs to the basic column `k`.  `CoinFactorization` is outside `/repo`.  Simplification: the
slacks are not sorted by index (1087). -/
def tableauCon (D : Data) (k : Nat) (ρ : SVec) : Con where
  es := (((List.range D.P.nCols).filter fun j => (! D.basic j || j == k) &&
      decide (1 / 10 ^ 12 < |tabEntry D.P ρ j|)).map fun j => (j, tabEntry D.P ρ j)) ++
    (ρ.filter fun p => ! isEq D.P p.1).map fun p => (D.P.nCols + p.1, if above D.P p.1 then p.2 else - p.2)
  rhs := (ρ.map fun p => p.2 * (if above D.P p.1 then (D.P.row p.1).ub else (D.P.row p.1).lb)).sum
  sense := .E

/-- `DGG_generateTabRowCuts` (`CglTwomir.cpp` 1561-1565): the rows of the tableau that are used. -/
def tabColumn (D : Data) (par : Par) (k : Nat) : Bool :=
  D.basic k && isIntD D.P k &&
    ! (decide (frac (ext D.P D.sol k) < par.threshold) || decide (1 - par.threshold < frac (ext D.P D.sol k)))

/-- `DGG_generateTabRowCuts` (`CglTwomir.cpp` 1517-1592): the constraints it passes on.  `fact` is the outcome of the
factorization: `none` if it fails, otherwise the rows of the inverse of the basis matrix. -/
def tabBases (D : Data) (par : Par) (fact : Option (Nat → SVec)) : List Con :=
  match fact with
  | none => []
  | some ρ => (((List.range D.P.nCols).filter (tabColumn D par)).map fun k => tableauCon D k (ρ k)).filter fun c =>
      decide (c.es.length ≠ 0 ∧ c.es.length ≤ 500)

/-- `DGG_getFormulaConstraint` (`CglTwomir.cpp` 1106-1158). -/
def formulaCon (P : Prob) (i : Nat) : Con where
  es := (P.row i).coefs ++ (if isEq P i then [] else [(P.nCols + i, if above P i then 1 else -1)])
  rhs := if above P i then (P.row i).ub else (P.row i).lb
  sense := if isEq P i then .E else if above P i then .L else .G

/-- `base` divided by `skala` and transformed back (`CglTwomir.cpp` 1690-1693). -/
def scaledCon (D : Data) (base : Con) (skala : ℚ) : Con :=
  unTransform D
    { es := base.es.map fun p => (p.1, p.2 / skala)
      rhs := base.rhs / skala
      sense := if base.sense = .L then .G else base.sense }

/-- The loop of `DGG_generateFormulationCutsFromBase` (`CglTwomir.cpp` 1665-1703) over the entries from position `p` on:
the constraints passed on.  `draw p` is the number drawn by the random generator for position `p`, `seen` is
`skala_list`; `none` stands for the undefined behaviour of `int(100*skala)`. -/
def formLoop (D : Data) (slk : ℚ) (base : Con) (prob : ℚ) (draw : Nat → ℚ) :
    Nat → List ℤ → SVec → Option (List Con)
  | _, _, [] => some []
  | p, seen, e :: es =>
    if isIntD D.P e.1 && decide (draw p < prob) && ! decide (px D e.1 < 1 / 100) && ! decide (|e.2| < 1 / 100) &&
        ! decide (1 / 2 < abs (slk / |e.2|)) then
      let skala := if base.sense = .L then - |e.2| else |e.2|
      match castInt (100 * skala) with
      | none => none
      | some k =>
        if k ∈ seen then formLoop D slk base prob draw (p + 1) seen es
        else match formLoop D slk base prob draw (p + 1) (seen ++ [k]) es with
          | none => none
          | some l => some (scaledCon D base skala :: l)
    else formLoop D slk base prob draw (p + 1) seen es

/-- `DGG_generateFormulationCutsFromBase` (`CglTwomir.cpp` 1636-1725) for row `i`: the constraints passed on. -/
def formBases (D : Data) (draw : Nat → ℚ) (i : Nat) : Option (List Con) :=
  let base := transform D (formulaCon D.P i)
  let tot := (base.es.filter fun p => isIntD D.P p.1).length
  if tot = 0 then some []
  else formLoop D (ext D.P D.sol (D.P.nCols + i)) base (5 / tot) draw 0 [] base.es

/-- `DGG_generateFormulationCuts` (`CglTwomir.cpp` 1594-1633), the rows from `i` on. -/
def allFormBases (D : Data) (draw : Nat → Nat → ℚ) : List Nat → Option (List Con)
  | [] => some []
  | i :: is => match formBases D (draw i) i, allFormBases D draw is with
    | some a, some b => some (a ++ b)
    | _, _ => none

/-! ### `CglTwomir::generateCuts` -/

/-- The members of `CglTwomir` read by `generateCuts`. -/
structure Prm where
  away : ℚ
  awayAtRoot : ℚ
  doMir : Bool
  do2mir : Bool
  doTab : Bool
  doForm : Bool
  tMin : ℤ
  tMax : ℤ
  qMin : ℤ
  qMax : ℤ
  aMax : ℤ
  maxElements : ℤ
  maxElementsRoot : ℤ

/-- The fields of `CglTreeInfo` read by `generateCuts`: `opt32` is `options & 32`. -/
structure Info where
  inTree : Bool
  pass : ℤ
  level : ℤ
  opt32 : Bool
  formulationRows : ℤ

/-- The parameters of a call (`CglTwomir.cpp` 291-312). -/
def mkPar (P : Prob) (prm : Prm) (info : Info) : Par where
  tMin := prm.tMin
  tMax := if prm.doMir then prm.tMax else prm.tMin - 1
  qMin := prm.qMin
  qMax := if prm.do2mir then prm.qMax else prm.qMin - 1
  aMax := prm.aMax
  maxElements :=
    if info.inTree then prm.maxElements
    else if info.pass = 0 ∨ info.opt32 then (P.nCols : ℤ) else prm.maxElementsRoot
  threshold := if info.inTree then prm.away else prm.awayAtRoot

/-- The cuts of an `OsiCuts` object. -/
structure Cuts where
  rows : List RowCut
  cols : List ColCut

/-- The new lower bound (`CglTwomir.cpp` 420-431). -/
def singleLb (P : Prob) (e : Nat × ℚ) (rhs : ℚ) : ℚ :=
  if 0 < e.2 then (if P.isInt e.1 then (⌈rhs / e.2 - 1 / 10 ^ 4⌉ : ℚ) else rhs / e.2) else P.colLower e.1

/-- The new upper bound (`CglTwomir.cpp` 420-431). -/
def singleUb (P : Prob) (e : Nat × ℚ) (rhs : ℚ) : ℚ :=
  if 0 < e.2 then P.colUpper e.1 else (if P.isInt e.1 then (⌊rhs / e.2 + 1 / 10 ^ 4⌋ : ℚ) else rhs / e.2)

/-- A cut with one column that is not fixed becomes a bound (`CglTwomir.cpp` 410-459). -/
def single (P : Prob) (e : Nat × ℚ) (rhs : ℚ) (cs : Cuts) : Cuts :=
  if singleUb P e rhs + 1 / 10 ^ 4 < singleLb P e rhs then
    { cs with rows := insertIfNotDuplicate cs.rows ⟨1, 0, []⟩ }
  else if P.colLower e.1 < singleLb P e rhs ∨ singleUb P e rhs < P.colUpper e.1 then
    if ! P.isInt e.1 then cs
    else { cs with cols := cs.cols ++
      [{ lbs := if P.colLower e.1 < singleLb P e rhs then [(e.1, singleLb P e rhs)] else []
         ubs := if singleUb P e rhs < P.colUpper e.1 then [(e.1, singleUb P e rhs)] else [] }] }
  else cs

/-- Entries of columns that are not fixed (`CglTwomir.cpp` 391-398). -/
def unfixed (P : Prob) (c : Con) : SVec := c.es.filter fun p => decide (P.colUpper p.1 ≠ P.colLower p.1)

/-- The right-hand side without the fixed columns (`CglTwomir.cpp` 399-401). -/
def freeRhs (P : Prob) (c : Con) : ℚ :=
  c.rhs - ((c.es.filter fun p => decide (P.colUpper p.1 = P.colLower p.1)).map fun p =>
    p.2 * P.colLower p.1).sum

/-- One cut of the list goes into `cs` (`CglTwomir.cpp` 333-460); `none` stands for the read of `packed[0]` when the cut
has no entries (the array is then a null pointer).  If all columns are fixed, `packed[0]` is the first entry of the cut. -/
def emit (P : Prob) (maxElements : ℤ) (c : Con) (cs : Cuts) : Option Cuts :=
  if ! decide ((c.es.length : ℤ) < maxElements) then some cs
  else if c.es.any fun p => decide (p.2 = 0) then some cs
  else if c.es.any fun p => decide (|p.2| < 1 / 10 ^ 6) then some cs
  else
    let kept := unfixed P c
    let largest := kept.foldl (fun m p => max m |p.2|) 0
    let smallest := kept.foldl (fun m p => min m |p.2|) (10 ^ 30)
    if largest < 10 ^ 8 * smallest ∧ 1 / 10 ^ 5 < smallest then
      match kept, c.es with
      | _ :: _ :: _, _ => some { cs with rows := insertIfNotDuplicate cs.rows ⟨freeRhs P c, P.inf, kept⟩ }
      | [e], _ => some (single P e (freeRhs P c) cs)
      | [], e :: _ => some (single P e (freeRhs P c) cs)
      | [], [] => none
    else some cs

/-- The loop over the list of cuts (`CglTwomir.cpp` 332-477). -/
def emitAll (P : Prob) (maxElements : ℤ) : List Con → Cuts → Option Cuts
  | [], cs => some cs
  | c :: l, cs => match emit P maxElements c cs with
    | none => none
    | some cs' => emitAll P maxElements l cs'

/-- The base constraints of a call (`CglTwomir.cpp` 314-320). -/
def bases (D : Data) (prm : Prm) (info : Info) (fact : Option (Nat → SVec)) (draw : Nat → Nat → ℚ) :
    Option (List Con) :=
  let tab := if prm.doTab ∧ info.level < 1 ∧ info.pass < 6 then tabBases D (mkPar D.P prm info) fact else []
  let form := if prm.doForm then
      allFormBases D draw (List.range (min (D.P.rows.length : ℤ) info.formulationRows).toNat) else some []
  match form with
  | none => none
  | some f => some (tab ++ f)

/-- `CglTwomir::generateCuts` (`CglTwomir.cpp` 85-480) without a second solver; `none` stands for undefined behaviour. -/
def generateCuts (D : Data) (prm : Prm) (info : Info) (fact : Option (Nat → SVec)) (draw : Nat → Nat → ℚ)
    (cs : Cuts) : Option Cuts :=
  if (List.range D.P.nCols).any fun j =>
      decide (D.P.colLower j < - 10 ^ 20) && decide (10 ^ 20 < D.P.colUpper j) then some cs
  else
    match bases D prm info fact draw with
    | none => none
    | some bs =>
      emitAll D.P (mkPar D.P prm info).maxElements (bs.flatMap (fromBase D (mkPar D.P prm info))) cs

end Cgl.Twomir
