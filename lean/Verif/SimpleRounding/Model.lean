import Verif.Osi

/-!
# Model of `src/CglSimpleRounding`
-/

namespace Cgl.SimpleRounding

/-- `epsilon_(1.0e-08)`: CglSimpleRounding.cpp:422-428 (never changed; there is no setter). -/
def epsilon : ℚ := 1 / 10 ^ 8

/-- One step of the netting-out loop, CglSimpleRounding.cpp:249-288.  State: right-hand side `b` and the integer
row `irow` so far; `none` is `return 0`. `p` is (column index, matrix element). -/
def netOut (P : Prob) (sign : ℚ) (st : ℚ × SVec) (p : Nat × ℚ) : Option (ℚ × SVec) :=
  let (b, irow) := st
  let a := sign * p.2
  if P.isInt p.1 = false then
    if a < -epsilon then
      if P.colUpper p.1 < P.inf then some (b - a * P.colUpper p.1, irow) else none
    else if a > epsilon then
      if P.colLower p.1 > -P.inf then some (b - a * P.colLower p.1, irow) else none
    else some (b, irow)
  else if P.colUpper p.1 - P.colLower p.1 < epsilon then
    some (b - a * P.colUpper p.1, irow)
  else some (b, irow ++ [(p.1, a)])

/-- The netting-out loop over the matrix row, CglSimpleRounding.cpp:249-288. The second component of a failing
run keeps the partially filled `irow`, because the caller uses it for its reset loop. -/
def netOutAll (P : Prob) (sign : ℚ) : SVec → ℚ × SVec → Option (ℚ × SVec)
  | [], st => some st
  | p :: ps, st => match netOut P sign st p with
    | none => none
    | some st' => netOutAll P sign ps st'

/-- `negative[k] := true` on an array modelled as a function. -/
def setFlag (f : Nat → Bool) (j : Nat) (v : Bool) : Nat → Bool := fun k => if k = j then v else f k

/-- The sign-splitting loop, CglSimpleRounding.cpp:300-310: entries below `-epsilon_` are flagged and negated. -/
def splitSigns : SVec → (Nat → Bool) → SVec × (Nat → Bool)
  | [], neg => ([], neg)
  | p :: ps, neg =>
    if p.2 < -epsilon then
      let r := splitSigns ps (setFlag neg p.1 true)
      ((p.1, p.2 * (-1)) :: r.1, r.2)
    else
      let r := splitSigns ps neg
      (p :: r.1, r.2)

/-- `deriveAnIntegerRow`, CglSimpleRounding.cpp:186-313.  `none` is `return 0` (the `negative` array is untouched
on those paths); otherwise `(irow, b, negative)`. -/
def deriveAnIntegerRow (P : Prob) (r : Row) (neg : Nat → Bool) : Option (SVec × ℚ × (Nat → Bool)) :=
  let (sense, rhs) := r.senseRhs P.inf
  match sense with
  | .E | .N => none
  | s =>
    let sign : ℚ := if s = .G then -1 else 1
    let b := if s = .G then -rhs else rhs
    match netOutAll P sign r.coefs (b, []) with
    | none => none
    | some (b, irow) =>
      if irow.length = 0 then none
      else
        let sp := splitSigns irow neg
        some (sp.1, b, sp.2)

/-- Inner loop of `power10ToMakeDoubleAnInt`, CglSimpleRounding.cpp:387-394: first power in `power..15` whose
scaled value is integral within `dataTol * 10^power`; 16 if none. -/
def findPower (value dataTol : ℚ) (power : Nat) : Nat :=
  if h : power < 16 then
    let scaled := value * 10 ^ power
    let tol := dataTol * 10 ^ power
    let frac := scaled - ⌊scaled⌋
    if frac < tol ∨ 1 - frac < tol then power else findPower value dataTol (power + 1)
  else power
termination_by 16 - power

/-- The value `scaledValue` is left at after the inner loop (last tried power is 15). -/
def scaledAt (value : ℚ) (power : Nat) : ℚ := value * 10 ^ (min power 15)

/-- `power10ToMakeDoubleAnInt`, CglSimpleRounding.cpp:328-410 (the non-`OLD_MULT` branch): `none` models the
return value -1. -/
def power10 (dataTol : ℚ) : List ℚ → Nat → Option Nat
  | [], maxPower => some maxPower
  | v :: vs, maxPower =>
    let value := |v|
    let power := findPower value dataTol 0
    if power = 16 ∨ scaledAt value power > 2147483647 then none
    else power10 dataTol vs (if maxPower < power then power else maxPower)

/-- `gcd(int a,int b)`, CglSimpleRounding.hpp:130-142: Euclid with an initial swap, C++ `%` (truncated).
`none` = division by zero, or recursion that never ends (possible only with a negative argument). -/
def gcd : Nat → ℤ → ℤ → Option ℤ
  | 0, _, _ => none
  | fuel + 1, a, b =>
    let a' := if a > b then b else a
    let b' := if a > b then a else b
    if a' = 0 then none
    else if b'.tmod a' = 0 then some a'
    else gcd fuel (b'.tmod a') a'

/-- A recursion depth that suffices for every terminating call of `gcd a b`: with positive arguments the smaller
argument decreases at every call. -/
def gcdFuel (a b : ℤ) : Nat := a.natAbs + b.natAbs + 2

/-- The accumulation loop of `gcdv`, CglSimpleRounding.hpp:158-160. -/
def gcdFold : ℤ → List ℤ → Option ℤ
  | g, [] => some g
  | g, v :: vs => match gcd (gcdFuel g v) g v with
    | none => none
    | some g' => gcdFold g' vs

/-- `gcdv`, CglSimpleRounding.hpp:148-162 (`abort()` on the empty vector is `none`). -/
def gcdv : List ℤ → Option ℤ
  | [] => none
  | [v] => some v
  | v :: w :: vs => match gcd (gcdFuel v w) v w with
    | none => none
    | some g => gcdFold g vs

/-- `xInt[k] = static_cast<int>(element*10^power + 0.5)`, CglSimpleRounding.cpp:94-96; `none` = out of `int`
range. -/
def toInts (power : Nat) : SVec → Option (List (Nat × ℤ))
  | [] => some []
  | p :: ps => match castInt (p.2 * 10 ^ power + 1 / 2), toInts power ps with
    | some z, some r => some ((p.1, z) :: r)
    | _, _ => none

/-- Un-negated cut row, CglSimpleRounding.cpp:129-146: `xInt[k]/gcd` with C++ integer division, sign restored. -/
def cutRow (xs : List (Nat × ℤ)) (g : ℤ) (neg : Nat → Bool) : SVec :=
  xs.map fun p => (p.1, if neg p.1 then ((p.2.tdiv g : ℤ) : ℚ) * (-1) else ((p.2.tdiv g : ℤ) : ℚ))

/-- The reset loop `negative[irow.getIndices()[k]]=false`, CglSimpleRounding.cpp:69,115,169. -/
def resetFlags (irow : SVec) (neg : Nat → Bool) : Nat → Bool :=
  irow.foldl (fun f p => setFlag f p.1 false) neg

/-- One iteration of the main loop, CglSimpleRounding.cpp:47-174. State: the cuts so far and the `negative`
array. `none` = undefined behaviour. Simplification: on a failed derivation the reset loop runs over the partial
`irow`; the flags it resets are already false there (the derivation sets flags only on success), so nothing is
changed. -/
def processRow (P : Prob) (st : List RowCut × (Nat → Bool)) (r : Row) :
    Option (List RowCut × (Nat → Bool)) :=
  match deriveAnIntegerRow P r st.2 with
  | none => some st
  | some (irow, b, neg) =>
    match power10 (epsilon * (1 / 10 ^ 4)) (irow.map Prod.snd) 0 with
    | none => some (st.1, resetFlags irow neg)
    | some power =>
      match toInts power irow with
      | none => none
      | some xInt =>
        match gcdv (xInt.map Prod.snd) with
        | none => none
        | some g =>
          if g = 0 then none -- xInt[k]/gcd with gcd 0
          else
            let cut := cutRow xInt g neg
            let cutRhs : ℚ := ⌊(b * 10 ^ power) / g⌋
            let cs := if |cutRhs * g - b| > epsilon then
                insertIfNotDuplicate st.1 { lb := -dblMax, ub := cutRhs, row := cut }
              else st.1
            some (cs, resetFlags irow neg)

/-- The row loop. -/
def processRows (P : Prob) : List Row → List RowCut × (Nat → Bool) → Option (List RowCut × (Nat → Bool))
  | [], st => some st
  | r :: rs, st => match processRow P st r with
    | none => none
    | some st' => processRows P rs st'

/-- `CglSimpleRounding::generateCuts`, CglSimpleRounding.cpp:18-177. Result: the caller's cuts with the new ones
appended, or `none` if undefined behaviour is reached. -/
def generateCuts (P : Prob) (cs : List RowCut) : Option (List RowCut) :=
  (processRows P P.rows (cs, fun _ => false)).map Prod.fst

end Cgl.SimpleRounding
