import Verif.TreeInfo.Model

/-!
# What a user of `CglTreeProbingInfo` sees: histories of calls, and the implications read back from the tables
-/

namespace Cgl.TreeInfo

/-- One call `fixes(var, up ? 1 : -1, target, toLower)`. -/
structure Call where
  var : Nat
  up : Bool
  target : Nat
  toLower : Bool
deriving DecidableEq, Repr

/-- A history of `fixes` calls that all returned true. -/
def run (s : Info) : List Call → Option Info
  | [] => some s
  | c :: cs => match fixes s c.var c.up c.target c.toLower with
    | some (s', true) => run s' cs
    | _ => none

/-- States reachable from `initializeFixing` by any history of `fixes`, `convert` and `packDown`. -/
inductive Reachable (P : Prob) : Info → Prop
  | init : Reachable P (initializeFixing P)
  | fixes {s s' : Info} {b : Bool} (v : Nat) (up : Bool) (t : Nat) (lo : Bool) :
      Reachable P s → fixes s v up t lo = some (s', b) → Reachable P s'
  | convert {s : Info} : Reachable P s → Reachable P (convert s)
  | packDown {s : Info} : Reachable P s → Reachable P (packDown s).1

/-- The column an entry talks about: 0-1 columns are numbered among themselves, other columns are offset by the
number of 0-1 columns (as every reader decodes it, e.g. CglStored.cpp:86-93). -/
def targetCol (s : Info) (e : CliqueEntry) : Option Nat :=
  if sequence e < s.numberIntegers then s.integerVariable[sequence e]? else some (sequence e - s.numberIntegers)

/-- The ordered tables list "column `j` at one (`up`) / at zero forces column `k` up (`one`) / down". -/
def Exposed (s : Info) (j : Nat) (up : Bool) (k : Nat) (one : Bool) : Prop :=
  ∃ i es e, s.integerVariable[i]? = some j ∧ implied s i up = some es ∧ e ∈ es ∧
    targetCol s e = some k ∧ oneFixes e = one

/-- 0/1 value of a direction. -/
def bit (b : Bool) : ℚ := if b then 1 else 0

/-- A point respects the implications in the tables. -/
def Respects (s : Info) (x : Nat → ℚ) : Prop :=
  ∀ j up k one, Exposed s j up k one → x j = bit up → x k = bit one

/-- The implication a call records is true of the point `x`. -/
def Call.Holds (P : Prob) (c : Call) (x : Nat → ℚ) : Prop :=
  x c.var = bit c.up → x c.target =
    (if colType P c.target = 1 then bit (!c.toLower) else
      if c.toLower then P.colLower c.target else P.colUpper c.target)

instance (P : Prob) (c : Call) (x : Nat → ℚ) : Decidable (c.Holds P x) := by
  unfold Call.Holds; infer_instance

/-- The point has 0 or 1 in every 0-1 column of the table. -/
def Binary (s : Info) (x : Nat → ℚ) : Prop := ∀ j ∈ s.integerVariable, x j = 0 ∨ x j = 1

/-- The point is within the bounds. -/
def Within (lower upper x : Nat → ℚ) : Prop := ∀ j, lower j ≤ x j ∧ x j ≤ upper j

end Cgl.TreeInfo
