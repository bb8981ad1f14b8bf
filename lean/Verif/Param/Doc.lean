import Verif.Param.Spec
import Verif.Spec

/-!
What the documentation of each parameter class says: the parameters, their defaults and their
ranges.  The ranges are those given by the comments of the headers and the warnings of the
setters.  Booleans, enumerations and integers are written as numbers (an enumerator is its
position).  A parameter without a stated range accepts everything.  NaN is not a value here.
-/

namespace Cgl.Param

/-! ### CglParam -/

namespace Base

/-- The parameters of `CglParam`. -/
inductive Name where
  | INFINIT
  | EPS
  | EPS_COEFF
  | MAX_SUPPORT
  deriving DecidableEq

/-- Documented ranges. -/
def range : Name → ℚ → Prop
  | .INFINIT, v => 0 < v
  | .EPS, v => 0 ≤ v
  | .EPS_COEFF, v => 0 ≤ v
  | .MAX_SUPPORT, v => 0 < v

/-- Documented defaults. -/
def dflt : Name → ℚ
  | .INFINIT => dblMax
  | .EPS => 1/10^6
  | .EPS_COEFF => 1/10^5
  | .MAX_SUPPORT => 2^31-1

/-- Documentation of `CglParam`: a setter accepts the values of the range. -/
def doc : Doc Name ℚ where
  dflt := dflt
  accepts := range
  stored := fun _ v => v
  range := range

end Base

/-! ### CglGMIParam -/

namespace GMI

/-- The parameters of `CglGMIParam`. -/
inductive Name where
  | INFINIT
  | EPS
  | EPS_COEFF
  | MAX_SUPPORT
  | AWAY
  | EPS_ELIM
  | EPS_RELAX_ABS
  | EPS_RELAX_REL
  | MAXDYN
  | MINVIOL
  | MAX_SUPPORT_REL
  | USE_INTSLACKS
  | CHECK_DUPLICATES
  | INTEGRAL_SCALE_CONT
  | ENFORCE_SCALING
  | CLEAN_PROC
  deriving DecidableEq

/-- Documented ranges. -/
def range : Name → ℚ → Prop
  | .INFINIT, v => 0 < v
  | .EPS, v => 0 ≤ v
  | .EPS_COEFF, v => 0 ≤ v
  | .MAX_SUPPORT, v => 0 < v
  | .AWAY, v => 0 < v ∧ v ≤ 1/2
  | .EPS_ELIM, v => 0 ≤ v
  | .EPS_RELAX_ABS, v => 0 ≤ v
  | .EPS_RELAX_REL, v => 0 ≤ v
  | .MAXDYN, v => 1 ≤ v
  | .MINVIOL, v => 0 ≤ v
  | .MAX_SUPPORT_REL, v => 0 ≤ v ∧ v ≤ 1
  | _, _ => True

/-- Documented defaults. -/
def dflt : Name → ℚ
  | .INFINIT => dblMax
  | .EPS => 1/10^12
  | .EPS_COEFF => 1/10^11
  | .MAX_SUPPORT => 1000
  | .AWAY => 5/1000
  | .EPS_ELIM => 0
  | .EPS_RELAX_ABS => 1/10^11
  | .EPS_RELAX_REL => 1/10^13
  | .MAXDYN => 10^6
  | .MINVIOL => 1/10^4
  | .MAX_SUPPORT_REL => 1/10
  | .USE_INTSLACKS => 0
  | .CHECK_DUPLICATES => 0
  | .INTEGRAL_SCALE_CONT => 0
  | .ENFORCE_SCALING => 1
  | .CLEAN_PROC => 0

/-- Documentation of `CglGMIParam`: a setter accepts the values of the range. -/
def doc : Doc Name ℚ where
  dflt := dflt
  accepts := range
  stored := fun _ v => v
  range := range

end GMI

/-! ### CglRedSplitParam -/

namespace RedSplit

/-- The parameters of `CglRedSplitParam`. -/
inductive Name where
  | INFINIT
  | EPS
  | EPS_COEFF
  | MAX_SUPPORT
  | away
  | maxTab
  | LUB
  | EPS_ELIM
  | EPS_RELAX_ABS
  | EPS_RELAX_REL
  | MAXDYN
  | MAXDYN_LUB
  | EPS_COEFF_LUB
  | MINVIOL
  | USE_INTSLACKS
  | USE_CG2
  | normIsZero
  | minReduc
  deriving DecidableEq

/-- Documented ranges. -/
def range : Name → ℚ → Prop
  | .INFINIT, v => 0 < v
  | .EPS, v => 0 ≤ v
  | .EPS_COEFF, v => 0 ≤ v
  | .MAX_SUPPORT, v => 0 < v
  | .away, v => 0 < v ∧ v ≤ 1/2
  | .maxTab, v => 10 < v
  | .LUB, v => 0 < v
  | .EPS_ELIM, v => 0 ≤ v
  | .EPS_RELAX_ABS, v => 0 ≤ v
  | .EPS_RELAX_REL, v => 0 ≤ v
  | .MAXDYN, v => 1 < v
  | .MAXDYN_LUB, v => 1 < v
  | .EPS_COEFF_LUB, v => 0 < v ∧ v ≤ 1/10
  | .MINVIOL, v => 0 < v ∧ v ≤ 1/10
  | .normIsZero, v => 0 < v ∧ v ≤ 1
  | .minReduc, v => 0 < v ∧ v ≤ 1
  | _, _ => True

/-- Documented defaults. -/
def dflt : Name → ℚ
  | .INFINIT => dblMax
  | .EPS => 1/10^6
  | .EPS_COEFF => 1/10^5
  | .MAX_SUPPORT => 2^31-1
  | .away => 5/100
  | .maxTab => 10^7
  | .LUB => 1000
  | .EPS_ELIM => 1/10^12
  | .EPS_RELAX_ABS => 1/10^8
  | .EPS_RELAX_REL => 0
  | .MAXDYN => 10^8
  | .MAXDYN_LUB => 10^13
  | .EPS_COEFF_LUB => 1/10^13
  | .MINVIOL => 1/10^7
  | .USE_INTSLACKS => 0
  | .USE_CG2 => 0
  | .normIsZero => 1/10^5
  | .minReduc => 5/100

/-- Documentation of `CglRedSplitParam`: a setter accepts the values of the range. -/
def doc : Doc Name ℚ where
  dflt := dflt
  accepts := range
  stored := fun _ v => v
  range := range

end RedSplit

/-! ### CglRedSplit2Param -/

namespace RedSplit2

/-- The parameters of `CglRedSplit2Param`. -/
inductive Name where
  | INFINIT
  | EPS
  | EPS_COEFF
  | MAX_SUPPORT
  | away
  | EPS_ELIM
  | EPS_RELAX_ABS
  | EPS_RELAX_REL
  | MAXDYN
  | MINVIOL
  | MAX_SUPP_REL
  | USE_INTSLACKS
  | normIsZero
  | minNormReduction
  | maxSumMultipliers
  | normalization
  | timeLimit
  | maxNumCuts
  | maxNumComputedCuts
  | maxNonzeroesTab
  | columnScalingStrategyLAP
  | columnScalingBoundLAP
  | skipGomory
  deriving DecidableEq

/-- Documented ranges. -/
def range : Name → ℚ → Prop
  | .INFINIT, v => 0 < v
  | .EPS, v => 0 ≤ v
  | .EPS_COEFF, v => 0 ≤ v
  | .MAX_SUPPORT, v => 0 < v
  | .away, v => 0 < v ∧ v ≤ 1/2
  | .EPS_ELIM, v => 0 ≤ v
  | .EPS_RELAX_ABS, v => 0 ≤ v
  | .EPS_RELAX_REL, v => 0 ≤ v
  | .MAXDYN, v => 1 < v
  | .MINVIOL, v => 0 < v ∧ v ≤ 1/10
  | .MAX_SUPP_REL, v => 0 < v ∧ v ≤ 1/10
  | .normIsZero, v => 0 < v ∧ v ≤ 1
  | .minNormReduction, v => 0 < v ∧ v ≤ 1
  | .maxSumMultipliers, v => 1 < v
  | .normalization, v => 0 ≤ v
  | .timeLimit, v => 0 ≤ v
  | .maxNumCuts, v => 0 ≤ v
  | .maxNumComputedCuts, v => 0 ≤ v
  | .maxNonzeroesTab, v => 0 ≤ v
  | .columnScalingBoundLAP, v => 0 ≤ v
  | .skipGomory, v => 0 ≤ v ∧ v ≤ 1
  | _, _ => True

/-- Documented defaults. -/
def dflt : Name → ℚ
  | .INFINIT => dblMax
  | .EPS => 1/10^12
  | .EPS_COEFF => 1/10^11
  | .MAX_SUPPORT => 1000
  | .away => 5/1000
  | .EPS_ELIM => 0
  | .EPS_RELAX_ABS => 1/10^11
  | .EPS_RELAX_REL => 1/10^13
  | .MAXDYN => 10^6
  | .MINVIOL => 1/10^3
  | .MAX_SUPP_REL => 1/10
  | .USE_INTSLACKS => 0
  | .normIsZero => 1/10^5
  | .minNormReduction => 1/10
  | .maxSumMultipliers => 10
  | .normalization => 1/10^4
  | .timeLimit => 60
  | .maxNumCuts => 10000
  | .maxNumComputedCuts => 10000
  | .maxNonzeroesTab => 1000
  | .columnScalingStrategyLAP => 5
  | .columnScalingBoundLAP => 5
  | .skipGomory => 1

/-- A setter accepts the values of the range; a negative time limit is accepted and read as 0. -/
def accepts : Name → ℚ → Prop
  | .timeLimit, _ => True
  | n, v => range n v

/-- Value read back after an accepted call. -/
def stored : Name → ℚ → ℚ
  | .timeLimit, v => max v 0
  | _, v => v

/-- Documentation of `CglRedSplit2Param`. -/
def doc : Doc Name ℚ where
  dflt := dflt
  accepts := accepts
  stored := stored
  range := range

end RedSplit2

/-! ### CglGomory -/

namespace Gomory

/-- The parameters of `CglGomory`. -/
inductive Name where
  | away
  | awayAtRoot
  | conditionNumberMultiplier
  | largestFactorMultiplier
  | limit
  | limitAtRoot
  deriving DecidableEq

/-- Documented ranges. -/
def range : Name → ℚ → Prop
  | .away, v => 0 < v ∧ v ≤ 1/2
  | .awayAtRoot, v => 0 < v ∧ v ≤ 1/2
  | .conditionNumberMultiplier, v => 0 ≤ v
  | .largestFactorMultiplier, v => 0 ≤ v
  | .limit, v => 0 ≤ v
  | .limitAtRoot, v => 0 ≤ v

/-- Documented defaults. -/
def dflt : Name → ℚ
  | .away => 5/100
  | .awayAtRoot => 5/100
  | .conditionNumberMultiplier => 1/10^18
  | .largestFactorMultiplier => 1/10^13
  | .limit => 50
  | .limitAtRoot => 0

/-- Documentation of `CglGomory`: a setter accepts the values of the range. -/
def doc : Doc Name ℚ where
  dflt := dflt
  accepts := range
  stored := fun _ v => v
  range := range

end Gomory

/-! ### CglTwomir -/

namespace Twomir

/-- The parameters of `CglTwomir`. -/
inductive Name where
  | away
  | awayAtRoot
  | twomirType
  | mir
  | twomir
  | tab
  | form
  | tmin
  | tmax
  | qmin
  | qmax
  | amax
  | maxElements
  | maxElementsRoot
  deriving DecidableEq

/-- Documented ranges. -/
def range : Name → ℚ → Prop
  | .away, v => 0 < v ∧ v ≤ 1/2
  | .awayAtRoot, v => 0 < v ∧ v ≤ 1/2
  | _, _ => True

/-- Documented defaults. -/
def dflt : Name → ℚ
  | .away => 5/10000
  | .awayAtRoot => 5/10000
  | .twomirType => 0
  | .mir => 1
  | .twomir => 1
  | .tab => 1
  | .form => 1
  | .tmin => 1
  | .tmax => 1
  | .qmin => 1
  | .qmax => 1
  | .amax => 2
  | .maxElements => 50000
  | .maxElementsRoot => 50000

/-- Documentation of `CglTwomir`: a setter accepts the values of the range. -/
def doc : Doc Name ℚ where
  dflt := dflt
  accepts := range
  stored := fun _ v => v
  range := range

end Twomir

end Cgl.Param
