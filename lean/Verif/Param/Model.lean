import Verif.Param.Doc

/-!
The parameter classes of /repo, member by member: constructors, setters, getters, copy
constructors and assignments.  `double`, `int`, `bool` and enumerations are all written as exact
rationals; every setter is therefore modelled for more arguments than C++ can pass.  NaN, which
every validating setter ignores, is not modelled.  `COIN_INT_MAX` is `2^31-1`.  Two setters of
`CglTwomir` that take several arguments (`setMirScale`, `setTwomirScale`, `setCutTypes`) are
modelled as one call per argument.  The lists of strategies of `CglRedSplit2Param` are in
`Verif/Param/Strategies.lean`, `CglProbing` is in `Verif/Param/Probing.lean`.
-/

namespace Cgl.Param

/-! ### CglParam -/

namespace Base

/-- The data members of `CglParam` that have a setter and a getter. -/
structure Obj where
  f_INFINIT : ℚ
  f_EPS : ℚ
  f_EPS_COEFF : ℚ
  f_MAX_SUPPORT : ℚ

/-- Default constructor, src/CglCommon/CglParam.hpp:51-52, CglParam.cpp:50-57. -/
def fresh : Obj where
  f_INFINIT := dblMax
  f_EPS := 1/10^6
  f_EPS_COEFF := 1/10^5
  f_MAX_SUPPORT := 2^31-1

/-- The setters; the lines of each are given beside it. -/
def set (o : Obj) : Base.Name → ℚ → Obj
  -- CglParam.cpp:22-26
  | .INFINIT, v => if 0 < v then { o with f_INFINIT := v } else o
  -- CglParam.cpp:29-33
  | .EPS, v => if 0 ≤ v then { o with f_EPS := v } else o
  -- CglParam.cpp:36-40
  | .EPS_COEFF, v => if 0 ≤ v then { o with f_EPS_COEFF := v } else o
  -- CglParam.cpp:43-47
  | .MAX_SUPPORT, v => if 0 < v then { o with f_MAX_SUPPORT := v } else o

/-- The getters, src/CglCommon/CglParam.hpp:30-45. -/
def get (o : Obj) : Base.Name → ℚ
  | .INFINIT => o.f_INFINIT
  | .EPS => o.f_EPS
  | .EPS_COEFF => o.f_EPS_COEFF
  | .MAX_SUPPORT => o.f_MAX_SUPPORT

/-- Copy constructor, src/CglCommon/CglParam.cpp:60-66 (`clone` calls it). -/
def copy (source : Obj) : Obj where
  f_INFINIT := source.f_INFINIT
  f_EPS := source.f_EPS
  f_EPS_COEFF := source.f_EPS_COEFF
  f_MAX_SUPPORT := source.f_MAX_SUPPORT

/-- `operator=`, src/CglCommon/CglParam.cpp:75-84, for distinct objects (the test `this != &rhs` is in
`Impl.step`). -/
def assign (this rhs : Obj) : Obj :=
  { this with
    f_INFINIT := rhs.f_INFINIT
    f_EPS := rhs.f_EPS
    f_EPS_COEFF := rhs.f_EPS_COEFF
    f_MAX_SUPPORT := rhs.f_MAX_SUPPORT }

/-- `CglParam` as a class with the calls of `Verif/Param/Spec.lean`. -/
def impl : Impl Base.Name ℚ where
  Obj := Obj
  fresh := fresh
  set := set
  get := get
  copy := copy
  assign := assign

end Base

/-! ### CglGMIParam -/

namespace GMI

/-- The data members of `CglGMIParam` that have a setter and a getter. -/
structure Obj where
  f_INFINIT : ℚ
  f_EPS : ℚ
  f_EPS_COEFF : ℚ
  f_MAX_SUPPORT : ℚ
  f_AWAY : ℚ
  f_EPS_ELIM : ℚ
  f_EPS_RELAX_ABS : ℚ
  f_EPS_RELAX_REL : ℚ
  f_MAXDYN : ℚ
  f_MINVIOL : ℚ
  f_MAX_SUPPORT_REL : ℚ
  f_USE_INTSLACKS : ℚ
  f_CHECK_DUPLICATES : ℚ
  f_INTEGRAL_SCALE_CONT : ℚ
  f_ENFORCE_SCALING : ℚ
  f_CLEAN_PROC : ℚ

/-- Default constructor, src/CglGMI/CglGMIParam.hpp:210-224, CglGMIParam.cpp:119-147. -/
def fresh : Obj where
  f_INFINIT := dblMax
  f_EPS := 1/10^12
  f_EPS_COEFF := 1/10^11
  f_MAX_SUPPORT := 1000
  f_AWAY := 5/1000
  f_EPS_ELIM := 0
  f_EPS_RELAX_ABS := 1/10^11
  f_EPS_RELAX_REL := 1/10^13
  f_MAXDYN := 10^6
  f_MINVIOL := 1/10^4
  f_MAX_SUPPORT_REL := 1/10
  f_USE_INTSLACKS := 0
  f_CHECK_DUPLICATES := 0
  f_INTEGRAL_SCALE_CONT := 0
  f_ENFORCE_SCALING := 1
  f_CLEAN_PROC := 0

/-- The setters; the lines of each are given beside it. -/
def set (o : Obj) : GMI.Name → ℚ → Obj
  -- CglParam.cpp:22-26
  | .INFINIT, v => if 0 < v then { o with f_INFINIT := v } else o
  -- CglParam.cpp:29-33
  | .EPS, v => if 0 ≤ v then { o with f_EPS := v } else o
  -- CglParam.cpp:36-40
  | .EPS_COEFF, v => if 0 ≤ v then { o with f_EPS_COEFF := v } else o
  -- CglParam.cpp:43-47
  | .MAX_SUPPORT, v => if 0 < v then { o with f_MAX_SUPPORT := v } else o
  -- CglGMIParam.cpp:21-28
  | .AWAY, v => if 0 < v ∧ v ≤ 1/2 then { o with f_AWAY := v } else o
  -- CglGMIParam.cpp:31-38
  | .EPS_ELIM, v => if 0 ≤ v then { o with f_EPS_ELIM := v } else o
  -- CglGMIParam.cpp:41-48
  | .EPS_RELAX_ABS, v => if 0 ≤ v then { o with f_EPS_RELAX_ABS := v } else o
  -- CglGMIParam.cpp:51-58
  | .EPS_RELAX_REL, v => if 0 ≤ v then { o with f_EPS_RELAX_REL := v } else o
  -- CglGMIParam.cpp:61-69
  | .MAXDYN, v => if 1 ≤ v then { o with f_MAXDYN := v } else o
  -- CglGMIParam.cpp:72-80
  | .MINVIOL, v => if 0 ≤ v then { o with f_MINVIOL := v } else o
  -- CglGMIParam.cpp:83-91
  | .MAX_SUPPORT_REL, v => if 0 ≤ v ∧ v ≤ 1 then { o with f_MAX_SUPPORT_REL := v } else o
  -- CglGMIParam.cpp:94-96
  | .USE_INTSLACKS, v => { o with f_USE_INTSLACKS := v }
  -- CglGMIParam.cpp:99-101
  | .CHECK_DUPLICATES, v => { o with f_CHECK_DUPLICATES := v }
  -- CglGMIParam.cpp:104-106
  | .INTEGRAL_SCALE_CONT, v => { o with f_INTEGRAL_SCALE_CONT := v }
  -- CglGMIParam.cpp:109-111
  | .ENFORCE_SCALING, v => { o with f_ENFORCE_SCALING := v }
  -- CglGMIParam.cpp:114-116
  | .CLEAN_PROC, v => { o with f_CLEAN_PROC := v }

/-- The getters, src/CglGMI/CglGMIParam.hpp:80-203. -/
def get (o : Obj) : GMI.Name → ℚ
  | .INFINIT => o.f_INFINIT
  | .EPS => o.f_EPS
  | .EPS_COEFF => o.f_EPS_COEFF
  | .MAX_SUPPORT => o.f_MAX_SUPPORT
  | .AWAY => o.f_AWAY
  | .EPS_ELIM => o.f_EPS_ELIM
  | .EPS_RELAX_ABS => o.f_EPS_RELAX_ABS
  | .EPS_RELAX_REL => o.f_EPS_RELAX_REL
  | .MAXDYN => o.f_MAXDYN
  | .MINVIOL => o.f_MINVIOL
  | .MAX_SUPPORT_REL => o.f_MAX_SUPPORT_REL
  | .USE_INTSLACKS => o.f_USE_INTSLACKS
  | .CHECK_DUPLICATES => o.f_CHECK_DUPLICATES
  | .INTEGRAL_SCALE_CONT => o.f_INTEGRAL_SCALE_CONT
  | .ENFORCE_SCALING => o.f_ENFORCE_SCALING
  | .CLEAN_PROC => o.f_CLEAN_PROC

/-- Copy constructor, src/CglGMI/CglGMIParam.cpp:179-193 (`clone` calls it). -/
def copy (source : Obj) : Obj where
  f_INFINIT := source.f_INFINIT
  f_EPS := source.f_EPS
  f_EPS_COEFF := source.f_EPS_COEFF
  f_MAX_SUPPORT := source.f_MAX_SUPPORT
  f_AWAY := source.f_AWAY
  f_EPS_ELIM := source.f_EPS_ELIM
  f_EPS_RELAX_ABS := source.f_EPS_RELAX_ABS
  f_EPS_RELAX_REL := source.f_EPS_RELAX_REL
  f_MAXDYN := source.f_MAXDYN
  f_MINVIOL := source.f_MINVIOL
  f_MAX_SUPPORT_REL := source.f_MAX_SUPPORT_REL
  f_USE_INTSLACKS := source.f_USE_INTSLACKS
  f_CHECK_DUPLICATES := source.f_CHECK_DUPLICATES
  f_INTEGRAL_SCALE_CONT := source.f_INTEGRAL_SCALE_CONT
  f_ENFORCE_SCALING := source.f_ENFORCE_SCALING
  f_CLEAN_PROC := source.f_CLEAN_PROC

/-- `operator=`, src/CglGMI/CglGMIParam.cpp:202-221, for distinct objects (the test `this != &rhs` is in
`Impl.step`). -/
def assign (this rhs : Obj) : Obj :=
  { this with
    f_INFINIT := rhs.f_INFINIT
    f_EPS := rhs.f_EPS
    f_EPS_COEFF := rhs.f_EPS_COEFF
    f_MAX_SUPPORT := rhs.f_MAX_SUPPORT
    f_AWAY := rhs.f_AWAY
    f_EPS_ELIM := rhs.f_EPS_ELIM
    f_EPS_RELAX_ABS := rhs.f_EPS_RELAX_ABS
    f_EPS_RELAX_REL := rhs.f_EPS_RELAX_REL
    f_MAXDYN := rhs.f_MAXDYN
    f_MINVIOL := rhs.f_MINVIOL
    f_MAX_SUPPORT_REL := rhs.f_MAX_SUPPORT_REL
    f_USE_INTSLACKS := rhs.f_USE_INTSLACKS
    f_CHECK_DUPLICATES := rhs.f_CHECK_DUPLICATES
    f_INTEGRAL_SCALE_CONT := rhs.f_INTEGRAL_SCALE_CONT
    f_ENFORCE_SCALING := rhs.f_ENFORCE_SCALING
    f_CLEAN_PROC := rhs.f_CLEAN_PROC }

/-- `CglGMIParam` as a class with the calls of `Verif/Param/Spec.lean`. -/
def impl : Impl GMI.Name ℚ where
  Obj := Obj
  fresh := fresh
  set := set
  get := get
  copy := copy
  assign := assign

end GMI

/-! ### CglRedSplitParam -/

namespace RedSplit

/-- The data members of `CglRedSplitParam` that have a setter and a getter. -/
structure Obj where
  f_INFINIT : ℚ
  f_EPS : ℚ
  f_EPS_COEFF : ℚ
  f_MAX_SUPPORT : ℚ
  f_away : ℚ
  f_maxTab : ℚ
  f_LUB : ℚ
  f_EPS_ELIM : ℚ
  f_EPS_RELAX_ABS : ℚ
  f_EPS_RELAX_REL : ℚ
  f_MAXDYN : ℚ
  f_MAXDYN_LUB : ℚ
  f_EPS_COEFF_LUB : ℚ
  f_MINVIOL : ℚ
  f_USE_INTSLACKS : ℚ
  f_USE_CG2 : ℚ
  f_normIsZero : ℚ
  f_minReduc : ℚ

/-- Default constructor, src/CglRedSplit/CglRedSplitParam.hpp:160-173, CglRedSplitParam.cpp:157-186. -/
def fresh : Obj where
  f_INFINIT := dblMax
  f_EPS := 1/10^6
  f_EPS_COEFF := 1/10^5
  f_MAX_SUPPORT := 2^31-1
  f_away := 5/100
  f_maxTab := 10^7
  f_LUB := 1000
  f_EPS_ELIM := 1/10^12
  f_EPS_RELAX_ABS := 1/10^8
  f_EPS_RELAX_REL := 0
  f_MAXDYN := 10^8
  f_MAXDYN_LUB := 10^13
  f_EPS_COEFF_LUB := 1/10^13
  f_MINVIOL := 1/10^7
  f_USE_INTSLACKS := 0
  f_USE_CG2 := 0
  f_normIsZero := 1/10^5
  f_minReduc := 5/100

/-- The setters; the lines of each are given beside it. -/
def set (o : Obj) : RedSplit.Name → ℚ → Obj
  -- CglParam.cpp:22-26
  | .INFINIT, v => if 0 < v then { o with f_INFINIT := v } else o
  -- CglParam.cpp:29-33
  | .EPS, v => if 0 ≤ v then { o with f_EPS := v } else o
  -- CglParam.cpp:36-40
  | .EPS_COEFF, v => if 0 ≤ v then { o with f_EPS_COEFF := v } else o
  -- CglParam.cpp:43-47
  | .MAX_SUPPORT, v => if 0 < v then { o with f_MAX_SUPPORT := v } else o
  -- CglRedSplitParam.cpp:22-26
  | .away, v => if 0 < v ∧ v ≤ 1/2 then { o with f_away := v } else o
  -- CglRedSplitParam.cpp:29-38
  | .maxTab, v => if 10 < v then { o with f_maxTab := v } else o
  -- CglRedSplitParam.cpp:41-49
  | .LUB, v => if 0 < v then { o with f_LUB := v } else o
  -- CglRedSplitParam.cpp:52-56
  | .EPS_ELIM, v => if 0 ≤ v then { o with f_EPS_ELIM := v } else o
  -- CglRedSplitParam.cpp:59-63
  | .EPS_RELAX_ABS, v => if 0 ≤ v then { o with f_EPS_RELAX_ABS := v } else o
  -- CglRedSplitParam.cpp:66-70
  | .EPS_RELAX_REL, v => if 0 ≤ v then { o with f_EPS_RELAX_REL := v } else o
  -- CglRedSplitParam.cpp:73-82
  | .MAXDYN, v => if 1 < v then { o with f_MAXDYN := v } else o
  -- CglRedSplitParam.cpp:85-94
  | .MAXDYN_LUB, v => if 1 < v then { o with f_MAXDYN_LUB := v } else o
  -- CglRedSplitParam.cpp:97-106
  | .EPS_COEFF_LUB, v => if 0 < v ∧ v ≤ 1/10 then { o with f_EPS_COEFF_LUB := v } else o
  -- CglRedSplitParam.cpp:109-118
  | .MINVIOL, v => if 0 < v ∧ v ≤ 1/10 then { o with f_MINVIOL := v } else o
  -- CglRedSplitParam.cpp:121-124
  | .USE_INTSLACKS, v => { o with f_USE_INTSLACKS := v }
  -- CglRedSplitParam.cpp:127-130
  | .USE_CG2, v => { o with f_USE_CG2 := v }
  -- CglRedSplitParam.cpp:133-142
  | .normIsZero, v => if 0 < v ∧ v ≤ 1 then { o with f_normIsZero := v } else o
  -- CglRedSplitParam.cpp:145-154
  | .minReduc, v => if 0 < v ∧ v ≤ 1 then { o with f_minReduc := v } else o

/-- The getters, src/CglRedSplit/CglRedSplitParam.hpp:72-154. -/
def get (o : Obj) : RedSplit.Name → ℚ
  | .INFINIT => o.f_INFINIT
  | .EPS => o.f_EPS
  | .EPS_COEFF => o.f_EPS_COEFF
  | .MAX_SUPPORT => o.f_MAX_SUPPORT
  | .away => o.f_away
  | .maxTab => o.f_maxTab
  | .LUB => o.f_LUB
  | .EPS_ELIM => o.f_EPS_ELIM
  | .EPS_RELAX_ABS => o.f_EPS_RELAX_ABS
  | .EPS_RELAX_REL => o.f_EPS_RELAX_REL
  -- src/CglRedSplit/CglRedSplitParam.hpp:102 returns the other field
  | .MAXDYN => o.f_MAXDYN_LUB
  | .MAXDYN_LUB => o.f_MAXDYN_LUB
  | .EPS_COEFF_LUB => o.f_EPS_COEFF_LUB
  | .MINVIOL => o.f_MINVIOL
  | .USE_INTSLACKS => o.f_USE_INTSLACKS
  | .USE_CG2 => o.f_USE_CG2
  | .normIsZero => o.f_normIsZero
  | .minReduc => o.f_minReduc

/-- Copy constructor, src/CglRedSplit/CglRedSplitParam.cpp:223-239 (`clone` calls it). -/
def copy (source : Obj) : Obj where
  f_INFINIT := source.f_INFINIT
  f_EPS := source.f_EPS
  f_EPS_COEFF := source.f_EPS_COEFF
  f_MAX_SUPPORT := source.f_MAX_SUPPORT
  f_away := source.f_away
  f_maxTab := source.f_maxTab
  f_LUB := source.f_LUB
  f_EPS_ELIM := source.f_EPS_ELIM
  f_EPS_RELAX_ABS := source.f_EPS_RELAX_ABS
  f_EPS_RELAX_REL := source.f_EPS_RELAX_REL
  f_MAXDYN := source.f_MAXDYN
  f_MAXDYN_LUB := source.f_MAXDYN_LUB
  f_EPS_COEFF_LUB := source.f_EPS_COEFF_LUB
  f_MINVIOL := source.f_MINVIOL
  f_USE_INTSLACKS := source.f_USE_INTSLACKS
  f_USE_CG2 := source.f_USE_CG2
  f_normIsZero := source.f_normIsZero
  f_minReduc := source.f_minReduc

/-- `operator=`, src/CglRedSplit/CglRedSplitParam.cpp:248-269, for distinct objects (the test `this != &rhs` is in
`Impl.step`). -/
def assign (this rhs : Obj) : Obj :=
  { this with
    f_INFINIT := rhs.f_INFINIT
    f_EPS := rhs.f_EPS
    f_EPS_COEFF := rhs.f_EPS_COEFF
    f_MAX_SUPPORT := rhs.f_MAX_SUPPORT
    f_away := rhs.f_away
    f_maxTab := rhs.f_maxTab
    f_LUB := rhs.f_LUB
    f_EPS_ELIM := rhs.f_EPS_ELIM
    f_EPS_RELAX_ABS := rhs.f_EPS_RELAX_ABS
    f_EPS_RELAX_REL := rhs.f_EPS_RELAX_REL
    f_MAXDYN := rhs.f_MAXDYN
    f_MAXDYN_LUB := rhs.f_MAXDYN_LUB
    f_EPS_COEFF_LUB := rhs.f_EPS_COEFF_LUB
    f_MINVIOL := rhs.f_MINVIOL
    f_USE_INTSLACKS := rhs.f_USE_INTSLACKS
    f_USE_CG2 := rhs.f_USE_CG2
    f_normIsZero := rhs.f_normIsZero
    f_minReduc := rhs.f_minReduc }

/-- `CglRedSplitParam` as a class with the calls of `Verif/Param/Spec.lean`. -/
def impl : Impl RedSplit.Name ℚ where
  Obj := Obj
  fresh := fresh
  set := set
  get := get
  copy := copy
  assign := assign

end RedSplit

/-! ### CglRedSplit2Param -/

namespace RedSplit2

/-- The data members of `CglRedSplit2Param` that have a setter and a getter. -/
structure Obj where
  f_INFINIT : ℚ
  f_EPS : ℚ
  f_EPS_COEFF : ℚ
  f_MAX_SUPPORT : ℚ
  f_away : ℚ
  f_EPS_ELIM : ℚ
  f_EPS_RELAX_ABS : ℚ
  f_EPS_RELAX_REL : ℚ
  f_MAXDYN : ℚ
  f_MINVIOL : ℚ
  f_MAX_SUPP_REL : ℚ
  f_USE_INTSLACKS : ℚ
  f_normIsZero : ℚ
  f_minNormReduction : ℚ
  f_maxSumMultipliers : ℚ
  f_normalization : ℚ
  f_timeLimit : ℚ
  f_maxNumCuts : ℚ
  f_maxNumComputedCuts : ℚ
  f_maxNonzeroesTab : ℚ
  f_columnScalingStrategyLAP : ℚ
  f_columnScalingBoundLAP : ℚ
  f_skipGomory : ℚ

/-- Default constructor, src/CglRedSplit2/CglRedSplit2Param.hpp:341-362, CglRedSplit2Param.cpp:348-399. -/
def fresh : Obj where
  f_INFINIT := dblMax
  f_EPS := 1/10^12
  f_EPS_COEFF := 1/10^11
  f_MAX_SUPPORT := 1000
  f_away := 5/1000
  f_EPS_ELIM := 0
  f_EPS_RELAX_ABS := 1/10^11
  f_EPS_RELAX_REL := 1/10^13
  f_MAXDYN := 10^6
  f_MINVIOL := 1/10^3
  f_MAX_SUPP_REL := 1/10
  f_USE_INTSLACKS := 0
  f_normIsZero := 1/10^5
  f_minNormReduction := 1/10
  f_maxSumMultipliers := 10
  f_normalization := 1/10^4
  f_timeLimit := 60
  f_maxNumCuts := 10000
  f_maxNumComputedCuts := 10000
  f_maxNonzeroesTab := 1000
  f_columnScalingStrategyLAP := 5
  f_columnScalingBoundLAP := 5
  f_skipGomory := 1

/-- The setters; the lines of each are given beside it. -/
def set (o : Obj) : RedSplit2.Name → ℚ → Obj
  -- CglParam.cpp:22-26
  | .INFINIT, v => if 0 < v then { o with f_INFINIT := v } else o
  -- CglParam.cpp:29-33
  | .EPS, v => if 0 ≤ v then { o with f_EPS := v } else o
  -- CglParam.cpp:36-40
  | .EPS_COEFF, v => if 0 ≤ v then { o with f_EPS_COEFF := v } else o
  -- CglParam.cpp:43-47
  | .MAX_SUPPORT, v => if 0 < v then { o with f_MAX_SUPPORT := v } else o
  -- CglRedSplit2Param.cpp:21-25
  | .away, v => if 0 < v ∧ v ≤ 1/2 then { o with f_away := v } else o
  -- CglRedSplit2Param.cpp:28-32
  | .EPS_ELIM, v => if 0 ≤ v then { o with f_EPS_ELIM := v } else o
  -- CglRedSplit2Param.cpp:35-39
  | .EPS_RELAX_ABS, v => if 0 ≤ v then { o with f_EPS_RELAX_ABS := v } else o
  -- CglRedSplit2Param.cpp:42-46
  | .EPS_RELAX_REL, v => if 0 ≤ v then { o with f_EPS_RELAX_REL := v } else o
  -- CglRedSplit2Param.cpp:49-58
  | .MAXDYN, v => if 1 < v then { o with f_MAXDYN := v } else o
  -- CglRedSplit2Param.cpp:61-70
  | .MINVIOL, v => if 0 < v ∧ v ≤ 1/10 then { o with f_MINVIOL := v } else o
  -- CglRedSplit2Param.cpp:73-82 (line 76 writes the other field)
  | .MAX_SUPP_REL, v => if 0 < v ∧ v ≤ 1/10 then { o with f_MINVIOL := v } else o
  -- CglRedSplit2Param.cpp:85-88
  | .USE_INTSLACKS, v => { o with f_USE_INTSLACKS := v }
  -- CglRedSplit2Param.cpp:91-100
  | .normIsZero, v => if 0 < v ∧ v ≤ 1 then { o with f_normIsZero := v } else o
  -- CglRedSplit2Param.cpp:103-112
  | .minNormReduction, v => if 0 < v ∧ v ≤ 1 then { o with f_minNormReduction := v } else o
  -- CglRedSplit2Param.cpp:115-124
  | .maxSumMultipliers, v => if 1 < v then { o with f_maxSumMultipliers := v } else o
  -- CglRedSplit2Param.cpp:127-136
  | .normalization, v => if 0 ≤ v then { o with f_normalization := v } else o
  -- CglRedSplit2Param.cpp:265-273
  | .timeLimit, v => if 0 ≤ v then { o with f_timeLimit := v } else { o with f_timeLimit := 0 }
  -- CglRedSplit2Param.cpp:277-286
  | .maxNumCuts, v => if 0 ≤ v then { o with f_maxNumCuts := v } else o
  -- CglRedSplit2Param.cpp:290-299
  | .maxNumComputedCuts, v => if 0 ≤ v then { o with f_maxNumComputedCuts := v } else o
  -- CglRedSplit2Param.cpp:303-312
  | .maxNonzeroesTab, v => if 0 ≤ v then { o with f_maxNonzeroesTab := v } else o
  -- CglRedSplit2Param.cpp:316-319
  | .columnScalingStrategyLAP, v => { o with f_columnScalingStrategyLAP := v }
  -- CglRedSplit2Param.cpp:323-332
  | .columnScalingBoundLAP, v => if 0 ≤ v then { o with f_columnScalingBoundLAP := v } else o
  -- CglRedSplit2Param.cpp:336-345
  | .skipGomory, v => if 0 ≤ v ∧ v ≤ 1 then { o with f_skipGomory := v } else o

/-- The getters, src/CglRedSplit2/CglRedSplit2Param.hpp:178-332. -/
def get (o : Obj) : RedSplit2.Name → ℚ
  | .INFINIT => o.f_INFINIT
  | .EPS => o.f_EPS
  | .EPS_COEFF => o.f_EPS_COEFF
  | .MAX_SUPPORT => o.f_MAX_SUPPORT
  | .away => o.f_away
  | .EPS_ELIM => o.f_EPS_ELIM
  | .EPS_RELAX_ABS => o.f_EPS_RELAX_ABS
  | .EPS_RELAX_REL => o.f_EPS_RELAX_REL
  | .MAXDYN => o.f_MAXDYN
  | .MINVIOL => o.f_MINVIOL
  | .MAX_SUPP_REL => o.f_MAX_SUPP_REL
  | .USE_INTSLACKS => o.f_USE_INTSLACKS
  | .normIsZero => o.f_normIsZero
  | .minNormReduction => o.f_minNormReduction
  | .maxSumMultipliers => o.f_maxSumMultipliers
  | .normalization => o.f_normalization
  | .timeLimit => o.f_timeLimit
  | .maxNumCuts => o.f_maxNumCuts
  | .maxNumComputedCuts => o.f_maxNumComputedCuts
  | .maxNonzeroesTab => o.f_maxNonzeroesTab
  | .columnScalingStrategyLAP => o.f_columnScalingStrategyLAP
  | .columnScalingBoundLAP => o.f_columnScalingBoundLAP
  | .skipGomory => o.f_skipGomory

/-- Copy constructor, src/CglRedSplit2/CglRedSplit2Param.cpp:454-481 (`clone` calls it). -/
def copy (source : Obj) : Obj where
  f_INFINIT := source.f_INFINIT
  f_EPS := source.f_EPS
  f_EPS_COEFF := source.f_EPS_COEFF
  f_MAX_SUPPORT := source.f_MAX_SUPPORT
  f_away := source.f_away
  f_EPS_ELIM := source.f_EPS_ELIM
  f_EPS_RELAX_ABS := source.f_EPS_RELAX_ABS
  f_EPS_RELAX_REL := source.f_EPS_RELAX_REL
  f_MAXDYN := source.f_MAXDYN
  f_MINVIOL := source.f_MINVIOL
  f_MAX_SUPP_REL := source.f_MAX_SUPP_REL
  f_USE_INTSLACKS := source.f_USE_INTSLACKS
  f_normIsZero := source.f_normIsZero
  f_minNormReduction := source.f_minNormReduction
  f_maxSumMultipliers := source.f_maxSumMultipliers
  f_normalization := source.f_normalization
  f_timeLimit := source.f_timeLimit
  f_maxNumCuts := source.f_maxNumCuts
  f_maxNumComputedCuts := source.f_maxNumComputedCuts
  f_maxNonzeroesTab := source.f_maxNonzeroesTab
  f_columnScalingStrategyLAP := source.f_columnScalingStrategyLAP
  f_columnScalingBoundLAP := source.f_columnScalingBoundLAP
  f_skipGomory := source.f_skipGomory

/-- `operator=`, src/CglRedSplit2/CglRedSplit2Param.cpp:490-522, for distinct objects (the test `this != &rhs` is in
`Impl.step`). -/
def assign (this rhs : Obj) : Obj :=
  { this with
    f_INFINIT := rhs.f_INFINIT
    f_EPS := rhs.f_EPS
    f_EPS_COEFF := rhs.f_EPS_COEFF
    f_MAX_SUPPORT := rhs.f_MAX_SUPPORT
    f_away := rhs.f_away
    f_EPS_ELIM := rhs.f_EPS_ELIM
    f_EPS_RELAX_ABS := rhs.f_EPS_RELAX_ABS
    f_EPS_RELAX_REL := rhs.f_EPS_RELAX_REL
    f_MAXDYN := rhs.f_MAXDYN
    f_MINVIOL := rhs.f_MINVIOL
    f_MAX_SUPP_REL := rhs.f_MAX_SUPP_REL
    f_USE_INTSLACKS := rhs.f_USE_INTSLACKS
    f_normIsZero := rhs.f_normIsZero
    f_minNormReduction := rhs.f_minNormReduction
    f_maxSumMultipliers := rhs.f_maxSumMultipliers
    f_normalization := rhs.f_normalization
    f_timeLimit := rhs.f_timeLimit
    f_maxNumCuts := rhs.f_maxNumCuts
    f_maxNumComputedCuts := rhs.f_maxNumComputedCuts
    f_maxNonzeroesTab := rhs.f_maxNonzeroesTab
    f_columnScalingStrategyLAP := rhs.f_columnScalingStrategyLAP
    f_columnScalingBoundLAP := rhs.f_columnScalingBoundLAP
    f_skipGomory := rhs.f_skipGomory }

/-- `CglRedSplit2Param` as a class with the calls of `Verif/Param/Spec.lean`. -/
def impl : Impl RedSplit2.Name ℚ where
  Obj := Obj
  fresh := fresh
  set := set
  get := get
  copy := copy
  assign := assign

end RedSplit2

/-! ### CglGomory -/

namespace Gomory

/-- The data members of `CglGomory` that have a setter and a getter. -/
structure Obj where
  f_away : ℚ
  f_awayAtRoot : ℚ
  f_conditionNumberMultiplier : ℚ
  f_largestFactorMultiplier : ℚ
  f_limit : ℚ
  f_limitAtRoot : ℚ

/-- Default constructor, src/CglGomory/CglGomory.cpp:2007-2022. -/
def fresh : Obj where
  f_away := 5/100
  f_awayAtRoot := 5/100
  f_conditionNumberMultiplier := 1/10^18
  f_largestFactorMultiplier := 1/10^13
  f_limit := 50
  f_limitAtRoot := 0

/-- The setters; the lines of each are given beside it. -/
def set (o : Obj) : Gomory.Name → ℚ → Obj
  -- CglGomory.cpp:1961-1965
  | .away, v => if 0 < v ∧ v ≤ 1/2 then { o with f_away := v } else o
  -- CglGomory.cpp:1972-1976
  | .awayAtRoot, v => if 0 < v ∧ v ≤ 1/2 then { o with f_awayAtRoot := v } else o
  -- CglGomory.cpp:1983-1987
  | .conditionNumberMultiplier, v => if 0 ≤ v then { o with f_conditionNumberMultiplier := v } else o
  -- CglGomory.cpp:1994-1998
  | .largestFactorMultiplier, v => if 0 ≤ v then { o with f_largestFactorMultiplier := v } else o
  -- CglGomory.cpp:1931-1935
  | .limit, v => if 0 ≤ v then { o with f_limit := v } else o
  -- CglGomory.cpp:1941-1945
  | .limitAtRoot, v => if 0 ≤ v then { o with f_limitAtRoot := v } else o

/-- The getters, src/CglGomory/CglGomory.cpp:1936-2002. -/
def get (o : Obj) : Gomory.Name → ℚ
  | .away => o.f_away
  | .awayAtRoot => o.f_awayAtRoot
  | .conditionNumberMultiplier => o.f_conditionNumberMultiplier
  | .largestFactorMultiplier => o.f_largestFactorMultiplier
  | .limit => o.f_limit
  | .limitAtRoot => o.f_limitAtRoot

/-- Copy constructor, src/CglGomory/CglGomory.cpp:2027-2040 (`clone` calls it). -/
def copy (source : Obj) : Obj where
  f_away := source.f_away
  f_awayAtRoot := source.f_awayAtRoot
  f_conditionNumberMultiplier := source.f_conditionNumberMultiplier
  f_largestFactorMultiplier := source.f_largestFactorMultiplier
  f_limit := source.f_limit
  f_limitAtRoot := source.f_limitAtRoot

/-- `operator=`, src/CglGomory/CglGomory.cpp:2062-2078, for distinct objects (the test `this != &rhs` is in
`Impl.step`). -/
def assign (this rhs : Obj) : Obj :=
  { this with
    f_away := rhs.f_away
    f_awayAtRoot := rhs.f_awayAtRoot
    f_conditionNumberMultiplier := rhs.f_conditionNumberMultiplier
    f_largestFactorMultiplier := rhs.f_largestFactorMultiplier
    f_limit := rhs.f_limit
    f_limitAtRoot := rhs.f_limitAtRoot }

/-- `CglGomory` as a class with the calls of `Verif/Param/Spec.lean`. -/
def impl : Impl Gomory.Name ℚ where
  Obj := Obj
  fresh := fresh
  set := set
  get := get
  copy := copy
  assign := assign

end Gomory

/-! ### CglTwomir -/

namespace Twomir

/-- The data members of `CglTwomir` that have a setter and a getter. -/
structure Obj where
  f_away : ℚ
  f_awayAtRoot : ℚ
  f_twomirType : ℚ
  f_mir : ℚ
  f_twomir : ℚ
  f_tab : ℚ
  f_form : ℚ
  f_tmin : ℚ
  f_tmax : ℚ
  f_qmin : ℚ
  f_qmax : ℚ
  f_amax : ℚ
  f_maxElements : ℚ
  f_maxElementsRoot : ℚ

/-- Default constructor, src/CglTwomir/CglTwomir.cpp:555-562. -/
def fresh : Obj where
  f_away := 5/10000
  f_awayAtRoot := 5/10000
  f_twomirType := 0
  f_mir := 1
  f_twomir := 1
  f_tab := 1
  f_form := 1
  f_tmin := 1
  f_tmax := 1
  f_qmin := 1
  f_qmax := 1
  f_amax := 2
  f_maxElements := 50000
  f_maxElementsRoot := 50000

/-- The setters; the lines of each are given beside it. -/
def set (o : Obj) : Twomir.Name → ℚ → Obj
  -- CglTwomir.cpp:2228-2232
  | .away, v => if 0 < v ∧ v ≤ 1/2 then { o with f_away := v } else o
  -- CglTwomir.cpp:2239-2243
  | .awayAtRoot, v => if 0 < v ∧ v ≤ 1/2 then { o with f_awayAtRoot := v } else o
  -- CglTwomir.hpp:177-178
  | .twomirType, v => { o with f_twomirType := v }
  -- CglTwomir.hpp:139-140
  | .mir, v => { o with f_mir := v }
  -- CglTwomir.hpp:139-140
  | .twomir, v => { o with f_twomir := v }
  -- CglTwomir.hpp:139-140
  | .tab, v => { o with f_tab := v }
  -- CglTwomir.hpp:139-140
  | .form, v => { o with f_form := v }
  -- CglTwomir.hpp:134
  | .tmin, v => { o with f_tmin := v }
  -- CglTwomir.hpp:134
  | .tmax, v => { o with f_tmax := v }
  -- CglTwomir.hpp:135
  | .qmin, v => { o with f_qmin := v }
  -- CglTwomir.hpp:135
  | .qmax, v => { o with f_qmax := v }
  -- CglTwomir.hpp:136
  | .amax, v => { o with f_amax := v }
  -- CglTwomir.hpp:137
  | .maxElements, v => { o with f_maxElements := v }
  -- CglTwomir.hpp:138
  | .maxElementsRoot, v => { o with f_maxElementsRoot := v }

/-- The getters, src/CglTwomir/CglTwomir.hpp:144-154, 180 and CglTwomir.cpp:2233-2247. -/
def get (o : Obj) : Twomir.Name → ℚ
  | .away => o.f_away
  | .awayAtRoot => o.f_awayAtRoot
  | .twomirType => o.f_twomirType
  | .mir => o.f_mir
  | .twomir => o.f_twomir
  | .tab => o.f_tab
  | .form => o.f_form
  | .tmin => o.f_tmin
  | .tmax => o.f_tmax
  | .qmin => o.f_qmin
  | .qmax => o.f_qmax
  | .amax => o.f_amax
  | .maxElements => o.f_maxElements
  | .maxElementsRoot => o.f_maxElementsRoot

/-- Copy constructor, src/CglTwomir/CglTwomir.cpp:567-589 (`clone` calls it). -/
def copy (source : Obj) : Obj where
  f_away := source.f_away
  f_awayAtRoot := source.f_awayAtRoot
  f_twomirType := source.f_twomirType
  f_mir := source.f_mir
  f_twomir := source.f_twomir
  f_tab := source.f_tab
  f_form := source.f_form
  f_tmin := source.f_tmin
  f_tmax := source.f_tmax
  f_qmin := source.f_qmin
  f_qmax := source.f_qmax
  f_amax := source.f_amax
  f_maxElements := source.f_maxElements
  f_maxElementsRoot := source.f_maxElementsRoot

/-- `operator=`, src/CglTwomir/CglTwomir.cpp:611-638, for distinct objects (the test `this != &rhs` is in
`Impl.step`). -/
def assign (this rhs : Obj) : Obj :=
  { this with
    f_away := rhs.f_away
    f_awayAtRoot := rhs.f_awayAtRoot
    f_twomirType := rhs.f_twomirType
    f_mir := rhs.f_mir
    f_twomir := rhs.f_twomir
    f_tab := rhs.f_tab
    f_form := rhs.f_form
    f_tmin := rhs.f_tmin
    f_tmax := rhs.f_tmax
    f_qmin := rhs.f_qmin
    f_qmax := rhs.f_qmax
    f_amax := rhs.f_amax
    f_maxElements := rhs.f_maxElements
    f_maxElementsRoot := rhs.f_maxElementsRoot }

/-- `CglTwomir` as a class with the calls of `Verif/Param/Spec.lean`. -/
def impl : Impl Twomir.Name ℚ where
  Obj := Obj
  fresh := fresh
  set := set
  get := get
  copy := copy
  assign := assign

end Twomir

end Cgl.Param
