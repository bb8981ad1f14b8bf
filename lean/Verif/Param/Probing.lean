import Verif.Param.Generic

/-!
The parameters of `CglProbing`.  All of them are `int`, modelled as 32-bit words, because
`setMode` works on bits.
-/

namespace Cgl.Param.Probing

/-- The parameters of `CglProbing`. -/
inductive Name where
  | mode | rowCuts | maxPass | logLevel | maxProbe | maxLook | maxElements
  | maxPassRoot | maxProbeRoot | maxLookRoot | maxElementsRoot | usingObjective
  deriving DecidableEq

/-! ### Documentation -/

/-- Documented ranges.  The mode is 0, 1 or 2, plus possibly 8. -/
def range : Name → BitVec 32 → Prop
  | .mode, v => v.toNat % 8 < 3 ∧ v.toNat < 16
  | .rowCuts, v => -5 < v.toInt ∧ v.toInt < 5
  | .maxPass, v => 0 < v.toInt
  | .logLevel, v => 0 ≤ v.toInt
  | .maxProbe, v => 0 ≤ v.toInt
  | .maxLook, v => 0 ≤ v.toInt
  | .maxElements, v => 0 < v.toInt
  | .maxPassRoot, v => 0 < v.toInt
  | .maxProbeRoot, v => 0 < v.toInt
  | .maxLookRoot, v => 0 < v.toInt
  | .maxElementsRoot, v => 0 < v.toInt
  | .usingObjective, _ => True

/-- Accepted arguments: for `setMode`, the low three bits decide. -/
def accepts : Name → BitVec 32 → Prop
  | .mode, v => v.toNat % 8 < 3
  | n, v => range n v

/-- Value read back: `getMode` gives the low four bits. -/
def stored : Name → BitVec 32 → BitVec 32
  | .mode, v => BitVec.ofNat 32 (v.toNat % 16)
  | _, v => v

/-- Defaults. -/
def dflt : Name → BitVec 32
  | .mode => 1
  | .rowCuts => 1
  | .maxPass => 3
  | .logLevel => 0
  | .maxProbe => 100
  | .maxLook => 50
  | .maxElements => 1000
  | .maxPassRoot => 3
  | .maxProbeRoot => 100
  | .maxLookRoot => 50
  | .maxElementsRoot => 10000
  | .usingObjective => 0

/-- Documentation of `CglProbing`. -/
def doc : Doc Name (BitVec 32) where
  dflt := dflt
  accepts := accepts
  stored := stored
  range := range

/-! ### Model -/

/-- The data members of `CglProbing` that have a setter and a getter.  (`maxLook` is the member
`maxStack_`.) -/
structure Obj where
  f_mode : BitVec 32
  f_rowCuts : BitVec 32
  f_maxPass : BitVec 32
  f_logLevel : BitVec 32
  f_maxProbe : BitVec 32
  f_maxStack : BitVec 32
  f_maxElements : BitVec 32
  f_maxPassRoot : BitVec 32
  f_maxProbeRoot : BitVec 32
  f_maxStackRoot : BitVec 32
  f_maxElementsRoot : BitVec 32
  f_usingObjective : BitVec 32

/-- Default constructor, src/CglProbing/CglProbing.cpp:10267-10282. -/
def fresh : Obj where
  f_mode := 1
  f_rowCuts := 1
  f_maxPass := 3
  f_logLevel := 0
  f_maxProbe := 100
  f_maxStack := 50
  f_maxElements := 1000
  f_maxPassRoot := 3
  f_maxProbeRoot := 100
  f_maxStackRoot := 50
  f_maxElementsRoot := 10000
  f_usingObjective := 0

/-- The signed comparison `a < b` of two `int`s. -/
abbrev lt (a b : BitVec 32) : Bool := a.slt b

/-- The setters, src/CglProbing/CglProbing.cpp:10110-10237. -/
def set (o : Obj) : Name → BitVec 32 → Obj
  -- 10110-10118
  | .mode, v =>
    let mode2 := v &&& 7#32
    if !lt mode2 0#32 && lt mode2 3#32 then
      { o with f_mode := (o.f_mode &&& ~~~ 15#32) ||| v }
    else o
  -- 10233-10237
  | .rowCuts, v => if lt (-5#32) v && lt v 5#32 then { o with f_rowCuts := v } else o
  -- 10124-10128
  | .maxPass, v => if lt 0#32 v then { o with f_maxPass := v } else o
  -- 10135-10139
  | .logLevel, v => if !lt v 0#32 then { o with f_logLevel := v } else o
  -- 10146-10150
  | .maxProbe, v => if !lt v 0#32 then { o with f_maxProbe := v } else o
  -- 10157-10161
  | .maxLook, v => if !lt v 0#32 then { o with f_maxStack := v } else o
  -- 10168-10172
  | .maxElements, v => if lt 0#32 v then { o with f_maxElements := v } else o
  -- 10179-10183
  | .maxPassRoot, v => if lt 0#32 v then { o with f_maxPassRoot := v } else o
  -- 10190-10194
  | .maxProbeRoot, v => if lt 0#32 v then { o with f_maxProbeRoot := v } else o
  -- 10201-10205
  | .maxLookRoot, v => if lt 0#32 v then { o with f_maxStackRoot := v } else o
  -- 10212-10216
  | .maxElementsRoot, v => if lt 0#32 v then { o with f_maxElementsRoot := v } else o
  -- 10223-10226
  | .usingObjective, v => { o with f_usingObjective := v }

/-- The getters, src/CglProbing/CglProbing.cpp:10119-10242. -/
def get (o : Obj) : Name → BitVec 32
  | .mode => o.f_mode &&& 15#32
  | .rowCuts => o.f_rowCuts
  | .maxPass => o.f_maxPass
  | .logLevel => o.f_logLevel
  | .maxProbe => o.f_maxProbe
  | .maxLook => o.f_maxStack
  | .maxElements => o.f_maxElements
  | .maxPassRoot => o.f_maxPassRoot
  | .maxProbeRoot => o.f_maxProbeRoot
  | .maxLookRoot => o.f_maxStackRoot
  | .maxElementsRoot => o.f_maxElementsRoot
  | .usingObjective => o.f_usingObjective

/-- Copy constructor, src/CglProbing/CglProbing.cpp:10322-10337 (`clone` calls it). -/
def copy (rhs : Obj) : Obj where
  f_mode := rhs.f_mode
  f_rowCuts := rhs.f_rowCuts
  f_maxPass := rhs.f_maxPass
  f_logLevel := rhs.f_logLevel
  f_maxProbe := rhs.f_maxProbe
  f_maxStack := rhs.f_maxStack
  f_maxElements := rhs.f_maxElements
  f_maxPassRoot := rhs.f_maxPassRoot
  f_maxProbeRoot := rhs.f_maxProbeRoot
  f_maxStackRoot := rhs.f_maxStackRoot
  f_maxElementsRoot := rhs.f_maxElementsRoot
  f_usingObjective := rhs.f_usingObjective

/-- `operator=`, src/CglProbing/CglProbing.cpp:10489-10535, for distinct objects. -/
def assign (this rhs : Obj) : Obj :=
  { this with
    f_mode := rhs.f_mode
    f_rowCuts := rhs.f_rowCuts
    f_maxPass := rhs.f_maxPass
    f_logLevel := rhs.f_logLevel
    f_maxProbe := rhs.f_maxProbe
    f_maxStack := rhs.f_maxStack
    f_maxElements := rhs.f_maxElements
    f_maxPassRoot := rhs.f_maxPassRoot
    f_maxProbeRoot := rhs.f_maxProbeRoot
    f_maxStackRoot := rhs.f_maxStackRoot
    f_maxElementsRoot := rhs.f_maxElementsRoot
    f_usingObjective := rhs.f_usingObjective }

/-- `CglProbing` as a class with the calls of `Verif/Param/Spec.lean`. -/
def impl : Impl Name (BitVec 32) where
  Obj := Obj
  fresh := fresh
  set := set
  get := get
  copy := copy
  assign := assign

end Cgl.Param.Probing
