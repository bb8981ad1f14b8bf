import Verif.Osi

/-!
# Model of `src/CglAllDifferent`

Release behaviour (`NDEBUG`): the `assert`s are not executed. What C++ leaves undefined is a `Fault`.
-/

namespace Cgl.AllDiff

/-- Undefined behaviour, and the bound on loop rounds of the model (never hit, see `generateCuts_total`). -/
inductive Fault
  /-- `start_` is null (no sets), CglAllDifferent.cpp:101 -/
  | nullDeref
  /-- a column number or array position out of range -/
  | badIndex
  /-- `static_cast<int>` of a bound that does not fit -/
  | badCast
  /-- `int` overflow -/
  | overflow
  /-- `CoinPackedVector::insert` of an index that is already there throws -/
  | exception
  | outOfFuel
deriving DecidableEq, Repr

/-- A `CglAllDifferent` object, CglAllDifferent.hpp:88-104: the sets over dense variable numbers (`start_`, `which_`),
`originalWhich_`, `numberDifferent_`. -/
structure Obj where
  sets : List (List Nat)
  orig : List Nat
  nDiff : Nat
deriving DecidableEq, Repr

/-- `translate[c]` for a listed column, CglAllDifferent.cpp:457-469: listed columns are numbered in increasing order. -/
def translate (cols : List Nat) (c : Nat) : Nat := ((List.range c).filter fun j => decide (j ∈ cols)).length

/-- The useful constructor, CglAllDifferent.cpp:432-479, for the sets `starts`/`which` describe. `originalWhich_` is a
plain copy of `which` (line 446). Without sets the pointers stay null and `numberDifferent_` is not set. -/
def ofSets (sets : List (List Nat)) : Obj :=
  let cols := sets.flatten
  { sets := sets.map fun s => s.map (translate cols), orig := cols, nDiff := translate cols (cols.foldl max 0 + 1) }

/-- One round of the loop of CglAllDifferent.cpp:82-98: smallest and largest bound so far. -/
def widen (lo up : Nat → Int) (s : List Nat) (r : Int × Int) : Int × Int :=
  s.foldl (fun r k => (min r.1 (lo k), max r.2 (up k))) r

/-- The loop of CglAllDifferent.cpp:82-98: `offset`, `maxValue`, and the sets looked at. -/
def look (lo up : Nat → Int) (nDiff : Nat) : List (List Nat) → Int × Int → Except Fault ((Int × Int) × List (List Nat))
  | [], r => .ok (r, [])
  | s :: ss, r =>
    let r' := widen lo up s r
    let gap := r'.2 - r'.1 + 1
    if gap > intMax ∨ gap < intMin then .error .overflow
    else if gap * nDiff > 10 ^ 7 then .ok (r', [s])
    else match look lo up nDiff ss r' with
      | .error e => .error e
      | .ok (q, l) => .ok (q, s :: l)

/-- Update of a function. -/
def upd {α β : Type} [DecidableEq α] (f : α → β) (a : α) (b : β) : α → β := fun c => if c = a then b else f c

/-- Position of value `v` of variable `k` in `possible`. -/
def at' (gap : Nat) (k v : Nat) : Int := k * gap + v

/-- "take out of all others", CglAllDifferent.cpp:141-150, 206-215; `sets` are the sets looked at (`back` lists those
containing the variable). -/
def takeOut (gap : Nat) (sets : List (List Nat)) (i : Nat) (f : Int) (poss : Int → Bool) : Int → Bool :=
  (sets.filter fun s => s.contains i).foldl
    (fun p s => s.foldl (fun p k => if k ≠ i then upd p ((k * gap : Nat) + f) false else p) p) poss

/-- `possible`, `alreadyFixed`, `numberFixed`. -/
structure St where
  poss : Int → Bool
  fixed : Nat → Int
  nFixed : Nat

/-- `possible` after CglAllDifferent.cpp:126-132: all `memset` of ones. -/
def initPoss (gap nDiff : Nat) (lo up : Nat → Int) (offset : Int) : Int → Bool := fun p =>
  (List.range nDiff).any fun i =>
    decide ((i * gap : Nat) + lo i - offset ≤ p ∧ p < (i * gap : Nat) + lo i - offset + (up i - lo i + 1))

/-- The loop of CglAllDifferent.cpp:133-152 over variables. -/
def initFix (gap : Nat) (sets : List (List Nat)) (lo up : Nat → Int) (offset : Int) : List Nat → St → St
  | [], s => s
  | i :: is, s =>
    initFix gap sets lo up offset is
      (if up i - lo i + 1 = 1 then
        { poss := takeOut gap sets i (lo i - offset) s.poss, fixed := upd s.fixed i (lo i - offset), nFixed := s.nFixed + 1 }
      else s)

/-- The values the array allows for a variable, in order. -/
def allowed (gap : Nat) (poss : Int → Bool) (k : Nat) : List Nat := (List.range gap).filter fun v => poss (at' gap k v)

/-- The loop over the members of a set, CglAllDifferent.cpp:169-225; the flag is "infeasible found". -/
def scanSet (gap : Nat) (sets : List (List Nat)) : List Nat → St → (Nat → Nat) → St × Bool
  | [], s, _ => (s, false)
  | k :: ks, s, check =>
    if 0 ≤ s.fixed k then
      if check (s.fixed k).toNat = 0 then scanSet gap sets ks s (upd check (s.fixed k).toNat 1) else (s, true)
    else
      let al := allowed gap s.poss k
      let check1 := fun v => if v ∈ al then check v + 1 else check v
      match al with
      | [] => (s, true)
      | [f] => scanSet gap sets ks ⟨takeOut gap sets k f s.poss, upd s.fixed k f, s.nFixed + 1⟩ (upd check1 f 1)
      | _ :: _ :: _ => scanSet gap sets ks s check1

/-! ### The backtracking search, CglAllDifferent.cpp:228-330 -/

/-- `first[j]`: the first allowed value, `gap` if none (NDEBUG). `al j v` is `allowed[v]` of the `j`th member. -/
def firstOf (gap : Nat) (al : Nat → Nat → Bool) (j : Nat) : Nat := ((List.range gap).find? fun v => al j v).getD gap

/-- The first value from `a` on that is allowed and not covered. -/
def nextFree (gap : Nat) (al : Nat → Nat → Bool) (j : Nat) (cov : Nat → Bool) (a : Nat) : Option Nat :=
  (List.range gap).find? fun v => decide (a ≤ v) && al j v && !cov v

/-- The first pass, CglAllDifferent.cpp:235-265: stack (bottom first), `covered`, `good`. The first argument is the
number of members still to do. -/
def firstPass (gap : Nat) (al : Nat → Nat → Bool) : Nat → List Nat → (Nat → Bool) → List Nat × (Nat → Bool) × Bool
  | 0, st, cov => (st, cov, true)
  | k + 1, st, cov =>
    let jj := firstOf gap al st.length
    if cov jj = false then firstPass gap al k (st ++ [jj]) (upd cov jj true)
    else match nextFree gap al st.length cov (jj + 1) with
      | some v => firstPass gap al k (st ++ [v]) (upd cov v true)
      | none => (st, cov, false)

/-- The inner `while`, CglAllDifferent.cpp:309-329, from value `a`. -/
def extend (gap : Nat) (al : Nat → Nat → Bool) : Nat → Nat → List Nat → (Nat → Bool) → List Nat × (Nat → Bool) × Bool
  | 0, _, st, cov => (st, cov, true)
  | k + 1, a, st, cov =>
    match nextFree gap al st.length cov a with
    | some v => extend gap al k (firstOf gap al (st.length + 1)) (st ++ [v]) (upd cov v true)
    | none => (st, cov, false)

/-- `bitmap[j] |= 1 << stack[j]` for all members, CglAllDifferent.cpp:287-291. -/
def record (st : List Nat) (bm : Nat → Nat → Bool) : Nat → Nat → Bool := fun j v => bm j v || decide (st[j]? = some v)

/-- The outer `while`, CglAllDifferent.cpp:278-330, for a set of `n` members. -/
def backtrack (gap : Nat) (al : Nat → Nat → Bool) (n : Nat) : Nat → List Nat → (Nat → Bool) → Bool → (Nat → Nat → Bool) →
    Option (Nat → Nat → Bool)
  | 0, _, _, _, _ => none
  | fuel + 1, st, cov, good, bm =>
    match st.getLast? with
    | none => some bm
    | some jj =>
      let bm' := if good then record st bm else bm
      let e := extend gap al (n - st.dropLast.length) (jj + 1) st.dropLast (upd cov jj false)
      backtrack gap al n fuel e.1 e.2.1 e.2.2 bm'

/-- Number of rounds allowed to `backtrack`. -/
def searchFuel (gap n : Nat) : Nat := (gap + 2) ^ (n + 1) + 1

/-- The check of one set, CglAllDifferent.cpp:228-352: new `possible`, and whether a value was removed. -/
def filterSet (gap : Nat) (set : List Nat) (poss : Int → Bool) : Option ((Int → Bool) × Bool) :=
  let al := fun j v => poss (at' gap (set.getD j 0) v)
  let f := firstPass gap al set.length [] (fun _ => false)
  match backtrack gap al set.length (searchFuel gap set.length) f.1 f.2.1 f.2.2 (fun _ _ => false) with
  | none => none
  | some bm =>
    some (fun p => poss p && !((List.range set.length).any fun j => (List.range gap).any fun v =>
        decide (p = at' gap (set.getD j 0) v) && !bm j v),
      (List.range set.length).any fun j => (List.range gap).any fun v => al j v && !bm j v)

/-- One round of `while (!finished)` over the sets, CglAllDifferent.cpp:166-354: state, `infeasible`, `finished`.
`bitmap`, `stack` and `first` have room for `numberDifferent_` members. -/
def pass (gap nDiff : Nat) (sets : List (List Nat)) : List (List Nat) → St → Bool → Bool → Except Fault (St × Bool × Bool)
  | [], s, inf, fin => .ok (s, inf, fin)
  | set :: rest, s, inf, fin =>
    let r := scanSet gap sets set s (fun _ => 0)
    if r.2 then .ok (r.1, true, fin)
    else if gap < 30 ∧ inf = false then
      if set.length > nDiff then .error .badIndex
      else match filterSet gap set r.1.poss with
        | none => .error .outOfFuel
        | some (p, removed) => pass gap nDiff sets rest { r.1 with poss := p } inf (fin && !removed)
    else pass gap nDiff sets rest r.1 inf fin

/-- `while (!finished)`, CglAllDifferent.cpp:163-357. -/
def passes (gap nDiff : Nat) (sets : List (List Nat)) : Nat → St → Bool → Except Fault (St × Bool)
  | 0, _, _ => .error .outOfFuel
  | fuel + 1, s, inf =>
    match pass gap nDiff sets sets s inf true with
    | .error e => .error e
    | .ok (s', inf', fin) => if fin && !decide (s'.nFixed > s.nFixed) then .ok (s', inf') else passes gap nDiff sets fuel s' inf'

/-- The cuts so far: row cuts and column cuts of an `OsiCuts`. -/
structure Cuts where
  rows : List RowCut
  cols : List ColCut

/-- `firstLo` and `lastUp`, CglAllDifferent.cpp:371-379. -/
def firstLo (gap : Nat) (poss : Int → Bool) (i : Nat) : Int := match (allowed gap poss i).head? with | some v => v | none => -1
def lastUp (gap : Nat) (poss : Int → Bool) (i : Nat) : Int := match (allowed gap poss i).getLast? with | some v => v | none => -1

/-- The new bounds, CglAllDifferent.cpp:364-388. -/
def newLower (gap nDiff : Nat) (orig : List Nat) (lo : Nat → Int) (offset : Int) (poss : Int → Bool) : SVec :=
  ((List.range nDiff).filter fun i => decide (firstLo gap poss i + offset > lo i)).map fun i =>
    (orig.getD i 0, ((firstLo gap poss i + offset : Int) : ℚ))
def newUpper (gap nDiff : Nat) (orig : List Nat) (up : Nat → Int) (offset : Int) (poss : Int → Bool) : SVec :=
  ((List.range nDiff).filter fun i => decide (lastUp gap poss i + offset < up i)).map fun i =>
    (orig.getD i 0, ((lastUp gap poss i + offset : Int) : ℚ))

/-- The bounds of a variable can be read and cast, CglAllDifferent.cpp:61-69. -/
def readable (o : Obj) (P : Prob) (i : Nat) : Bool :=
  match o.orig[i]? with
  | none => false
  | some c => decide (c < P.nCols) && (castInt (P.colLower c)).isSome && (castInt (P.colUpper c)).isSome

/-- `lo[i]`, `up[i]`, CglAllDifferent.cpp:61-69. -/
def loOf (o : Obj) (P : Prob) (i : Nat) : Int := truncQ (P.colLower (o.orig.getD i 0))
def upOf (o : Obj) (P : Prob) (i : Nat) : Int := truncQ (P.colUpper (o.orig.getD i 0))

/-- `gap`, CglAllDifferent.cpp:121. -/
def gapOf (r : Int × Int) : Nat := (r.2 - r.1 + 1).toNat

/-- The `memset` of CglAllDifferent.cpp:126-132 for variable `i` stays inside the array. -/
def memOk (gap nDiff : Nat) (lo up : Nat → Int) (offset : Int) (i : Nat) : Bool :=
  decide (0 ≤ up i - lo i + 1 ∧ 0 ≤ (i * gap : Nat) + lo i - offset ∧
    (i * gap : Nat) + lo i - offset + (up i - lo i + 1) ≤ (gap * nDiff : Nat))

/-- The state before the first round. -/
def start (gap nDiff : Nat) (sets : List (List Nat)) (lo up : Nat → Int) (offset : Int) : St :=
  initFix gap sets lo up offset (List.range nDiff) ⟨initPoss gap nDiff lo up offset, fun _ => -1, 0⟩

/-- Number of rounds allowed to `passes`. -/
def passFuel (gap nDiff : Nat) : Nat := gap * nDiff + nDiff + 1

/-- `generateCuts`, CglAllDifferent.cpp:30-400. -/
def generateCuts (o : Obj) (P : Prob) (cs : Cuts) : Except Fault Cuts :=
  if o.sets = [] then .error .nullDeref
  else if !((List.range o.nDiff).all (readable o P)) then .error .badCast
  else
    let lo := loOf o P
    let up := upOf o P
    match look lo up o.nDiff o.sets (intMax, -intMax) with
    | .error e => .error e
    | .ok (r, sets) =>
      let gap := gapOf r
      if (gap * o.nDiff : Nat) > intMax then .error .overflow
      else if !((List.range o.nDiff).all (memOk gap o.nDiff lo up r.1)) then .error .badIndex
      else match passes gap o.nDiff sets (passFuel gap o.nDiff) (start gap o.nDiff sets lo up r.1) false with
        | .error e => .error e
        | .ok (s, true) => .ok { cs with rows := insertIfNotDuplicate cs.rows ⟨dblMax, 0, []⟩ }
        | .ok (s, false) =>
          let lbs := newLower gap o.nDiff o.orig lo r.1 s.poss
          let ubs := newUpper gap o.nDiff o.orig up r.1 s.poss
          if ¬ (lbs.map Prod.fst).Nodup ∨ ¬ (ubs.map Prod.fst).Nodup then .error .exception
          else if lbs = [] ∧ ubs = [] then .ok cs else .ok { cs with cols := cs.cols ++ [⟨lbs, ubs⟩] }

end Cgl.AllDiff
