import Mathlib.Data.List.Basic
import Mathlib.Data.List.FinRange
import Mathlib.Tactic.SplitIfs

/-!
The lists of strategies of `CglRedSplit2Param`: `addNumRowsReduction`,
`addColumnSelectionStrategy`, `addRowSelectionStrategy`, their `LAP` versions and the `reset`
functions.
-/

namespace Cgl.Param.Strat

/-- `ColumnSelectionStrategy`, src/CglRedSplit2/CglRedSplit2Param.hpp:122-150; `cs k` is
`CS(k+1)`. -/
inductive CS where
  | cs (k : Fin 21)
  | all
  | best
  | allcont
  | lapNonbasics
  deriving DecidableEq

/-- `RowSelectionStrategy`, src/CglRedSplit2/CglRedSplit2Param.hpp:94-119; `rs k` is
`RS(k+1)`. -/
inductive RS where
  | rs (k : Fin 8)
  | all
  | best
  deriving DecidableEq

/-- The six vectors, src/CglRedSplit2/CglRedSplit2Param.hpp:452-468. -/
structure Obj where
  rows : List ℤ
  cols : List CS
  rsel : List RS
  rowsLAP : List ℤ
  colsLAP : List CS
  rselLAP : List RS
  deriving DecidableEq

/-- A call on the object. -/
inductive Call where
  | addRows (v : ℤ)
  | addCols (v : CS)
  | addRsel (v : RS)
  | addRowsLAP (v : ℤ)
  | addColsLAP (v : CS)
  | addRselLAP (v : RS)
  | resetRows
  | resetCols
  | resetRsel
  | resetRowsLAP
  | resetColsLAP
  | resetRselLAP

/-- `addNumRowsReduction`, src/CglRedSplit2/CglRedSplit2Param.cpp:139-148. -/
def addRows (o : Obj) (v : ℤ) : Obj :=
  if 0 ≤ v then { o with rows := o.rows ++ [v] } else o

/-- `addColumnSelectionStrategy`, src/CglRedSplit2/CglRedSplit2Param.cpp:151-199: the pushes are
written out in order. -/
def addCols (o : Obj) (v : CS) : Obj :=
  if v ≠ .all ∧ v ≠ .best ∧ v ≠ .lapNonbasics then { o with cols := o.cols ++ [v] }
  else if v = .all then
    { o with cols := o.cols ++ [.cs 0, .cs 1, .cs 2, .cs 3, .cs 4, .cs 5, .cs 6, .cs 7, .cs 8,
        .cs 9, .cs 10, .cs 11, .cs 12, .cs 13, .cs 14, .cs 15, .cs 16, .cs 17, .cs 18, .cs 19,
        .cs 20] }
  else if v = .best then
    { o with cols := o.cols ++ [.cs 3, .cs 4, .cs 5, .cs 6, .cs 7, .cs 8, .cs 9, .cs 10, .cs 11,
        .cs 17, .cs 18, .cs 19, .cs 20] }
  else o

/-- `addRowSelectionStrategy`, src/CglRedSplit2/CglRedSplit2Param.cpp:202-221. -/
def addRsel (o : Obj) (v : RS) : Obj :=
  if v ≠ .all ∧ v ≠ .best then { o with rsel := o.rsel ++ [v] }
  else if v = .all then
    { o with rsel := o.rsel ++ [.rs 0, .rs 1, .rs 2, .rs 3, .rs 4, .rs 5, .rs 6, .rs 7] }
  else if v = .best then { o with rsel := o.rsel ++ [.rs 6, .rs 7] }
  else o

/-- `addNumRowsReductionLAP`, src/CglRedSplit2/CglRedSplit2Param.cpp:225-233. -/
def addRowsLAP (o : Obj) (v : ℤ) : Obj :=
  if 0 ≤ v then { o with rowsLAP := o.rowsLAP ++ [v] } else o

/-- `addColumnSelectionStrategyLAP`, src/CglRedSplit2/CglRedSplit2Param.cpp:236-247. -/
def addColsLAP (o : Obj) (v : CS) : Obj :=
  if v ≠ .all ∧ v ≠ .best then { o with colsLAP := o.colsLAP ++ [v] }
  else if v = .best then { o with colsLAP := o.colsLAP ++ [.cs 0] }
  else o

/-- `addRowSelectionStrategyLAP`, src/CglRedSplit2/CglRedSplit2Param.cpp:250-261. -/
def addRselLAP (o : Obj) (v : RS) : Obj :=
  if v ≠ .all ∧ v ≠ .best then { o with rselLAP := o.rselLAP ++ [v] }
  else if v = .best then { o with rselLAP := o.rselLAP ++ [.rs 7] }
  else o

/-- Effect of a call; the `reset` functions are at src/CglRedSplit2/CglRedSplit2Param.hpp:252,
259, 267, 277, 284, 292. -/
def step (o : Obj) : Call → Obj
  | .addRows v => addRows o v
  | .addCols v => addCols o v
  | .addRsel v => addRsel o v
  | .addRowsLAP v => addRowsLAP o v
  | .addColsLAP v => addColsLAP o v
  | .addRselLAP v => addRselLAP o v
  | .resetRows => { o with rows := [] }
  | .resetCols => { o with cols := [] }
  | .resetRsel => { o with rsel := [] }
  | .resetRowsLAP => { o with rowsLAP := [] }
  | .resetColsLAP => { o with colsLAP := [] }
  | .resetRselLAP => { o with rselLAP := [] }

/-- The lists after construction, src/CglRedSplit2/CglRedSplit2Param.cpp:390-398. -/
def fresh (useDefault : Bool) : Obj :=
  let o : Obj := ⟨[], [], [], [], [], []⟩
  if useDefault then
    let o := addRows o 5
    let o := addCols o .best
    let o := addRsel o .best
    let o := addRowsLAP o 3
    let o := addColsLAP o (.cs 0)
    addRselLAP o (.rs 7)
  else o

/-- The lists after a history of calls. -/
def run (useDefault : Bool) (h : List Call) : Obj := h.foldl step (fresh useDefault)

/-! ### Specification -/

/-- A list that a user builds: `some xs` adds `xs` at the end, `none` empties the list. -/
def build {α : Type} (init : List α) (ev : List (Option (List α))) : List α :=
  ev.foldl (fun acc e => match e with | some xs => acc ++ xs | none => []) init

/-- What asking for a column strategy stands for: all the numbered ones, the best ones (families
C-5P, I-2P-2/3, I-2P-4/5 and I-4P), nothing for the strategy reserved to lift-and-project. -/
def colsMeant : CS → List CS
  | .all => (List.finRange 21).map .cs
  | .best => ((List.finRange 21).filter fun k =>
      (3 ≤ k.val ∧ k.val ≤ 11) ∨ 17 ≤ k.val).map .cs
  | .lapNonbasics => []
  | v => [v]

/-- What asking for a row strategy stands for. -/
def rselMeant : RS → List RS
  | .all => (List.finRange 8).map .rs
  | .best => [.rs 6, .rs 7]
  | v => [v]

/-- Events on the list of numbers of rows. -/
def evRows : Call → List (Option (List ℤ))
  | .addRows v => if 0 ≤ v then [some [v]] else []
  | .resetRows => [none]
  | _ => []

/-- Events on the list of column strategies. -/
def evCols : Call → List (Option (List CS))
  | .addCols v => [some (colsMeant v)]
  | .resetCols => [none]
  | _ => []

/-- Events on the list of row strategies. -/
def evRsel : Call → List (Option (List RS))
  | .addRsel v => [some (rselMeant v)]
  | .resetRsel => [none]
  | _ => []

/-- Events on the lift-and-project list of numbers of rows. -/
def evRowsLAP : Call → List (Option (List ℤ))
  | .addRowsLAP v => if 0 ≤ v then [some [v]] else []
  | .resetRowsLAP => [none]
  | _ => []

/-- Events on the lift-and-project list of column strategies: "best" is `CS1`, "all" is refused. -/
def evColsLAP : Call → List (Option (List CS))
  | .addColsLAP .all => []
  | .addColsLAP .best => [some [.cs 0]]
  | .addColsLAP v => [some [v]]
  | .resetColsLAP => [none]
  | _ => []

/-- Events on the lift-and-project list of row strategies: "best" is `RS8`, "all" is refused. -/
def evRselLAP : Call → List (Option (List RS))
  | .addRselLAP .all => []
  | .addRselLAP .best => [some [.rs 7]]
  | .addRselLAP v => [some [v]]
  | .resetRselLAP => [none]
  | _ => []

/-- Initial lists: the default strategies if they are asked for. -/
def initial {α : Type} (useDefault : Bool) (xs : List α) : List α := if useDefault then xs else []

/-! ### Proofs -/

theorem build_flatMap {α C : Type} (f : C → List (Option (List α))) (init : List α) (h : List C) :
    build init (h.flatMap f) = h.foldl (fun acc c => build acc (f c)) init := by
  induction h generalizing init with
  | nil => rfl
  | cons c h ih =>
    rw [List.flatMap_cons, List.foldl_cons, ← ih]
    simp [build, List.foldl_append]

theorem proj_run {α : Type} (f : Obj → List α) (ev : Call → List (Option (List α)))
    (hstep : ∀ o c, f (step o c) = build (f o) (ev c)) (b : Bool) (h : List Call) :
    f (run b h) = build (f (fresh b)) (h.flatMap ev) := by
  rw [build_flatMap, run]
  generalize fresh b = o
  induction h generalizing o with
  | nil => rfl
  | cons c h ih => rw [List.foldl_cons, ih, List.foldl_cons, hstep]

/-- C45 for the lists of strategies: after any history each of the six lists is what the user
built, starting from the default strategies if they were asked for. -/
theorem lists_readback (b : Bool) (h : List Call) :
    (run b h).rows = build (initial b [5]) (h.flatMap evRows) ∧
    (run b h).cols = build (initial b (colsMeant .best)) (h.flatMap evCols) ∧
    (run b h).rsel = build (initial b (rselMeant .best)) (h.flatMap evRsel) ∧
    (run b h).rowsLAP = build (initial b [3]) (h.flatMap evRowsLAP) ∧
    (run b h).colsLAP = build (initial b [.cs 0]) (h.flatMap evColsLAP) ∧
    (run b h).rselLAP = build (initial b [.rs 7]) (h.flatMap evRselLAP) := by
  refine ⟨?_, ?_, ?_, ?_, ?_, ?_⟩
  · rw [proj_run Obj.rows evRows]
    · cases b <;> rfl
    · intro o c
      cases c <;> simp only [step, addRows, addCols, addRsel, addRowsLAP, addColsLAP, addRselLAP,
        evRows, build] <;> (try split_ifs) <;> rfl
  · rw [proj_run Obj.cols evCols]
    · cases b <;> rfl
    · intro o c
      cases c with
      | addCols v => cases v <;> first | rfl | exact (List.append_nil _).symm
      | _ => simp only [step, addRows, addCols, addRsel, addRowsLAP, addColsLAP, addRselLAP,
        evCols, build] <;> (try split_ifs) <;> rfl
  · rw [proj_run Obj.rsel evRsel]
    · cases b <;> rfl
    · intro o c
      cases c with
      | addRsel v => cases v <;> rfl
      | _ => simp only [step, addRows, addCols, addRsel, addRowsLAP, addColsLAP, addRselLAP,
        evRsel, build] <;> (try split_ifs) <;> rfl
  · rw [proj_run Obj.rowsLAP evRowsLAP]
    · cases b <;> rfl
    · intro o c
      cases c <;> simp only [step, addRows, addCols, addRsel, addRowsLAP, addColsLAP, addRselLAP,
        evRowsLAP, build] <;> (try split_ifs) <;> rfl
  · rw [proj_run Obj.colsLAP evColsLAP]
    · cases b <;> rfl
    · intro o c
      cases c with
      | addColsLAP v => cases v <;> rfl
      | _ => simp only [step, addRows, addCols, addRsel, addRowsLAP, addColsLAP, addRselLAP,
        evColsLAP, build] <;> (try split_ifs) <;> rfl
  · rw [proj_run Obj.rselLAP evRselLAP]
    · cases b <;> rfl
    · intro o c
      cases c with
      | addRselLAP v => cases v <;> rfl
      | _ => simp only [step, addRows, addCols, addRsel, addRowsLAP, addColsLAP, addRselLAP,
        evRselLAP, build] <;> (try split_ifs) <;> rfl

/-- What a built list can contain. -/
theorem build_mem {α : Type} (P : α → Prop) (init : List α) (ev : List (Option (List α)))
    (hi : ∀ x ∈ init, P x) (he : ∀ xs, some xs ∈ ev → ∀ x ∈ xs, P x) : ∀ x ∈ build init ev, P x := by
  induction ev generalizing init with
  | nil => exact hi
  | cons e ev ih =>
    have he' : ∀ xs, some xs ∈ ev → ∀ x ∈ xs, P x := fun xs h => he xs (List.mem_cons_of_mem _ h)
    cases e with
    | none => exact ih [] (by simp) he'
    | some xs =>
      refine ih (init ++ xs) ?_ he'
      intro x hx
      rcases List.mem_append.mp hx with h | h
      · exact hi x h
      · exact he xs (by simp) x h

/-- C32 for the lists of strategies: after any history the numbers of rows are nonnegative, the
column list contains numbered strategies or `CS_ALLCONT` only, the row lists contain numbered
strategies only, and the lift-and-project column list contains neither `CS_ALL` nor `CS_BEST`. -/
theorem lists_legal (b : Bool) (h : List Call) :
    (∀ v ∈ (run b h).rows, 0 ≤ v) ∧
    (∀ v ∈ (run b h).cols, v ≠ .all ∧ v ≠ .best ∧ v ≠ .lapNonbasics) ∧
    (∀ v ∈ (run b h).rsel, v ≠ .all ∧ v ≠ .best) ∧
    (∀ v ∈ (run b h).rowsLAP, 0 ≤ v) ∧
    (∀ v ∈ (run b h).colsLAP, v ≠ .all ∧ v ≠ .best) ∧
    (∀ v ∈ (run b h).rselLAP, v ≠ .all ∧ v ≠ .best) := by
  obtain ⟨h1, h2, h3, h4, h5, h6⟩ := lists_readback b h
  rw [h1, h2, h3, h4, h5, h6]
  refine ⟨?_, ?_, ?_, ?_, ?_, ?_⟩
  · apply build_mem
    · cases b <;> decide
    · intro xs hxs x hx
      obtain ⟨c, _, hc⟩ := List.mem_flatMap.mp hxs
      cases c <;> simp only [evRows] at hc <;> (try split_ifs at hc) <;> simp_all
  · apply build_mem
    · cases b <;> decide
    · intro xs hxs
      obtain ⟨c, _, hc⟩ := List.mem_flatMap.mp hxs
      cases c with
      | addCols v =>
        simp only [evCols, List.mem_singleton, Option.some.injEq] at hc
        subst hc
        cases v with
        | cs k => simp [colsMeant]
        | all => decide
        | best => decide
        | allcont => decide
        | lapNonbasics => decide
      | _ => simp [evCols] at hc
  · apply build_mem
    · cases b <;> decide
    · intro xs hxs
      obtain ⟨c, _, hc⟩ := List.mem_flatMap.mp hxs
      cases c with
      | addRsel v =>
        simp only [evRsel, List.mem_singleton, Option.some.injEq] at hc
        subst hc
        cases v with
        | rs k => simp [rselMeant]
        | all => decide
        | best => decide
      | _ => simp [evRsel] at hc
  · apply build_mem
    · cases b <;> decide
    · intro xs hxs x hx
      obtain ⟨c, _, hc⟩ := List.mem_flatMap.mp hxs
      cases c <;> simp only [evRowsLAP] at hc <;> (try split_ifs at hc) <;> simp_all
  · apply build_mem
    · cases b <;> decide
    · intro xs hxs
      obtain ⟨c, _, hc⟩ := List.mem_flatMap.mp hxs
      cases c with
      | addColsLAP v =>
        cases v <;> simp [evColsLAP] at hc <;> subst hc <;> simp
      | _ => simp [evColsLAP] at hc
  · apply build_mem
    · cases b <;> decide
    · intro xs hxs
      obtain ⟨c, _, hc⟩ := List.mem_flatMap.mp hxs
      cases c with
      | addRselLAP v =>
        cases v <;> simp [evRselLAP] at hc <;> subst hc <;> simp
      | _ => simp [evRselLAP] at hc

/-- A history that meets the hypotheses and does something. -/
example : (run true [.resetCols, .addCols (.cs 2), .addCols .lapNonbasics, .addRows (-1),
    .addRsel (.rs 0), .addColsLAP .all, .addColsLAP .best]) =
    ⟨[5], [.cs 2], [.rs 6, .rs 7, .rs 0], [3], [.cs 0, .cs 0], [.rs 7]⟩ := by
  decide

end Cgl.Param.Strat
