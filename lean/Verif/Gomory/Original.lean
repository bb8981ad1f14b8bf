/-!
# The original problem held by `CglGomory` and `CglTwomir`

Both classes can hold a copy of the original problem and then make cuts from it.  Built with Clp, `generateCuts` asserts that the type is
not zero, and that the problem held has at most as many rows as the one given.  The code is nearly the same in both:
`/repo/src/CglGomory/CglGomory.cpp:98-118, 342-357, 2007-2115`, `/repo/src/CglTwomir/CglTwomir.cpp:97-139, 586-664, 2249-2259`,
`/repo/src/CglCommon/CglCutGenerator.cpp:17-65`.  Only sizes of problems are modelled, all solvers are taken to be Clp.  The
rows that are added to the problem held are taken out again at the end (CglGomory.cpp:343-356, CglTwomir.cpp:536-546), so its size stays.
-/

namespace Cgl.Original

/-- Numbers of rows and columns of a problem. -/
structure Size where
  rows : Nat
  cols : Nat
deriving DecidableEq, Repr

/-- `originalSolver_` and `gomoryType_` or `twomirType_`. -/
structure Gen where
  held : Option Size
  type : Int
deriving DecidableEq, Repr

/-- What a user may do; `copy` and `assign` go on with the copy. -/
inductive Op where
  | pass (p : Option Size)
  | refresh (p : Size)
  | setType (t : Int)
  | swap (p : Option Size)
  | copy
  | generate (p : Size)
deriving DecidableEq, Repr

/-- A new object, CglGomory.cpp:2007-2023. -/
def new : Gen := ⟨none, 0⟩

/-- `passInOriginalSolver`, CglGomory.cpp:2103-2115, CglTwomir.cpp:640-664. -/
def pass (g : Gen) : Option Size → Gen
  | some p => ⟨some p, if g.type = 0 then 1 else g.type⟩
  | none => ⟨none, 0⟩

/-- `refreshSolver`, CglGomory.cpp:2087-2090, CglTwomir.cpp:2253-2256. -/
def refresh (g : Gen) (p : Size) : Gen :=
  match g.held with
  | some _ => { g with held := some p }
  | none => g

/-- Assertions of `generateCuts`, CglGomory.cpp:100-116, CglTwomir.cpp:99-135; `none` if one fails.  At its end `CglGomory` also asserts
that there is a problem if the last digit of the type is 2 (343-345); `CglTwomir` does not (536). -/
def generate (gomory : Bool) (g : Gen) (p : Size) : Option Gen :=
  match g.held with
  | none => if gomory = true ∧ g.type.tmod 10 = 2 then none else some g
  | some q =>
    if g.type = 0 then none
    else
      let q := if q.rows = 0 ∨ p.cols ≠ q.cols then p else q
      if q.rows ≤ p.rows then some { g with held := some q } else none

/-- One call.  `swapOriginalSolver` is CglCutGenerator.hpp:117-122, `setGomoryType` CglGomory.hpp:69-70; copies and assignments take over
both members. -/
def step (gomory : Bool) (g : Gen) : Op → Option Gen
  | .pass p => some (pass g p)
  | .refresh p => some (refresh g p)
  | .setType t => some { g with type := t }
  | .swap p => some { g with held := p }
  | .copy => some g
  | .generate p => generate gomory g p

/-- Several calls. -/
def run (gomory : Bool) : List Op → Gen → Option Gen
  | [], g => some g
  | op :: l, g => (step gomory g op).bind (run gomory l)

/-- The last problem that the user gave in these calls, if it is still wanted: `pass` and `refresh` replace it. -/
def wanted : List Op → Option Size → Option Size
  | [], w => w
  | .pass p :: l, _ => wanted l p
  | .refresh p :: l, w => wanted l (w.map fun _ => p)
  | _ :: l, w => wanted l w

/-- Calls as a careful user makes them, where `held` says whether a problem was given: type zero is not set if there is one, and in a
`CglGomory` object no type that ends in 2 if there is none; solvers are not swapped, the problems held have `n` columns, at least one and
at most `m` rows, and the problems that cuts are made for have `n` columns and at least `m` rows. -/
def Careful (gomory : Bool) (m n : Nat) : List Op → Bool → Prop
  | [], _ => True
  | .pass (some p) :: l, _ => (p.cols = n ∧ 0 < p.rows ∧ p.rows ≤ m) ∧ Careful gomory m n l true
  | .pass none :: l, _ => Careful gomory m n l false
  | .refresh p :: l, held => (p.cols = n ∧ 0 < p.rows ∧ p.rows ≤ m) ∧ Careful gomory m n l held
  | .setType t :: l, held => (if held = true then t ≠ 0 else ¬ (gomory = true ∧ t.tmod 10 = 2)) ∧ Careful gomory m n l held
  | .swap _ :: _, _ => False
  | .copy :: l, held => Careful gomory m n l held
  | .generate p :: l, held => (p.cols = n ∧ m ≤ p.rows) ∧ Careful gomory m n l held

/-- What holds between careful calls. -/
def Inv (gomory : Bool) (m n : Nat) (g : Gen) : Prop :=
  (∀ q, g.held = some q → g.type ≠ 0 ∧ q.cols = n ∧ 0 < q.rows ∧ q.rows ≤ m) ∧ (g.held = none → ¬ (gomory = true ∧ g.type.tmod 10 = 2))

theorem run_inv (gomory : Bool) (m n : Nat) : ∀ (l : List Op) (g : Gen), Inv gomory m n g → Careful gomory m n l g.held.isSome →
    ∃ g', run gomory l g = some g' ∧ Inv gomory m n g' ∧ g'.held = wanted l g.held := by
  intro l
  induction l with
  | nil => intro g hg _; exact ⟨g, rfl, hg, rfl⟩
  | cons op l ih =>
    rintro ⟨held, type⟩ hg hc
    have key : ∃ g1, step gomory ⟨held, type⟩ op = some g1 ∧ Inv gomory m n g1 ∧ Careful gomory m n l g1.held.isSome ∧
        wanted (op :: l) held = wanted l g1.held := by
      cases op with
      | pass p =>
        cases p with
        | none =>
          refine ⟨⟨none, 0⟩, rfl, ⟨fun q hq => (by cases hq), fun _ h => ?_⟩, hc, rfl⟩
          exact absurd h.2 (by decide)
        | some p =>
          refine ⟨⟨some p, if type = 0 then 1 else type⟩, rfl, ⟨fun q hq => ?_, fun h => (by cases h)⟩, hc.2, rfl⟩
          cases hq
          refine ⟨?_, hc.1⟩
          show (if type = 0 then 1 else type) ≠ 0
          split
          · decide
          · assumption
      | refresh p =>
        cases held with
        | none => exact ⟨⟨none, type⟩, rfl, hg, hc.2, rfl⟩
        | some r =>
          refine ⟨⟨some p, type⟩, rfl, ⟨fun q hq => ?_, fun h => (by cases h)⟩, hc.2, rfl⟩
          cases hq
          exact ⟨(hg.1 r rfl).1, hc.1⟩
      | setType t =>
        cases held with
        | none => exact ⟨⟨none, t⟩, rfl, ⟨fun q hq => (by cases hq), fun _ => hc.1⟩, hc.2, rfl⟩
        | some r => exact ⟨⟨some r, t⟩, rfl, ⟨fun q hq => ⟨hc.1, (hg.1 q hq).2⟩, fun h => (by cases h)⟩, hc.2, rfl⟩
      | swap p => exact hc.elim
      | copy => exact ⟨⟨held, type⟩, rfl, hg, hc, rfl⟩
      | generate p =>
        refine ⟨⟨held, type⟩, ?_, hg, hc.2, rfl⟩
        show generate gomory ⟨held, type⟩ p = _
        unfold generate
        cases held with
        | none => exact if_neg (hg.2 rfl)
        | some q =>
          obtain ⟨h1, h2, h3, h4⟩ := hg.1 q rfl
          obtain ⟨⟨o1, o2⟩, -⟩ := hc
          have hn : ¬ (q.rows = 0 ∨ p.cols ≠ q.cols) := by omega
          have hm : q.rows ≤ p.rows := by omega
          have h1 : ¬ type = 0 := h1
          simp only [if_neg h1, if_neg hn, if_pos hm]
    obtain ⟨g1, e1, i1, c1, w1⟩ := key
    obtain ⟨g', e', i', w'⟩ := ih g1 i1 c1
    refine ⟨g', ?_, i', w'.trans w1.symm⟩
    unfold run
    rw [e1]
    exact e'

/-- **C151** for careful calls: no assertion fails, and the problem held afterwards is the last one the user gave.  It is false of the
code otherwise. -/
theorem original_partial (gomory : Bool) (m n : Nat) (l : List Op) (h : Careful gomory m n l false) :
    ∃ g, run gomory l new = some g ∧ g.held = wanted l none ∧ (g.held ≠ none → g.type ≠ 0) := by
  obtain ⟨g, e, i, w⟩ := run_inv gomory m n l new ⟨fun q hq => (by cases hq), fun _ h => absurd h.2 (by decide)⟩ h
  refine ⟨g, e, w, fun hn => ?_⟩
  cases hh : g.held with
  | none => exact absurd hh hn
  | some q => exact (i.1 q hh).1

/-- A history with all calls but `swap`. -/
def history : List Op := [.setType 1, .pass (some ⟨3, 4⟩), .setType 12, .generate ⟨5, 4⟩, .copy, .refresh ⟨2, 4⟩, .generate ⟨3, 4⟩, .pass none,
  .generate ⟨3, 4⟩, .pass (some ⟨1, 4⟩)]

/-- It is careful. -/
theorem original_meets : Careful true 3 4 history false ∧ run true history new = some ⟨some ⟨1, 4⟩, 1⟩ ∧
    run true (history.take 7) new = some ⟨some ⟨2, 4⟩, 12⟩ := by
  refine ⟨?_, by decide, by decide⟩
  unfold history
  simp only [Careful]
  decide

/-- The type can be set to zero while a problem is held. -/
theorem not_type (gomory : Bool) : run gomory [.pass (some ⟨3, 4⟩), .setType 0, .generate ⟨3, 4⟩] new = none := by cases gomory <;> decide

/-- A type that ends in 2 can be set while no problem is held; only `CglGomory` minds. -/
theorem not_two : run true [.setType 2, .generate ⟨3, 4⟩] new = none ∧ run false [.setType 2, .generate ⟨3, 4⟩] new = some ⟨none, 2⟩ := by
  decide

/-- A problem that is swapped in comes without a type. -/
theorem not_swap (gomory : Bool) : run gomory [.swap (some ⟨3, 4⟩), .generate ⟨3, 4⟩] new = none := by cases gomory <;> decide

/-- A problem given to `generateCuts` may be kept, with its cuts as rows, in place of one with other columns; a later call without these
cuts fails. -/
theorem not_fewer (gomory : Bool) : run gomory [.pass (some ⟨3, 5⟩), .generate ⟨9, 4⟩] new = some ⟨some ⟨9, 4⟩, 1⟩ ∧
    run gomory [.pass (some ⟨3, 5⟩), .generate ⟨9, 4⟩, .generate ⟨8, 4⟩] new = none := by cases gomory <;> decide

end Cgl.Original
