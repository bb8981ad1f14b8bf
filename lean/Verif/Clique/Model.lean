import Verif.Osi
import Mathlib.Data.List.Sort

/-!
# Model of `src/CglClique`

Nodes of the intersection graph are positions in the list of selected columns (the "relative indices" of the code).
-/

namespace Cgl.Clique

/-- `scl_next_node_method`, CglClique.hpp:63-67. -/
inductive NextRule | minDegree | maxDegree | maxXjMaxDeg
deriving DecidableEq, Repr

/-- The settings of a `CglClique` object, CglClique.hpp:137-189. Between calls all work arrays are null
(CglClique.cpp:125, 148-153), so the settings are the whole state (see `Life.lean` for `petol`). -/
structure Obj where
  setPacking : Bool := false
  justOriginalRows : Bool := false
  petol : ℚ := -1
  maxNumber : Int := 5000
  doRow : Bool := true
  doStar : Bool := true
  rule : NextRule := .maxXjMaxDeg
  sclThreshold : Int := 12
  rclThreshold : Int := 12

/-- What is read of `CglTreeInfo`, CglClique.cpp:97-99, 116-118. -/
structure Info where
  inTree : Bool := false
  formulationRows : Nat := 0

/-! ### Selection -/

/-- `selectFractionalBinaries`, CglCliqueHelper.cpp:18-50. `petol` is the tolerance in use, `primalTol` the solver's. -/
def selectFractionalBinaries (petol primalTol : ℚ) (maxNumber : Int) (P : Prob) (x : Nat → ℚ) : List Nat :=
  let n := ((List.range P.nCols).filter fun i => decide (colType P i = 1)).length
  let lclPetol := if petol < 0 ∧ (n : Int) < maxNumber then -(1 / 10 ^ 5) else primalTol
  (List.range P.nCols).filter fun i => decide (colType P i = 1 ∧ x i > lclPetol ∧ x i < 1 - petol)

/-- `selectFractionals`, CglCliqueHelper.cpp:59-81. -/
def selectFractionals (primalTol : ℚ) (P : Prob) (x : Nat → ℚ) : List Nat :=
  (List.range P.nCols).filter fun i => decide (x i > primalTol ∧ x i < 1 - primalTol)

/-- `clique[i] == 1` at the end of `selectRowCliques`, CglCliqueHelper.cpp:98-131, for a row: selected columns have
coefficient exactly one, the upper bound is exactly one, no coefficient is negative. -/
def isCliqueRow (sel : List Nat) (r : Row) : Bool :=
  r.coefs.all (fun p => !(sel.contains p.1) || decide (p.2 = 1)) && decide (r.ub = 1) &&
    r.coefs.all (fun p => !decide (p.2 < 0))

/-- `selectRowCliques`, CglCliqueHelper.cpp:88-143. -/
def selectRowCliques (sel : List Nat) (numOriginalRows : Nat) (rows : List Row) : List Row :=
  (rows.take numOriginalRows).filter (isCliqueRow sel)

/-! ### The set packing submatrix and the intersection graph -/

/-- The rows of the submatrix as lists of nodes in increasing order (`sp_row_ind`), CglCliqueHelper.cpp:147-229. -/
def nodesOfRow (sel : List Nat) (r : Row) : List Nat :=
  (List.range sel.length).filter fun j => decide (sel.getD j 0 ∈ r.coefs.map Prod.fst)

/-- The columns of the submatrix as increasing lists of row numbers (`sp_col_ind`, sorted), CglCliqueHelper.cpp:147-229. -/
def rowsOfNode (sel : List Nat) (rows : List Row) (j : Nat) : List Nat :=
  (List.range rows.length).filter fun i =>
    match rows[i]? with
    | some r => decide (sel.getD j 0 ∈ r.coefs.map Prod.fst)
    | none => false

/-- The loop of `CoinIsOrthogonal`, CglCliqueHelper.cpp:233-245. Each round drops one element, so the total length is a
bound on the number of rounds. -/
def orthLoop : Nat → List Nat → List Nat → Bool
  | 0, _, _ => true
  | fuel + 1, l, m =>
    match l, m with
    | a :: as, b :: bs =>
      if a = b then false
      else if a < b then orthLoop fuel as (b :: bs)
      else orthLoop fuel (a :: as) bs
    | _, _ => true

/-- `CoinIsOrthogonal`, CglCliqueHelper.cpp:233-245. -/
def isOrthogonal (l m : List Nat) : Bool := orthLoop (l.length + m.length) l m

/-- `node_node`, CglCliqueHelper.cpp:321-341: symmetric, false on the diagonal. -/
def nodeNode (sel : List Nat) (rows : List Row) (i j : Nat) : Bool :=
  if i < j then !isOrthogonal (rowsOfNode sel rows i) (rowsOfNode sel rows j)
  else if j < i then !isOrthogonal (rowsOfNode sel rows j) (rowsOfNode sel rows i)
  else false

/-- `nodes[i].degree`, CglCliqueHelper.cpp:275-287. -/
def degree (n : Nat) (adj : Nat → Nat → Bool) (i : Nat) : Nat := ((List.range n).filter fun j => adj i j).length

/-! ### Finding cliques -/

/-- What the clique search reads: graph, values, tolerance. -/
structure Graph where
  adj : Nat → Nat → Bool
  val : Nat → ℚ
  petol : ℚ
  /-- `sp_orig_col_ind` -/
  orig : Nat → Nat

/-- `recordClique`, CglClique.cpp:716-731. `setRow`/`setUb` on a new `OsiRowCut`, whose lower bound is
`-COIN_DBL_MAX`. -/
def recordClique (g : Graph) (clique : List Nat) (cs : List RowCut) : List RowCut :=
  insertIfNotDuplicate cs
    { lb := -dblMax, ub := 1, row := ((clique.map g.orig).insertionSort (· ≤ ·)).map fun c => (c, 1) }

/-- `v` is adjacent to all of `l` (the inner loops over `coef`). -/
def adjAll (g : Graph) (v : Nat) (l : List Nat) : Bool := l.all fun u => g.adj v u

/-- Update of one label. -/
def setLabel (label : Nat → Bool) (p : Nat) (b : Bool) : Nat → Bool := fun j => if j = p then b else label j

/-- The `while` loop at the start of `enumerate_maximal_cliques`, CglClique.cpp:565-577; the first argument is
`cl_length - pos`. -/
def advance (g : Graph) (cl : List Nat) : Nat → Nat → (Nat → Bool) → Nat × (Nat → Bool)
  | 0, pos, label => (pos, label)
  | k + 1, pos, label =>
    let ok := (List.range pos).all fun j => !(label j) || g.adj (cl.getD pos 0) (cl.getD j 0)
    if ok then (pos + 1, setLabel label pos true) else advance g cl k (pos + 1) (setLabel label pos false)

/-- The labelled candidates, from the last to the first, CglClique.cpp:595-597. -/
def labelled (cl : List Nat) (label : Nat → Bool) : List Nat :=
  ((List.range cl.length).reverse.filter fun j => label j).map fun j => cl.getD j 0

/-- The part of `enumerate_maximal_cliques` that checks and records a clique, CglClique.cpp:591-652: new cuts and
`found`. `perm` is `cl_perm_indices`, `del` is `cl_del_indices`. -/
def leaf (g : Graph) (perm del cl : List Nat) (label : Nat → Bool) (cs : List RowCut) : List RowCut × Nat :=
  let coef := labelled cl label
  if coef = [] then (cs, 0)
  else if (List.range cl.length).any (fun k => !(label k) && adjAll g (cl.getD k 0) coef) then (cs, 0)
  else if ((coef ++ perm).map g.val).sum < 1 + g.petol then (cs, 0)
  else if del.any (fun d => adjAll g d (coef ++ perm)) then (cs, 0)
  else (recordClique g (coef ++ perm) cs, 1)

/-- State of the enumeration: `pos` and `label` are shared by all recursive calls (both are passed by reference,
CglClique.hpp:249). -/
structure EState where
  pos : Nat
  label : Nat → Bool
  cuts : List RowCut
  found : Nat

/-- `enumerate_maximal_cliques`, CglClique.cpp:557-654. The first argument bounds the depth of the recursion; `none` =
the bound was hit. Note that `pos`, being a reference, keeps the value left by the first recursive call when the second
one is made. -/
def enumerate (g : Graph) (perm del cl : List Nat) : Nat → EState → Option EState
  | 0, _ => none
  | fuel + 1, s =>
    let a := advance g cl (cl.length - s.pos) s.pos s.label
    if a.1 < cl.length then
      match enumerate g perm del cl fuel { s with pos := a.1, label := a.2 } with
      | none => none
      | some s1 => enumerate g perm del cl fuel { s1 with label := setLabel s1.label (s1.pos - 1) false }
    else
      let l := leaf g perm del cl a.2 s.cuts
      some { pos := a.1, label := a.2, cuts := l.1, found := s.found + l.2 }

/-- The choice loop of `greedy_maximal_clique`, CglClique.cpp:674-684. -/
def greedyLoop (g : Graph) : List Nat → List Nat → List Nat
  | [], coef => coef
  | v :: vs, coef => greedyLoop g vs (if adjAll g v coef then coef ++ [v] else coef)

/-- `greedy_maximal_clique`, CglClique.cpp:665-709. -/
def greedy (g : Graph) (perm cl : List Nat) (cs : List RowCut) : List RowCut :=
  match cl with
  | [] => cs
  | c :: rest =>
    let coef := greedyLoop g rest [c] ++ perm
    if coef.length < 3 then cs
    else if (coef.map g.val).sum > 1 + g.petol then recordClique g coef cs
    else cs

/-- Sort by decreasing key (`CoinSort_2` with `CoinFirstGreater_2`). Simplification: equal keys keep their order. -/
def sortByDegree (l : List (Int × Nat)) : List Nat := (l.insertionSort fun a b => b.1 ≤ a.1).map Prod.snd

/-- Enumerate or search greedily, depending on a threshold; `none` = recursion bound hit (see `enumerate_total`). -/
def search (g : Graph) (perm del cl : List Nat) (enum : Bool) (deg : Nat → Int) (cs : List RowCut) : Option (List RowCut) :=
  if enum then (enumerate g perm del cl (cl.length + 2) { pos := 0, label := fun _ => false, cuts := cs, found := 0 }).map EState.cuts
  else some (greedy g perm (sortByDegree (cl.map fun v => (deg v, v))) cs)

/-- `find_rcl`, CglClique.cpp:171-259, over the rows of the submatrix. -/
def findRcl (g : Graph) (n : Nat) (threshold : Int) : List (List Nat) → List RowCut → Option (List RowCut)
  | [], cs => some cs
  | row :: rows, cs =>
    if row = [] then findRcl g n threshold rows cs
    else
      let cl := (List.range n).filter fun k => row.all fun u => g.adj u k
      if cl = [] then findRcl g n threshold rows cs
      else match search g row [] cl (decide ((cl.length : Int) ≤ threshold)) (fun v => degree n g.adj v) cs with
        | none => none
        | some cs1 => findRcl g n threshold rows cs1

/-- One entry of `current_indices`, `current_degrees`, `current_values`. -/
structure Cur where
  idx : Nat
  deg : Int
  val : ℚ

/-- The comparison of `scl_choose_next_node`, CglClique.cpp:443-470: does entry `c` replace the best one? -/
def better (rule : NextRule) (b c : Cur) : Bool :=
  match rule with
  | .minDegree => decide (c.deg < b.deg)
  | .maxDegree => decide (c.deg > b.deg)
  | .maxXjMaxDeg => decide (c.val > b.val) || (decide (c.val = b.val) && decide (c.deg > b.deg))

/-- `scl_choose_next_node`, CglClique.cpp:434-478: the chosen entry. (`best_deg`/`best_val` always belong to `best`,
except that `best_val` is kept when values are equal.) -/
def chooseNext (rule : NextRule) : Cur → List Cur → Cur
  | b, [] => b
  | b, c :: cs => chooseNext rule (if better rule b c then c else b) cs

/-- `scl_delete_node`, CglClique.cpp:502-527. -/
def deleteNode (g : Graph) (v : Nat) (cur : List Cur) : List Cur :=
  (cur.filter fun c => decide (c.idx ≠ v)).map fun c => if g.adj v c.idx then { c with deg := c.deg - 1 } else c

/-- `star_deg` of a node of the star, CglClique.cpp:346-354. -/
def degOf (star : List Cur) (v : Nat) : Int :=
  match star.find? (fun c => decide (c.idx = v)) with
  | some c => c.deg
  | none => 0

/-- The main loop of `find_scl`, CglClique.cpp:320-398. The first argument bounds the number of rounds (each deletes a
node); `none` = the bound was hit. `del` is `cl_del_indices`. -/
def sclLoop (g : Graph) (rule : NextRule) (threshold : Int) : Nat → List Cur → List Nat → List RowCut → Option (List RowCut)
  | 0, _, _, _ => none
  | fuel + 1, cur, del, cs =>
    if cur.length ≤ 2 then some cs
    else match cur with
      | [] => some cs
      | c0 :: rest =>
        let b := chooseNext rule c0 rest
        if b.deg < 2 then sclLoop g rule threshold fuel (deleteNode g b.idx cur) (del ++ [b.idx]) cs
        else
          let star := cur.filter fun c => g.adj b.idx c.idx
          let starVal := b.val + (star.map Cur.val).sum
          if starVal ≥ 1 + g.petol then
            match search g [b.idx] del (star.map Cur.idx) (decide (b.deg < threshold))
                (degOf star) cs with
            | none => none
            | some cs1 => sclLoop g rule threshold fuel (deleteNode g b.idx cur) (del ++ [b.idx]) cs1
          else sclLoop g rule threshold fuel (deleteNode g b.idx cur) (del ++ [b.idx]) cs

/-- `find_scl`, CglClique.cpp:280-426. -/
def findScl (g : Graph) (n : Nat) (rule : NextRule) (threshold : Int) (cs : List RowCut) : Option (List RowCut) :=
  sclLoop g rule threshold (n + 1) ((List.range n).map fun i => ⟨i, (degree n g.adj i : Int), g.val i⟩) [] cs

/-- The selected columns and rows, CglClique.cpp:97-118. -/
def selection (o : Obj) (petol primalTol : ℚ) (info : Info) (P : Prob) (x : Nat → ℚ) : List Nat × List Row :=
  let nOrig := if info.inTree && o.justOriginalRows then info.formulationRows else P.rows.length
  let sel := if o.setPacking then selectFractionals primalTol P x
    else selectFractionalBinaries petol primalTol o.maxNumber P x
  let rows := if o.setPacking then P.rows.take nOrig else selectRowCliques sel nOrig P.rows
  (sel, if o.justOriginalRows && info.inTree then rows.take info.formulationRows else rows)

/-- The graph the search works on, CglClique.cpp:129-131. -/
def mkGraph (petol : ℚ) (x : Nat → ℚ) (sel : List Nat) (rows : List Row) : Graph :=
  { adj := nodeNode sel rows, val := fun i => x (sel.getD i 0), petol := petol, orig := fun i => sel.getD i 0 }

/-- `generateCuts`, CglClique.cpp:88-157 (marking cuts globally valid and the printed statistics are left out).
`primalTol` is the solver's primal tolerance. -/
def generateCuts (o : Obj) (primalTol : ℚ) (info : Info) (P : Prob) (x : Nat → ℚ) (cs : List RowCut) :
    Option (List RowCut) :=
  let petol := if o.petol ≠ -1 then o.petol else primalTol
  let s := selection o petol primalTol info P x
  let sel := s.1
  let rows := s.2
  if rows.length > 100000 ∨ sel.length < 2 ∨ sel.length > 10000 then some cs
  else
    let g := mkGraph petol x sel rows
    let r1 := if o.doRow then findRcl g sel.length o.rclThreshold (rows.map (nodesOfRow sel)) cs else some cs
    match r1 with
    | none => none
    | some cs1 => if o.doStar then findScl g sel.length o.rule o.sclThreshold cs1 else some cs1

end Cgl.Clique
