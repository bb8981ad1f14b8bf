import Verif.Stored.Lemmas

/-!
# Properties of `CglStored` (C03-C06)
-/

namespace Cgl.Stored

open TreeInfo

/-! ## C03: exactly the violated stored cuts are returned -/

/-- The point is outside the cut's bounds by at least `r`. -/
def ViolatedBy (r : ℚ) (c : RowCut) (x : Nat → ℚ) : Prop := c.row.dot x ≥ c.ub + r ∨ c.row.dot x ≤ c.lb - r

instance (r : ℚ) (c : RowCut) (x : Nat → ℚ) : Decidable (ViolatedBy r c x) := by unfold ViolatedBy; infer_instance

/-- **C03.** Without probing info, `generateCuts` is defined and appends to the caller's collection exactly the stored
cuts that the current solution violates by at least the required (positive) violation, unchanged and in storage order.
(Cuts with `lb > ub`, which no point satisfies, are covered by `generateCuts_contradictory`.) -/
theorem generateCuts_exact (st : State) (hp : st.probingInfo = none) (hr : 0 < st.requiredViolation)
    (hb : ∀ c ∈ st.cuts, c.cut.lb ≤ c.cut.ub) (lower upper sol : Nat → ℚ) (cs : List OsiRowCut) :
    generateCuts st lower upper sol cs
      = some (cs ++ st.cuts.filter fun c => decide (ViolatedBy st.requiredViolation c.cut sol)) := by
  unfold generateCuts
  rw [hp]
  simp only [storedLoop_eq]
  congr 2
  apply List.filter_congr
  intro c hc
  have hbc := hb c hc
  rw [decide_eq_decide]
  unfold violated ViolatedBy
  constructor
  · intro h
    dsimp only at h
    split at h
    · left; linarith
    · split at h
      · right; linarith
      · linarith
  · rintro (h | h)
    · dsimp only; rw [if_pos (by linarith)]; linarith
    · dsimp only; rw [if_neg (by linarith), if_pos (by linarith)]; linarith

/-- The remaining case of C03: a stored cut with `lb > ub` is returned exactly if the solution is above `ub`, or
below `lb`, by at least the required violation, `ub` being looked at first. -/
theorem generateCuts_contradictory (st : State) (hp : st.probingInfo = none) (hr : 0 < st.requiredViolation)
    (lower upper sol : Nat → ℚ) (cs : List OsiRowCut) :
    generateCuts st lower upper sol cs
      = some (cs ++ st.cuts.filter fun c => decide
          (if c.cut.row.dot sol > c.cut.ub then c.cut.row.dot sol ≥ c.cut.ub + st.requiredViolation
           else c.cut.row.dot sol ≤ c.cut.lb - st.requiredViolation)) := by
  unfold generateCuts
  rw [hp]
  simp only [storedLoop_eq]
  congr 2
  apply List.filter_congr
  intro c _
  rw [decide_eq_decide]
  unfold violated
  dsimp only
  split
  · constructor <;> intro h <;> linarith
  · split
    · constructor <;> intro h <;> linarith
    · constructor <;> intro h <;> linarith

/-- Non-vacuity of C03: of two stored cuts `x0 + x1 <= 1` and `x0 >= 0`, the point (0.75, 0.75) violates one. -/
example : generateCuts { init 0 with cuts := [⟨⟨-dblMax, 1, [(0, 1), (1, 1)]⟩, dblMax⟩, ⟨⟨0, dblMax, [(0, 1)]⟩, dblMax⟩] }
    (fun _ => 0) (fun _ => 1) (fun _ => 3/4) [] = some [⟨⟨-dblMax, 1, [(0, 1), (1, 1)]⟩, dblMax⟩] := by
  have hd := dblMax_pos
  have h2 := one_le_dblMax
  rw [generateCuts_exact _ rfl (by norm_num [init]) (by
    intro c hc
    simp only [List.mem_cons, List.not_mem_nil, or_false] at hc
    rcases hc with rfl | rfl
    · simp only; linarith
    · simp only; linarith)]
  simp only [List.filter_cons, ViolatedBy, SVec.dot, init, List.map_cons, List.map_nil, List.sum_cons, List.sum_nil]
  rw [if_pos (by rw [decide_eq_true_eq]; left; norm_num), if_neg (by
    rw [decide_eq_true_eq]; rintro (h | h)
    · norm_num at h; linarith
    · norm_num at h)]
  simp

/-! ## C04: stored cuts are never lost, duplicated or altered -/

/-- Calls on a family of `CglStored` objects named by numbers. -/
inductive Op
  | new (o numberColumns : Nat)
  | addCuts (o : Nat) (cs : List OsiRowCut)
  | addRowCut (o : Nat) (c : OsiRowCut)
  | addVector (o : Nat) (lb ub : ℚ) (v : SVec)
  | addElements (o : Nat) (lb ub : ℚ) (els : List (Nat × ℚ))
  | copy (dst src : Nat)
  | assign (dst src : Nat)
  | setRequired (o : Nat) (v : ℚ)

/-- The objects that exist, by name. -/
abbrev World := Nat → State

/-- Replace one object. -/
def World.set (w : World) (o : Nat) (s : State) : World := fun p => if p = o then s else w p

/-- The call, on the model of the code. Self-assignment does nothing (CglStored.cpp:356). -/
def step (w : World) : Op → World
  | .new o n => w.set o (init n)
  | .addCuts o cs => w.set o (addCuts (w o) cs)
  | .addRowCut o c => w.set o (addRowCut (w o) c)
  | .addVector o lb ub v => w.set o (addVector (w o) lb ub v)
  | .addElements o lb ub els =>
    match addElements (w o) lb ub els.length (els.map Prod.fst) (els.map Prod.snd) with
    | some s => w.set o s
    | none => w
  | .copy d s => w.set d (copy (w s))
  | .assign d s => if d = s then w else w.set d (assign (w d) (w s))
  | .setRequired o v => w.set o { w o with requiredViolation := v }

/-- What the user expects each object to hold: the list of cuts added, copies sharing nothing. -/
def expected (f : Nat → List RowCut) : Op → Nat → List RowCut
  | .new o _ => fun p => if p = o then [] else f p
  | .addCuts o cs => fun p => if p = o then f o ++ cs.map (·.cut) else f p
  | .addRowCut o c => fun p => if p = o then f o ++ [c.cut] else f p
  | .addVector o lb ub v => fun p => if p = o then f o ++ [⟨lb, ub, v⟩] else f p
  | .addElements o lb ub els => fun p => if p = o then f o ++ [⟨lb, ub, els⟩] else f p
  | .copy d s => fun p => if p = d then f s else f p
  | .assign d s => fun p => if p = d then f s else f p
  | .setRequired _ _ => f

theorem addCuts_cuts (st : State) (cs : List OsiRowCut) :
    (addCuts st cs).cuts = st.cuts ++ cs.map (fun c => ⟨c.cut, dblMax⟩) := by
  unfold addCuts
  induction cs generalizing st with
  | nil => simp
  | cons c cs ih => rw [List.foldl_cons, ih]; simp [pushKept]

theorem step_refines (w : World) (f : Nat → List RowCut) (h : ∀ o, (w o).cuts = (f o).map fun c => ⟨c, dblMax⟩) (op : Op) :
    ∀ o, (step w op o).cuts = (expected f op o).map fun c => ⟨c, dblMax⟩ := by
  intro o
  cases op with
  | new p n => simp only [step, World.set, expected]; split <;> [simp [init]; exact h o]
  | addCuts p cs =>
    simp only [step, World.set, expected]; split
    · rw [addCuts_cuts, h p]; simp
    · exact h o
  | addRowCut p c =>
    simp only [step, World.set, expected]; split
    · simp [addRowCut, pushKept, h p]
    · exact h o
  | addVector p lb ub v =>
    simp only [step, World.set, expected]; split
    · simp [addVector, pushKept, h p]
    · exact h o
  | addElements p lb ub els =>
    simp only [step, addElements, List.length_map, le_refl, and_self, if_true, World.set, expected]
    split
    · have : ((els.map Prod.fst).zip (els.map Prod.snd)).take els.length = els := by
        rw [List.zip_map', List.take_of_length_le (by simp)]; simp
      simp only [pushKept, this, h p, List.map_append, List.map_cons, List.map_nil]
    · exact h o
  | copy d s =>
    simp only [step, World.set, expected]; split
    · simp [copy, h s]
    · exact h o
  | assign d s =>
    simp only [step, expected]
    by_cases hds : d = s
    · rw [if_pos hds]; split
      · rename_i ho; rw [ho, hds]; exact h s
      · exact h o
    · rw [if_neg hds]; simp only [World.set]; split
      · simp [assign, h s]
      · exact h o
  | setRequired p v =>
    simp only [step, World.set, expected]; split
    · rename_i ho; rw [ho]; exact h p
    · exact h o

/-- **C04.** After any history of constructions, additions through the four overloads, copies and assignments, each
object holds exactly the cuts added to it (or to what it was copied from), in order, with the bounds and coefficients
given, each marked with maximal effectiveness. -/
theorem history_holds_added (ops : List Op) (w : World) (f : Nat → List RowCut)
    (h : ∀ o, (w o).cuts = (f o).map fun c => ⟨c, dblMax⟩) :
    ∀ o, (ops.foldl step w o).cuts = (ops.foldl expected f o).map fun c => ⟨c, dblMax⟩ := by
  induction ops generalizing w f with
  | nil => exact h
  | cons op ops ih => exact ih _ _ (step_refines w f h op)

/-- The same from a world of freshly constructed objects. -/
theorem history_holds_added_init (ops : List Op) (o : Nat) :
    (ops.foldl step (fun _ => init 0) o).cuts = (ops.foldl expected (fun _ => []) o).map fun c => ⟨c, dblMax⟩ :=
  history_holds_added ops _ _ (fun _ => rfl) o

/-- Non-vacuity of C04: a copy taken between two additions keeps the first cut only. -/
example : [Op.addVector 0 0 1 [(0, 1)], .copy 1 0, .addElements 0 0 2 [(1, 3), (2, 4)], .assign 0 0].foldl expected
    (fun _ => []) 1 = [⟨0, 1, [(0, 1)]⟩] := rfl

/-- Saved data come back: after `saveStuff`, the object and any copy report the objective, and hold the solution and
bounds given. -/
theorem saveStuff_roundtrip (st st' : State) (obj : ℚ) (best lower upper : List ℚ)
    (hb : best.length = st.numberColumns) (hl : lower.length = st.numberColumns) (hu : upper.length = st.numberColumns)
    (h : saveStuff st obj (some best) lower upper = some st') :
    bestObjective (copy st') = obj ∧ bestObjective st' = obj ∧
      (copy st').saved = some ⟨some (best, obj), lower, upper⟩ := by
  unfold saveStuff at h
  split at h
  · rename_i hc
    simp only [Option.some.injEq] at h
    subst h
    simp only [bestObjective, copy, Option.map_some]
    rw [if_pos hc.1]
    rw [← hb, List.take_length, hb, ← hl, List.take_length, hl, ← hu, List.take_length]
    simp
  · cases h

example : ∃ st', saveStuff (init 2) 5 (some [1, 0]) [0, 0] [1, 1] = some st' := ⟨_, by
  unfold saveStuff; rw [if_pos]; exact ⟨by decide, by decide, by decide, by simp [init]⟩⟩

/-! ## C05: a cut file in the documented layout loads back to the same cuts -/

/-- The layout of one record: length, two bounds, indices, coefficients. -/
def encodeCut (c : FileCut) : List Byte :=
  bytes32 (BitVec.ofInt 32 c.index.length) ++ (bytes64 c.lb ++ (bytes64 c.ub ++
    ((c.index.map fun i => bytes32 (BitVec.ofInt 32 i)).flatten ++ (c.coef.map bytes64).flatten)))

/-- The cut can be written: as many indices as coefficients, all numbers fit an `int`. -/
def Fits (c : FileCut) : Prop :=
  c.index.length = c.coef.length ∧ c.index.length < 2 ^ 31 ∧ ∀ i ∈ c.index, -2 ^ 31 ≤ i ∧ i < 2 ^ 31

instance (c : FileCut) : Decidable (Fits c) := by unfold Fits; infer_instance

theorem toInt_ofInt32 {z : Int} (h1 : -2 ^ 31 ≤ z) (h2 : z < 2 ^ 31) : (BitVec.ofInt 32 z).toInt = z := by
  rw [BitVec.toInt_ofInt]
  exact Int.bmod_eq_of_le (by norm_num at *; omega) (by norm_num at *; omega)

theorem readLoop_encode (cuts : List FileCut) (hf : ∀ c ∈ cuts, Fits c) (w : BitVec 32) (hw : w.toInt < 0)
    (rest : List Byte) (fuel : Nat) (hfuel : cuts.length < fuel) :
    readLoop fuel ((cuts.map encodeCut).flatten ++ (bytes32 w ++ rest)) = some cuts := by
  induction cuts generalizing fuel with
  | nil =>
    cases fuel with
    | zero => simp at hfuel
    | succ n =>
      simp only [List.map_nil, List.flatten_nil, List.nil_append, readLoop, readInt_bytes]
      rw [if_pos hw]
  | cons c cs ih =>
    cases fuel with
    | zero => simp at hfuel
    | succ n =>
      obtain ⟨h1, h2, h3⟩ := hf c (List.mem_cons_self ..)
      have hn : (BitVec.ofInt 32 (c.index.length : Int)).toInt = c.index.length :=
        toInt_ofInt32 (by norm_num) (by norm_num at *; omega)
      have hi : ∀ rest', readMany readInt c.index.length
          ((c.index.map fun i => bytes32 (BitVec.ofInt 32 i)).flatten ++ rest') = some (c.index, rest') :=
        fun rest' => readMany_append (enc := fun i => bytes32 (BitVec.ofInt 32 i)) c.index (fun i hi rest => by
          rw [readInt_bytes, toInt_ofInt32 (h3 i hi).1 (h3 i hi).2]) rest'
      have hc : ∀ rest', readMany readDouble c.index.length ((c.coef.map bytes64).flatten ++ rest') = some (c.coef, rest') := by
        intro rest'; rw [h1]; exact readMany_append c.coef (fun w _ rest => readDouble_bytes w rest) rest'
      simp only [List.map_cons, List.flatten_cons, encodeCut, List.append_assoc, readLoop, readInt_bytes, hn]
      rw [if_neg (by omega)]
      simp only [readDouble_bytes, Int.toNat_natCast, hi, hc,
        ih (fun c' hc' => hf c' (List.mem_cons_of_mem _ hc')) n (by simp at hfuel; omega)]

theorem encodeCuts_length (cuts : List FileCut) : cuts.length ≤ ((cuts.map encodeCut).flatten).length := by
  induction cuts with
  | nil => simp
  | cons c cs ih =>
    simp only [List.map_cons, List.flatten_cons, List.length_cons, List.length_append]
    have : 1 ≤ (encodeCut c).length := by simp [encodeCut, bytes32]
    omega

/-- **C05.** Any list of cuts written in the documented layout and ended by any negative length loads back to exactly
those cuts (bit for bit), whatever follows in the file. -/
theorem load_encode (cuts : List FileCut) (hf : ∀ c ∈ cuts, Fits c) (w : BitVec 32) (hw : w.toInt < 0)
    (rest : List Byte) : load (some ((cuts.map encodeCut).flatten ++ (bytes32 w ++ rest))) = some cuts := by
  unfold load
  apply readLoop_encode cuts hf w hw rest
  have := encodeCuts_length cuts
  simp only [List.length_append]
  omega

theorem forall2_flatten {α : Type} {R : α → List Byte → Prop} {enc : α → List Byte} {as : List α} {ps : List (List Byte)}
    (h : List.Forall₂ R as ps) (hR : ∀ a p, R a p → p = enc a) : ps.flatten = (as.map enc).flatten := by
  induction h with
  | nil => rfl
  | cons h1 _ ih => simp only [List.flatten_cons, List.map_cons, hR _ _ h1, ih]

/-- **C05, converse.** Whatever file loads without a short read is in the documented layout and holds exactly the cuts
reported: nothing is invented, skipped or reordered. -/
theorem load_only_layout (bs : List Byte) (cuts : List FileCut) (h : load (some bs) = some cuts) :
    (∀ c ∈ cuts, Fits c) ∧
      ∃ (w : BitVec 32) (rest : List Byte), w.toInt < 0 ∧ bs = (cuts.map encodeCut).flatten ++ (bytes32 w ++ rest) := by
  change readLoop (bs.length + 1) bs = some cuts at h
  generalize bs.length + 1 = fuel at h
  induction fuel generalizing bs cuts with
  | zero => cases h
  | succ n ih =>
    unfold readLoop at h
    split at h
    · cases h
    · rename_i m bs1 hm
      obtain ⟨w, hw, rfl⟩ := readInt_inv hm
      split at h
      · rename_i hneg
        simp only [Option.some.injEq] at h
        subst h
        exact ⟨by simp, w, bs1, by rw [hw]; exact hneg, by simp⟩
      · rename_i hneg
        split at h
        · cases h
        · rename_i lb bs2 hlb
          split at h
          · cases h
          · rename_i ub bs3 hub
            split at h
            · cases h
            · rename_i idx bs4 hidx
              split at h
              · cases h
              · rename_i co bs5 hco
                split at h
                · cases h
                · rename_i cs hcs
                  simp only [Option.some.injEq] at h
                  subst h
                  obtain ⟨hall, w', rest, hw', hbs5⟩ := ih _ _ hcs
                  have e1 := readDouble_inv hlb
                  have e2 := readDouble_inv hub
                  obtain ⟨l1, ps1, f1, e3⟩ := readMany_inv (rd := readInt)
                    (R := fun i p => p = bytes32 (BitVec.ofInt 32 i) ∧ -2 ^ 31 ≤ i ∧ i < 2 ^ 31)
                    (fun bs a rest hr => by
                      obtain ⟨w, hw, rfl⟩ := readInt_inv hr
                      refine ⟨bytes32 w, ⟨?_, ?_, ?_⟩, rfl⟩
                      · rw [← hw, BitVec.ofInt_toInt]
                      · rw [← hw]; have := BitVec.le_toInt w; norm_num at *; omega
                      · rw [← hw]; have := BitVec.toInt_lt (x := w); norm_num at *; omega) _ hidx
                  obtain ⟨l2, ps2, f2, e4⟩ := readMany_inv (rd := readDouble) (R := fun i p => p = bytes64 i)
                    (fun bs a rest hr => ⟨bytes64 a, rfl, readDouble_inv hr⟩) _ hco
                  have hm31 : m < 2 ^ 31 := by rw [← hw]; have := BitVec.toInt_lt (x := w); norm_num at *; omega
                  have hlen : (idx.length : Int) = m := by rw [l1]; omega
                  refine ⟨?_, w', rest, hw', ?_⟩
                  · intro c hc
                    rcases List.mem_cons.mp hc with rfl | hc
                    · refine ⟨by simp [l1, l2], by simp only; omega, ?_⟩
                      intro i hi
                      simp only at hi
                      obtain ⟨k, hk, rfl⟩ := List.getElem_of_mem hi
                      have := (List.forall₂_iff_get.mp f1).2 k hk (by
                        have := f1.length_eq; omega)
                      exact this.2
                    · exact hall c hc
                  · rw [e1, e2, e3, e4, forall2_flatten f1 (fun a p h => h.1), forall2_flatten f2 (fun a p h => h), hbs5]
                    have hww : w = BitVec.ofInt 32 (idx.length : Int) := by rw [hlen, ← hw, BitVec.ofInt_toInt]
                    simp only [List.map_cons, List.flatten_cons, encodeCut, List.append_assoc, hww]

/-- Non-vacuity of C05: a two-element cut and an empty one, read back through the bytes. -/
example : load (some (([⟨1#64, 2#64, [3, 4], [5#64, 6#64]⟩, ⟨0#64, 7#64, [], []⟩].map encodeCut).flatten ++
    bytes32 (-1#32) ++ [9#8])) = some [⟨1#64, 2#64, [3, 4], [5#64, 6#64]⟩, ⟨0#64, 7#64, [], []⟩] := by decide +kernel

/-- A file that stops short is not silently accepted. -/
example : load (some (bytes32 2#32 ++ bytes64 0#64)) = none := by decide +kernel

/-! ## C06: cuts from stored probing implications are valid -/

/-- The two states of a probing table a user can hand over after recording: ordered, or packed. -/
def Handed (s t : Info) : Prop := t = convert s ∨ t = (packDown s).1

theorem handed_recorded {P : Prob} (hn : P.nCols < 2 ^ 30) {cs : List Call} {s t : Info}
    (hr : run (initializeFixing P) cs = some s) (ht : Handed s t) {i j : Nat} {up : Bool} {es : List CliqueEntry}
    (hi : t.integerVariable[i]? = some j) (hes : implied t i up = some es) {e : CliqueEntry} (he : e ∈ es) :
    ∃ k, targetCol t e = some k ∧ k < P.nCols ∧ ⟨j, up, k, !(oneFixes e)⟩ ∈ cs := by
  have hre := run_reachable (Reachable.init (P := P)) hr
  have hcols := (reachable_inv hre).cols
  have main : ∀ es', implied (convert s) i up = some es' → e ∈ es' → s.integerVariable[i]? = some j →
      ∃ k, targetCol s e = some k ∧ k < P.nCols ∧ ⟨j, up, k, !(oneFixes e)⟩ ∈ cs := by
    intro es' h1 h2 h3
    obtain ⟨seg, g1, g2⟩ := exposed_run hr i j h3 up
    rw [g1] at h1
    simp only [Option.some.injEq] at h1
    rw [← h1] at h2
    obtain ⟨c, hc, hv, hu, htl, hce⟩ := (g2 e).mp (mem_cleanSegment_of h2)
    have hd := decode hcols hn htl (!c.toLower)
    rw [← hce] at hd
    refine ⟨c.target, hd.1, htl, ?_⟩
    rw [hd.2, Bool.not_not]
    subst hv hu
    exact hc
  rcases ht with rfl | rfl
  · rw [integerVariable_convert] at hi
    obtain ⟨k, h1, h2⟩ := main es hes he hi
    refine ⟨k, ?_, h2⟩
    unfold targetCol at h1 ⊢
    rw [(convert_fields s).1, integerVariable_convert]; exact h1
  · rw [(packDown_fields s).2.2.1] at hi
    obtain ⟨es', h1, h2⟩ := (packDown_keeps_01 P s hre).1 i (hcols.lt hi) up
    rw [h2] at hes
    simp only [Option.some.injEq] at hes
    rw [← hes] at he
    obtain ⟨k, h3, h4⟩ := main es' h1 (List.mem_filter.mp he).1 hi
    refine ⟨k, ?_, h4⟩
    unfold targetCol at h3 ⊢
    rw [(packDown_fields s).1, (packDown_fields s).2.2.1]; exact h3

/-- **C06.** Record any history of implications, hand the ordered (or packed) table to the stored-cut generator, and
call `generateCuts` with bounds at least as tight as when recording on the columns that are not 0-1, and any LP solution
and threshold. The call is defined; every returned cut was in the caller's collection, is a stored cut, or is satisfied
by every 0-1 point for which the recorded implications are true and whose implied columns are within the current
bounds. -/
theorem generateCuts_probing_valid (P : Prob) (hn : P.nCols < 2 ^ 30) (cs : List Call) (s t : Info)
    (hr : run (initializeFixing P) cs = some s) (ht : Handed s t) (st : State) (hst : st.probingInfo = some t)
    (lower upper sol : Nat → ℚ)
    (htight : ∀ c ∈ cs, colType P c.target ≠ 1 → P.colLower c.target ≤ lower c.target ∧ upper c.target ≤ P.colUpper c.target)
    (base : List OsiRowCut) :
    ∃ out, generateCuts st lower upper sol base = some out ∧
      ∀ x : Nat → ℚ, (∀ c ∈ cs, c.Holds P x) → (∀ j < P.nCols, colType P j = 1 → x j = 0 ∨ x j = 1) →
        (∀ c ∈ cs, lower c.target ≤ x c.target ∧ x c.target ≤ upper c.target) →
        ∀ c ∈ out, c ∈ base ∨ c ∈ st.cuts ∨ c.cut.Sat x := by
  have hre := run_reachable (Reachable.init (P := P)) hr
  have hcols : Cols P t := by
    rcases ht with rfl | rfl
    · exact (reachable_inv (Reachable.convert hre)).cols
    · exact (reachable_inv (Reachable.packDown hre)).cols
  have htab : ∃ segs, HasTable t segs := by
    obtain ⟨segs, hs⟩ := (reachable_inv hre).convert.2
    rcases ht with rfl | rfl
    · exact ⟨segs, hs⟩
    · exact ⟨_, (packDown_table s hs).1⟩
  obtain ⟨segs, hsegs⟩ := htab
  have himp : ∀ i < t.numberIntegers, ∀ up, ∃ es, implied t i up = some es := by
    intro i hi up
    have hg : segs[i]? = some (segs[i]'(by rw [hsegs.1]; exact hi)) := List.getElem?_eq_getElem _
    have := implied_of_table hsegs i _ hg
    cases up
    · exact ⟨_, this.1⟩
    · exact ⟨_, this.2⟩
  obtain ⟨out, hout⟩ := probingLoop_def hcols.ni himp st.requiredViolation lower upper sol t.numberIntegers 0 (by omega)
    (storedLoop st.requiredViolation sol st.cuts base)
  refine ⟨out, by unfold generateCuts; rw [hst]; exact hout, ?_⟩
  intro x hx hb hw
  have hbin : Binary t x := by
    intro j hj
    obtain ⟨i, hi⟩ := List.getElem?_of_mem hj
    exact hb j (hcols.inv i j hi).1 (hcols.inv i j hi).2.1
  have hent : ∀ i j up es, t.integerVariable[i]? = some j → implied t i up = some es →
      ∀ e ∈ es, EntryOk t lower upper x j up e := by
    intro i j up es hi hes e he
    obtain ⟨k, hk, hkn, hrec⟩ := handed_recorded hn hr ht hi hes he
    have hholds := hx _ hrec
    unfold Call.Holds at hholds
    simp only [Bool.not_not] at hholds
    refine ⟨?_, ?_, ?_⟩
    · intro k' hs hk' hxj
      unfold targetCol at hk
      rw [if_pos hs, hk'] at hk
      simp only [Option.some.injEq] at hk
      subst hk
      have := hholds hxj
      rw [if_pos (hcols.inv _ _ hk').2.1] at this
      exact this
    · intro hs hxj
      unfold targetCol at hk
      rw [if_neg hs] at hk
      simp only [Option.some.injEq] at hk
      rw [hk]
      have hv := hholds hxj
      have hwk := hw _ hrec
      simp only at hwk
      by_cases hct : colType P k = 1
      · -- a 0-1 column is never listed with an offset number
        exfalso
        obtain ⟨i', hbk, hik⟩ := hcols.bin k hkn hct
        obtain ⟨seq, hseq⟩ : ∃ seq, seq = sequence e := ⟨_, rfl⟩
        have hcode : sequence e = code t k := by
          have hre' : ∀ es', implied (convert s) i up = some es' → e ∈ es' → s.integerVariable[i]? = some j →
              ∃ k', sequence e = code s k' ∧ k' < P.nCols ∧ targetCol s e = some k' := by
            intro es' h1 h2 h3
            obtain ⟨seg, g1, g2⟩ := exposed_run hr i j h3 up
            rw [g1] at h1
            simp only [Option.some.injEq] at h1
            rw [← h1] at h2
            obtain ⟨c, hc, _, _, htl, hce⟩ := (g2 e).mp (mem_cleanSegment_of h2)
            have hcs := (reachable_inv hre).cols
            refine ⟨c.target, ?_, htl, ?_⟩
            · rw [hce]; exact sequence_mk (code_lt hcs hn htl) _
            · rw [hce]; exact (decode hcs hn htl _).1
          rcases ht with rfl | rfl
          · rw [integerVariable_convert] at hi
            obtain ⟨k', a1, a2, a3⟩ := hre' es hes he hi
            have hck : code (convert s) = code s := by
              funext q; unfold code; rw [(convert_fields s).1, (convert_fields s).2.2.2]
            rw [hck, a1]
            congr 1
            unfold targetCol at a3
            rw [(convert_fields s).1] at hs hk
            rw [if_neg hs] at a3
            simp only [Option.some.injEq] at a3
            omega
          · exfalso
            rw [(packDown_fields s).2.2.1] at hi
            obtain ⟨es', h1, h2⟩ := (packDown_keeps_01 P s hre).1 i ((reachable_inv hre).cols.lt hi) up
            rw [h2] at hes
            simp only [Option.some.injEq] at hes
            rw [← hes] at he
            have := (List.mem_filter.mp he).2
            simp only [targets01, decide_eq_true_eq] at this
            rw [(packDown_fields s).1] at hs
            exact hs this
        have hlt := hcols.lt hik
        unfold code at hcode
        rw [hbk] at hcode
        simp only at hcode
        omega
      · rw [if_neg hct] at hv
        have htk := htight _ hrec hct
        simp only at htk
        cases hone : oneFixes e
        · rw [hone] at hv
          simp only [Bool.not_false, if_true] at hv
          simp only [Bool.false_eq_true, if_false]
          rw [hv]; exact htk.1
        · rw [hone] at hv
          simp only [Bool.not_true, Bool.false_eq_true, if_false] at hv
          simp only [if_true]
          rw [hv]; exact htk.2
    · intro hs
      unfold targetCol at hk
      rw [if_neg hs] at hk
      simp only [Option.some.injEq] at hk
      rw [hk]
      exact hw _ hrec
  have hok := probingLoop_ok (base := base ++ st.cuts) hbin hent t.numberIntegers 0
    (cs := storedLoop st.requiredViolation sol st.cuts base) (by
      rw [storedLoop_eq]
      intro c hc
      left
      rcases List.mem_append.mp hc with hc | hc
      · exact List.mem_append_left _ hc
      · exact List.mem_append_right _ (List.mem_filter.mp hc).1) hout
  intro c hc
  rcases hok c hc with h | h
  · rcases List.mem_append.mp h with h | h
    · exact Or.inl h
    · exact Or.inr (Or.inl h)
  · exact Or.inr (Or.inr h)

/-- Non-vacuity of C06: "column 0 at one puts continuous column 2 (in [0,10]) at its upper bound", LP point with
column 0 at 0.9 and column 2 at 1: one cut `10 x0 - x2 <= 0`. -/
example : ∃ s, run (initializeFixing lossProb) [⟨0, true, 2, false⟩] = some s ∧
    (generateCuts { init 0 with probingInfo := some (convert s) } lossProb.colLower lossProb.colUpper
      (fun j => if j = 2 then 1 else 9/10) []).map (fun l => l.map fun c => (c.cut.ub, c.cut.row))
      = some [(0, [(0, 10), (2, -1)])] ∧
    (⟨0, true, 2, false⟩ : Call).Holds lossProb (fun j => if j = 2 then 10 else 1) := by
  refine ⟨(run (initializeFixing lossProb) [⟨0, true, 2, false⟩]).get (by decide +kernel), by simp, ?_, ?_⟩ <;>
    decide +kernel

end Cgl.Stored
