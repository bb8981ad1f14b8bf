import Verif.Probing.Start

/-!
# Calls that are exact

If all columns of the rows are integer and the rows are not strengthened, then no step of `probe` rests on a tolerance.
-/

namespace Cgl.Probing

variable {g : Cfg}

/-- All columns of the rows are integer. -/
def AllInt (g : Cfg) : Prop := ∀ r ∈ g.rows, ∀ e ∈ r.els, g.isInt e.1 = true

theorem touch_ex (i : Nat) (s : St) : (touch i s).exact = s.exact := by
  unfold touch; split <;> rfl

theorem shiftRow_ex (raised : Bool) (mv : ℚ) (e : Nat × ℚ) (s : St) :
    (shiftRow g raised mv e s).1.exact = s.exact := by
  have := touch_ex e.1 s
  unfold shiftRow
  generalize touch e.1 s = s1 at *
  dsimp only
  split
  · dsimp only; split <;> exact this
  · dsimp only; split <;> exact this

theorem shiftRows_ex (raised : Bool) (mv : ℚ) : ∀ (es : List (Nat × ℚ)) (s : St),
    (shiftRows g raised mv es s).1.exact = s.exact
  | [], _ => rfl
  | e :: es, s => by
    have h1 := shiftRow_ex (g := g) raised mv e s
    unfold shiftRows
    rcases hh : shiftRow g raised mv e s with ⟨s1, b⟩
    rw [hh] at h1
    cases b
    · exact (shiftRows_ex raised mv es s1).trans h1
    · exact h1

theorem spoil_ex (c : Nat) (r : St × Bool) : (spoil c r).exact = r.1.exact := by
  unfold spoil; split <;> rfl

theorem push_ex (b : Bool) (c : Nat) (s : St) : (push b c s).exact = s.exact := by
  unfold push; split <;> rfl

theorem moveUp_ex (c : Nat) (n : ℚ) (s : St) : (moveUp g c n s).exact = s.exact := by
  unfold moveUp
  dsimp only
  rw [spoil_ex, shiftRows_ex]

theorem moveDown_ex (c : Nat) (n mv : ℚ) (s : St) : (moveDown g c n mv s).exact = s.exact := by
  unfold moveDown
  dsimp only
  rw [spoil_ex, shiftRows_ex]

theorem ite_ex {p : Prop} [Decidable p] {a b : St} {v : Bool} (ha : a.exact = v) (hb : b.exact = v) :
    (if p then a else b).exact = v := by split <;> assumption

theorem applyMoves_ex (c : Nat) (nl nu : ℚ) (m : Mark) (s : St) : (applyMoves g c nl nu m true s).1.exact = s.exact := by
  unfold applyMoves
  dsimp only
  split
  · rfl
  · obtain ⟨s1, hs1⟩ : ∃ s1 : St, s1 = (if s.sC.length < 2 * maxStack then
        { s with
          mark := Function.update s.mark c m
          exact := s.exact && true }
      else s) := ⟨_, rfl⟩
    have e1 : s1.exact = s.exact := by
      rw [hs1]; exact ite_ex (by simp) rfl
    rw [← hs1]
    generalize hu : (decide (nl - s.lo c ≠ 0) && decide (s1.sC.length < 2 * maxStack)) = up
    obtain ⟨s2, hs2⟩ : ∃ s2 : St, s2 = (if up = true then moveUp g c nl (push (s.mark c).any c s1) else s1) := ⟨_, rfl⟩
    have e2 : s2.exact = s.exact := by
      rw [hs2]; exact ite_ex (by rw [moveUp_ex, push_ex, e1]) e1
    rw [← hs2]
    obtain ⟨s3, hs3⟩ : ∃ s3 : St, s3 = (if (decide (nu - s.up c ≠ 0) && decide (s2.sC.length < 2 * maxStack)) = true then
      moveDown g c nu (nu - s.up c) (push ((s.mark c).any || up) c s2) else s2) := ⟨_, rfl⟩
    have e3 : s3.exact = s.exact := by
      rw [hs3]; exact ite_ex (by rw [moveDown_ex, push_ex, e2]) e2
    rw [← hs3]
    split <;> exact e3

theorem elStep_ex (i : Nat) (useUp useLo : Bool) {e : Nat × ℚ} (he : g.isInt e.1 = true) (s : St) :
    (elStep g i useUp useLo e s).1.exact = s.exact := by
  unfold elStep
  dsimp only
  split
  · rfl
  · generalize wantUp useUp useLo _ _ _ _ = w1
    generalize wantDown useUp useLo _ _ _ _ = w2
    have h1 : ∀ m, (planUp g w1 (g.ub i - s.minR i) (g.lb i - s.maxR i) e s m).2.2 = false := by
      intro m; unfold planUp newLower; rw [he]; split <;> rfl
    have h2 : ∀ m, (planDown g w2 (g.ub i - s.minR i) (g.lb i - s.maxR i) e s m).2.2 = false := by
      intro m; unfold planDown newUpper; rw [he]; split <;> rfl
    rw [h1, h2]
    exact applyMoves_ex _ _ _ _ _

theorem elLoop_ex (i : Nat) (useUp useLo : Bool) : ∀ (es : List (Nat × ℚ)) (s : St),
    (∀ e ∈ es, g.isInt e.1 = true) → (elLoop g i useUp useLo es s).exact = s.exact
  | [], _, _ => rfl
  | e :: es, s, h => by
    have h1 := elStep_ex (g := g) i useUp useLo (h e List.mem_cons_self) s
    unfold elLoop
    rcases hh : elStep g i useUp useLo e s with ⟨s1, b⟩
    rw [hh] at h1
    cases b
    · exact (elLoop_ex i useUp useLo es s1 fun e he => h e (List.mem_cons_of_mem _ he)).trans h1
    · exact h1

theorem rowStep_ex (ha : AllInt g) (i : Nat) (s : St) : (rowStep g i s).exact = s.exact := by
  unfold rowStep
  rcases hr : g.rows[i]? with _ | r
  · rfl
  · have hm := List.mem_of_getElem? hr
    dsimp only
    split
    · rfl
    · split
      · rfl
      · rw [elLoop_ex _ _ _ _ _ fun e he => ha r hm e (List.mem_append_right _ he),
          elLoop_ex _ _ _ _ _ fun e he => ha r hm e (List.mem_append_left _ he)]

theorem colLoop_ex (ha : AllInt g) : ∀ (es : List (Nat × ℚ)) (s : St), (colLoop g es s).exact = s.exact
  | [], _ => rfl
  | e :: es, s => by
    unfold colLoop
    split
    · rfl
    · exact (colLoop_ex ha es _).trans (rowStep_ex ha _ _)

theorem queue_ex (ha : AllInt g) : ∀ (n k : Nat) (s : St), (queue g n k s).exact = s.exact
  | 0, _, _ => rfl
  | n + 1, k, s => by
    unfold queue
    split
    · rfl
    · split
      · rfl
      · exact (queue_ex ha n _ _).trans (colLoop_ex ha _ _)

theorem branch_ex (ha : AllInt g) (way : Bool) (j : Nat) (d : ℚ) (s : St) : (branch g way j d s).exact = s.exact := by
  unfold branch
  dsimp only
  refine ite_ex ?_ ?_
  · exact shiftRows_ex (g := g) _ _ _ _
  · rw [queue_ex ha, shiftRows_ex]

theorem foldl_restoreRow_ex : ∀ (l : List SaveR) (s : St), (l.foldl (fun t v => restoreRow v t) s).exact = s.exact
  | [], _ => rfl
  | _ :: l, _ => (foldl_restoreRow_ex l _).trans rfl

theorem foldr_restore0_ex : ∀ (l : List Save) (s : St), (l.foldr restore0 s).exact = s.exact
  | [], _ => rfl
  | _ :: l, s => foldr_restore0_ex l s

theorem foldr_restore1_ex : ∀ (l : List Save) (s : St), (l.foldr restore1 s).exact = s.exact
  | [], _ => rfl
  | _ :: l, s => foldr_restore1_ex l s

theorem undo0_ex (s : St) : (undo0 s).exact = s.exact := by
  unfold undo0
  dsimp only
  rw [foldl_restoreRow_ex, foldr_restore0_ex]

theorem undo1_ex (s : St) : (undo1 s).exact = s.exact := by
  unfold undo1
  split
  · rfl
  · rename_i v vs _
    dsimp only
    rw [foldl_restoreRow_ex]
    exact foldr_restore1_ex vs s

theorem foldl_keepMark_ex : ∀ (l : List Save) (s : St), (l.foldl (fun t v => keepMark v t) s).exact = s.exact
  | [], _ => rfl
  | _ :: l, _ => (foldl_keepMark_ex l _).trans rfl

theorem keep_ex (s : St) (a : Acc) : (keep g s a).1.exact = s.exact := foldl_keepMark_ex s.sC s

theorem lows_sure (hb : g.rowCuts / 2 % 2 = 0) (j gtb : Nat) (any : Bool) (s t : St) :
    ∀ w ∈ lows g j gtb any s t, w.sure = true := by
  unfold lows
  dsimp only
  rw [if_neg (by rw [hb]; simp)]
  intro w hw
  obtain ⟨v, -, rfl⟩ := List.mem_map.mp hw
  rfl

theorem wayCuts_clean (hb : g.rowCuts / 2 % 2 = 0) (way : Bool) (j : Nat) (d : ℚ) (gtb : Nat) (any : Bool) (s t : St) :
    ((wayCuts g way j d gtb any s t).any fun c => c.2) = false := by
  unfold wayCuts
  rw [if_neg (c := g.rowCuts / 2 % 2 = 1 ∧ _) (by rw [hb]; simp), List.append_nil, List.any_eq_false]
  intro c hc
  split at hc
  · obtain ⟨k, -, rfl⟩ := List.mem_map.mp hc
    simp
  · cases hc

theorem record_ex {dup : List RowCut → RowCut → Bool} {cs : List (RowCut × Bool)} (hc : (cs.any fun c => c.2) = false)
    (r : St × Acc) : (record dup cs r).1.exact = r.1.exact := by
  unfold record
  simp [hc]

theorem both_ex {l : List Low} (hl : ∀ w ∈ l, w.sure = true) (s : St) (a : Acc) : (both g l s a).1.exact = s.exact := by
  unfold both
  dsimp only
  have : (s.sC.tail.any fun v => (bothLo l s v).any fun w => !w.sure) = false := by
    rw [List.any_eq_false]
    intro v _
    unfold bothLo findLow
    rcases hf : l.tail.find? (fun w => decide (w.col = v.col)) with _ | w
    · rw [hf]; simp
    · rw [hf]
      have hw := hl w (List.mem_of_mem_tail (List.mem_of_find?_eq_some hf))
      dsimp only
      split <;> simp [hw]
  rw [this]; simp

theorem second_ex (ha : AllInt g) (hb : g.rowCuts / 2 % 2 = 0) (dup : List RowCut → RowCut → Bool) (j : Nat) (d u : ℚ)
    (ok0 : Bool) {l : List Low} (hl : ∀ w ∈ l, w.sure = true) (t : St) (a : Acc) :
    (second g dup j d u ok0 l t a).1.exact = t.exact := by
  have hs := branch_ex ha true j u t
  unfold second
  dsimp only
  generalize branch g true j u t = s at hs ⊢
  split
  · split
    · rw [record_ex (wayCuts_clean hb _ _ _ _ _ _ _)]
      dsimp only
      rw [undo1_ex, both_ex hl, hs]
    · rw [keep_ex, hs]
  · split
    · rw [keep_ex, branch_ex ha, undo1_ex, hs]
    · exact hs

theorem first_ex (ha : AllInt g) (hb : g.rowCuts / 2 % 2 = 0) (dup : List RowCut → RowCut → Bool) (j : Nat) (d u : ℚ)
    (t : St) (a : Acc) : (first g dup j d u t a).1.exact = t.exact := by
  unfold first
  dsimp only
  rw [second_ex ha hb, record_ex (wayCuts_clean hb _ _ _ _ _ _ _)]
  · dsimp only
    rw [undo0_ex, branch_ex ha]
  · split
    · exact lows_sure hb _ _ _ _ _
    · intro w hw; cases hw

theorem probeCol_ex (ha : AllInt g) (hb : g.rowCuts / 2 % 2 = 0) (dup : List RowCut → RowCut → Bool) (j : Nat)
    (r : St × Acc) : (probeCol g dup j r).1.exact = r.1.exact := by
  have h1 : (markFixed j r.1).exact = r.1.exact := by unfold markFixed; split <;> rfl
  unfold probeCol
  dsimp only
  split
  · exact h1
  · rw [first_ex ha hb]; exact h1

theorem passLoop_ex (ha : AllInt g) (hb : g.rowCuts / 2 % 2 = 0) (dup : List RowCut → RowCut → Bool) :
    ∀ (js : List Nat) (r : St × Acc), (passLoop g dup js r).1.exact = r.1.exact
  | [], _ => rfl
  | j :: js, r => by
    have h1 := probeCol_ex ha hb dup j r
    unfold passLoop
    dsimp only
    split
    · exact h1
    · exact (passLoop_ex ha hb dup js _).trans h1

theorem passes_ex (ha : AllInt g) (hb : g.rowCuts / 2 % 2 = 0) (dup : List RowCut → RowCut → Bool)
    (look : Nat → List Nat) : ∀ (m p : Nat) (r : St × Acc), (passes g dup look m p r).1.exact = r.1.exact
  | 0, _, _ => rfl
  | m + 1, p, r => by
    have h1 := passLoop_ex ha hb dup (look p) (r.1, { r.2 with nfixed := 0 })
    unfold passes
    dsimp only
    split
    · exact h1
    · exact (passes_ex ha hb dup look m _ _).trans h1

variable {P : Prob} {A : Params} {L : Lp}

theorem kept_cols (hW : P.WF) {r : Row} (hr : r ∈ keptRows P A L) : ∀ p ∈ r.coefs, p.1 < P.nCols := by
  rcases List.mem_append.mp hr with hr | hr
  · exact hW.cols r (List.mem_of_mem_filter hr)
  · have hm := List.mem_of_mem_filter hr
    unfold objRows at hm
    split at hm
    · obtain rfl := List.mem_singleton.mp hm
      intro p hp
      obtain ⟨c, hc, rfl⟩ := List.mem_map.mp hp
      exact List.mem_range.mp (List.mem_of_mem_filter hc)
    · cases hm

theorem work_cols (hW : P.WF) : ∀ r ∈ workRows P A L, ∀ p ∈ r.els, p.1 < P.nCols := by
  intro r hr p hp
  obtain ⟨q, hq, rfl⟩ := List.mem_map.mp hr
  exact kept_cols hW hq p (prepRow_mem hp)

/-- A call on a problem with integer columns only, rows not strengthened, is exact. -/
theorem guts_exact (hD : Data P A L) (hint : ∀ c < P.nCols, P.isInt c = true) (hb : A.rowCutsNow / 2 % 2 = 0)
    {dup : List RowCut → RowCut → Bool} {look : Nat → List Nat} {o : Out} (ho : guts P A L dup look = .ok o) :
    o.exact = true := by
  unfold guts at ho
  split at ho
  · split at ho
    · cases ho; rfl
    · have hti := tighten_int (work_cols (A := A) (L := L) hD.wf) (start_int hD L.sol)
      change afterTighten P A L dup look (workRows P A L) _ _
        (tighten (workRows P A L) P.isInt (startLo P L.sol) (startUp P L.sol)) = _ at ho
      generalize tighten (workRows P A L) P.isInt (startLo P L.sol) (startUp P L.sol) = t at hti ho
      unfold afterTighten at ho
      split at ho
      · cases ho; rfl
      · split at ho
        · split at ho
          · split at ho
            · cases ho
              have ha : AllInt (cfgOf P A L (workRows P A L) t) := by
                intro r hr e he
                obtain ⟨i, q, hq, rfl⟩ := newRows_mem hr
                exact hint e.1 (work_cols hD.wf q (List.mem_of_getElem? hq) e he)
              have hs : (probe P A L dup look (workRows P A L) (startLo P L.sol) (startUp P L.sol) t).1.exact = true := by
                unfold probe
                rw [passes_ex ha hb]
                refine List.all_eq_true.mpr fun c hc => ?_
                have hc := List.mem_range.mp hc
                obtain ⟨⟨a, h1⟩, ⟨b, h2⟩⟩ := hti c hc (hint c hc)
                simp only [Bool.not_eq_true', decide_eq_false_iff_not]
                rw [h1, h2]
                intro hh
                have h3 : ((b - a : ℤ) : ℚ) = 1 / 10 ^ 8 := by push_cast; exact hh
                have h4 : (0 : ℚ) < ((b - a : ℤ) : ℚ) := by rw [h3]; norm_num
                have h5 : ((b - a : ℤ) : ℚ) < ((1 : ℤ) : ℚ) := by rw [h3]; norm_num
                have h6 := Int.cast_pos.mp h4
                have h7 := Int.cast_lt.mp h5
                omega
              unfold finish
              dsimp only
              split <;> exact hs
            · cases ho
          · cases ho; rfl
        · cases ho
  · cases ho

end Cgl.Probing
