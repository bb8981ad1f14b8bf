import Verif.Probing.Cut

/-!
# Probing one column, and the passes
-/

namespace Cgl.Probing

variable {g : Cfg} {n : Nat} {x : Nat → ℚ} {live : Nat → Bool} {s s0 t : St}

/-! ### The column probed stays at the bottom of the stack -/

/-- Column `j` is the first on the stack. -/
def Head (j : Nat) (s : St) : Prop := ∃ v vs, s.sC = v :: vs ∧ v.col = j

theorem Head.congr {j : Nat} (h : Head j s) (hs : t.sC = s.sC) : Head j t := by
  unfold Head at h ⊢; rw [hs]; exact h
theorem Head.ne {j : Nat} (h : Head j s) : s.sC ≠ [] := by
  obtain ⟨v, vs, h, -⟩ := h; rw [h]; simp

theorem spoil_sC (c : Nat) (r : St × Bool) : (spoil c r).sC = r.1.sC := by
  unfold spoil; split <;> rfl
theorem moveUp_sC (c : Nat) (b : ℚ) (s : St) : (moveUp g c b s).sC = s.sC := by
  unfold moveUp; dsimp only; rw [spoil_sC, (shiftRows_same _ _ _ _ _).sC]
theorem moveDown_sC (c : Nat) (b mv : ℚ) (s : St) : (moveDown g c b mv s).sC = s.sC := by
  unfold moveDown; dsimp only; rw [spoil_sC, (shiftRows_same _ _ _ _ _).sC]
theorem push_head {b : Bool} {c j : Nat} (h : Head j s) : Head j (push b c s) := by
  unfold push; split
  · exact h
  · obtain ⟨v, vs, h, hv⟩ := h
    exact ⟨v, vs ++ [⟨c, s.lo c, s.up c⟩], by rw [h]; rfl, hv⟩

theorem movesCore_head {c j : Nat} {nl nu : ℚ} {m : Mark} {ex : Bool} (h : Head j s) :
    Head j (movesCore g c nl nu m ex s) := by
  unfold movesCore
  obtain ⟨s1, hs1⟩ : ∃ s1 : St, s1 = { s with
    mark := Function.update s.mark c m
    exact := s.exact && ex } := ⟨_, rfl⟩
  have h1 : Head j s1 := h.congr (by rw [hs1])
  rw [← hs1]
  obtain ⟨s2, hs2⟩ : ∃ s2 : St, s2 = if nl - s.lo c ≠ 0 then moveUp g c nl (push (s.mark c).any c s1) else s1 :=
    ⟨_, rfl⟩
  have h2 : Head j s2 := by
    rw [hs2]
    split
    · exact (push_head h1).congr (moveUp_sC _ _ _)
    · exact h1
  dsimp only
  rw [← hs2]
  split
  · exact (push_head h2).congr (moveDown_sC _ _ _ _)
  · exact h2

theorem applyMoves_head {c j : Nat} {nl nu : ℚ} {m : Mark} {ex : Bool} (h : Head j s) :
    Head j (applyMoves g c nl nu m ex s).1 := by
  rcases applyMoves_cases g c nl nu m ex s with h1 | ⟨-, h1⟩ | ⟨-, -, h1⟩ <;> rw [h1]
  · exact h
  · split <;> exact h
  · split
    · exact (movesCore_head h).congr rfl
    · exact movesCore_head h

theorem elStep_head {i j : Nat} {useUp useLo : Bool} {e : Nat × ℚ} (h : Head j s) :
    Head j (elStep g i useUp useLo e s).1 := by
  unfold elStep
  dsimp only
  split
  · exact h
  · exact applyMoves_head h

theorem elLoop_head {i j : Nat} {useUp useLo : Bool} : ∀ (es : List (Nat × ℚ)) (s : St), Head j s →
    Head j (elLoop g i useUp useLo es s)
  | [], _, h => h
  | e :: es, s, h => by
    have h0 := elStep_head (g := g) (i := i) (useUp := useUp) (useLo := useLo) (e := e) h
    unfold elLoop
    rcases hh : elStep g i useUp useLo e s with ⟨t, b⟩
    rw [hh] at h0
    cases b
    · exact elLoop_head es t h0
    · exact h0

theorem rowStep_head {i j : Nat} (h : Head j s) : Head j (rowStep g i s) := by
  unfold rowStep
  split
  · exact h
  · dsimp only
    split
    · exact h
    · split
      · exact h
      · exact elLoop_head _ _ (elLoop_head _ _ h)

theorem colLoop_head {j : Nat} : ∀ (es : List (Nat × ℚ)) (s : St), Head j s → Head j (colLoop g es s)
  | [], _, h => h
  | e :: es, s, h => by
    unfold colLoop
    split
    · exact h
    · exact colLoop_head es _ (rowStep_head h)

theorem queue_head {j : Nat} : ∀ (m k : Nat) (s : St), Head j s → Head j (queue g m k s)
  | 0, _, _, h => h
  | m + 1, k, s, h => by
    unfold queue
    split
    · exact h
    · split
      · exact h
      · exact queue_head m (k + 1) _ (colLoop_head _ _ h)

theorem branch_head (way : Bool) (j : Nat) (d : ℚ) (s : St) : Head j (branch g way j d s) := by
  rw [branch_eq]
  obtain ⟨mv, hmv⟩ : ∃ mv : ℚ, mv = if way then d - s.lo j else d - s.up j := ⟨_, rfl⟩
  rw [← hmv]
  have h : Head j (shiftRows g way mv (g.col j) (branchStart g way j d s)).1 :=
    Head.congr (s := branchStart g way j d s) ⟨_, _, rfl, rfl⟩ (shiftRows_same _ _ _ _ _).sC
  split
  · exact h.congr rfl
  · exact queue_head _ _ _ h

/-! ### The invariant -/

/-- Everything found so far holds at the point. -/
structure AccOk (g : Cfg) (x : Nat → ℚ) (a : Acc) : Prop where
  cols : ∀ c ∈ a.cols, c.Sat x
  cand : ∀ c ∈ a.cand, c.Sat x
  fixes : ∀ f ∈ a.fixes, FixOk g x f
  infeas : a.infeas = false
  stop : a.stop = false

/-- Between the columns. -/
structure PInv (g : Cfg) (n : Nat) (x : Nat → ℚ) (live : Nat → Bool) (r : St × Acc) : Prop where
  l0 : L0 g n live r.1
  val : G g n x live r.1
  acc : AccOk g x r.2

theorem record_inv {dup : List RowCut → RowCut → Bool} {cs : List (RowCut × Bool)} {r : St × Acc}
    (h : PInv g n x live r) (hc : ∀ c ∈ cs, c.2 = false → c.1.Sat x) (hex : (record dup cs r).1.exact = true) :
    PInv g n x live (record dup cs r) ∧ r.1.exact = true := by
  unfold record at hex ⊢
  simp only [Bool.and_eq_true, Bool.not_eq_true', List.any_eq_false, Bool.not_eq_true] at hex
  refine ⟨⟨⟨h.l0.marks, h.l0.markR, h.l0.bits, h.l0.int, h.l0.dead⟩, h.val.congr rfl rfl rfl rfl rfl,
    ⟨h.acc.cols, ?_, h.acc.fixes, h.acc.infeas, h.acc.stop⟩⟩, hex.1⟩
  refine addCands_sat _ _ h.acc.cand ?_
  intro k hk
  obtain ⟨c, hcm, rfl⟩ := List.mem_map.mp hk
  exact hc c hcm (by simpa using hex.2 c hcm)

theorem AccOk.addFixes {a : Acc} (h : AccOk g x a) {l : List Fix} (hl : ∀ f ∈ l, FixOk g x f) {b : Bool} :
    AccOk g x (if b = true then { a with fixes := a.fixes ++ l } else a) := by
  split
  · refine ⟨h.cols, h.cand, ?_, h.infeas, h.stop⟩
    intro f hf
    rcases List.mem_append.mp hf with hf | hf
    · exact h.fixes f hf
    · exact hl f hf
  · exact h

theorem keep_acc (hG : G g n x live s) (hS : ∀ v ∈ s.sC, v.col < n) {a : Acc} (hA : AccOk g x a) :
    AccOk g x (keep g s a).2 := by
  unfold keep
  exact ⟨addCol_sat hA.cols (keepCut_sat hG hS), hA.cand, hA.fixes, hA.infeas, hA.stop⟩

theorem both_exact {l : List Low} {a : Acc} (h : (both g l s a).1.exact = true) : s.exact = true ∧ BothSure l s := by
  unfold both at h
  simp only [Bool.and_eq_true, Bool.not_eq_true', List.any_eq_false] at h
  refine ⟨h.1, ?_⟩
  intro v hv w hw
  have := h.2 v hv
  rw [hw] at this
  simpa using this

/-- What the choice of the values gives. -/
structure Chosen (g : Cfg) (x : Nat → ℚ) (n : Nat) (j : Nat) (d u : ℚ) (s : St) : Prop where
  hj : j < n
  isInt : g.isInt j = true
  unfixed : (s.mark j).fixed = false
  lt : s.lo j < s.up j
  dInt : IsInteger d
  next : u = d + 1
  lo : s.lo j ≤ d
  up : u ≤ s.up j
  dj0 : 0 < g.dj j → d ≤ s.lo j
  dj1 : g.dj j < 0 → s.up j ≤ u

theorem Chosen.uInt {j : Nat} {d u : ℚ} (h : Chosen g x n j d u s) : IsInteger u := by
  rw [h.next]; exact int_add_one h.dInt

theorem Chosen.cases {j : Nat} {d u : ℚ} (h : Chosen g x n j d u s) (he : Env g n x live) : x j ≤ d ∨ u ≤ x j := by
  by_cases hc : x j ≤ d
  · exact Or.inl hc
  · right
    push Not at hc
    rw [h.next]
    exact int_le_of_lt_add_one (int_add_one h.dInt) (he.int j h.hj h.isInt) (by linarith)

theorem Chosen.go1 {j : Nat} {d u : ℚ} (h : Chosen g x n j d u s) (he : Env g n x live) (hL : L0 g n live s)
    (hG : G g n x live s) (hx : u ≤ x j) (hex : (branch g true j u s).exact = true) :
    GO g n x live (branch g true j u s) ∧ feasible g (branch g true j u s) = true := by
  refine branch_go he hL hG h.hj h.unfixed h.uInt ?_ ?_ hex
  · simp only [if_true]; exact ⟨hx, by linarith [h.lo, h.next]⟩
  · simp only [if_true]; exact h.dj1

theorem Chosen.go0 {j : Nat} {d u : ℚ} (h : Chosen g x n j d u s) (he : Env g n x live) (hL : L0 g n live s)
    (hG : G g n x live s) (hx : x j ≤ d) (hex : (branch g false j d s).exact = true) :
    GO g n x live (branch g false j d s) ∧ feasible g (branch g false j d s) = true := by
  refine branch_go he hL hG h.hj h.unfixed h.dInt ?_ ?_ hex
  · simp only [Bool.false_eq_true, if_false]; exact ⟨hx, by linarith [h.up, h.next]⟩
  · simp only [Bool.false_eq_true, if_false]; exact h.dj0

/-- Saved bounds hold at the point. -/
theorem saves_box (hG : G g n x live s0) {l : List Save} (h : SavesOk g n x s0 l) :
    ∀ v ∈ l, v.lo ≤ x v.col ∧ x v.col ≤ v.up ∧ v.col < n := by
  intro v hv
  obtain ⟨-, h2, h3, -, h5, -⟩ := h v hv
  exact ⟨h2, by rw [h3]; exact (hG.box _ h5).2, h5⟩

theorem undo0_exact (s : St) : (undo0 s).exact = s.exact := by
  unfold undo0
  dsimp only
  rw [(foldl_restoreRow _ _).exact, (foldr_restore0 s s.sC).exact]

theorem undo1_exact (s : St) : (undo1 s).exact = s.exact := by
  unfold undo1
  split
  · rfl
  · rename_i v vs _
    dsimp only
    rw [(foldl_restoreRow _ _).exact]
    exact (foldr_restore1 s vs).exact

theorem second_exact {dup : List RowCut → RowCut → Bool} {j : Nat} {d u : ℚ} {ok0 : Bool} {l : List Low} {a : Acc}
    (h : (second g dup j d u ok0 l s a).1.exact = true) : s.exact = true := by
  unfold second at h
  dsimp only at h
  refine branch_exact (g := g) (way := true) (j := j) (d := u) ?_
  generalize branch g true j u s = s1 at *
  cases hok : feasible g s1
  · simp only [hok, Bool.false_eq_true, if_false] at h
    cases ok0
    · exact h
    · simp only [if_true] at h
      rw [keep_exact] at h
      have := branch_exact h
      rwa [undo1_exact] at this
  · simp only [hok, if_true] at h
    cases ok0
    · simp only [Bool.false_eq_true, if_false] at h
      rwa [keep_exact] at h
    · simp only [if_true] at h
      unfold record at h
      simp only [Bool.and_eq_true] at h
      rw [undo1_exact] at h
      exact (both_exact h.1).1

/-- The mark of the column probed after the second way. -/
theorem undo1_mark {j : Nat} (h : Head j s) : ((undo1 s).mark j).fixed = false := by
  obtain ⟨v, vs, h, rfl⟩ := h
  unfold undo1
  rw [h]
  dsimp only
  rw [(foldl_restoreRow _ _).mark]
  unfold restore0
  dsimp only
  rw [Function.update_self]
  rfl

/-- The second way was not feasible: back to the bounds before it. -/
theorem undo1_plain (hL : L0 g n live s0) (hK : K g n s0 s) (hne : s.sC ≠ []) (he : Env g n x live) (hG : G g n x live s0) :
    L0 g n live (undo1 s) ∧ G g n x live (undo1 s) ∧ (undo1 s).up = s0.up ∧ (undo1 s).lo = s0.lo := by
  obtain ⟨t, ht, heq⟩ := undo1_undone hK (l := s.sC) rfl hne (ex := s.exact)
  have heq' : undo1 s = t := heq
  have hS := saves_ok hL hK hG
  rw [heq']
  refine ⟨ht.l0 hL hS, undone_g ht he hG hS, funext (ht.le hS).2, funext fun c => ?_⟩
  rcases ht.cols c with ⟨v, hv, rfl, h2, -, -, -⟩ | ⟨h1, -, -, -⟩
  · rw [h2]; exact (hK.c.on v hv).1
  · exact h1

theorem both_fst (g : Cfg) {l : List Low} {a : Acc} {v : Save} {vs : List Save} (h : s.sC = v :: vs) :
    (both g l s a).1 = { s with
      sC := v :: vs.map (bothSave l s)
      exact := s.exact && !(s.sC.tail.any fun v => (bothLo l s v).any fun w => !w.sure) } := by
  unfold both
  rw [h]

theorem both_acc {l : List Low} {j : Nat} {d u : ℚ} (hl : ∀ w ∈ l, LowOk g x j d w) (hsure : BothSure l s)
    (hS : ∀ v ∈ s.sC, v.col < n) (hcase : x j ≤ d ∨ u ≤ x j) (hG : u ≤ x j → G g n x live s)
    (hi : ∀ c < n, g.isInt c = true → IsInteger (s.lo c)) {a : Acc} (hA : AccOk g x a) :
    AccOk g x (both g l s a).2 := by
  unfold both
  exact ⟨addCol_sat hA.cols (bothCut_sat hl hsure hS hcase hG hi), hA.cand, hA.fixes, hA.infeas, hA.stop⟩

/-- The second way and what follows. -/
theorem second_inv (he : Env g n x live) (hn : NodupRows g) {dup : List RowCut → RowCut → Bool} {j : Nat} {d u : ℚ}
    {ok0 : Bool} {l : List Low} {a : Acc} (hc : Chosen g x n j d u s) (hL : L0 g n live s) (hG : G g n x live s)
    (hA : AccOk g x a) (hl : ∀ w ∈ l, LowOk g x j d w) (h0 : ok0 = false → u ≤ x j)
    (hex : (second g dup j d u ok0 l s a).1.exact = true) :
    PInv g n x live (second g dup j d u ok0 l s a) ∧ s.exact = true := by
  have hK : K g n s (branch g true j u s) := branch_k he.cols hL hc.hj hc.unfixed
  have hH : Head j (branch g true j u s) := branch_head true j u s
  have hmono := branch_exact (g := g) (s := s) (way := true) (j := j) (d := u)
  have hgo := hc.go1 he hL hG
  have hS := saves_ok hL hK hG
  have hbox := saves_box hG hS
  unfold second at hex ⊢
  dsimp only at hex ⊢
  generalize branch g true j u s = s1 at *
  have hfix : (u ≤ x j → G g n x live s1) → ∀ f ∈ fixes true j s1, FixOk g x f := fun hG1 =>
    fixes_ok (d := u) (by simp only [if_true]; linarith [hc.up, (hG.mono j hc.hj).2]) (by simpa using hG1) hK.c.int
      he.int hbox
  cases hok : feasible g s1
  · simp only [hok, Bool.false_eq_true, if_false] at hex ⊢
    cases ok0
    · simp only [Bool.false_eq_true, if_false] at hex ⊢
      have := (hgo (h0 rfl) hex).2
      rw [hok] at this; cases this
    · simp only [if_true] at hex ⊢
      rw [keep_exact] at hex
      have hex2 : s1.exact = true := by
        have := branch_exact hex
        rwa [undo1_exact] at this
      have hx : x j ≤ d := (hc.cases he).resolve_right fun hu => by
        have := (hgo hu hex2).2
        rw [hok] at this; cases this
      obtain ⟨hL2, hG2, hup2, hlo2⟩ := undo1_plain hL hK hH.ne he hG
      have hf2 := undo1_mark hH
      generalize undo1 s1 = s2 at *
      have hc2 : Chosen g x n j d u s2 :=
        ⟨hc.hj, hc.isInt, hf2, by rw [hlo2, hup2]; exact hc.lt, hc.dInt, hc.next, by rw [hlo2]; exact hc.lo,
          by rw [hup2]; exact hc.up, by rw [hlo2]; exact hc.dj0, by rw [hup2]; exact hc.dj1⟩
      have hK3 : K g n s2 (branch g false j d s2) := branch_k he.cols hL2 hc.hj hf2
      have hgo3 := hc2.go0 he hL2 hG2 hx hex
      have hS3 := saves_box hG2 (saves_ok hL2 hK3 hG2)
      refine ⟨⟨keep_l0 hL2 hK3 _, keep_g hgo3.1.1 _, keep_acc hgo3.1.1 (fun v hv => (hS3 v hv).2.2) ?_⟩, hmono hex2⟩
      exact hA.addFixes (fixes_ok (d := d)
        (by simp only [Bool.false_eq_true, if_false]; linarith [hc.lo, (hG.mono j hc.hj).1]) (fun _ => hgo3.1.1) hK3.c.int
          he.int hS3)
  · simp only [hok, if_true] at hex ⊢
    cases ok0
    · simp only [Bool.false_eq_true, if_false] at hex ⊢
      rw [keep_exact] at hex
      have hG1 := (hgo (h0 rfl) hex).1.1
      exact ⟨⟨keep_l0 hL hK _, keep_g hG1 _, keep_acc hG1 (fun v hv => (hbox v hv).2.2)
        ⟨hA.cols, hA.cand, fun f hf => (List.mem_append.mp hf).elim (hA.fixes f) (hfix (fun _ => hG1) f), hA.infeas,
          hA.stop⟩⟩, hmono hex⟩
    · simp only [if_true] at hex ⊢
      obtain ⟨v, vs, hsC, hvj⟩ := hH
      have hex1 : (both g l s1 { a with fixes := a.fixes ++ fixes true j s1 }).1.exact = true := by
        unfold record at hex
        simp only [Bool.and_eq_true] at hex
        rw [undo1_exact] at hex
        exact hex.1
      obtain ⟨hex2, hsure⟩ := both_exact hex1
      have hG1 : u ≤ x j → G g n x live s1 := fun hu => (hgo hu hex2).1.1
      have hi1 : ∀ c < n, g.isInt c = true → IsInteger (s1.lo c) := fun c hc hh => (hK.c.int c hc hh).1
      have hcase := hc.cases he
      have hAf : AccOk g x { a with fixes := a.fixes ++ fixes true j s1 } :=
        ⟨hA.cols, hA.cand, fun f hf => (List.mem_append.mp hf).elim (hA.fixes f) (hfix hG1 f), hA.infeas, hA.stop⟩
      have hacc := both_acc hl hsure (fun v hv => (hbox v hv).2.2) hcase hG1 hi1 hAf
      have hSb := bothSave_ok hl hsure hS hcase hG1 hi1 hsC
      have hfst := both_fst g (l := l) (a := { a with fixes := a.fixes ++ fixes true j s1 }) hsC
      have hcol : (v :: vs.map (bothSave l s1)).map Save.col = s1.sC.map Save.col := by
        rw [hsC, List.map_cons, List.map_cons, List.map_map]
        congr 1
        exact List.map_congr_left fun w _ => (bothSave_col l s1 w).1
      obtain ⟨t, ht, heq⟩ := undo1_undone hK hcol (by simp)
        (ex := s1.exact && !(s1.sC.tail.any fun v => (bothLo l s1 v).any fun w => !w.sure))
      rw [← hfst] at heq
      have hinv : PInv g n x live (undo1 (both g l s1 { a with fixes := a.fixes ++ fixes true j s1 }).1,
          (both g l s1 { a with fixes := a.fixes ++ fixes true j s1 }).2) := by
        refine ⟨?_, ?_, hacc⟩
        · dsimp only; rw [heq]; exact ht.l0 hL hSb
        · dsimp only; rw [heq]; exact undone_g ht he hG hSb
      refine ⟨(record_inv hinv ?_ hex).1, hmono hex2⟩
      refine wayCuts1_sat he hn ?_ hc.uInt (hG.box j hc.hj) (hL.int j hc.hj hc.isInt).2 hc.lt ?_ ?_
      · rcases hcase with hx | hx
        · right; simp only [if_true]; linarith [hc.next]
        · left; simp only [if_true]
          refine ⟨hx, ?_⟩
          rw [hfst]
          exact (hG1 hx).congr rfl rfl rfl rfl rfl
      · rw [hfst]; exact saves_box hG hSb
      · rw [hfst]
        intro w hw
        exact (hK.r.saved w hw).2.2

/-- The first way and what follows. -/
theorem first_inv (he : Env g n x live) (hn : NodupRows g) {dup : List RowCut → RowCut → Bool} {j : Nat} {d u : ℚ}
    {a : Acc} (hc : Chosen g x n j d u s) (hL : L0 g n live s) (hG : G g n x live s) (hA : AccOk g x a)
    (hex : (first g dup j d u s a).1.exact = true) : PInv g n x live (first g dup j d u s a) ∧ s.exact = true := by
  have hK : K g n s (branch g false j d s) := branch_k he.cols hL hc.hj hc.unfixed
  have hH : Head j (branch g false j d s) := branch_head false j d s
  have hmono := branch_exact (g := g) (s := s) (way := false) (j := j) (d := d)
  have hgo := hc.go0 he hL hG
  have hS := saves_ok hL hK hG
  have hbox := saves_box hG hS
  unfold first at hex ⊢
  dsimp only at hex ⊢
  generalize branch g false j d s = s1 at *
  have hU := undo0_undone hK
  obtain ⟨hlo, hup⟩ := undo0_lo hK
  have hLt := hU.l0 hL hS
  have hGt := undone_g hU he hG hS
  have hext := undo0_exact s1
  have hmt : ((undo0 s1).mark j).fixed = false := by
    obtain ⟨v, vs, hsC, rfl⟩ := hH
    unfold undo0
    dsimp only
    rw [(foldl_restoreRow _ _).mark, hsC]
    unfold restore0
    dsimp only [List.foldr_cons]
    rw [Function.update_self]
    rfl
  generalize undo0 s1 = t at *
  have hct : Chosen g x n j d u t :=
    ⟨hc.hj, hc.isInt, hmt, by rw [hlo, hup]; exact hc.lt, hc.dInt, hc.next, by rw [hlo]; exact hc.lo,
      by rw [hup]; exact hc.up, by rw [hlo]; exact hc.dj0, by rw [hup]; exact hc.dj1⟩
  obtain ⟨cs, hcs⟩ : ∃ cs, cs = wayCuts g false j d
    (if feasible g s1 = true then trueBound g d (s.lo j) (s.lo j) (s.up j) else 0) a.anyCol s1 t := ⟨_, rfl⟩
  obtain ⟨a1, ha1⟩ : ∃ a1, a1 = if feasible g s1 = true then { a with fixes := a.fixes ++ fixes false j s1 } else a :=
    ⟨_, rfl⟩
  obtain ⟨l, hl⟩ : ∃ l, l = if feasible g s1 = true then lows g j
    (if feasible g s1 = true then trueBound g d (s.lo j) (s.lo j) (s.up j) else 0) a.anyCol s1 t else [] := ⟨_, rfl⟩
  rw [← hcs, ← ha1, ← hl] at hex
  rw [← hcs, ← ha1, ← hl]
  -- The second way starts from a state like `t`.
  have key : (record dup cs (t, a1)).1.exact = true → PInv g n x live (record dup cs (t, a1)) ∧ s1.exact = true ∧
      (∀ w ∈ l, LowOk g x j d w) ∧ (feasible g s1 = false → u ≤ x j) := by
    intro hr
    have hex1 : s1.exact = true := by
      unfold record at hr
      simp only [Bool.and_eq_true] at hr
      rw [← hext]; exact hr.1
    have hG1 : x j ≤ d → G g n x live s1 := fun hx => (hgo hx hex1).1.1
    have hcase := hc.cases he
    have hA1 : AccOk g x a1 := by
      rw [ha1]
      exact hA.addFixes (fixes_ok (d := d)
        (by simp only [Bool.false_eq_true, if_false]; linarith [hc.lo, (hG.mono j hc.hj).1]) (by simpa using hG1) hK.c.int
          he.int hbox)
    refine ⟨?_, hex1, ?_, ?_⟩
    · refine (record_inv (r := (t, a1)) ⟨hLt, hGt, hA1⟩ ?_ hr).1
      rw [hcs]
      refine wayCuts0_sat he hn ?_ ?_ hc.dInt (hGt.box j hc.hj) (hLt.int j hc.hj hc.isInt).1 (he.int j hc.hj hc.isInt)
        hbox fun w hw => (hK.r.saved w hw).2.2
      · rcases hcase with hx | hx
        · left; simp only [Bool.false_eq_true, if_false]; exact ⟨hx, hG1 hx⟩
        · right; simp only [Bool.false_eq_true, if_false]; linarith [hc.next]
      · intro hne
        rw [hlo, hup]
        split
        · rfl
        · rename_i h; rw [if_neg h] at hne; exact absurd rfl hne
    · intro w hw
      rw [hl] at hw
      split at hw
      · exact lows_ok (fun v hv => (hbox v hv).2.2) (fun c hc hh => (hK.c.int c hc hh).1) hG1 w hw
      · cases hw
    · intro hf
      refine hcase.resolve_left fun hx => ?_
      have := (hgo hx hex1).2
      rw [hf] at this; cases this
  have hcr : Chosen g x n j d u (record dup cs (t, a1)).1 :=
    ⟨hct.hj, hct.isInt, hct.unfixed, hct.lt, hct.dInt, hct.next, hct.lo, hct.up, hct.dj0, hct.dj1⟩
  have hr : (record dup cs (t, a1)).1.exact = true := second_exact hex
  obtain ⟨k1, k2, k3, k4⟩ := key hr
  exact ⟨(second_inv he hn hcr k1.l0 k1.val k1.acc k3 k4 hex).1, hmono k2⟩

theorem markFixed_vals (j : Nat) (s : St) : (markFixed j s).lo = s.lo ∧ (markFixed j s).up = s.up ∧
    (markFixed j s).gap = s.gap ∧ (markFixed j s).minR = s.minR ∧ (markFixed j s).maxR = s.maxR ∧
    (markFixed j s).exact = s.exact ∧ (markFixed j s).markR = s.markR := by
  unfold markFixed; split <;> exact ⟨rfl, rfl, rfl, rfl, rfl, rfl, rfl⟩

theorem markFixed_mark (j : Nat) (s : St) (c : Nat) : (markFixed j s).mark c = s.mark c ∨ (markFixed j s).mark c = Mark.three := by
  unfold markFixed
  split
  · by_cases h : c = j
    · right; subst h; exact Function.update_self _ _ _
    · left; exact Function.update_of_ne h _ _
  · exact Or.inl rfl

theorem markFixed_l0 (hL : L0 g n live s) (j : Nat) : L0 g n live (markFixed j s) := by
  obtain ⟨h1, h2, -, -, -, -, h7⟩ := markFixed_vals j s
  refine ⟨?_, ?_, ?_, ?_, ?_⟩
  · intro c hc
    rcases markFixed_mark j s c with h | h
    · rw [h] at hc ⊢; exact hL.marks c hc
    · rw [h]; rfl
  · rw [h7]; exact hL.markR
  · intro c hc
    rcases markFixed_mark j s c with h | h
    · rw [h] at hc
      have := hL.bits c hc
      unfold Bits at this ⊢
      rw [h, h1, h2]; exact this
    · rw [h] at hc; cases hc
  · rw [h1, h2]; exact hL.int
  · intro c hc hd
    rcases markFixed_mark j s c with h | h
    · rw [h]; exact hL.dead c hc hd
    · rw [h]; rfl

theorem any_false {m : Mark} (h : m.any = false) : m.fixed = false := by
  unfold Mark.any at h; unfold Mark.fixed
  rw [Bool.or_eq_false_iff] at h
  rw [h.1]; rfl

/-- Probing a column keeps everything that was found true at the point. -/
theorem probeCol_inv (he : Env g n x live) (hn : NodupRows g) {dup : List RowCut → RowCut → Bool} {j : Nat} (hj : j < n)
    {r : St × Acc} (h : PInv g n x live r) (hex : (probeCol g dup j r).1.exact = true) :
    PInv g n x live (probeCol g dup j r) := by
  obtain ⟨h1, h2, h3, h4, h5, h6, -⟩ := markFixed_vals j r.1
  have hL := markFixed_l0 h.l0 j
  have hG : G g n x live (markFixed j r.1) := h.val.congr h1 h2 h3 h4 h5
  unfold probeCol at hex ⊢
  dsimp only at hex ⊢
  split
  · exact ⟨hL, hG, h.acc⟩
  · rename_i hc
    rw [if_neg hc] at hex
    simp only [Bool.or_eq_true, not_or, Bool.not_eq_true, Bool.not_eq_false'] at hc
    obtain ⟨hc1, hc2⟩ := hc
    have hf := any_false hc1
    have hlive : live j = true := by
      by_contra hl
      have := hL.dead j hj (by simpa using hl)
      rw [this] at hf; cases hf
    have hgap : 0 ≤ r.1.gap j := by
      by_contra hneg
      push Not at hneg
      unfold markFixed at hc1
      rw [if_pos hneg] at hc1
      simp only [Function.update_self] at hc1
      cases hc1
    have htol : 0 < tol := by unfold tol; norm_num
    have hlt : (markFixed j r.1).lo j < (markFixed j r.1).up j := by
      have := h.val.gap j hj
      rw [h1, h2]; linarith
    obtain ⟨i1, i2⟩ := hL.int j hj hc2
    obtain ⟨c1, c2, c3, c4, c5, c6⟩ := choose_ok (sol := g.sol j) i1 i2 hlt
    obtain ⟨d1, d2⟩ := hG.dj j hj hlive
    exact (first_inv he hn ⟨hj, hc2, hf, hlt, c1, c2, c3, c4, fun hd => c5 (d1 hd), fun hd => c6 (d2 hd)⟩ hL hG h.acc
      hex).1

theorem first_exact {dup : List RowCut → RowCut → Bool} {j : Nat} {d u : ℚ} {a : Acc}
    (h : (first g dup j d u s a).1.exact = true) : s.exact = true := by
  unfold first at h
  dsimp only at h
  have h := second_exact h
  unfold record at h
  simp only [Bool.and_eq_true] at h
  have h := h.1
  rw [undo0_exact] at h
  exact branch_exact h

theorem probeCol_exact {dup : List RowCut → RowCut → Bool} {j : Nat} {r : St × Acc}
    (h : (probeCol g dup j r).1.exact = true) : r.1.exact = true := by
  obtain ⟨-, -, -, -, -, h6, -⟩ := markFixed_vals j r.1
  unfold probeCol at h
  dsimp only at h
  split at h
  · rw [← h6]; exact h
  · rw [← h6]; exact first_exact h

theorem passLoop_exact {dup : List RowCut → RowCut → Bool} : ∀ (js : List Nat) (r : St × Acc),
    (passLoop g dup js r).1.exact = true → r.1.exact = true
  | [], _, h => h
  | j :: js, r, h => by
    unfold passLoop at h
    dsimp only at h
    split at h
    · exact probeCol_exact h
    · exact probeCol_exact (passLoop_exact js _ h)

theorem passLoop_inv (he : Env g n x live) (hn : NodupRows g) {dup : List RowCut → RowCut → Bool} :
    ∀ (js : List Nat) (r : St × Acc), (∀ j ∈ js, j < n) → PInv g n x live r → (passLoop g dup js r).1.exact = true →
      PInv g n x live (passLoop g dup js r)
  | [], _, _, h, _ => h
  | j :: js, r, hjs, h, hex => by
    have h1 := probeCol_inv he hn (dup := dup) (hjs j List.mem_cons_self) h
    unfold passLoop at hex ⊢
    dsimp only at hex ⊢
    split
    · rename_i hs; rw [if_pos hs] at hex; exact h1 hex
    · rename_i hs
      rw [if_neg hs] at hex
      exact passLoop_inv he hn js _ (fun k hk => hjs k (List.mem_cons_of_mem _ hk)) (h1 (passLoop_exact js _ hex)) hex

theorem passes_exact {dup : List RowCut → RowCut → Bool} {look : Nat → List Nat} : ∀ (m p : Nat) (r : St × Acc),
    (passes g dup look m p r).1.exact = true → r.1.exact = true
  | 0, _, _, h => h
  | m + 1, p, r, h => by
    unfold passes at h
    dsimp only at h
    split at h
    · have := passLoop_exact _ _ h; exact this
    · have := passLoop_exact _ _ (passes_exact m (p + 1) _ h); exact this

/-- All passes keep everything that was found true at the point. -/
theorem passes_inv (he : Env g n x live) (hn : NodupRows g) {dup : List RowCut → RowCut → Bool} {look : Nat → List Nat}
    (hlook : ∀ p, ∀ j ∈ look p, j < n) : ∀ (m p : Nat) (r : St × Acc), PInv g n x live r →
      (passes g dup look m p r).1.exact = true → PInv g n x live (passes g dup look m p r)
  | 0, _, _, h, _ => h
  | m + 1, p, r, h, hex => by
    have h0 : PInv g n x live (r.1, { r.2 with nfixed := 0 }) :=
      ⟨h.l0, h.val, ⟨h.acc.cols, h.acc.cand, h.acc.fixes, h.acc.infeas, h.acc.stop⟩⟩
    have h1 := passLoop_inv he hn (dup := dup) (look p) _ (hlook p) h0
    unfold passes at hex ⊢
    dsimp only at hex ⊢
    split
    · rename_i hs; rw [if_pos hs] at hex; exact h1 hex
    · rename_i hs
      rw [if_neg hs] at hex
      exact passes_inv he hn hlook m (p + 1) _ (h1 (passes_exact m (p + 1) _ hex)) hex

end Cgl.Probing
