import Verif.DupRow.Props

/-!
# Calls of `CglDuplicateRow` come back
-/

namespace Cgl.DupRow

open TreeInfo

/-! ### Mode 8 -/

theorem skip8_returns {flat A : List Nat} {off kCol : Nat} (hA : ∀ (q : Nat), q < A.length → flat[off + q]? = A[q]?) (f : Nat) {p : Nat}
    (hp : p < A.length) (hf : A.length < f + p) : skip8 flat (off + A.length) kCol f (off + p) ≠ none := by
  induction f generalizing p with
  | zero => omega
  | succ f ih =>
    unfold skip8
    have hget : flat[off + p]? = some A[p] := by rw [hA p hp, List.getElem?_eq_getElem hp]
    rw [hget]
    dsimp only
    split
    · split
      · intro h
        exact ih (p := p + 1) (by omega) (by omega) (by rw [← Nat.add_assoc]; simpa using h)
      · simp
    · simp

theorem subset8_returns {flat A K : List Nat} {off : Nat} (hA : ∀ (q : Nat), q < A.length → flat[off + q]? = A[q]?)
    (hfl : A.length ≤ flat.length)
    (hsA : A.Pairwise (· < ·)) (hlen : K.length < A.length) (hno : ¬ SticksOut K A) (ks : List Nat) {pre : List Nat}
    (hK : K = pre ++ ks) (hsK : K.Pairwise (· < ·)) (hpre : ∀ c ∈ pre, c ∈ A) {p : Nat} (hp : p < A.length ∨ ks = []) :
    subset8 flat (off + A.length) ks (off + p) ≠ none := by
  induction ks generalizing pre p with
  | nil => unfold subset8; simp
  | cons kCol ks ih =>
    have hp : p < A.length := by
      rcases hp with h | h
      · exact h
      · cases h
    have hsk : (kCol :: ks).Pairwise (· < ·) := by rw [hK] at hsK; exact (List.pairwise_append.mp hsK).2.1
    have hgt := (List.pairwise_cons.mp hsk).1
    unfold subset8
    rcases hs : skip8 flat (off + A.length) kCol (flat.length + 1) (off + p) with _ | ⟨o, l⟩
    · exact absurd hs (skip8_returns hA _ hp (by omega))
    · rcases o with _ | idx
      · simp
      · dsimp only
        obtain ⟨p', rfl, h2, h3, h4⟩ := skip8_spec hA _ hp hs
        have hget : flat[off + p']? = some A[p'] := by rw [hA p' h3, List.getElem?_eq_getElem h3]
        split
        · rename_i heq
          rw [hget] at heq
          have heq : A[p'] = kCol := Option.some.inj heq
          have hkA : kCol ∈ A := by rw [← heq]; exact List.getElem_mem h3
          have hpre' : ∀ c ∈ pre ++ [kCol], c ∈ A := by
            intro c hc
            rcases List.mem_append.mp hc with hc | hc
            · exact hpre c hc
            · rw [List.mem_singleton] at hc; rw [hc]; exact hkA
          have hnext : p' + 1 < A.length ∨ ks = [] := by
            by_contra hcon
            push Not at hcon
            obtain ⟨hge, hne⟩ := hcon
            have hlast : p' + 1 = A.length := by omega
            apply hno
            refine ⟨hlen, kCol, by rw [hK]; simp, hkA, ?_, ?_, ?_⟩
            · intro c hc
              obtain ⟨q, hq, rfl⟩ := List.getElem_of_mem hc
              rw [← heq]
              rcases Nat.lt_or_ge q p' with hqp | hqp
              · exact (List.pairwise_iff_getElem.mp hsA q p' hq h3 hqp).le
              · have : q = p' := by omega
                subst this; exact le_refl _
            · intro c hc hle
              rw [hK] at hc
              rcases List.mem_append.mp hc with hc | hc
              · exact hpre c hc
              · rcases List.mem_cons.mp hc with rfl | hc
                · exact hkA
                · exact absurd (hgt c hc) (by omega)
            · obtain ⟨c, hc⟩ := List.exists_mem_of_ne_nil _ hne
              exact ⟨c, by rw [hK]; simp [hc], hgt c hc⟩
          intro h
          refine ih (pre := pre ++ [kCol]) (p := p' + 1) (by rw [hK]; simp) hpre' hnext ?_
          rw [← Nat.add_assoc]
          simpa using h
        · simp

theorem flat_length (cs : List (List Nat)) (i : Nat) : (clAt cs i).length ≤ cs.flatten.length := by
  by_cases h : (clAt cs i).length = 0
  · omega
  · have := flat_get cs i ((clAt cs i).length - 1) (by omega)
    rw [List.getElem?_eq_getElem (by omega : (clAt cs i).length - 1 < _)] at this
    have := (List.getElem?_eq_some_iff.mp this).1
    omega

theorem subInner8_returns {N : Nat} {cs : List (List Nat)} (hcs : CliquesOK cs) {eq : Nat → Bool} {k : Nat} {kVal : ℤ}
    (l : List (Nat × Nat)) (hl : ∀ p ∈ l, clAt cs p.2 ≠ []) (s : Sub8) :
    subInner8 N (clAt cs) eq cs.flatten (startAt cs) k kVal l s ≠ none := by
  induction l generalizing s with
  | nil => unfold subInner8; simp
  | cons p l ih =>
    obtain ⟨ii, i⟩ := p
    have ih := ih fun p hp => hl p (List.mem_cons_of_mem _ hp)
    have hne := hl _ List.mem_cons_self
    unfold subInner8
    split
    · exact ih _
    · split
      · rename_i hlast
        exact absurd (List.getLast?_eq_none_iff.mp hlast) hne
      · split
        · exact ih _
        · dsimp only
          split
          · exact ih _
          · split
            · rename_i hlen
              split
              · rename_i hsub
                rw [startAt_succ] at hsub
                refine absurd hsub (subset8_returns (p := 0) (pre := []) (fun q hq => flat_get cs i q hq) (flat_length cs i)
                  (clAt_sorted hcs i) (by omega) (clAt_apart hcs k i) (clAt cs k) rfl (clAt_sorted hcs k)
                  (fun c hc => absurd hc List.not_mem_nil) (Or.inl (by omega)))
              · split
                · simp
                · exact ih _
            · exact ih _

theorem subOuter8_returns {N : Nat} {cs : List (List Nat)} (hcs : CliquesOK cs) {eq : Nat → Bool}
    (l before : List (Nat × Nat)) (hl : ∀ p ∈ before ++ l, clAt cs p.2 ≠ []) (s : Sub8) :
    subOuter8 N (clAt cs) eq cs.flatten (startAt cs) before l s ≠ none := by
  induction l generalizing before s with
  | nil => unfold subOuter8; simp
  | cons p l ih =>
    obtain ⟨jj, k⟩ := p
    have ih := ih (before ++ [(jj, k)]) (by simpa using hl)
    unfold subOuter8
    split
    · exact ih _
    · split
      · rename_i hn
        refine absurd hn (subInner8_returns hcs _ (fun p hp => hl p ?_) _)
        exact List.mem_append_left _ (List.mem_of_mem_drop hp)
      · exact ih _

theorem outDups8_returns {N : Nat} {cs : List (List Nat)} (hcs : CliquesOK cs) (hN : ∀ c ∈ cs, ∀ j ∈ c, j < N)
    (hne : ∀ c ∈ cs, c ≠ []) (eq : Nat → Bool) : outDups8 N cs eq ≠ none := by
  have hcl : ∀ k, ∀ c ∈ clAt cs k, c < N := by
    intro k c hc
    have : clAt cs k ≠ [] := by intro he; rw [he] at hc; cases hc
    exact hN _ (clAt_mem this) c hc
  suffices hrun : run8 N cs eq ≠ none by
    unfold outDups8
    split
    · contradiction
    · simp
  unfold run8
  dsimp only
  have hw : ((List.range cs.length).insertionSort fun a b => colAt N (clAt cs a) 0 ≤ colAt N (clAt cs b) 0).Perm
      (List.range cs.length) := List.perm_insertionSort _ _
  generalize hwd : ((List.range cs.length).insertionSort fun a b => colAt N (clAt cs a) 0 ≤ colAt N (clAt cs b) 0) = w0 at hw
  have hinit : DupInv N cs.length (pickE cs.length eq) (clAt cs) [] w0 ⟨fun _ => 0, fun k => colAt N (clAt cs k) 0⟩ := by
    refine ⟨by simpa using hw, fun k _ => Nat.zero_le _, fun k _ => rfl, ?_, fun k hk => by cases hk⟩
    rw [← hwd]
    have : IsTrans Nat (fun a b => colAt N (clAt cs a) 0 ≤ colAt N (clAt cs b) 0) := ⟨fun a b c h1 h2 => le_trans h1 h2⟩
    have : Std.Total (fun a b : Nat => colAt N (clAt cs a) 0 ≤ colAt N (clAt cs b) 0) := ⟨fun a b => le_total _ _⟩
    exact (List.pairwise_insertionSort (fun a b : Nat => colAt N (clAt cs a) 0 ≤ colAt N (clAt cs b) 0) _).imp
      fun h => Or.inr ⟨rfl, rfl, h⟩
  have hfuel : left (clAt cs) ⟨fun _ => 0, fun k => colAt N (clAt cs k) 0⟩ w0 ≤ cs.length + startAt cs cs.length + 1 := by
    rw [left_perm hw]
    have : ∀ n, n ≤ cs.length → left (clAt cs) ⟨fun _ => 0, fun k => colAt N (clAt cs k) 0⟩ (List.range n) = n + startAt cs n := by
      intro n
      induction n with
      | zero => intro _; rfl
      | succ n ih =>
        intro hn
        rw [List.range_succ, left_append, ih (by omega), startAt_succ]
        simp only [left, List.map_cons, List.map_nil, List.sum_cons, List.sum_nil, Nat.sub_zero]
        omega
    rw [this _ (le_refl _)]
    omega
  obtain ⟨w, d, h1, h2⟩ := dupLoop_spec (pickE_picks cs.length eq) hcl _ hinit hfuel
  rw [h1]
  dsimp only
  have hperm : w.Perm (List.range cs.length) := by simpa using h2.perm
  refine subOuter8_returns hcs _ [] (fun p hp => ?_) _
  have hp : p ∈ (List.range cs.length).zip w := hp
  have : p.2 < cs.length := List.mem_range.mp (hperm.mem_iff.mp (List.of_mem_zip hp).2)
  unfold clAt
  rw [List.getElem?_eq_getElem this]
  exact hne _ (List.getElem_mem this)

/-- What fixed columns can change in the bounds of a row. -/
def absFix (P : Prob) (v : SVec) : ℚ := ((v.filter fun p => isFix P p.1).map fun p => |p.2 * P.colLower p.1|).sum

/-- The bounds of the rows can be converted to `int`, with or without fixed columns: upper bounds are not below the smallest
`int`, lower bounds not above the largest. -/
def SmallBounds (P : Prob) : Prop :=
  ∀ r ∈ P.rows, (intMin : ℚ) ≤ r.ub - absFix P r.coefs ∧ r.lb + absFix P r.coefs ≤ (intMax : ℚ)

instance (P : Prob) : Decidable (SmallBounds P) := by unfold SmallBounds; infer_instance

theorem absFix_nonneg (P : Prob) (v : SVec) : 0 ≤ absFix P v := by
  refine List.sum_nonneg fun q hq => ?_
  obtain ⟨p, -, rfl⟩ := List.mem_map.mp hq
  exact abs_nonneg _

theorem read8_near {P : Prob} (v : SVec) (good : Bool) (lo up : ℚ) (acc : List Nat) :
    (read8 P v good lo up acc).2.1 ≤ lo + absFix P v ∧ up - absFix P v ≤ (read8 P v good lo up acc).2.2.1 := by
  induction v generalizing good lo up acc with
  | nil => simp [read8, absFix]
  | cons p v ih =>
    obtain ⟨j, a⟩ := p
    have hn := absFix_nonneg P v
    have e : absFix P ((j, a) :: v) = (if isFix P j then |a * P.colLower j| else 0) + absFix P v := by
      unfold absFix
      rw [List.filter_cons]
      dsimp only
      split <;> simp
    have hge : absFix P v ≤ absFix P ((j, a) :: v) := by
      rw [e]; split
      · linarith [abs_nonneg (a * P.colLower j)]
      · linarith
    unfold read8
    split
    · rename_i hf
      have hfix : isFix P j = true := decide_eq_true hf
      rw [e, hfix, if_pos rfl]
      have h1 := (ih good (lo - P.colLower j * a) (up - P.colLower j * a) acc)
      have h2 := neg_abs_le (a * P.colLower j)
      have h3 := le_abs_self (a * P.colLower j)
      constructor
      · linarith [h1.1]
      · linarith [h1.2]
    · split
      · dsimp only
        constructor <;> linarith
      · split
        · have h1 := ih false lo up acc
          constructor
          · linarith [h1.1]
          · linarith [h1.2]
        · have h1 := ih good lo up (acc ++ [j])
          constructor
          · linarith [h1.1]
          · linarith [h1.2]

theorem castInt_int {z : ℤ} (h1 : intMin ≤ z) (h2 : z ≤ intMax) : castInt (z : ℚ) = some z := by
  unfold castInt
  rw [truncQ_int, if_pos ⟨h1, h2⟩]

theorem iUpper_returns {q : ℚ} (h : (intMin : ℚ) ≤ q) : iUpper q ≠ none := by
  unfold iUpper
  split
  · simp
  · rename_i hle
    push Not at hle
    rw [castInt_int]
    · simp
    · refine Int.le_floor.mpr ?_
      have : (0 : ℚ) ≤ 1 / 10 ^ 5 := by norm_num
      linarith
    · refine Int.lt_add_one_iff.mp (Int.floor_lt.mpr ?_)
      have : (1 / 10 ^ 5 : ℚ) < 1 := by norm_num
      push_cast
      linarith

theorem iLower_returns {q : ℚ} (h : q ≤ (intMax : ℚ)) : iLower q ≠ none := by
  unfold iLower
  split
  · simp
  · rename_i hle
    push Not at hle
    rw [castInt_int]
    · simp
    · refine Int.le_of_sub_one_lt (Int.lt_ceil.mpr ?_)
      have : (1 / 10 ^ 5 : ℚ) < 1 := by norm_num
      push_cast
      linarith
    · refine Int.ceil_le.mpr ?_
      have : (0 : ℚ) ≤ 1 / 10 ^ 5 := by norm_num
      linarith

theorem SmallBounds.reads {P : Prob} (h : SmallBounds P) : ∀ r ∈ P.rows, iUpper (read8 P r.coefs true r.lb r.ub []).2.2.1 ≠ none ∧
    iLower (read8 P r.coefs true r.lb r.ub []).2.1 ≠ none := by
  intro r hr
  obtain ⟨h1, h2⟩ := h r hr
  obtain ⟨h3, h4⟩ := read8_near (P := P) r.coefs true r.lb r.ub []
  exact ⟨iUpper_returns (by linarith), iLower_returns (by linarith)⟩

theorem rows8_returns {P : Prob} (rs : List Row) (i : Nat) (h : ∀ r ∈ rs, iUpper (read8 P r.coefs true r.lb r.ub []).2.2.1 ≠ none ∧
    iLower (read8 P r.coefs true r.lb r.ub []).2.1 ≠ none) : ∃ l, rows8 P i rs = .ok l := by
  have hr : ∀ r ∈ rs, ∃ k, row8 P r = .ok k := by
    intro r hr
    obtain ⟨h1, h2⟩ := h r hr
    obtain ⟨u, hu⟩ := Option.ne_none_iff_exists'.mp h1
    obtain ⟨l, hl⟩ := Option.ne_none_iff_exists'.mp h2
    unfold row8
    dsimp only
    rw [hu, hl]
    exact ⟨_, rfl⟩
  clear h
  induction rs generalizing i with
  | nil => exact ⟨_, rfl⟩
  | cons r rs ih =>
    obtain ⟨k, hk⟩ := hr r List.mem_cons_self
    obtain ⟨l, hl⟩ := ih (i + 1) fun r' h => hr r' (List.mem_cons_of_mem _ h)
    unfold rows8
    rw [hk]
    rcases k with _ | _ | _
    · exact ⟨l, hl⟩
    · exact ⟨_, rfl⟩
    · dsimp only
      rw [hl]
      exact ⟨_, rfl⟩

/-- Mode 8 comes back.  Partial: `Tame8` problems (otherwise it can read past its array), whose bounds fit into `int`. -/
theorem cuts8_returns {o : Obj} {P : Prob} (hwf : P.WF) (ht : Tame8 P) (hne : P.rows ≠ []) (hn : P.nCols ≠ 0)
    (hd : P.rows.length ≤ o.dup.length) (hb : SmallBounds P) : ∃ u, cuts8 o P = .ok u := by
  unfold cuts8
  rw [if_neg (by tauto), if_neg (by omega)]
  obtain ⟨⟨l, feas⟩, hl⟩ := rows8_returns P.rows 0 hb.reads
  rw [hl]
  dsimp only
  obtain ⟨r1, r2, -⟩ := rows8_spec P.rows hl
  have hcl : Cliques P l := by
    refine ⟨?_, r2⟩
    intro c hc
    obtain ⟨m, r, h1, h2, h3⟩ := r1 c hc
    obtain ⟨h4, -⟩ := row8_spec ht (List.mem_of_getElem? h1) h3
    obtain ⟨a, b, d⟩ := h4 _ _ rfl
    exact ⟨m, r, h1, by omega, a, b, d⟩
  obtain ⟨k1, k2, -⟩ := cliques_ok hwf ht hcl
  split
  · rename_i hnone
    refine absurd hnone (outDups8_returns k1 k2 ?_ _)
    intro c hc
    obtain ⟨q, hq, rfl⟩ := List.mem_map.mp hc
    obtain ⟨m, r, -, -, h3, h4, -⟩ := hcl.from_ q hq
    have hlen := h3.2.2
    rw [← h4, ← (List.perm_insertionSort (· ≤ ·) q.cols).length_eq] at hlen
    intro he
    rw [he] at hlen
    simp at hlen
  · exact ⟨_, rfl⟩

/-! ### Mode 4 -/

/-- The arrays have the right sizes. -/
def Shape (rows : List SRow) (s : St) : Prop := s.rhs.length = rows.length ∧ rows.length ≤ s.dup.length

theorem Shape.drop {rows : List SRow} {s : St} (h : Shape rows s) (k : Nat) : Shape rows (drop k s) :=
  ⟨h.1, by show _ ≤ (s.dup.set _ _).length; rw [List.length_set]; exact h.2⟩

theorem Shape.shift {rows : List SRow} {s : St} (h : Shape rows s) (c : Nat) (lo w : ℚ) : Shape rows (shift rows c lo w s) :=
  ⟨by show (List.zipWith _ _ _).length = _; rw [List.length_zipWith, h.1, Nat.min_self], h.2⟩

theorem Shape.applyFix {rows : List SRow} (l : List (Nat × Option ℚ)) {s : St} (h : Shape rows s) : Shape rows (applyFix rows l s) := by
  induction l generalizing s with
  | nil => exact h
  | cons p l ih =>
    obtain ⟨c, v⟩ := p
    rcases v with _ | v
    · exact ih h
    · exact ih (h.shift _ _ _)

theorem Shape.act {rows : List SRow} {cols : List Nat} {i k : Nat} {v : Verdict} {s s' : St} (h : Shape rows s)
    (ha : act rows cols i k v s = some s') : Shape rows s' := by
  unfold DupRow.act at ha
  split at ha
  · obtain rfl := Option.some.inj ha; exact h
  · split at ha
    · obtain rfl := Option.some.inj ha; exact h.applyFix _
    · split at ha
      · obtain rfl := Option.some.inj ha
        split <;> exact h.drop _
      · split at ha
        · obtain rfl := Option.some.inj ha; exact (h.drop _).drop _
        · cases ha

theorem Shape.pure {rows : List SRow} {r0 r1 : SRow} {i k : Nat} {b : Bool} {q0 q1 : ℚ} {s : St} (h : Shape rows s) :
    Shape rows (purePair rows r0 i k b r1 q0 q1 s) := by
  unfold purePair
  dsimp only
  split
  · rename_i s' hs; exact h.act hs
  · split
    · exact h.drop _
    · exact h

theorem Shape.tighten {rows : List SRow} {c : Nat} {b l u : ℚ} {s : St} (h : Shape rows s) : Shape rows (tighten rows c b l u s) := by
  unfold DupRow.tighten
  split
  · exact h.shift _ _ _
  · exact h

theorem dropBy_returns {rows : List SRow} {w : ℤ} {i k : Nat} {s : St} (h : Shape rows s) (hi : i < rows.length) :
    ∃ s', dropBy w i k s = .ok s' ∧ Shape rows s' := by
  unfold dropBy
  split
  · exact ⟨_, rfl, h.drop _⟩
  · split
    · rw [if_pos (by have := h.2; omega)]
      exact ⟨_, rfl, h.drop _⟩
    · exact ⟨_, rfl, h⟩

theorem sameRows_returns {P : Prob} {rows : List SRow} (hok : RowsOK P rows) {s : St} (h : Shape rows s)
    {i k : Nat} {r0 r1 : SRow} (hik : i < k) (hi : rows[i]? = some r0) (hk : rows[k]? = some r1)
    (hsame : sameCols r0 r1 = true) (hm : ¬ (r0.els.all fun p => isBin P p.1) = true) :
    ∃ s', sameRows P r0 r1 i k r0.eqn s = .ok (i, s') ∧ Shape rows s' := by
  have s0 := hok.small _ (List.mem_of_getElem? hi)
  have s1 := hok.small _ (List.mem_of_getElem? hk)
  have hcols := sameCols_eq s0 s1 hsame
  unfold sameRows
  dsimp only
  split
  · exact ⟨_, rfl, h.drop _⟩
  · split
    · exact ⟨_, rfl, h⟩
    · rename_i hne
      rw [Bool.or_eq_true, not_or, Bool.not_eq_true, Bool.not_eq_true] at hne
      split
      · rename_i hlen
        obtain ⟨p0, p1⟩ := hok.noSlip i k r0 r1 hik hi hk hsame hne.1 hne.2 hlen hm
        have hm1 : ¬ (r1.els.all fun p => isBin P p.1) = true := by
          have : ∀ r : SRow, (r.els.all fun p => isBin P p.1) = (r.els.map Prod.fst).all (isBin P) := fun r => by
            rw [List.all_map]; rfl
          rw [this, hcols, ← this]; exact hm
        have hlen1 : (binEls P r1.els).length = 1 := by
          have : ∀ r : SRow, (binEls P r.els).length = ((r.els.map Prod.fst).filter (isBin P)).length := fun r => by
            rw [List.filter_map, List.length_map]
            unfold binEls
            rw [List.length_map]; rfl
          rw [this, hcols, ← this]; exact hlen
        have hpos : ∀ (r : SRow), (∀ p ∈ r.els, 0 < p.2) → ∀ a ∈ binEls P r.els, 0 < a := by
          intro r hp a ha
          obtain ⟨p, hp', rfl⟩ := List.mem_map.mp ha
          exact hp p (List.mem_filter.mp hp').1
        rw [if_pos ⟨p0 _ (mixed_split s0 hm).2.1, p1 _ (mixed_split s1 hm1).2.1, headD_pos hlen (hpos r0 p0),
          headD_pos hlen1 (hpos r1 p1)⟩]
        refine ⟨_, rfl, ?_⟩
        split <;> exact h.drop _
      · obtain ⟨s', h1, h2⟩ := dropBy_returns (w := sample2 (s.rhs[i]?.getD 0) (s.rhs[k]?.getD 0) (binEls P r0.els)
          (binEls P r1.els) (otherEl P r0.els).2 (otherEl P r1.els).2 grid 0) (k := k) h (List.getElem?_eq_some_iff.mp hi).1
        rw [h1]
        exact ⟨s', rfl, h2⟩

/-- Two rows with one column each have different columns. -/
def SinglesApart (rows : List SRow) : Prop :=
  ∀ (i k : Nat) (r0 r1 : SRow), i < k → rows[i]? = some r0 → rows[k]? = some r1 → sameCols r0 r1 = true → 2 ≤ r0.els.length

theorem pair_returns {P : Prob} {rows : List SRow} (hok : RowsOK P rows) (hsing : SinglesApart rows) {s : St} (h : Shape rows s)
    {i k : Nat} {r0 : SRow} (hik : i < k) (hi : rows[i]? = some r0) (h3 : r0.els.length ≤ 3) (hk : k < rows.length) :
    ∃ s', pair P rows r0 i k s = .ok (i, s') ∧ Shape rows s' := by
  have hil := (List.getElem?_eq_some_iff.mp hi).1
  unfold pair
  rw [hi, List.getElem?_eq_getElem hk, List.getElem?_eq_getElem (l := s.rhs) (by rw [h.1]; exact hil),
    List.getElem?_eq_getElem (l := s.rhs) (by rw [h.1]; exact hk)]
  dsimp only
  split
  · rename_i hsame
    have h2 := hsing i k r0 _ hik hi (List.getElem?_eq_getElem hk) hsame
    split
    · rw [if_pos (by omega)]
      exact ⟨_, rfl, h.pure⟩
    · rename_i hm
      unfold mixedPair
      dsimp only
      generalize (fun a => cell (min (s.nb (otherEl P r0.els).1) (10 ^ 30)) (otherEl P r0.els).2 _ r0.eqn (lin (binEls P r0.els) a)) = c0
      generalize (fun a => cell (min (s.nb (otherEl P r0.els).1) (10 ^ 30)) _ _ _ (lin (binEls P rows[k].els) a)) = c1
      unfold mixedCore
      dsimp only
      split
      · rename_i s2 hs2
        exact ⟨s2, rfl, h.tighten.act hs2⟩
      · split
        · exact sameRows_returns hok h.tighten hik hi (List.getElem?_eq_getElem hk) hsame (by simpa using hm)
        · exact ⟨_, rfl, h.tighten⟩
  · exact ⟨s, rfl, h⟩

theorem inner_returns {P : Prob} {rows : List SRow} (hok : RowsOK P rows) (hsing : SinglesApart rows) {i : Nat} {r0 : SRow}
    (hi : rows[i]? = some r0) (h3 : r0.els.length ≤ 3) (ks : List Nat) (hks : ∀ k ∈ ks, i < k ∧ k < rows.length) {s : St} (h : Shape rows s) :
    ∃ s', inner P rows r0 ks i s = .ok (i, s') ∧ Shape rows s' := by
  have hil := (List.getElem?_eq_some_iff.mp hi).1
  induction ks generalizing s with
  | nil => exact ⟨s, rfl, h⟩
  | cons k ks ih =>
    have ih := fun {s} => ih (fun k hk => hks k (List.mem_cons_of_mem _ hk)) (s := s)
    obtain ⟨h1, h2⟩ := hks k List.mem_cons_self
    have hd := h.2
    unfold inner
    rw [List.getElem?_eq_getElem (l := s.dup) (by omega : k < _), List.getElem?_eq_getElem (l := s.dup) (by omega : i < _)]
    dsimp only
    split
    · exact ih h
    · split
      · exact ⟨s, rfl, h⟩
      · obtain ⟨s', g1, g2⟩ := pair_returns hok hsing h h1 hi h3 h2
        rw [g1]
        exact ih g2

theorem outer_returns {P : Prob} {rows : List SRow} (hok : RowsOK P rows) (hsing : SinglesApart rows) {n : Nat}
    (hn : n ≤ rows.length) (h3 : ∀ (i : Nat) (r : SRow), i < n → rows[i]? = some r → r.els.length ≤ 3) (f i : Nat) {s : St} (h : Shape rows s) :
    ∃ s', outer P rows n f i s = .ok s' := by
  induction f generalizing i s with
  | zero => exact ⟨s, rfl⟩
  | succ f ih =>
    unfold outer
    split
    · rename_i hi
      have hi' : i < rows.length := by omega
      rw [List.getElem?_eq_getElem hi']
      dsimp only
      obtain ⟨s', g1, g2⟩ := inner_returns hok hsing (List.getElem?_eq_getElem hi') (h3 i _ hi (List.getElem?_eq_getElem hi'))
        (List.range' (i + 1) (n - (i + 1))) (by
          intro k hk
          rw [List.mem_range'_1] at hk
          omega) h
      rw [g1]
      exact ih _ g2
    · exact ⟨s, rfl⟩

/-- Two different rows do not both have a single open column, and the same one. -/
def NoTwins (P : Prob) : Prop :=
  ∀ i < P.rows.length, ∀ k < P.rows.length, i ≠ k →
    match P.rows[i]?, P.rows[k]? with
    | some r, some r' => (openEls P r.coefs).length = 1 →
        ¬ ((openEls P r.coefs).map Prod.fst).Perm ((openEls P r'.coefs).map Prod.fst)
    | _, _ => True

instance (P : Prob) : Decidable (NoTwins P) := by
  unfold NoTwins
  refine @Nat.decidableBallLT _ _ fun i _ => @Nat.decidableBallLT _ _ fun k _ => ?_
  have : Decidable (match P.rows[i]?, P.rows[k]? with
    | some r, some r' => (openEls P r.coefs).length = 1 →
        ¬ ((openEls P r.coefs).map Prod.fst).Perm ((openEls P r'.coefs).map Prod.fst)
    | _, _ => True) := by split <;> infer_instance
  infer_instance

theorem theRows_singles {P : Prob} (hwf : P.WF) (ht : NoTwins P) : SinglesApart ((theRows P).map Prod.fst) := by
  intro i k r0 r1 hik hi hk hsame
  obtain ⟨q0, g0⟩ := rows_get hi
  obtain ⟨q1, g1⟩ := rows_get hk
  obtain ⟨a, w, a1, a2, a3⟩ := theRows_mem (List.mem_of_getElem? g0)
  obtain ⟨b, w', b1, b2, b3⟩ := theRows_mem (List.mem_of_getElem? g1)
  have e0 : r0 = (smallRow P a w.coefs w.lb w.ub).1 := by rw [← a3]
  have e1 : r1 = (smallRow P b w'.coefs w'.lb w'.ub).1 := by rw [← b3]
  have hab : a ≠ b := by
    intro hab
    have hnd := theRows_orig_nodup P
    rw [List.nodup_iff_injective_getElem] at hnd
    obtain ⟨l0, v0⟩ := List.getElem?_eq_some_iff.mp g0
    obtain ⟨l1, v1⟩ := List.getElem?_eq_some_iff.mp g1
    have : (⟨i, by simpa using l0⟩ : Fin ((theRows P).map fun p => p.1.orig).length) = ⟨k, by simpa using l1⟩ := by
      apply hnd
      simp only [List.getElem_map, v0, v1]
      rw [e0, e1, smallRow_orig, smallRow_orig, hab]
    have := congrArg Fin.val this
    simp at this
    omega
  have s0 := smallRow_ok hwf (n := a) a1 a2
  have s1 := smallRow_ok hwf (n := b) b1 b2
  rw [← e0] at s0
  rw [← e1] at s1
  have hcols := sameCols_eq s0 s1 hsame
  have htw := ht a (List.getElem?_eq_some_iff.mp a1).1 b (List.getElem?_eq_some_iff.mp b1).1 hab
  rw [a1, b1] at htw
  have hcolP : ∀ (n : Nat) (w : Row), ((smallRow P n w.coefs w.lb w.ub).1.els.map Prod.fst).Perm
      ((openEls P w.coefs).map Prod.fst) := by
    intro n w
    rw [smallRow_cols]
    exact (sortedEls_perm P w.coefs).map _
  have hperm : ((openEls P w.coefs).map Prod.fst).Perm ((openEls P w'.coefs).map Prod.fst) := by
    refine (hcolP a w).symm.trans ?_
    rw [← e0, ← hcols, e1]
    exact hcolP b w'
  have hlen : r0.els.length = (openEls P w.coefs).length := by
    have h1 := (hcolP a w).length_eq
    rw [List.length_map, List.length_map, ← e0] at h1
    exact h1
  have hne1 : (openEls P w.coefs).length ≠ 1 := fun h => htw h hperm
  have hne0 : (openEls P w.coefs).length ≠ 0 := by
    intro h
    have := (usable_iff.mp a2).2.2.1
    rw [List.length_eq_zero_iff.mp h] at this
    exact this rfl
  omega

theorem nLook_spec (rows : List SRow) : nLook rows ≤ rows.length ∧
    ∀ (i : Nat) (r : SRow), i < nLook rows → rows[i]? = some r → r.els.length ≤ 3 := by
  have hp := List.takeWhile_prefix (fun r : SRow => decide (r.els.length ≤ 3)) (l := rows)
  refine ⟨hp.length_le, ?_⟩
  intro i r hi hr
  obtain ⟨t, ht⟩ := hp
  have hi' : i < (rows.takeWhile fun r => decide (r.els.length ≤ 3)).length := hi
  rw [← ht, List.getElem?_append_left hi'] at hr
  have := of_mem_takeWhile (List.mem_of_getElem? hr)
  exact of_decide_eq_true this

/-- Mode 4 comes back. -/
theorem cuts4_returns {o : Obj} {P : Prob} (hl : Loaded o P) (hwf : P.WF) (ht : Tame4 P) (htw : NoTwins P)
    (hlow : ∀ j < P.nCols, ¬ (P.colLower j < -10 ^ 20 ∧ P.colUpper j ≤ -10 ^ 20)) (hd : P.rows.length ≤ o.dup.length) :
    ∃ u, cuts4 o P = .ok u := by
  have hml : o.mat.length = P.rows.length := by rw [hl.mat, List.length_map]
  have ha : NoAbort P := by
    intro j hj
    unfold aborts
    rw [decide_eq_false_iff_not, not_lt]
    exact hlow j hj
  unfold cuts4
  rw [if_neg (by rw [hl.cols, hml]; omega), if_neg (by
    rw [Bool.not_eq_true, List.any_eq_false]
    intro j hj
    rw [hl.cols] at hj
    rw [ha j (List.mem_range.mp hj)]; simp), hl.mat]
  dsimp only
  obtain ⟨n1, n2⟩ := nLook_spec ((theRows P).map Prod.fst)
  have hlen : ((theRows P).map Prod.fst).length ≤ o.dup.length := by
    rw [List.length_map]
    refine le_trans ?_ hd
    have hsub : ∀ p ∈ (theRows P).map (fun p => p.1.orig), p ∈ List.range P.rows.length := by
      intro m hm
      obtain ⟨p, hp, rfl⟩ := List.mem_map.mp hm
      obtain ⟨a, w, a1, a2, a3⟩ := theRows_mem hp
      rw [a3, smallRow_orig]
      exact List.mem_range.mpr (List.getElem?_eq_some_iff.mp a1).1
    have := ((theRows_orig_nodup P).subperm hsub).length_le
    simpa using this
  obtain ⟨s', hs⟩ := outer_returns (rowsOK hwf ht ha) (theRows_singles hwf htw) n1 n2 (nLook ((theRows P).map Prod.fst))
    (nStart ((theRows P).map Prod.fst)) (s := start P ((theRows P).map Prod.snd) o.dup) ⟨by simp [start], hlen⟩
  have hs : outer P ((sortedRows (smallRows P 0 (P.rows.map Row.coefs) P.rows)).map Prod.fst) _ _ _ _ = .ok s' := hs
  rw [show theRows P = sortedRows (smallRows P 0 (P.rows.map Row.coefs) P.rows) from rfl] at hs
  rw [hs]
  exact ⟨_, rfl⟩

/-! ### C68 -/

/-- `refreshSolver` comes back if the bounds of the rows fit into `int` where they are converted. -/
theorem refresh_returns_partial (o : Obj) (P : Prob) (h : ∀ r ∈ P.rows, (intMin : ℚ) ≤ r.ub ∧ r.lb ≤ (intMax : ℚ)) :
    ∃ o', o.refresh P = .ok o' := by
  unfold Obj.refresh
  rw [if_pos]
  · exact ⟨_, rfl⟩
  · rw [List.all_eq_true]
    intro r hr
    obtain ⟨h1, h2⟩ := h r hr
    unfold refreshCasts
    split
    · rw [if_pos (Int.le_floor.mpr h1)]
      split
      · exact decide_eq_true (Int.ceil_le.mpr h2)
      · rfl
    · rfl

/-- `generateCuts` and `outDuplicates` in mode 4 come back.  Partial: `Tame4`, no two rows with the same single column, no
column with both bounds below `-1e20`. -/
theorem mode4_returns_partial {o : Obj} {P : Prob} (hl : Loaded o P) (hwf : P.WF) (ht : Tame4 P) (htw : NoTwins P)
    (hlow : ∀ j < P.nCols, ¬ (P.colLower j < -10 ^ 20 ∧ P.colUpper j ≤ -10 ^ 20)) (hd : o.dup.length = P.rows.length)
    (hm : o.mode % 4 = 0) (h4 : o.mode / 4 % 2 = 1) (cs : Cuts) :
    (∃ r, generate o P false cs = .ok r) ∧ ∃ r, outDuplicates o P = .ok r := by
  obtain ⟨u, hu⟩ := cuts4_returns hl hwf ht htw hlow (by omega)
  have hg : ∀ cs, generate o P false cs = .ok ({ o with dup := u.dup }, cs.add u) := by
    intro cs
    unfold generate
    rw [if_neg (by simp), if_neg (by simpa using hm), if_pos h4, hu]
  refine ⟨⟨_, hg cs⟩, ?_⟩
  unfold outDuplicates
  rw [hg]
  dsimp only
  rw [if_neg]
  · exact ⟨_, rfl⟩
  · rw [cuts4_length hu, hl.mat, List.length_map]; omega

/-- The same in mode 8.  Partial: `Tame8`, bounds that fit into `int`, at least one row and one column. -/
theorem mode8_returns_partial {o : Obj} {P : Prob} (hwf : P.WF) (ht : Tame8 P) (hne : P.rows ≠ []) (hn : P.nCols ≠ 0)
    (hb : SmallBounds P) (hd : o.dup.length = P.rows.length) (hm : o.mode % 4 = 0) (h4 : o.mode / 4 % 2 ≠ 1)
    (h8 : o.mode / 8 % 2 = 1) (cs : Cuts) :
    (∃ r, generate o P false cs = .ok r) ∧ ∃ r, outDuplicates o P = .ok r := by
  obtain ⟨u, hu⟩ := cuts8_returns (o := o) hwf ht hne hn (by omega) hb
  have hg : ∀ cs, generate o P false cs = .ok ({ o with dup := u.dup }, cs.add u) := by
    intro cs
    unfold generate
    rw [if_neg (by simp), if_neg (by simpa using hm), if_neg h4, if_pos h8, hu]
  refine ⟨⟨_, hg cs⟩, ?_⟩
  unfold outDuplicates
  rw [hg]
  dsimp only
  rw [if_neg]
  · exact ⟨_, rfl⟩
  · rw [cuts8_length hu]; omega

end Cgl.DupRow
