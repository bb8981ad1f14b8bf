import Verif.DupRow.Spec

/-!
# Mode 4: the new bounds and the infeasible cut hold for all feasible points
-/

namespace Cgl.DupRow

/-! ### The small rows -/

theorem smallRows_mem {P : Prob} {n : Nat} {vs : List SVec} {rs : List Row} {p : SRow × ℚ}
    (h : p ∈ smallRows P n vs rs) : ∃ i v r, vs[i]? = some v ∧ rs[i]? = some r ∧ usable P v r.lb r.ub = true ∧
      p = smallRow P (n + i) v r.lb r.ub := by
  induction vs generalizing n rs with
  | nil => simp [smallRows] at h
  | cons v vs ih =>
    rcases rs with _ | ⟨r, rs⟩
    · simp [smallRows] at h
    · unfold smallRows at h
      have hstep : p ∈ smallRows P (n + 1) vs rs → ∃ i v' r', (v :: vs)[i]? = some v' ∧ (r :: rs)[i]? = some r' ∧
          usable P v' r'.lb r'.ub = true ∧ p = smallRow P (n + i) v' r'.lb r'.ub := by
        intro h
        obtain ⟨i, v', r', h1, h2, h3, h4⟩ := ih h
        exact ⟨i + 1, v', r', by simpa using h1, by simpa using h2, h3, by rw [h4]; congr 1; omega⟩
      split at h
      · rename_i hu
        rcases List.mem_cons.mp h with h | h
        · exact ⟨0, v, r, rfl, rfl, hu, h⟩
        · exact hstep h
      · exact hstep h

theorem smallRow_orig (P : Prob) (i : Nat) (v : SVec) (lb ub : ℚ) : (smallRow P i v lb ub).1.orig = i := by
  unfold smallRow; dsimp only; split <;> rfl

theorem smallRow_eqn (P : Prob) (i : Nat) (v : SVec) (lb ub : ℚ) :
    (smallRow P i v lb ub).1.eqn = decide (lb = ub) := by
  unfold smallRow; dsimp only; split <;> rfl

theorem smallRows_orig_ge {P : Prob} {n : Nat} {vs : List SVec} {rs : List Row} {p : SRow × ℚ}
    (h : p ∈ smallRows P n vs rs) : n ≤ p.1.orig := by
  obtain ⟨i, v, r, -, -, -, rfl⟩ := smallRows_mem h
  rw [smallRow_orig]; omega

theorem smallRows_orig_nodup {P : Prob} (n : Nat) (vs : List SVec) (rs : List Row) :
    ((smallRows P n vs rs).map fun p => p.1.orig).Nodup := by
  induction vs generalizing n rs with
  | nil => simp [smallRows]
  | cons v vs ih =>
    rcases rs with _ | ⟨r, rs⟩
    · simp [smallRows]
    · unfold smallRows
      split
      · rw [List.map_cons, List.nodup_cons]
        refine ⟨?_, ih _ _⟩
        intro hc
        obtain ⟨p, hp, he⟩ := List.mem_map.mp hc
        have := smallRows_orig_ge hp
        rw [smallRow_orig] at he
        omega
      · exact ih _ _

theorem sortedRows_perm (l : List (SRow × ℚ)) : (sortedRows l).Perm l := List.perm_insertionSort _ l

/-- The sorted open entries. -/
def sortedEls (P : Prob) (v : SVec) : SVec := (openEls P v).insertionSort fun a b => a.1 ≤ b.1

theorem sortedEls_perm (P : Prob) (v : SVec) : (sortedEls P v).Perm (openEls P v) := List.perm_insertionSort _ _

theorem smallRow_els (P : Prob) (i : Nat) (v : SVec) (lb ub : ℚ) :
    (smallRow P i v lb ub).1.els = if isGe lb ub then (sortedEls P v).map (fun p => (p.1, -p.2)) else sortedEls P v := by
  unfold smallRow sortedEls; dsimp only; split <;> rfl

theorem smallRow_cols (P : Prob) (i : Nat) (v : SVec) (lb ub : ℚ) :
    (smallRow P i v lb ub).1.els.map Prod.fst = (sortedEls P v).map Prod.fst := by
  rw [smallRow_els]; split
  · rw [List.map_map]; rfl
  · rfl

theorem mem_smallRow_cols {P : Prob} {i : Nat} {v : SVec} {lb ub : ℚ} {j : Nat}
    (h : j ∈ (smallRow P i v lb ub).1.els.map Prod.fst) : ∃ p ∈ v, p.1 = j ∧ unfixed P j = true := by
  rw [smallRow_cols] at h
  obtain ⟨p, hp, rfl⟩ := List.mem_map.mp h
  have := (sortedEls_perm P v).mem_iff.mp hp
  obtain ⟨h1, h2⟩ := List.mem_filter.mp this
  exact ⟨p, h1, rfl, h2⟩

theorem usable_iff {P : Prob} {v : SVec} {lb ub : ℚ} : usable P v lb ub = true ↔
    (∀ p ∈ v, freeBelow P p.1 = false) ∧ ((openEls P v).filter fun p => ! isBin P p.1).length ≤ 1 ∧
    ((openEls P v).filter fun p => isBin P p.1).length ≠ 0 ∧ (lb = ub ∨ ¬ (-10 ^ 20 < lb ∧ ub < 10 ^ 20)) := by
  unfold usable
  simp only [Bool.and_eq_true, Bool.not_eq_true', List.any_eq_false, Bool.not_eq_true, decide_eq_true_eq, Bool.or_eq_true,
    decide_eq_false_iff_not, and_assoc]

theorem filter_len_map (P : Prob) (f : Bool → Bool) {e e' : SVec} (h : e.map Prod.fst = e'.map Prod.fst) :
    (e.filter fun p => f (isBin P p.1)).length = (e'.filter fun p => f (isBin P p.1)).length := by
  have : ∀ u : SVec, (u.filter fun p => f (isBin P p.1)).length = ((u.map Prod.fst).filter fun j => f (isBin P j)).length := by
    intro u; rw [List.filter_map, List.length_map]; rfl
  rw [this, this, h]

theorem smallRow_ok {P : Prob} (hwf : P.WF) {i n : Nat} {r : Row} (hr : P.rows[i]? = some r)
    (hu : usable P r.coefs r.lb r.ub = true) : SmallOK P (smallRow P n r.coefs r.lb r.ub).1 := by
  have hmem := List.mem_of_getElem? hr
  rw [usable_iff] at hu
  have hc : ∀ p ∈ (smallRow P n r.coefs r.lb r.ub).1.els, ∃ q ∈ r.coefs, q.1 = p.1 ∧ unfixed P p.1 = true := fun p hp =>
    mem_smallRow_cols (List.mem_map_of_mem hp)
  refine ⟨?_, ?_, ?_, ?_, ?_⟩
  · intro p hp
    obtain ⟨q, hq, he, -⟩ := hc p hp
    rw [← he]; exact hwf.cols r hmem q hq
  · intro p hp
    obtain ⟨q, hq, he, h⟩ := hc p hp
    exact h
  · intro p hp
    obtain ⟨q, hq, he, -⟩ := hc p hp
    rw [← he]; exact hu.1 q hq
  · rw [smallRow_cols]
    have hnd : ((sortedEls P r.coefs).map Prod.fst).Nodup := by
      refine (((sortedEls_perm P r.coefs).map Prod.fst).nodup_iff).mpr ?_
      exact (hwf.nodup r hmem).sublist ((List.filter_sublist).map _)
    have hle : ((sortedEls P r.coefs).map Prod.fst).Pairwise (· ≤ ·) := by
      rw [List.pairwise_map]
      have : IsTrans (Nat × ℚ) (fun a b => a.1 ≤ b.1) := ⟨fun a b c h1 h2 => le_trans h1 h2⟩
      have : Std.Total (fun a b : Nat × ℚ => a.1 ≤ b.1) := ⟨fun a b => le_total _ _⟩
      exact List.pairwise_insertionSort (fun a b : Nat × ℚ => a.1 ≤ b.1) _
    exact (List.pairwise_and_iff.mpr ⟨hle, hnd⟩).imp fun h => lt_of_le_of_ne h.1 h.2
  · rw [filter_len_map P (fun b => !b) (smallRow_cols P n r.coefs r.lb r.ub)]
    rw [((sortedEls_perm P r.coefs).filter _).length_eq]
    exact hu.2.1

theorem size_perm {P : Prob} {v w : SVec} (h : v.Perm w) : size P v = size P w := by
  unfold size; exact (h.map _).sum_eq

theorem size_neg (P : Prob) (v : SVec) : size P (v.map fun p => (p.1, -p.2)) = size P v := by
  unfold size; rw [List.map_map]; congr 1; apply List.map_congr_left; intro p _; simp

theorem smallRow_size (P : Prob) (n : Nat) (v : SVec) (lb ub : ℚ) :
    size P (smallRow P n v lb ub).1.els = size P (openEls P v) := by
  rw [smallRow_els, ← size_perm (sortedEls_perm P v)]
  split
  · rw [size_neg]
  · rfl

/-- No column leads to `abort()`. -/
def NoAbort (P : Prob) : Prop := ∀ j < P.nCols, aborts P j = false

theorem lower_ge {P : Prob} (ha : NoAbort P) {j : Nat} (hj : j < P.nCols) (hf : freeBelow P j = false) :
    -10 ^ 20 ≤ P.colLower j := by
  have h1 := ha j hj
  unfold aborts at h1
  unfold freeBelow at hf
  rw [decide_eq_false_iff_not] at h1 hf
  by_contra hc
  have hc := not_le.mp hc
  by_cases h : -10 ^ 20 < P.colUpper j
  · exact hf ⟨hc, h⟩
  · exact h1 ⟨hc, h⟩

/-- The small rows of the problem, in the order in which they are compared. -/
def theRows (P : Prob) : List (SRow × ℚ) := sortedRows (smallRows P 0 (P.rows.map Row.coefs) P.rows)

theorem theRows_mem {P : Prob} {p : SRow × ℚ} (h : p ∈ theRows P) : ∃ (i : Nat) (r : Row), P.rows[i]? = some r ∧
    usable P r.coefs r.lb r.ub = true ∧ p = smallRow P i r.coefs r.lb r.ub := by
  obtain ⟨i, v, r, h1, h2, h3, h4⟩ := smallRows_mem ((sortedRows_perm _).mem_iff.mp h)
  rw [List.getElem?_map, h2] at h1
  obtain rfl := Option.some.inj h1
  exact ⟨i, r, h2, h3, by rw [h4, Nat.zero_add]⟩

theorem theRows_orig_nodup (P : Prob) : ((theRows P).map fun p => p.1.orig).Nodup :=
  (((sortedRows_perm _).map _).nodup_iff).mpr (smallRows_orig_nodup _ _ _)

theorem rows_get {P : Prob} {i : Nat} {r : SRow} (h : ((theRows P).map Prod.fst)[i]? = some r) :
    ∃ q, (theRows P)[i]? = some (r, q) := by
  rw [List.getElem?_map] at h
  rcases hp : (theRows P)[i]? with _ | ⟨r', q⟩
  · rw [hp] at h; cases h
  · rw [hp] at h
    obtain rfl := Option.some.inj h
    exact ⟨q, rfl⟩

theorem rowsOK {P : Prob} (hwf : P.WF) (ht : Tame4 P) (ha : NoAbort P) : RowsOK P ((theRows P).map Prod.fst) := by
  have hget : ∀ r ∈ (theRows P).map Prod.fst, ∃ (i : Nat) (w : Row), P.rows[i]? = some w ∧
      usable P w.coefs w.lb w.ub = true ∧ r = (smallRow P i w.coefs w.lb w.ub).1 := by
    intro r hr
    obtain ⟨p, hp, rfl⟩ := List.mem_map.mp hr
    obtain ⟨i, w, h1, h2, h3⟩ := theRows_mem hp
    exact ⟨i, w, h1, h2, by rw [h3]⟩
  refine ⟨?_, ?_, ?_⟩
  · intro r hr
    obtain ⟨i, w, h1, h2, rfl⟩ := hget r hr
    exact smallRow_ok hwf h1 h2
  · intro r hr
    obtain ⟨i, w, h1, h2, rfl⟩ := hget r hr
    rw [smallRow_size]
    refine ht.size w (List.mem_of_getElem? h1) fun p hp => ?_
    exact lower_ge ha (hwf.cols w (List.mem_of_getElem? h1) p hp) ((usable_iff.mp h2).1 p hp)
  · intro i k r0 r1 hik hi hk hsame he0 he1 hlen hm
    obtain ⟨q0, g0⟩ := rows_get hi
    obtain ⟨q1, g1⟩ := rows_get hk
    obtain ⟨a, w, a1, a2, a3⟩ := theRows_mem (List.mem_of_getElem? g0)
    obtain ⟨b, w', b1, b2, b3⟩ := theRows_mem (List.mem_of_getElem? g1)
    have e0 : r0 = (smallRow P a w.coefs w.lb w.ub).1 := by rw [← a3]
    have e1 : r1 = (smallRow P b w'.coefs w'.lb w'.ub).1 := by rw [← b3]
    have hab : a ≠ b := by
      intro hab
      have hnd := theRows_orig_nodup P
      rw [List.nodup_iff_injective_getElem] at hnd
      have i1 := (List.getElem?_eq_some_iff.mp g0)
      have i2 := (List.getElem?_eq_some_iff.mp g1)
      obtain ⟨l0, v0⟩ := i1
      obtain ⟨l1, v1⟩ := i2
      have : (⟨i, by simpa using l0⟩ : Fin ((theRows P).map fun p => p.1.orig).length) = ⟨k, by simpa using l1⟩ := by
        apply hnd
        simp only [List.getElem_map, v0, v1]
        rw [e0, e1, smallRow_orig, smallRow_orig, hab]
      have := congrArg Fin.val this
      simp at this
      omega
    have s0 := smallRow_ok hwf (n := a) a1 a2
    have s1 := smallRow_ok hwf (n := b) b1 b2
    rw [← e0] at s0
    rw [← e1] at s1
    have hcols := sameCols_eq s0 s1 hsame
    have hsl := ht.noSlip a (List.getElem?_eq_some_iff.mp a1).1 b (List.getElem?_eq_some_iff.mp b1).1 hab
    rw [a1, b1] at hsl
    rw [e0, smallRow_eqn, decide_eq_false_iff_not] at he0
    rw [e1, smallRow_eqn, decide_eq_false_iff_not] at he1
    have hleP : ∀ (n : Nat) (w : Row), w.lb ≠ w.ub → (smallRow P n w.coefs w.lb w.ub).1.els.Perm (leEls P w) := by
      intro n w hne
      rw [smallRow_els]
      unfold leEls isGe
      have : decide (w.lb ≠ w.ub) = true := decide_eq_true hne
      rw [this, Bool.true_and]
      simp only [decide_eq_true_eq]
      split
      · exact (sortedEls_perm P w.coefs).map _
      · exact sortedEls_perm P w.coefs
    have hcolP : ∀ (n : Nat) (w : Row), ((smallRow P n w.coefs w.lb w.ub).1.els.map Prod.fst).Perm
        ((openEls P w.coefs).map Prod.fst) := by
      intro n w
      rw [smallRow_cols]
      exact (sortedEls_perm P w.coefs).map _
    have hlen2 : (openEls P w.coefs).length = 2 := by
      have h1 := (hcolP a w).length_eq
      rw [List.length_map, List.length_map, ← e0] at h1
      rw [← h1]
      have h2 := List.length_eq_length_filter_add (l := r0.els) fun p => isBin P p.1
      have h3 := (mixed_split s0 hm).1
      rw [h3] at h2
      unfold binEls at hlen
      rw [List.length_map] at hlen
      rw [h2, hlen]; rfl
    have hperm : ((openEls P w.coefs).map Prod.fst).Perm ((openEls P w'.coefs).map Prod.fst) := by
      refine (hcolP a w).symm.trans ?_
      rw [← e0, ← hcols, e1]
      exact hcolP b w'
    rcases hsl he0 he1 hlen2 hperm with hall | ⟨h1, h2⟩
    · exfalso
      apply hm
      rw [List.all_eq_true]
      intro p hp
      have : p.1 ∈ (openEls P w.coefs).map Prod.fst := by
        have h := List.mem_map_of_mem (f := Prod.fst) hp
        rw [e0] at h
        exact (hcolP a w).mem_iff.mp h
      obtain ⟨p', hp', he⟩ := List.mem_map.mp this
      rw [← he]; exact hall p' hp'
    · constructor
      · intro p hp
        rw [e0] at hp
        exact h1 p ((hleP a w he0).mem_iff.mp hp)
      · intro p hp
        rw [e1] at hp
        exact h2 p ((hleP b w' he1).mem_iff.mp hp)

/-! ### The start -/

theorem dot_sub (v : SVec) (x y : Nat → ℚ) : v.dot (fun j => x j - y j) = v.dot x - v.dot y := by
  induction v with
  | nil => simp
  | cons p v ih => rw [SVec.dot_cons, SVec.dot_cons, SVec.dot_cons, ih]; ring

theorem dot_zero {v : SVec} {y : Nat → ℚ} (h : ∀ p ∈ v, y p.1 = 0) : v.dot y = 0 := by
  induction v with
  | nil => rfl
  | cons p v ih =>
    rw [SVec.dot_cons, h p List.mem_cons_self, ih fun q hq => h q (List.mem_cons_of_mem _ hq)]; ring

theorem feasible_bounds {P : Prob} (ht : Tame4 P) {x : Nat → ℚ} (hx : P.Feasible x) {j : Nat} (hj : j < P.nCols)
    (hlo : -10 ^ 20 ≤ P.colLower j) : P.colLower j ≤ x j ∧ x j ≤ P.colUpper j := by
  have h1 := hx.lower j hj
  have h2 := hx.upper j hj
  have h3 := ht.inf
  unfold lbOk at h1
  unfold ubOk at h2
  exact ⟨h1 (by linarith), h2 (ht.bounded j hj hlo).1⟩

/-- The activity of a row that is looked at, counted from the lower bounds. -/
theorem open_dot {P : Prob} (hwf : P.WF) (ha : NoAbort P) {x : Nat → ℚ}
    (hx : ∀ j < P.nCols, -10 ^ 20 ≤ P.colLower j → P.colLower j ≤ x j ∧ x j ≤ P.colUpper j) {r : Row}
    (hr : r ∈ P.rows) (hu : usable P r.coefs r.lb r.ub = true) :
    (openEls P r.coefs).dot (fun j => x j - P.colLower j) = r.coefs.dot x - r.coefs.dot P.colLower := by
  rw [← dot_sub, dot_filter (fun p => unfixed P p.1) r.coefs]
  have : SVec.dot (r.coefs.filter fun p => ! unfixed P p.1) (fun j => x j - P.colLower j) = 0 := by
    apply dot_zero
    intro p hp
    obtain ⟨h1, h2⟩ := List.mem_filter.mp hp
    have hj := hwf.cols r hr p h1
    obtain ⟨h3, h4⟩ := hx p.1 hj (lower_ge ha hj ((usable_iff.mp hu).1 p h1))
    unfold unfixed at h2
    rw [Bool.not_eq_true', decide_eq_false_iff_not] at h2
    linarith
  rw [this, add_zero]
  rfl

theorem smallRow_dot (P : Prob) (n : Nat) (v : SVec) (lb ub : ℚ) (y : Nat → ℚ) :
    (smallRow P n v lb ub).1.els.dot y = if isGe lb ub then - (openEls P v).dot y else (openEls P v).dot y := by
  rw [smallRow_els]
  split
  · rw [SVec.dot_neg, SVec.dot_perm (sortedEls_perm P v)]
  · rw [SVec.dot_perm (sortedEls_perm P v)]

theorem smallRow_rhs (P : Prob) (n : Nat) (v : SVec) (lb ub : ℚ) :
    (smallRow P n v lb ub).2 = if isGe lb ub then -(lb - v.dot P.colLower) else ub - v.dot P.colLower := by
  unfold smallRow; dsimp only; split <;> rfl

theorem start_inv {P : Prob} (hwf : P.WF) (ht : Tame4 P) (ha : NoAbort P) {x : Nat → ℚ} (hx : P.Feasible x) (dup : List ℤ) :
    Inv P ((theRows P).map Prod.fst) x (start P ((theRows P).map Prod.snd) dup) := by
  have hcol : ∀ j, Col P j → P.colLower j ≤ x j ∧ x j ≤ P.colUpper j := fun j hj =>
    feasible_bounds ht hx hj.1 (lower_ge ha hj.1 hj.2.2)
  refine ⟨by simp [start], ?_, ?_, ?_, ?_, ?_, rfl⟩
  · intro j hj
    have := (hcol j hj).1
    show 0 ≤ x j - P.colLower j
    linarith
  · intro j hj
    have := (hcol j hj).2
    show x j - P.colLower j ≤ P.colUpper j - P.colLower j
    linarith
  · intro j hj
    exact le_refl _
  · intro j hj hb
    show x j - P.colLower j = 0 ∨ x j - P.colLower j = 1
    unfold isBin at hb
    rw [Bool.and_eq_true, Bool.not_eq_true', decide_eq_false_iff_not] at hb
    obtain ⟨⟨l, hl⟩, ⟨u, hu⟩⟩ := ht.int j hj.1 hb.1
    obtain ⟨z, hz⟩ := hx.int j hj.1 hb.1
    have hlt : P.colLower j < P.colUpper j := of_decide_eq_true hj.2.1
    obtain ⟨h1, h2⟩ := hcol j hj
    have hw := hb.2
    rw [hl, hu] at hw
    rw [hl, hz] at h1
    rw [hu, hz] at h2
    rw [hl, hz]
    have h1' : l ≤ z := by exact_mod_cast h1
    have h2' : z ≤ u := by exact_mod_cast h2
    have h3 : u < l + 2 := by
      have : (u : ℚ) < (l : ℚ) + 2 := by linarith
      exact_mod_cast this
    have : z = l ∨ z = l + 1 := by omega
    rcases this with h | h
    · left; rw [h]; ring
    · right; rw [h]; push_cast; ring
  · intro i r q hr hq
    obtain ⟨q', hg⟩ := rows_get hr
    have hqq : q = q' := by
      change ((theRows P).map Prod.snd)[i]? = some q at hq
      rw [List.getElem?_map, hg] at hq
      exact (Option.some.inj hq).symm
    subst hqq
    obtain ⟨k, w, h1, h2, h3⟩ := theRows_mem (List.mem_of_getElem? hg)
    have hw := List.mem_of_getElem? h1
    obtain rfl : r = (smallRow P k w.coefs w.lb w.ub).1 := by rw [← h3]
    obtain rfl : q = (smallRow P k w.coefs w.lb w.ub).2 := by rw [← h3]
    show SVec.dot _ (fun j => x j - P.colLower j) ≤ _ ∧ (_ → SVec.dot _ (fun j => x j - P.colLower j) = _)
    rw [smallRow_dot, smallRow_rhs, smallRow_eqn, open_dot hwf ha (fun j hj hl => feasible_bounds ht hx hj hl) hw h2]
    obtain ⟨r1, r2, r3⟩ := ht.rows w hw
    obtain ⟨sl, su⟩ := hx.rows w hw
    unfold lbOk at sl
    unfold ubOk at su
    have hinf := ht.inf
    by_cases hge : isGe w.lb w.ub = true
    · rw [if_pos hge, if_pos hge]
      unfold isGe at hge
      rw [Bool.and_eq_true, decide_eq_true_eq, decide_eq_true_eq] at hge
      have hl : -P.inf < w.lb := by
        rcases r3 with h | h
        · exact h
        · linarith [hge.2]
      have := sl hl
      refine ⟨by linarith, fun he => absurd (of_decide_eq_true he) hge.1⟩
    · rw [if_neg hge, if_neg hge]
      unfold isGe at hge
      have hub : w.ub < P.inf := by
        by_cases he : w.lb = w.ub
        · rw [← he]; exact r1
        · simp only [Bool.and_eq_true, decide_eq_true_eq, not_and, not_lt] at hge
          have := hge he
          linarith
      have h4 := su hub
      refine ⟨by linarith, fun he => ?_⟩
      have he := of_decide_eq_true he
      have := sl (by rw [he]; exact r2)
      linarith

/-! ### The end -/

theorem snap_near (q : ℚ) : |snap q - q| < 1 / 10 ^ 8 := by
  unfold snap
  split
  · rename_i h; rw [abs_sub_comm]; exact h
  · rw [sub_self, abs_zero]; norm_num

theorem snap_lower {q : ℚ} {z : ℤ} (h : q ≤ z) : snap q ≤ z := by
  unfold snap
  split
  · rename_i h'
    have h1 := (abs_lt.mp h').1
    have : ((⌊q + 1 / 2⌋ : ℤ) : ℚ) < (z : ℚ) + 1 := by
      have : (1 : ℚ) / 10 ^ 8 ≤ 1 := by norm_num
      linarith
    have : ⌊q + 1 / 2⌋ < z + 1 := by exact_mod_cast this
    have : ⌊q + 1 / 2⌋ ≤ z := by omega
    exact_mod_cast this
  · exact h

theorem snap_upper {q : ℚ} {z : ℤ} (h : (z : ℚ) ≤ q) : z ≤ snap q := by
  unfold snap
  split
  · rename_i h'
    have h1 := (abs_lt.mp h').2
    have : (z : ℚ) < ((⌊q + 1 / 2⌋ : ℤ) : ℚ) + 1 := by
      have : (1 : ℚ) / 10 ^ 8 ≤ 1 := by norm_num
      linarith
    have : z < ⌊q + 1 / 2⌋ + 1 := by exact_mod_cast this
    have : z ≤ ⌊q + 1 / 2⌋ := by omega
    exact_mod_cast this
  · exact h

theorem finalBounds_sound {P : Prob} {s : St} {j : Nat} {x : Nat → ℚ} (h1 : 0 ≤ x j - s.tl j) (h2 : x j - s.tl j ≤ s.nb j)
    (hint : P.isInt j = true → IsInteger (x j)) :
    (∀ q, (finalBounds P s j).1 = some q → q - 1 / 10 ^ 8 ≤ x j ∧ (P.isInt j = true → q ≤ x j)) ∧
    (∀ q, (finalBounds P s j).2.1 = some q → x j ≤ q + 1 / 10 ^ 8 ∧ (P.isInt j = true → x j ≤ q)) ∧
    (finalBounds P s j).2.2 = false := by
  have hl := abs_lt.mp (snap_near (s.tl j))
  have hu := abs_lt.mp (snap_near (s.tl j + s.nb j))
  have hlo : snap (s.tl j) - 1 / 10 ^ 8 ≤ x j ∧ (P.isInt j = true → snap (s.tl j) ≤ x j ∧ (⌈snap (s.tl j)⌉ : ℚ) ≤ x j) := by
    refine ⟨by linarith, fun hi => ?_⟩
    obtain ⟨z, hz⟩ := hint hi
    have : snap (s.tl j) ≤ z := snap_lower (by rw [← hz]; linarith)
    rw [hz]
    exact ⟨this, by exact_mod_cast Int.ceil_le.mpr this⟩
  have hup : x j ≤ snap (s.tl j + s.nb j) + 1 / 10 ^ 8 ∧
      (P.isInt j = true → x j ≤ snap (s.tl j + s.nb j) ∧ x j ≤ (⌊snap (s.tl j + s.nb j)⌋ : ℚ)) := by
    refine ⟨by linarith, fun hi => ?_⟩
    obtain ⟨z, hz⟩ := hint hi
    have : (z : ℚ) ≤ snap (s.tl j + s.nb j) := snap_upper (by rw [← hz]; linarith)
    rw [hz]
    exact ⟨this, by exact_mod_cast Int.le_floor.mpr this⟩
  unfold finalBounds
  dsimp only
  generalize snap (s.tl j) = lo at *
  generalize snap (s.tl j + s.nb j) = up at *
  by_cases hi : P.isInt j = true
  · obtain ⟨a, a'⟩ := hlo.2 hi
    obtain ⟨b, b'⟩ := hup.2 hi
    simp only [hi, and_true]
    have key : ∀ (c : Prop) [Decidable c], (if c then (⌈lo⌉ : ℚ) else lo) ≤ x j := by
      intro c _; split <;> assumption
    have key2 : ∀ (c : Prop) [Decidable c], x j ≤ (if c then (⌊up⌋ : ℚ) else up) := by
      intro c _; split <;> assumption
    refine ⟨?_, ?_, ?_⟩
    · intro q hq
      split at hq
      · have := Option.some.inj hq
        rw [← this]
        exact ⟨le_trans (by norm_num) a', fun _ => a'⟩
      · cases hq
    · intro q hq
      split at hq
      · have := Option.some.inj hq
        rw [← this]
        exact ⟨le_trans b' (by norm_num), fun _ => b'⟩
      · cases hq
    · rw [decide_eq_false_iff_not, not_lt]
      have := key (P.colLower j + 1 / 10 ^ 7 < lo)
      have := key2 (up < P.colUpper j - 1 / 10 ^ 7)
      have : (0 : ℚ) ≤ 1 / 10 ^ 7 := by norm_num
      linarith
  · have hif : P.isInt j = false := by simpa using hi
    simp only [hif, Bool.false_eq_true, and_false, if_false]
    refine ⟨?_, ?_, ?_⟩
    · intro q hq
      split at hq
      · have := Option.some.inj hq
        rw [← this]
        exact ⟨hlo.1, fun h => absurd h (by simp)⟩
      · cases hq
    · intro q hq
      split at hq
      · have := Option.some.inj hq
        rw [← this]
        exact ⟨hup.1, fun h => absurd h (by simp)⟩
      · cases hq
    · rw [decide_eq_false_iff_not, not_lt]
      have h3 := hlo.1
      have h4 := hup.1
      have : (1 : ℚ) / 10 ^ 8 + 1 / 10 ^ 8 ≤ 1 / 10 ^ 7 := by norm_num
      linarith

/-- Everything mode 4 finds holds at every feasible point. -/
theorem cuts4_sound {o : Obj} {P : Prob} (hl : Loaded o P) (hwf : P.WF) (ht : Tame4 P) {u : Out}
    (hc : cuts4 o P = .ok u) {x : Nat → ℚ} (hx : P.Feasible x) :
    ColCut.Almost P ⟨u.lbs, u.ubs⟩ x ∧ u.infeas = false := by
  unfold cuts4 at hc
  split at hc
  · cases hc
  · split at hc
    · cases hc
    · rename_i hab
      have ha : NoAbort P := by
        intro j hj
        rw [Bool.not_eq_true, List.any_eq_false] at hab
        simpa using hab j (by rw [hl.cols]; exact List.mem_range.mpr hj)
      rw [hl.mat] at hc
      dsimp only at hc
      split at hc
      · cases hc
      · rename_i s hs
        obtain rfl := Except.ok.inj hc
        have hbd : ∀ j, Col P j → P.colUpper j - P.colLower j ≤ 10 ^ 30 := fun j hj =>
          (ht.bounded j hj.1 (lower_ge ha hj.1 hj.2.2)).2
        have hinv := outer_inv (rowsOK hwf ht ha) hbd _ _ (start_inv hwf ht ha hx o.dup) (show outer P ((theRows P).map Prod.fst) _ _ _ (start P ((theRows P).map Prod.snd) o.dup) = _ from hs)
        have htouch : ∀ j ∈ touched P o.nCols s, Col P j := by
          intro j hj
          unfold touched at hj
          rw [List.mem_filter, List.mem_range, Bool.and_eq_true, Bool.and_eq_true, Bool.not_eq_true'] at hj
          exact ⟨by rw [← hl.cols]; exact hj.1, hj.2.1.1, hj.2.1.2⟩
        have hfb : ∀ j ∈ touched P o.nCols s, _ := fun j hj =>
          finalBounds_sound (P := P) (hinv.lo j (htouch j hj)) (hinv.up j (htouch j hj)) (hx.int j (htouch j hj).1)
        refine ⟨⟨?_, ?_⟩, ?_⟩
        · intro p hp
          obtain ⟨j, hj, hq⟩ := List.mem_filterMap.mp hp
          rcases hb : (finalBounds P s j).1 with _ | q
          · rw [hb] at hq; cases hq
          · rw [hb] at hq
            obtain rfl := Option.some.inj hq
            exact (hfb j hj).1 q hb
        · intro p hp
          obtain ⟨j, hj, hq⟩ := List.mem_filterMap.mp hp
          rcases hb : (finalBounds P s j).2.1 with _ | q
          · rw [hb] at hq; cases hq
          · rw [hb] at hq
            obtain rfl := Option.some.inj hq
            exact (hfb j hj).2.1 q hb
        · show (s.infeas || _) = false
          rw [hinv.ok, Bool.false_or, List.any_eq_false]
          intro j hj
          rw [(hfb j hj).2.2]
          simp

end Cgl.DupRow
