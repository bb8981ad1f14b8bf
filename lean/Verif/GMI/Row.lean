import Verif.GMI.Spec

/-!
# The cut of one tableau row
-/

namespace Cgl.GMI

theorem cutCoefficient_eq (f0 a : ℚ) (int : Bool) : cutCoefficient f0 int a = - gmi f0 int a := by
  unfold cutCoefficient gmi aboveInteger
  cases int
  · simp only [Bool.false_eq_true, if_false]; split <;> ring
  · simp only [if_true]; split <;> rfl

theorem cutCoefficient_zero (f0 : ℚ) (int : Bool) (h : 0 ≤ f0) : cutCoefficient f0 int 0 = 0 := by
  unfold cutCoefficient aboveInteger
  cases int
  · simp
  · simp [not_lt.mpr h]

theorem flip_zero (s : Nat) : flip s 0 = 0 := by unfold flip; split <;> simp

/-- Distance of a column from its bound. -/
def tcol (P : Prob) (lp : Lp) (x : Nat → ℚ) (j : Nat) : ℚ :=
  if lp.cstat j = 2 then P.colUpper j - x j else if lp.cstat j = 3 then x j - P.colLower j else 0

/-- Distance of a slack from its bound. -/
def tslack (P : Prob) (lp : Lp) (x : Nat → ℚ) (i : Nat) : ℚ :=
  if lp.rstat i = 2 then P.activity x i - lp.act i else if lp.rstat i = 3 then lp.act i - P.activity x i else 0

/-- By how much the dense cut is violated at `x`. -/
def val (n : Nat) (x : Nat → ℚ) (d : Dense) : ℚ := ∑ j ∈ Finset.range n, d.cut j * x j - d.rhs

theorem sum_update (n : Nat) (x g : Nat → ℚ) (j : Nat) (v : ℚ) (hj : j < n) :
    ∑ k ∈ Finset.range n, Function.update g j v k * x k = ∑ k ∈ Finset.range n, g k * x k + (v - g j) * x j := by
  have : ∀ k, Function.update g j v k * x k = g k * x k + (if k = j then (v - g j) * x j else 0) := by
    intro k
    by_cases h : k = j
    · subst h; rw [Function.update_self, if_pos rfl]; ring
    · rw [Function.update_of_ne h, if_neg h, add_zero]
  simp only [this, Finset.sum_add_distrib, Finset.sum_ite_eq', Finset.mem_range, hj, if_true]

theorem colStep_cut {prm : Prm} {P : Prob} {lp : Lp} {ρ : SVec} {f0 : ℚ} (d : Dense) {j k : Nat} (h : k ≠ j) :
    (colStep prm P lp ρ f0 d j).cut k = d.cut k := by
  unfold colStep
  split
  · rfl
  · dsimp only
    split
    · rfl
    · split
      · rfl
      · exact Function.update_of_ne h _ _

theorem colStep_val {prm : Prm} {P : Prob} {lp : Lp} {ρ : SVec} {f0 : ℚ} (h0 : 0 ≤ f0) (hf : NoFree P lp ρ)
    (hn : NoTiny prm P lp ρ f0) (x : Nat → ℚ)
    (hfix : ∀ j < P.nCols, areEqual prm.eps (P.colLower j) (P.colUpper j) = true → tcol P lp x j = 0)
    (d : Dense) (j : Nat) (hj : j < P.nCols) (hd : d.cut j = 0) :
    val P.nCols x (colStep prm P lp ρ f0 d j) = val P.nCols x d +
      cutCoefficient f0 (isInteger prm P j) (flip (lp.cstat j) (tabEntry P ρ j)) * tcol P lp x j := by
  unfold colStep
  split
  · rename_i h
    have : tcol P lp x j = 0 := by
      rcases h with h | h
      · unfold tcol; rw [h]; simp
      · exact hfix j hj h
    rw [this]; ring
  · rename_i hb
    push Not at hb
    dsimp only
    split
    · rename_i hz
      rw [hn.entry j hj hz, flip_zero, cutCoefficient_zero _ _ h0]; ring
    · rename_i hz
      split
      · rename_i hz2
        rw [hn.coef j hj hz2]; ring
      · rcases hf.cols j hj with h | h | h | h
        · exact absurd h hb.1
        · unfold val unflipOrig tcol
          simp only [h, if_true]
          rw [sum_update _ _ _ _ _ hj, hd]; ring
        · unfold val unflipOrig tcol
          simp only [h, if_true, if_neg (show ¬ (3 : Nat) = 2 by decide)]
          rw [sum_update _ _ _ _ _ hj, hd]; ring
        · rw [h] at hz; exact absurd (by decide +kernel) hz

theorem colFold_val {prm : Prm} {P : Prob} {lp : Lp} {ρ : SVec} {f0 : ℚ} (h0 : 0 ≤ f0) (hf : NoFree P lp ρ)
    (hn : NoTiny prm P lp ρ f0) (x : Nat → ℚ)
    (hfix : ∀ j < P.nCols, areEqual prm.eps (P.colLower j) (P.colUpper j) = true → tcol P lp x j = 0) :
    ∀ (l : List Nat) (d : Dense), l.Nodup → (∀ j ∈ l, j < P.nCols) → (∀ j ∈ l, d.cut j = 0) →
      val P.nCols x (l.foldl (colStep prm P lp ρ f0) d) = val P.nCols x d + (l.map fun j =>
        cutCoefficient f0 (isInteger prm P j) (flip (lp.cstat j) (tabEntry P ρ j)) * tcol P lp x j).sum := by
  intro l
  induction l with
  | nil => intro d _ _ _; simp
  | cons j l ih =>
    intro d hnd hl hd
    rw [List.foldl_cons, ih _ (List.nodup_cons.1 hnd).2 (fun k hk => hl k (List.mem_cons_of_mem _ hk)),
      colStep_val h0 hf hn x hfix d j (hl j List.mem_cons_self) (hd j List.mem_cons_self)]
    · rw [List.map_cons, List.sum_cons]; ring
    · intro k hk
      rw [colStep_cut d (by rintro rfl; exact (List.nodup_cons.1 hnd).1 hk)]
      exact hd k (List.mem_cons_of_mem _ hk)

theorem elim_sum (n : Nat) (x : Nat → ℚ) (c : ℚ) : ∀ (v : SVec) (g : Nat → ℚ), (∀ p ∈ v, p.1 < n) →
    ∑ k ∈ Finset.range n, v.foldl (fun cut p => Function.update cut p.1 (cut p.1 - c * p.2)) g k * x k =
      ∑ k ∈ Finset.range n, g k * x k - c * SVec.dot v x := by
  intro v
  induction v with
  | nil => intro g _; simp
  | cons p v ih =>
    intro g h
    rw [List.foldl_cons, ih _ fun q hq => h q (List.mem_cons_of_mem _ hq), sum_update _ _ _ _ _ (h p List.mem_cons_self),
      SVec.dot_cons]
    ring

theorem isZero_false_ne {q : ℚ} (h : ¬ isZero q = true) : q ≠ 0 := by
  rintro rfl; exact h (by decide +kernel)

theorem slackStep_val {prm : Prm} {P : Prob} {lp : Lp} {ρ : SVec} {f0 : ℚ} (h0 : 0 ≤ f0) (he : prm.epsElim = 0)
    (hwf : P.WF) (hx : ExactData prm.eps P) (hb : BasicSolution P lp)
    (hf : NoFree P lp ρ) (hn : NoTiny prm P lp ρ f0) (b : Nat) (ht : TableauRow P lp b ρ) (x : Nat → ℚ)
    (hfix : ∀ i < P.rows.length, (P.row i).lb = (P.row i).ub → - P.inf < (P.row i).lb → (P.row i).ub < P.inf →
      tslack P lp x i = 0)
    (d : Dense) (p : Nat × ℚ) (hp : p ∈ ρ) :
    val P.nCols x (slackStep prm P lp f0 d p) = val P.nCols x d +
      cutCoefficient f0 false (flip (lp.rstat p.1) p.2) * tslack P lp x p.1 := by
  have hi := ht.rows p hp
  unfold slackStep
  split
  · rename_i hz
    rw [hn.slack p hp hz, flip_zero, cutCoefficient_zero _ _ h0]; ring
  · rename_i hz
    dsimp only
    split
    · rename_i hz2
      rw [hn.slackCoef p hp hz2]; ring
    · rename_i hz2
      have hc0 := isZero_false_ne hz2
      set c := cutCoefficient f0 false (flip (lp.rstat p.1) p.2) with hc
      have hcs : ∀ s v, |(unflipSlack s v c).1| = |c| := by
        intro s v; unfold unflipSlack; split
        · exact abs_neg c
        · split <;> rfl
      have hst : lp.rstat p.1 = 2 ∨ lp.rstat p.1 = 3 := by
        rcases hf.rows p hp with h | h | h | h
        · exact absurd (ht.slack p hp h) (isZero_false_ne hz)
        · exact Or.inl h
        · exact Or.inr h
        · exact absurd h (isZero_false_ne hz)
      unfold eliminateSlack
      rw [hcs, he, if_pos (abs_pos.mpr hc0)]
      split
      · rename_i hq
        obtain ⟨q1, q2, q3⟩ := hx.rows p.1 hi hq
        have hr : P.rhs p.1 = (P.row p.1).ub := by
          unfold Prob.rhs Row.senseRhs
          rw [if_pos q2, if_pos q3, if_pos q1.symm]
        have ha : lp.act p.1 = (P.row p.1).ub := by
          rcases hst with h | h
          · rw [(hb.rowLower p.1 hi h).1, q1]
          · rw [(hb.rowUpper p.1 hi h).1]
        rw [hfix p.1 hi q1 q2 q3, hr, ha]
        have : (unflipSlack (lp.rstat p.1) ((P.row p.1).ub - (P.row p.1).ub) c).2 = 0 := by
          unfold unflipSlack
          rcases hst with h | h <;> rw [h] <;> simp
        rw [this]; unfold val; ring
      · unfold val
        dsimp only
        rw [elim_sum _ _ _ _ _ (hwf.cols _ (Prob.row_mem hi))]
        unfold unflipSlack tslack Prob.activity
        rcases hst with h | h
        · simp only [h, if_true]; ring
        · simp only [h, if_true, if_neg (show ¬ (3 : Nat) = 2 by decide)]; ring

theorem slackFold_val {prm : Prm} {P : Prob} {lp : Lp} {ρ : SVec} {f0 : ℚ} (h0 : 0 ≤ f0) (he : prm.epsElim = 0)
    (hwf : P.WF) (hx : ExactData prm.eps P) (hb : BasicSolution P lp)
    (hf : NoFree P lp ρ) (hn : NoTiny prm P lp ρ f0) (b : Nat) (ht : TableauRow P lp b ρ) (x : Nat → ℚ)
    (hfix : ∀ i < P.rows.length, (P.row i).lb = (P.row i).ub → - P.inf < (P.row i).lb → (P.row i).ub < P.inf →
      tslack P lp x i = 0) :
    ∀ (l : SVec) (d : Dense), (∀ p ∈ l, p ∈ ρ) →
      val P.nCols x (l.foldl (slackStep prm P lp f0) d) = val P.nCols x d + (l.map fun p =>
        cutCoefficient f0 false (flip (lp.rstat p.1) p.2) * tslack P lp x p.1).sum := by
  intro l
  induction l with
  | nil => intro d _; simp
  | cons p l ih =>
    intro d hl
    rw [List.foldl_cons, ih _ fun q hq => hl q (List.mem_cons_of_mem _ hq),
      slackStep_val h0 he hwf hx hb hf hn b ht x hfix d p (hl p List.mem_cons_self), List.map_cons, List.sum_cons]
    ring

/-- The terms of the tableau row at a point. -/
def terms (prm : Prm) (P : Prob) (lp : Lp) (ρ : SVec) (x : Nat → ℚ) : List Term :=
  ((List.range P.nCols).map fun j => ⟨flip (lp.cstat j) (tabEntry P ρ j), isInteger prm P j, tcol P lp x j⟩) ++
    ρ.map fun p => ⟨flip (lp.rstat p.1) p.2, false, tslack P lp x p.1⟩

theorem denseCut_val {prm : Prm} {P : Prob} {lp : Lp} {ρ : SVec} {f0 : ℚ} (h0 : 0 ≤ f0) (he : prm.epsElim = 0)
    (hwf : P.WF) (hx : ExactData prm.eps P) (hb : BasicSolution P lp)
    (hf : NoFree P lp ρ) (hn : NoTiny prm P lp ρ f0) (b : Nat) (ht : TableauRow P lp b ρ) (x : Nat → ℚ)
    (hfixc : ∀ j < P.nCols, areEqual prm.eps (P.colLower j) (P.colUpper j) = true → tcol P lp x j = 0)
    (hfix : ∀ i < P.rows.length, (P.row i).lb = (P.row i).ub → - P.inf < (P.row i).lb → (P.row i).ub < P.inf →
      tslack P lp x i = 0) :
    val P.nCols x (denseCut prm P lp ρ f0) = f0 -
      ((terms prm P lp ρ x).map fun e => gmi f0 e.int e.a * e.t).sum := by
  unfold denseCut
  rw [slackFold_val h0 he hwf hx hb hf hn b ht x hfix ρ _ fun _ h => h,
    colFold_val h0 hf hn x hfixc _ _ List.nodup_range (fun j hj => List.mem_range.1 hj) (fun _ _ => rfl)]
  have e0 : val P.nCols x ⟨fun _ => 0, -f0⟩ = f0 := by unfold val; simp
  rw [e0]
  unfold terms
  rw [List.map_append, List.sum_append, List.map_map, List.map_map]
  have e1 : ∀ (l : List Nat), (l.map fun j =>
      cutCoefficient f0 (isInteger prm P j) (flip (lp.cstat j) (tabEntry P ρ j)) * tcol P lp x j).sum =
      - (l.map ((fun e : Term => gmi f0 e.int e.a * e.t) ∘ fun j =>
        ⟨flip (lp.cstat j) (tabEntry P ρ j), isInteger prm P j, tcol P lp x j⟩)).sum := by
    intro l
    induction l with
    | nil => simp
    | cons j l ih =>
      rw [List.map_cons, List.map_cons, List.sum_cons, List.sum_cons, ih, cutCoefficient_eq]
      simp only [Function.comp]; ring
  have e2 : ∀ (l : SVec), (l.map fun p =>
      cutCoefficient f0 false (flip (lp.rstat p.1) p.2) * tslack P lp x p.1).sum =
      - (l.map ((fun e : Term => gmi f0 e.int e.a * e.t) ∘ fun p =>
        ⟨flip (lp.rstat p.1) p.2, false, tslack P lp x p.1⟩)).sum := by
    intro l
    induction l with
    | nil => simp
    | cons j l ih =>
      rw [List.map_cons, List.map_cons, List.sum_cons, List.sum_cons, ih, cutCoefficient_eq]
      simp only [Function.comp]; ring
  rw [e1, e2]; ring

/-- The tableau row as an equation in the shifted variables. -/
theorem terms_eq {prm : Prm} {P : Prob} {lp : Lp} {ρ : SVec} (hwf : P.WF) (hb : BasicSolution P lp)
    (hf : NoFree P lp ρ) (b : Nat) (hbn : b < P.nCols) (hbb : lp.cstat b = 1) (ht : TableauRow P lp b ρ)
    (x : Nat → ℚ) : x b + ((terms prm P lp ρ x).map fun e => e.a * e.t).sum = lp.xlp b := by
  unfold terms
  rw [List.map_append, List.sum_append, List.map_map, List.map_map, list_range_sum]
  have e1 : ∀ j ∈ Finset.range P.nCols, ((fun e : Term => e.a * e.t) ∘ fun j =>
        ⟨flip (lp.cstat j) (tabEntry P ρ j), isInteger prm P j, tcol P lp x j⟩) j =
      (tabEntry P ρ j * x j - tabEntry P ρ j * lp.xlp j) - (if j = b then x b - lp.xlp b else 0) := by
    intro j hj
    rw [Finset.mem_range] at hj
    simp only [Function.comp]
    by_cases hjb : j = b
    · subst hjb
      unfold flip tcol
      rw [ht.pivot, hbb]; simp
    · rw [if_neg hjb]
      rcases hf.cols j hj with h | h | h | h
      · rw [ht.basic j hj h hjb, flip_zero]; ring
      · unfold flip tcol
        rw [(hb.upper j hj h).1]
        simp only [h, if_true]; ring
      · unfold flip tcol
        rw [(hb.lower j hj h).1]
        simp only [h, if_true, if_neg (show ¬ (3 : Nat) = 2 by decide)]; ring
      · rw [h, flip_zero]; ring
  rw [Finset.sum_congr rfl e1, Finset.sum_sub_distrib, Finset.sum_sub_distrib, tab_sum hwf ρ ht.rows,
    tab_sum hwf ρ ht.rows, Finset.sum_ite_eq', if_pos (Finset.mem_range.mpr hbn)]
  have e2 : ∀ (l : SVec), (∀ p ∈ l, p ∈ ρ) → (l.map ((fun e : Term => e.a * e.t) ∘ fun p =>
        ⟨flip (lp.rstat p.1) p.2, false, tslack P lp x p.1⟩)).sum =
      (l.map fun p => p.2 * P.activity lp.xlp p.1).sum - (l.map fun p => p.2 * P.activity x p.1).sum := by
    intro l
    induction l with
    | nil => intro _; simp
    | cons p l ih =>
      intro hl
      simp only [List.map_cons, List.sum_cons]
      rw [ih fun q hq => hl q (List.mem_cons_of_mem _ hq)]
      have hp := hl p List.mem_cons_self
      have : flip (lp.rstat p.1) p.2 * tslack P lp x p.1 =
          p.2 * P.activity lp.xlp p.1 - p.2 * P.activity x p.1 := by
        rw [← hb.act p.1 (ht.rows p hp)]
        rcases hf.rows p hp with h | h | h | h
        · rw [ht.slack p hp h, flip_zero]; ring
        · unfold flip tslack; simp only [h, if_true]; ring
        · unfold flip tslack; simp only [h, if_true, if_neg (show ¬ (3 : Nat) = 2 by decide)]; ring
        · rw [h, flip_zero]; ring
      simp only [Function.comp, this]; ring
  rw [e2 ρ fun _ h => h]
  ring

theorem packRow_dot {n : Nat} {d : Dense} (h : ∀ j < n, isZero (d.cut j) = true → d.cut j = 0) (x : Nat → ℚ) :
    SVec.dot (packRow n d).elems x = ∑ j ∈ Finset.range n, d.cut j * x j := by
  rw [← list_range_sum]
  unfold packRow SVec.dot
  have : ∀ l : List Nat, (∀ j ∈ l, j < n) →
      (((l.filter fun j => ! isZero (d.cut j)).map fun j => (j, d.cut j)).map fun p => p.2 * x p.1).sum =
      (l.map fun j => d.cut j * x j).sum := by
    intro l
    induction l with
    | nil => intro _; simp
    | cons j l ih =>
      intro hl
      rw [List.filter_cons]
      have ih' := ih fun k hk => hl k (List.mem_cons_of_mem _ hk)
      by_cases hz : isZero (d.cut j) = true
      · simp only [hz, Bool.not_true, Bool.false_eq_true, if_false, ih', List.map_cons, List.sum_cons]
        rw [h j (hl j List.mem_cons_self) hz]
        ring
      · simp only [Bool.not_eq_true] at hz
        simp only [hz, Bool.not_false, if_true, List.map_cons, List.sum_cons, ih']
  exact this _ fun j hj => List.mem_range.1 hj

/-! ### At the LP solution and at feasible points -/

theorem tcol_xlp {P : Prob} {lp : Lp} (hb : BasicSolution P lp) {j : Nat} (hj : j < P.nCols) : tcol P lp lp.xlp j = 0 := by
  unfold tcol
  split
  · rename_i h; rw [(hb.upper j hj h).1]; ring
  · split
    · rename_i h; rw [(hb.lower j hj h).1]; ring
    · rfl

theorem tslack_xlp {P : Prob} {lp : Lp} (hb : BasicSolution P lp) {i : Nat} (hi : i < P.rows.length) :
    tslack P lp lp.xlp i = 0 := by
  unfold tslack
  rw [hb.act i hi]
  split
  · ring
  · split
    · ring
    · rfl

theorem feasible_fixed {P : Prob} {x : Nat → ℚ} (hf : P.Feasible x) {j : Nat} (hj : j < P.nCols)
    (h : P.colLower j = P.colUpper j ∧ - P.inf < P.colLower j ∧ P.colUpper j < P.inf) : x j = P.colUpper j :=
  le_antisymm (hf.upper j hj h.2.2) (h.1 ▸ hf.lower j hj h.2.1)

theorem tcol_fixed {eps : ℚ} {P : Prob} {lp : Lp} {x : Nat → ℚ} (hx : ExactData eps P) (hf : P.Feasible x) (j : Nat)
    (hj : j < P.nCols) (h : areEqual eps (P.colLower j) (P.colUpper j) = true) : tcol P lp x j = 0 := by
  have h1 := hx.fixed j hj h
  unfold tcol
  rw [h1.1, feasible_fixed hf hj h1]; simp

theorem tslack_fixed {P : Prob} {lp : Lp} {x : Nat → ℚ} (hb : BasicSolution P lp) (hf : P.Feasible x) (i : Nat)
    (hi : i < P.rows.length) (h1 : (P.row i).lb = (P.row i).ub) (h2 : - P.inf < (P.row i).lb)
    (h3 : (P.row i).ub < P.inf) : tslack P lp x i = 0 := by
  have hs := hf.rows _ (Prob.row_mem hi)
  have : P.activity x i = (P.row i).ub := le_antisymm (hs.2 h3) (h1 ▸ hs.1 h2)
  unfold tslack
  rw [this]
  split
  · rename_i h; rw [(hb.rowLower i hi h).1, h1]; ring
  · split
    · rename_i h; rw [(hb.rowUpper i hi h).1]; ring
    · rfl

theorem IsInteger.sub {a b : ℚ} (ha : IsInteger a) (hb : IsInteger b) : IsInteger (a - b) := by
  obtain ⟨m, rfl⟩ := ha; obtain ⟨n, rfl⟩ := hb; exact ⟨m - n, by push_cast; rfl⟩

theorem terms_ok {prm : Prm} {P : Prob} {lp : Lp} {ρ : SVec} (hx : ExactData prm.eps P) (hb : BasicSolution P lp)
    (hρ : ∀ p ∈ ρ, p.1 < P.rows.length) {x : Nat → ℚ} (hf : P.Feasible x) :
    ∀ e ∈ terms prm P lp ρ x, 0 ≤ e.t ∧ (e.int = true → IsInteger e.t) := by
  intro e he
  rcases List.mem_append.1 he with h | h
  · obtain ⟨j, hj, rfl⟩ := List.mem_map.1 h
    have hj := List.mem_range.1 hj
    constructor
    · dsimp only; unfold tcol
      split
      · rename_i h; have := hf.upper j hj (hb.upper j hj h).2; linarith
      · split
        · rename_i h; have := hf.lower j hj (hb.lower j hj h).2; linarith
        · exact le_refl _
    · intro hi
      dsimp only at hi ⊢
      by_cases hint : P.isInt j = true
      · have hxi := hf.int j hj hint
        unfold tcol
        split
        · rename_i h; exact IsInteger.sub (hx.intUpper j hj hint (hb.upper j hj h).2) hxi
        · split
          · rename_i h; exact IsInteger.sub hxi (hx.intLower j hj hint (hb.lower j hj h).2)
          · exact ⟨0, rfl⟩
      · unfold isInteger at hi
        rw [if_neg hint, Bool.and_eq_true] at hi
        rw [tcol_fixed hx hf j hj hi.1]
        exact ⟨0, rfl⟩
  · obtain ⟨p, hp, rfl⟩ := List.mem_map.1 h
    have hi := hρ p hp
    refine ⟨?_, fun h => absurd h (by simp)⟩
    have hs := hf.rows _ (Prob.row_mem hi)
    dsimp only; unfold tslack Prob.activity
    split
    · rename_i h
      have h2 := hb.rowLower p.1 hi h
      rw [h2.1]; have := hs.1 h2.2; linarith
    · split
      · rename_i h
        have h2 := hb.rowUpper p.1 hi h
        rw [h2.1]; have := hs.2 h2.2; linarith
      · exact le_refl _

/-- The cut of a tableau row holds at every feasible point. -/
theorem row_valid {prm : Prm} {P : Prob} {lp : Lp} {ρ : SVec} {b : Nat} (he : prm.epsElim = 0)
    (hwf : P.WF) (hx : ExactData prm.eps P) (hb : BasicSolution P lp) (hbn : b < P.nCols) (hbb : lp.cstat b = 1)
    (hbi : isInteger prm P b = true) (ht : TableauRow P lp b ρ) (hf : NoFree P lp ρ)
    (hn : NoTiny prm P lp ρ (aboveInteger (lp.xlp b))) {x : Nat → ℚ} (hfx : P.Feasible x) :
    (packRow P.nCols (denseCut prm P lp ρ (aboveInteger (lp.xlp b)))).Sat x := by
  have h0 : 0 ≤ aboveInteger (lp.xlp b) := frac_nonneg _
  have hv := denseCut_val h0 he hwf hx hb hf hn b ht x (tcol_fixed hx hfx) (tslack_fixed hb hfx)
  have hok := terms_ok hx hb ht.rows hfx
  have hxb : IsInteger (x b) := by
    by_cases hint : P.isInt b = true
    · exact hfx.int b hbn hint
    · unfold isInteger at hbi
      rw [if_neg hint, Bool.and_eq_true] at hbi
      rw [feasible_fixed hfx hbn (hx.fixed b hbn hbi.1)]
      exact hx.fixedInt b hbn hbi.1 (by simpa using hint) hbi.2
  have hg := gmi_ineq (lp.xlp b) (x b) hxb (terms prm P lp ρ x) (fun e he => (hok e he).1)
    (fun e he => (hok e he).2) (terms_eq hwf hb hf b hbn hbb ht x)
  unfold Cut.Sat
  rw [packRow_dot hn.cut]
  unfold val at hv
  unfold aboveInteger at hv ⊢
  change _ ≤ (denseCut prm P lp ρ (lp.xlp b - ⌊lp.xlp b⌋)).rhs
  linarith

/-- The cut of a tableau row is violated by the LP solution, by the fractional part of the basic variable. -/
theorem row_violated {prm : Prm} {P : Prob} {lp : Lp} {ρ : SVec} {b : Nat} (he : prm.epsElim = 0)
    (hwf : P.WF) (hx : ExactData prm.eps P) (hb : BasicSolution P lp) (ht : TableauRow P lp b ρ) (hf : NoFree P lp ρ)
    {f0 : ℚ} (h0 : 0 ≤ f0) (hn : NoTiny prm P lp ρ f0) :
    SVec.dot (packRow P.nCols (denseCut prm P lp ρ f0)).elems lp.xlp =
      (packRow P.nCols (denseCut prm P lp ρ f0)).rhs + f0 := by
  have hv := denseCut_val h0 he hwf hx hb hf hn b ht lp.xlp (fun j hj _ => tcol_xlp hb hj)
    (fun i hi _ _ _ => tslack_xlp hb hi)
  have hz : ((terms prm P lp ρ lp.xlp).map fun e => gmi f0 e.int e.a * e.t).sum = 0 := by
    apply List.sum_eq_zero
    intro v hv
    obtain ⟨e, he, rfl⟩ := List.mem_map.1 hv
    have : e.t = 0 := by
      rcases List.mem_append.1 he with h | h
      · obtain ⟨j, hj, rfl⟩ := List.mem_map.1 h
        exact tcol_xlp hb (List.mem_range.1 hj)
      · obtain ⟨p, hp, rfl⟩ := List.mem_map.1 h
        exact tslack_xlp hb (ht.rows p hp)
    rw [this, mul_zero]
  rw [packRow_dot hn.cut]
  unfold val at hv
  rw [hz] at hv
  change _ = (denseCut prm P lp ρ f0).rhs + f0
  linarith

end Cgl.GMI
