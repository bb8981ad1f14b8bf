import Verif.Clique.Lemmas

/-!
# Property theorems about `CglClique` (C13, C14, C15)
-/

namespace Cgl.Clique

/-- No column with a positive coefficient in a row `≤ 1` can be negative. -/
def NonnegLower (P : Prob) : Prop := ∀ r ∈ P.rows, r.ub = 1 → ∀ p ∈ r.coefs, 0 < p.2 → 0 ≤ P.colLower p.1

/-- The problem is a set packing problem: binary columns, rows `sum of columns ≤ 1`. This is what the user promises with
the constructor argument `setPacking`. -/
structure SetPacking (P : Prob) : Prop where
  bin : ∀ j < P.nCols, colType P j = 1
  rows : ∀ r ∈ P.rows, r.ub = 1 ∧ ∀ p ∈ r.coefs, p.2 = 1

instance (P : Prob) : Decidable (NonnegLower P) := by unfold NonnegLower; infer_instance
instance (P : Prob) : Decidable (SetPacking P) :=
  decidable_of_iff ((∀ j < P.nCols, colType P j = 1) ∧ ∀ r ∈ P.rows, r.ub = 1 ∧ ∀ p ∈ r.coefs, p.2 = 1)
    ⟨fun h => ⟨h.1, h.2⟩, fun h => ⟨h.1, h.2⟩⟩

/-! ### Lemmas -/

theorem binary_value {P : Prob} (hinf : 1 < P.inf) {j : Nat} (hj : j < P.nCols) (h : colType P j = 1) {x : Nat → ℚ}
    (hx : P.Feasible x) : x j = 0 ∨ x j = 1 := by
  unfold colType at h
  split at h
  · rename_i hi
    split at h
    · rename_i hb
      obtain ⟨z, hz⟩ := hx.int j hj hi
      have hl : 0 ≤ x j := by
        have := hx.lower j hj
        unfold lbOk at this
        rcases hb.2 with e | e <;> rw [e] at this
        · exact this (by linarith)
        · linarith [this (by linarith)]
      have hu : x j ≤ 1 := by
        have := hx.upper j hj
        unfold ubOk at this
        rcases hb.1 with e | e <;> rw [e] at this
        · exact this (by linarith)
        · linarith [this (by linarith)]
      rw [hz] at hl hu ⊢
      have h0 : 0 ≤ z := by exact_mod_cast hl
      have h1 : z ≤ 1 := by exact_mod_cast hu
      rcases (by omega : z = 0 ∨ z = 1) with e | e <;> simp [e]
    · omega
  · omega

theorem dot_nonneg {v : SVec} {x : Nat → ℚ} (h : ∀ p ∈ v, 0 ≤ p.2 * x p.1) : 0 ≤ v.dot x := by
  induction v with
  | nil => simp
  | cons p v ih =>
    rw [SVec.dot_cons]
    have := ih (fun q hq => h q (List.mem_cons_of_mem _ hq))
    have := h p (List.mem_cons_self ..)
    linarith

theorem one_le_dot {v : SVec} {x : Nat → ℚ} (h : ∀ p ∈ v, 0 ≤ p.2 * x p.1) {a : Nat} (ha : (a, (1 : ℚ)) ∈ v) :
    x a ≤ v.dot x := by
  induction v with
  | nil => cases ha
  | cons p v ih =>
    rw [SVec.dot_cons]
    have hv := dot_nonneg (v := v) (x := x) (fun q hq => h q (List.mem_cons_of_mem _ hq))
    have hp := h p (List.mem_cons_self ..)
    rcases List.mem_cons.mp ha with rfl | ha
    · simp only [one_mul]; linarith
    · have := ih (fun q hq => h q (List.mem_cons_of_mem _ hq)) ha; linarith

theorem two_le_dot {v : SVec} {x : Nat → ℚ} (h : ∀ p ∈ v, 0 ≤ p.2 * x p.1) {a b : Nat} (hab : a ≠ b) (ha : (a, (1 : ℚ)) ∈ v)
    (hb : (b, (1 : ℚ)) ∈ v) : x a + x b ≤ v.dot x := by
  induction v with
  | nil => cases ha
  | cons p v ih =>
    rw [SVec.dot_cons]
    have hv := fun q hq => h q (List.mem_cons_of_mem p hq)
    have hp := h p (List.mem_cons_self ..)
    rcases List.mem_cons.mp ha with e1 | ha'
    · rcases List.mem_cons.mp hb with e2 | hb'
      · rw [← e1] at e2; simp at e2; exact absurd e2.symm hab
      · have := one_le_dot hv hb'; rw [← e1]; simp only [one_mul]; linarith
    · rcases List.mem_cons.mp hb with e2 | hb'
      · have := one_le_dot hv ha'; rw [← e2]; simp only [one_mul]; linarith
      · have := ih hv ha' hb'; linarith

/-- In a list of 0/1 values of which any two sum to at most one, the sum is at most one. -/
theorem sum_le_one {l : List ℚ} (h1 : ∀ v ∈ l, v = 0 ∨ v = 1) (h2 : l.Pairwise fun a b => a + b ≤ 1) : l.sum ≤ 1 := by
  induction l with
  | nil => simp
  | cons a t ih =>
    rw [List.pairwise_cons] at h2
    rw [List.sum_cons]
    have iht := ih (fun v hv => h1 v (List.mem_cons_of_mem _ hv)) h2.2
    rcases h1 a (List.mem_cons_self ..) with e | e
    · rw [e]; linarith
    · have : ∀ v ∈ t, v = 0 := fun v hv => by
        have ha := h2.1 v hv
        rcases h1 v (List.mem_cons_of_mem _ hv) with h | h
        · exact h
        · rw [e, h] at ha; norm_num at ha
      have hs : t.sum = 0 := List.sum_eq_zero this
      rw [e, hs]; norm_num

theorem cutOf_dot (g : Graph) (K : List Nat) (x : Nat → ℚ) : (cutOf g K).row.dot x = (K.map fun v => x (g.orig v)).sum := by
  have hp := (List.perm_insertionSort (· ≤ ·) (K.map g.orig)).map fun c => ((c, 1) : Nat × ℚ)
  show SVec.dot (((K.map g.orig).insertionSort (· ≤ ·)).map fun c => ((c, 1) : Nat × ℚ)) x = _
  rw [SVec.dot_perm hp]
  unfold SVec.dot
  rw [List.map_map, List.map_map]
  congr 1
  apply List.map_congr_left
  intro v _
  simp

/-- Every selected column is a column; no column is selected twice. -/
theorem selection_cols (o : Obj) (petol primalTol : ℚ) (info : Info) (P : Prob) (x : Nat → ℚ) :
    (∀ j ∈ (selection o petol primalTol info P x).1, j < P.nCols) ∧ (selection o petol primalTol info P x).1.Nodup := by
  unfold selection
  dsimp only
  split
  · unfold selectFractionals
    exact ⟨fun j hj => by rw [List.mem_filter, List.mem_range] at hj; exact hj.1, List.nodup_range.filter _⟩
  · unfold selectFractionalBinaries
    exact ⟨fun j hj => by rw [List.mem_filter, List.mem_range] at hj; exact hj.1, List.nodup_range.filter _⟩

theorem selection_bin {o : Obj} {petol primalTol : ℚ} {info : Info} {P : Prob} {x : Nat → ℚ}
    (hpack : o.setPacking = true → SetPacking P) {j : Nat} (hj : j ∈ (selection o petol primalTol info P x).1) : colType P j = 1 := by
  have hlt := (selection_cols o petol primalTol info P x).1 j hj
  unfold selection at hj
  dsimp only at hj
  split at hj
  · rename_i h; exact (hpack h).bin j hlt
  · unfold selectFractionalBinaries at hj
    rw [List.mem_filter] at hj
    exact (by simpa using hj.2 : colType P j = 1 ∧ _).1

/-- Two different selected columns of a kept row cannot both be one. -/
theorem selection_pair {o : Obj} {petol primalTol : ℚ} {info : Info} {P : Prob} {x : Nat → ℚ} (hP : P.WF) (hinf : 1 < P.inf)
    (hpack : o.setPacking = true → SetPacking P) (hlow : o.setPacking = false → NonnegLower P)
    {r : Row} (hr : r ∈ (selection o petol primalTol info P x).2) {a b : Nat}
    (ha : a ∈ (selection o petol primalTol info P x).1) (hb : b ∈ (selection o petol primalTol info P x).1) (hab : a ≠ b)
    (har : a ∈ r.coefs.map Prod.fst) (hbr : b ∈ r.coefs.map Prod.fst) {y : Nat → ℚ} (hy : P.Feasible y) : y a + y b ≤ 1 := by
  cases hset : o.setPacking
  · have hsel : ∀ j, j ∈ (selection o petol primalTol info P x).1 → j ∈ selectFractionalBinaries petol primalTol o.maxNumber P x := by
      intro j hj; unfold selection at hj; simpa [hset] using hj
    have hrow : r ∈ P.rows ∧ isCliqueRow (selectFractionalBinaries petol primalTol o.maxNumber P x) r = true := by
      unfold selection at hr
      simp only [hset, Bool.false_eq_true, if_false] at hr
      have : r ∈ selectRowCliques (selectFractionalBinaries petol primalTol o.maxNumber P x)
          (if (info.inTree && o.justOriginalRows) = true then info.formulationRows else P.rows.length) P.rows := by
        split at hr
        · exact List.mem_of_mem_take hr
        · exact hr
      unfold selectRowCliques at this
      rw [List.mem_filter] at this
      exact ⟨List.mem_of_mem_take this.1, this.2⟩
    obtain ⟨hrP, hc⟩ := hrow
    unfold isCliqueRow at hc
    simp only [Bool.and_eq_true, List.all_eq_true, decide_eq_true_eq, Bool.or_eq_true, Bool.not_eq_true',
      decide_eq_false_iff_not, not_lt] at hc
    obtain ⟨⟨hc1, hc2⟩, hc3⟩ := hc
    have one : ∀ j, j ∈ (selection o petol primalTol info P x).1 → j ∈ r.coefs.map Prod.fst → (j, (1 : ℚ)) ∈ r.coefs := by
      intro j hj hjr
      obtain ⟨p, hp, rfl⟩ := List.mem_map.mp hjr
      have := hc1 p hp
      rcases this with h | h
      · rw [List.contains_eq_mem] at h; simp [hsel p.1 hj] at h
      · rw [← h]; exact hp
    have hnn : ∀ p ∈ r.coefs, 0 ≤ p.2 * y p.1 := by
      intro p hp
      rcases eq_or_lt_of_le (hc3 p hp) with h | h
      · rw [← h]; simp
      · have h0 := hlow hset r hrP hc2 p hp h
        have := hy.lower p.1 (hP.cols r hrP p hp)
        unfold lbOk at this
        exact mul_nonneg (le_of_lt h) (le_trans h0 (this (by linarith)))
    have := two_le_dot hnn hab (one a ha har) (one b hb hbr)
    have hu := (hy.rows r hrP).2
    rw [hc2] at hu
    exact le_trans this (hu hinf)
  · obtain ⟨hbin, hrows⟩ := hpack hset
    have hrP : r ∈ P.rows := by
      unfold selection at hr
      simp only [hset, if_true] at hr
      split at hr
      · exact List.mem_of_mem_take (List.mem_of_mem_take hr)
      · exact List.mem_of_mem_take hr
    obtain ⟨h1, h2⟩ := hrows r hrP
    have one : ∀ j, j ∈ r.coefs.map Prod.fst → (j, (1 : ℚ)) ∈ r.coefs := by
      intro j hjr
      obtain ⟨p, hp, rfl⟩ := List.mem_map.mp hjr
      rw [← h2 p hp]; exact hp
    have hnn : ∀ p ∈ r.coefs, 0 ≤ p.2 * y p.1 := by
      intro p hp
      rw [h2 p hp, one_mul]
      have hlt := hP.cols r hrP p hp
      rcases binary_value hinf hlt (hbin _ hlt) hy with h | h <;> rw [h] <;> norm_num
    have := two_le_dot hnn hab (one a har) (one b hbr)
    have hu := (hy.rows r hrP).2
    rw [h1] at hu
    exact le_trans this (hu hinf)

theorem getD_mem {l : List Nat} {i : Nat} (h : i < l.length) : l.getD i 0 ∈ l := by simp [h]

theorem getD_inj {l : List Nat} (hn : l.Nodup) {i j : Nat} (hi : i < l.length) (hj : j < l.length) (h : l.getD i 0 = l.getD j 0) :
    i = j := by
  simp [hi, hj] at h
  exact (List.Nodup.getElem_inj_iff hn).mp h

/-! ### C13: validity -/

/-- C13. Every row cut `generateCuts` adds holds at every feasible point. -/
theorem generateCuts_valid (o : Obj) (primalTol : ℚ) (info : Info) (P : Prob) (x : Nat → ℚ) (cs out : List RowCut)
    (hP : P.WF) (hinf : 1 < P.inf) (hpack : o.setPacking = true → SetPacking P) (hlow : o.setPacking = false → NonnegLower P)
    (h : generateCuts o primalTol info P x cs = some out) : ∀ c ∈ out, c ∈ cs ∨ c.Valid P := by
  obtain ⟨out', e1, e2⟩ := generateCuts_spec o primalTol info P x cs
  rw [h] at e1
  simp only [Option.some.injEq] at e1
  subst e1
  intro c hc
  rcases e2.new c hc with h' | ⟨K, hK, hn, _, rfl⟩
  · exact Or.inl h'
  right
  intro y hy
  have hcols := selection_cols o (if o.petol ≠ -1 then o.petol else primalTol) primalTol info P x
  refine ⟨fun hlt => absurd hlt (lt_irrefl _), fun _ => ?_⟩
  rw [cutOf_dot]
  apply sum_le_one
  · intro v hv
    obtain ⟨i, hi, rfl⟩ := List.mem_map.mp hv
    have hm := getD_mem (hn i hi)
    exact binary_value hinf (hcols.1 _ hm) (selection_bin hpack hm) hy
  · rw [List.pairwise_map]
    refine hK.imp_of_mem ?_
    intro a b ha hb hab
    obtain ⟨hne, r, hr, h1, h2⟩ := (nodeNode_iff _ _ _ _).mp hab
    exact selection_pair hP hinf hpack hlow hr (getD_mem (hn a ha)) (getD_mem (hn b hb))
      (fun he => hne (getD_inj hcols.2 (hn a ha) (hn b hb) he)) h1 h2 hy

/-- Three binaries pairwise in a row, and a slack column `y ≥ 0` in every row. -/
def triangle (low : ℚ) : Prob :=
  { nCols := 4, inf := 10 ^ 30, colLower := fun j => if j = 3 then low else 0, colUpper := fun j => if j = 3 then 5 else 1,
    isInt := fun j => decide (j < 3),
    rows := [⟨-10 ^ 30, 1, [(0, 1), (1, 1), (3, 1)]⟩, ⟨-10 ^ 30, 1, [(1, 1), (2, 1), (3, 1)]⟩,
      ⟨-10 ^ 30, 1, [(0, 1), (2, 1), (3, 1)]⟩] }

/-- The LP solution with the three binaries at one half. -/
def half (j : Nat) : ℚ := if j < 3 then 1 / 2 else 0

/-- The hypotheses of `generateCuts_valid` hold of a problem where a cut is found. -/
example : (triangle 0).WF ∧ 1 < (triangle 0).inf ∧ NonnegLower (triangle 0) ∧
    generateCuts {} (1 / 10 ^ 7) {} (triangle 0) half [] = some [⟨-dblMax, 1, [(0, 1), (1, 1), (2, 1)]⟩] := by
  refine ⟨by decide +kernel, by decide +kernel, by decide +kernel, by decide +kernel⟩

/-- Set packing mode: five binaries, rows of the wheel with centre 4. -/
def packing : Prob :=
  { nCols := 4, inf := 10 ^ 30, colLower := fun _ => 0, colUpper := fun _ => 1, isInt := fun _ => true,
    rows := [⟨-10 ^ 30, 1, [(0, 1), (1, 1)]⟩, ⟨-10 ^ 30, 1, [(1, 1), (2, 1)]⟩, ⟨-10 ^ 30, 1, [(0, 1), (2, 1)]⟩,
      ⟨-10 ^ 30, 1, [(2, 1), (3, 1)]⟩] }

example : packing.WF ∧ SetPacking packing ∧
    generateCuts { setPacking := true } (1 / 10 ^ 7) {} packing half [] = some [⟨-dblMax, 1, [(0, 1), (1, 1), (2, 1)]⟩] := by
  refine ⟨by decide +kernel, by decide +kernel, by decide +kernel⟩

/-- The hypothesis on lower bounds is needed: `selectRowCliques` does not look at the bounds of the columns that are not
selected, and with `y ≥ -5` the same cut removes the feasible point `(1, 1, 1, -1)`. -/
theorem generateCuts_negative_invalid :
    (triangle (-5)).WF ∧ ∃ c, generateCuts {} (1 / 10 ^ 7) {} (triangle (-5)) half [] = some [c] ∧ ¬ c.Valid (triangle (-5)) := by
  refine ⟨by decide +kernel, ⟨-dblMax, 1, [(0, 1), (1, 1), (2, 1)]⟩, by decide +kernel, ?_⟩
  intro hv
  have hf : (triangle (-5)).Feasible (fun j => if j = 3 then -1 else 1) := by decide +kernel
  have := (hv _ hf).2 (by show (1 : ℚ) < dblMax; decide +kernel)
  revert this
  decide +kernel

/-! ### C14: the form of the cuts -/

/-- C14. `generateCuts` keeps the cuts it was given, in place, and appends new ones, none twice. Each new cut is
`sum of distinct columns ≤ 1`, with no lower bound, and the LP solution violates it by at least the minimum violation
(the one set by the user, else the solver's primal tolerance). -/
theorem generateCuts_form (o : Obj) (primalTol : ℚ) (info : Info) (P : Prob) (x : Nat → ℚ) (cs out : List RowCut)
    (h : generateCuts o primalTol info P x cs = some out) :
    cs <+: out ∧ (cs.Nodup → out.Nodup) ∧ ∀ c ∈ out, c ∈ cs ∨
      (c.lb = -dblMax ∧ c.ub = 1 ∧ (∀ p ∈ c.row, p.2 = 1 ∧ p.1 < P.nCols) ∧ (c.row.map Prod.fst).Pairwise (· < ·) ∧
        1 + (if o.petol ≠ -1 then o.petol else primalTol) ≤ c.row.dot x) := by
  obtain ⟨out', e1, e2⟩ := generateCuts_spec o primalTol info P x cs
  rw [h] at e1
  simp only [Option.some.injEq] at e1
  subst e1
  refine ⟨e2.pre, e2.nodup, fun c hc => ?_⟩
  rcases e2.new c hc with h' | ⟨K, hK, hn, hv, rfl⟩
  · exact Or.inl h'
  right
  have hcols := selection_cols o (if o.petol ≠ -1 then o.petol else primalTol) primalTol info P x
  refine ⟨rfl, rfl, ?_, ?_, by rw [cutOf_dot]; exact hv⟩
  · intro p hp
    unfold cutOf at hp
    obtain ⟨c, hc, rfl⟩ := List.mem_map.mp hp
    rw [(List.perm_insertionSort _ _).mem_iff] at hc
    obtain ⟨i, hi, rfl⟩ := List.mem_map.mp hc
    exact ⟨rfl, hcols.1 _ (getD_mem (hn i hi))⟩
  · unfold cutOf
    rw [List.map_map]
    have hnd : (K.map (mkGraph (if o.petol ≠ -1 then o.petol else primalTol) x
        (selection o (if o.petol ≠ -1 then o.petol else primalTol) primalTol info P x).1
        (selection o (if o.petol ≠ -1 then o.petol else primalTol) primalTol info P x).2).orig).Nodup := by
      unfold List.Nodup
      rw [List.pairwise_map]
      refine hK.imp_of_mem ?_
      intro a b ha hb hab he
      exact ((nodeNode_iff _ _ _ _).mp hab).1 (getD_inj hcols.2 (hn a ha) (hn b hb) he)
    have hs := List.pairwise_insertionSort (· ≤ ·) (K.map (mkGraph (if o.petol ≠ -1 then o.petol else primalTol) x
        (selection o (if o.petol ≠ -1 then o.petol else primalTol) primalTol info P x).1
        (selection o (if o.petol ≠ -1 then o.petol else primalTol) primalTol info P x).2).orig)
    have hnd' := (List.perm_insertionSort (· ≤ ·) _).nodup_iff.mpr hnd
    have := hs.and hnd'
    refine List.Pairwise.imp (R := fun a b : Nat => a ≤ b ∧ a ≠ b) (fun h => lt_of_le_of_ne h.1 h.2) ?_
    show List.Pairwise _ (List.map (fun c => c) _)
    rw [List.map_id']
    exact this

/-- `generateCuts` always returns (the enumeration and the star loop end). -/
theorem generateCuts_total (o : Obj) (primalTol : ℚ) (info : Info) (P : Prob) (x : Nat → ℚ) (cs : List RowCut) :
    ∃ out, generateCuts o primalTol info P x cs = some out := by
  obtain ⟨out, h, _⟩ := generateCuts_spec o primalTol info P x cs
  exact ⟨out, h⟩

/-! ### C15: completeness of the enumeration -/

/-- What C15 asks for: with thresholds that no node's degree and no number of candidates reaches, so that the code
enumerates rather than searches greedily, every set of at least three selected columns of which any two share a clique
row and whose values sum to at least `1 + petol` is contained in a clique that was recorded. -/
def Complete (o : Obj) (primalTol : ℚ) (P : Prob) (x : Nat → ℚ) : Prop :=
  ∀ out, generateCuts o primalTol {} P x [] = some out →
    ∀ K : List Nat, 3 ≤ K.length → K.Nodup →
      (∀ j ∈ K, j < P.nCols ∧ P.isInt j = true ∧ P.colLower j = 0 ∧ P.colUpper j = 1) →
      (K.Pairwise fun a b => ∃ r ∈ P.rows, r.ub = 1 ∧ (∀ p ∈ r.coefs, p.2 = 1) ∧ a ∈ r.coefs.map Prod.fst ∧ b ∈ r.coefs.map Prod.fst) →
      1 + (if o.petol ≠ -1 then o.petol else primalTol) ≤ (K.map x).sum →
      ∃ c ∈ out, ∀ j ∈ K, j ∈ c.row.map Prod.fst

/-- Six binaries: `3,4,5` pairwise in a row, and for each pair of them a further column in rows with both. -/
def decoys : Prob :=
  { nCols := 6, inf := 10 ^ 30, colLower := fun _ => 0, colUpper := fun _ => 1, isInt := fun _ => true,
    rows := [(3, 4), (3, 5), (4, 5), (0, 3), (0, 4), (1, 3), (1, 5), (2, 4), (2, 5)].map fun p =>
      ⟨-10 ^ 30, 1, [(p.1, 1), (p.2, 1)]⟩ }

/-- Values of the decoy columns and of the clique. -/
def decoyPoint (j : Nat) : ℚ := if j < 3 then 1 / 10 else 2 / 5

/-- With default settings the generator returns no cut although `x3 + x4 + x5 ≤ 1` is violated by `0.2`. -/
theorem generateCuts_misses : generateCuts {} (1 / 10 ^ 7) {} decoys decoyPoint [] = some [] ∧
    ([3, 4, 5].map decoyPoint).sum = 6 / 5 := by
  refine ⟨by decide +kernel, by decide +kernel⟩

/-- C15 is false of the code: `enumerate_maximal_cliques` passes its position by reference, so after the first maximal
clique the recursion does not go back to earlier positions. -/
theorem not_complete : ¬ Complete {} (1 / 10 ^ 7) decoys decoyPoint := by
  intro h
  obtain ⟨c, hc, _⟩ := h [] generateCuts_misses.1 [3, 4, 5] (by decide) (by decide) (by decide +kernel) (by decide +kernel)
    (by decide +kernel)
  cases hc

/-- The first-fit clique of a candidate list: candidates in order, each kept if adjacent to those kept before. -/
def IsFirstFit (g : Graph) (cl K : List Nat) : Prop :=
  ∃ keep : Nat → Bool, K = ((List.range cl.length).filter keep).map (fun i => cl.getD i 0) ∧
    ∀ i < cl.length, (keep i = true ↔ ∀ j < i, keep j = true → g.adj (cl.getD i 0) (cl.getD j 0) = true)

theorem firstFit_isFirstFit (g : Graph) (cl : List Nat) : IsFirstFit g cl (firstFit g cl) := by
  have key := ffit_final g cl cl.length 0 (fun _ => false) (by omega)
  refine ⟨ffit g cl cl.length 0 fun _ => false, ?_, ?_⟩
  · have := ffit_labs g cl cl.length 0 (fun _ => false) (by omega)
    rw [show labs cl 0 (fun _ => false) = [] from rfl, List.drop_zero] at this
    exact this.symm
  · intro i hi
    rw [key i (by omega) hi, adjAll_iff]
    constructor
    · intro h j hj hk; exact h _ (mem_labs.mpr ⟨j, hj, hk, rfl⟩)
    · intro h u hu
      obtain ⟨j, hj, hk, rfl⟩ := mem_labs.mp hu
      exact h j hj hk

/-- C15, the part that holds: the enumeration always ends, and it looks at exactly one maximal clique, the first-fit
clique of the candidate list; it records it together with the permanent nodes exactly if there is a candidate, the values
sum to at least `1 + petol`, and no deleted node is adjacent to all of it. Missing: every other maximal clique. -/
theorem enumerate_first_fit_partial {g : Graph} (hs : ∀ a b, g.adj a b = g.adj b a) (perm del cl : List Nat) (cs : List RowCut) :
    ∃ K, IsFirstFit g cl K ∧
      (enumerate g perm del cl (cl.length + 2) { pos := 0, label := fun _ => false, cuts := cs, found := 0 }).map EState.cuts =
        some (if cl ≠ [] ∧ 1 + g.petol ≤ ((K.reverse ++ perm).map g.val).sum ∧
            (∀ d ∈ del, ∃ v ∈ K.reverse ++ perm, g.adj d v = false)
          then recordClique g (K.reverse ++ perm) cs else cs) := by
  refine ⟨firstFit g cl, firstFit_isFirstFit g cl, ?_⟩
  rw [enumerate_eq hs]
  congr 1
  unfold recordIf
  have hdel : (del.any fun d => adjAll g d ((firstFit g cl).reverse ++ perm)) = false ↔
      ∀ d ∈ del, ∃ v ∈ (firstFit g cl).reverse ++ perm, g.adj d v = false := by
    rw [List.any_eq_false]
    refine forall₂_congr fun d _ => ?_
    rw [adjAll_iff]
    push Not
    simp only [ne_eq, Bool.not_eq_true]
  by_cases h1 : cl = []
  · simp [h1]
  · by_cases h2 : 1 + g.petol ≤ (((firstFit g cl).reverse ++ perm).map g.val).sum
    · cases h3 : (del.any fun d => adjAll g d ((firstFit g cl).reverse ++ perm))
      · rw [if_neg (by simp only [h1, false_or, Bool.false_eq_true, or_false, not_lt]; exact h2), if_pos ⟨h1, h2, hdel.mp h3⟩]
      · rw [if_pos (Or.inr (Or.inr rfl)), if_neg]
        rintro ⟨_, _, h⟩
        rw [hdel.mpr h] at h3; cases h3
    · rw [if_pos (Or.inr (Or.inl (lt_of_not_ge h2))), if_neg (fun h => h2 h.2.1)]

/-- In particular, if the candidates are pairwise adjacent then all of them, with the permanent nodes, are recorded when
their values sum to at least `1 + petol` and no deleted node is adjacent to all of them. -/
theorem enumerate_clique_partial {g : Graph} (hs : ∀ a b, g.adj a b = g.adj b a) (perm del cl : List Nat) (cs : List RowCut)
    (hne : cl ≠ []) (hc : cl.Pairwise fun a b => g.adj a b = true) (hv : 1 + g.petol ≤ ((cl.reverse ++ perm).map g.val).sum)
    (hd : ∀ d ∈ del, ∃ v ∈ cl.reverse ++ perm, g.adj d v = false) :
    (enumerate g perm del cl (cl.length + 2) { pos := 0, label := fun _ => false, cuts := cs, found := 0 }).map EState.cuts =
      some (recordClique g (cl.reverse ++ perm) cs) := by
  obtain ⟨K, ⟨keep, hK, hk⟩, e⟩ := enumerate_first_fit_partial hs perm del cl cs
  have hall : ∀ i < cl.length, keep i = true := by
    intro i hi
    rw [hk i hi]
    intro j hj _
    rw [hs]
    have h1 : cl.getD i 0 = cl[i] := by simp [hi]
    have h2 : cl.getD j 0 = cl[j]'(by omega) := by simp [show j < cl.length by omega]
    rw [h1, h2]
    exact List.pairwise_iff_getElem.mp hc j i (by omega) hi hj
  have hKcl : K = cl := by
    rw [hK, List.filter_eq_self.mpr (fun i hi => hall i (List.mem_range.mp hi))]
    apply List.ext_getElem
    · simp
    · intro i h1 h2; simp [h2]
  rw [hKcl] at e
  rw [e, if_pos ⟨hne, hv, hd⟩]

theorem findRcl_mem {g : Graph} {n : Nat} (hs : ∀ a b, g.adj a b = g.adj b a) (threshold : Int) {rows : List (List Nat)}
    (hr : ∀ row ∈ rows, IsClique g row ∧ ∀ v ∈ row, v < n) {row : List Nat} (hrow : row ∈ rows) (hne : row ≠ [])
    {E : List Nat} (hE : E = (List.range n).filter fun k => row.all fun u => g.adj u k) (hEne : E ≠ [])
    (hEc : E.Pairwise fun a b => g.adj a b = true) (ht : (E.length : Int) ≤ threshold)
    (hv : 1 + g.petol ≤ ((E ++ row).map g.val).sum) {cs out : List RowCut} (h : findRcl g n threshold rows cs = some out) :
    cutOf g (E.reverse ++ row) ∈ out := by
  induction rows generalizing cs with
  | nil => cases hrow
  | cons r0 rows ih =>
    have hr' := fun r h => hr r (List.mem_cons_of_mem r0 h)
    unfold findRcl at h
    rcases List.mem_cons.mp hrow with rfl | hrow'
    · rw [if_neg hne] at h
      dsimp only at h
      rw [← hE, if_neg hEne] at h
      rw [show decide ((E.length : Int) ≤ threshold) = true from decide_eq_true ht] at h
      unfold search at h
      rw [if_pos rfl, enumerate_clique_partial hs row [] E cs hEne hEc ?_ (by simp)] at h
      · dsimp only at h
        obtain ⟨out', e1, e2⟩ := findRcl_spec (n := n) hs threshold rows hr' (recordClique g (E.reverse ++ row) cs)
        rw [h] at e1
        simp only [Option.some.injEq] at e1
        subst e1
        exact e2.pre.subset (mem_insertIfNotDuplicate.mpr (Or.inr rfl))
      · rw [List.map_append, List.sum_append] at hv ⊢
        rw [List.map_reverse, List.sum_reverse]
        exact hv
    · split at h
      · exact ih hr' hrow' h
      · dsimp only at h
        split at h
        · exact ih hr' hrow' h
        · split at h
          · cases h
          · exact ih hr' hrow' h

/-- The columns of `cols` in the row. -/
def inRow (cols : List Nat) (r : Row) : List Nat := cols.filter fun j => decide (j ∈ r.coefs.map Prod.fst)

/-- The columns share a row. -/
def Share (rows : List Row) (a b : Nat) : Prop := a ≠ b ∧ ∃ r ∈ rows, a ∈ r.coefs.map Prod.fst ∧ b ∈ r.coefs.map Prod.fst

instance (rows : List Row) (a b : Nat) : Decidable (Share rows a b) := by unfold Share; infer_instance

theorem map_filter_range (sel : List Nat) (p : Nat → Bool) :
    (((List.range sel.length).filter fun i => p (sel.getD i 0)).map fun i => sel.getD i 0) = sel.filter p := by
  have : sel = (List.range sel.length).map fun i => sel.getD i 0 := by
    apply List.ext_getElem
    · simp
    · intro i h1 h2; simp [h1]
  conv_rhs => rw [this, List.filter_map]
  rfl

/-- What the row clique search does find: take a row kept by the selection, and let `E` be the selected columns that share a
kept row with every selected column of it. If there are any, any two of them share a kept row, there are not more than the
threshold, and the values of the selected columns of the row and of `E` sum to at least `1 + petol`, then the cut
returned for them is among the cuts. -/
theorem generateCuts_extends_row_partial (o : Obj) (primalTol : ℚ) (info : Info) (P : Prob) (x : Nat → ℚ) (cs out : List RowCut)
    (h : generateCuts o primalTol info P x cs = some out) (hdo : o.doRow = true)
    (petol : ℚ) (hpetol : petol = if o.petol ≠ -1 then o.petol else primalTol)
    (sel : List Nat) (rows : List Row) (hsel : selection o petol primalTol info P x = (sel, rows))
    (hsize : rows.length ≤ 100000 ∧ 2 ≤ sel.length ∧ sel.length ≤ 10000)
    (r : Row) (hr : r ∈ rows) (hne : inRow sel r ≠ [])
    (E : List Nat) (hE : E = sel.filter fun j => decide (∀ k ∈ inRow sel r, Share rows j k)) (hEne : E ≠ [])
    (hEc : E.Pairwise (Share rows)) (ht : (E.length : Int) ≤ o.rclThreshold) (hv : 1 + petol ≤ ((E ++ inRow sel r).map x).sum) :
    ∃ c ∈ out, c.row.map Prod.fst = (E ++ inRow sel r).insertionSort (· ≤ ·) := by
  have hnd : sel.Nodup := by have := (selection_cols o petol primalTol info P x).2; rw [hsel] at this; exact this
  unfold generateCuts at h
  simp only [← hpetol, hsel] at h
  rw [if_neg (by omega), if_pos hdo] at h
  have hs : ∀ a b, (mkGraph petol x sel rows).adj a b = (mkGraph petol x sel rows).adj b a := nodeNode_symm sel rows
  have hrr : ∀ row ∈ rows.map (nodesOfRow sel), IsClique (mkGraph petol x sel rows) row ∧ ∀ v ∈ row, v < sel.length := by
    intro row hrow
    obtain ⟨r, hr, rfl⟩ := List.mem_map.mp hrow
    exact nodesOfRow_spec sel rows hr petol x
  have hN : (nodesOfRow sel r).map (fun i => sel.getD i 0) = inRow sel r :=
    map_filter_range sel fun j => decide (j ∈ r.coefs.map Prod.fst)
  have hshare : ∀ i < sel.length, ∀ j < sel.length, (nodeNode sel rows i j = true ↔ Share rows (sel.getD i 0) (sel.getD j 0)) := by
    intro i hi j hj
    rw [nodeNode_iff]
    constructor
    · rintro ⟨h1, h2⟩; exact ⟨fun he => h1 (getD_inj hnd hi hj he), h2⟩
    · rintro ⟨h1, h2⟩; exact ⟨fun he => h1 (by rw [he]), h2⟩
  have hEN : ((List.range sel.length).filter fun k => (nodesOfRow sel r).all fun u => (mkGraph petol x sel rows).adj u k).map
      (fun i => sel.getD i 0) = E := by
    rw [hE, ← map_filter_range sel fun j => decide (∀ k ∈ inRow sel r, Share rows j k)]
    congr 1
    apply List.filter_congr
    intro k hk
    rw [List.mem_range] at hk
    rw [Bool.eq_iff_iff, List.all_eq_true, decide_eq_true_eq, ← hN]
    constructor
    · intro h j hj
      obtain ⟨u, hu, rfl⟩ := List.mem_map.mp hj
      exact (hshare k hk u ((nodesOfRow_spec sel rows hr petol x).2 u hu)).mp (by rw [nodeNode_symm]; exact h u hu)
    · intro h u hu
      show nodeNode sel rows u k = true
      rw [nodeNode_symm]
      exact (hshare k hk u ((nodesOfRow_spec sel rows hr petol x).2 u hu)).mpr (h _ (List.mem_map.mpr ⟨u, hu, rfl⟩))
  cases hfr : findRcl (mkGraph petol x sel rows) sel.length o.rclThreshold (rows.map (nodesOfRow sel)) cs with
  | none => rw [hfr] at h; cases h
  | some cs1 =>
    have hmem := findRcl_mem hs o.rclThreshold hrr (List.mem_map.mpr ⟨r, hr, rfl⟩)
      (fun h0 => hne (by rw [← hN, h0]; rfl)) rfl (fun h0 => hEne (by rw [← hEN, h0]; rfl))
      (by
        rw [← hEN, List.pairwise_map] at hEc
        refine hEc.imp_of_mem ?_
        intro a b ha hb hab
        rw [List.mem_filter, List.mem_range] at ha hb
        exact (hshare a ha.1 b hb.1).mpr hab)
      (by rw [← hEN, List.length_map] at ht; exact ht)
      (by
        rw [← hEN, ← hN, ← List.map_append, List.map_map] at hv
        exact hv) hfr
    rw [hfr] at h
    dsimp only at h
    refine ⟨cutOf (mkGraph petol x sel rows) (((List.range sel.length).filter fun k =>
        (nodesOfRow sel r).all fun u => (mkGraph petol x sel rows).adj u k).reverse ++ nodesOfRow sel r), ?_, ?_⟩
    · split at h
      · obtain ⟨out', o1, o2⟩ := sclLoop_spec (n := sel.length) hs o.rule o.sclThreshold (sel.length + 1)
          ((List.range sel.length).map fun i => ⟨i, (degree sel.length (mkGraph petol x sel rows).adj i : Int), (mkGraph petol x sel rows).val i⟩)
          [] cs1 (by simp) (fun c hc => by
            obtain ⟨i, hi, rfl⟩ := List.mem_map.mp hc
            simpa using hi)
        unfold findScl at h
        rw [h] at o1
        simp only [Option.some.injEq] at o1
        subst o1
        exact o2.pre.subset hmem
      · simp only [Option.some.injEq] at h
        subst h
        exact hmem
    · unfold cutOf
      rw [List.map_map]
      show List.map (fun c => c) _ = _
      rw [List.map_id']
      have hp : (((List.range sel.length).filter fun k => (nodesOfRow sel r).all fun u => (mkGraph petol x sel rows).adj u k).reverse ++
          nodesOfRow sel r).map (mkGraph petol x sel rows).orig |>.Perm (E ++ inRow sel r) := by
        rw [List.map_append, List.map_reverse]
        show List.Perm ((((List.range sel.length).filter fun k => (nodesOfRow sel r).all fun u =>
          (mkGraph petol x sel rows).adj u k).map fun i => sel.getD i 0).reverse ++ (nodesOfRow sel r).map fun i => sel.getD i 0) _
        rw [hEN, hN]
        exact List.Perm.append_right _ (List.reverse_perm E)
      refine List.Perm.eq_of_pairwise (le := (· ≤ ·)) (fun a b _ _ h1 h2 => le_antisymm h1 h2) (List.pairwise_insertionSort _ _) (List.pairwise_insertionSort _ _) ?_
      exact (List.perm_insertionSort _ _).trans (hp.trans (List.perm_insertionSort _ _).symm)

/-- The hypotheses of `generateCuts_extends_row_partial` hold of the triangle with its first row: the third binary extends it. -/
example : ∃ r ∈ (triangle 0).rows, selection {} (1 / 10 ^ 7) (1 / 10 ^ 7) {} (triangle 0) half = ([0, 1, 2], (triangle 0).rows) ∧
    inRow [0, 1, 2] r = [0, 1] ∧
    ([0, 1, 2].filter fun j => decide (∀ k ∈ inRow [0, 1, 2] r, Share (triangle 0).rows j k)) = [2] ∧
    (1 : ℚ) + 1 / 10 ^ 7 ≤ (([2] ++ [0, 1]).map half).sum := by
  refine ⟨⟨-10 ^ 30, 1, [(0, 1), (1, 1), (3, 1)]⟩, by simp [triangle], ?_, by decide +kernel, by decide +kernel, by decide +kernel⟩
  have h1 : (selection {} (1 / 10 ^ 7) (1 / 10 ^ 7) {} (triangle 0) half).1 = [0, 1, 2] := by decide +kernel
  have h2 : (selection {} (1 / 10 ^ 7) (1 / 10 ^ 7) {} (triangle 0) half).2 = (triangle 0).rows := by
    show ((triangle 0).rows.take 3).filter (isCliqueRow _) = _
    rw [List.take_of_length_le (by simp [triangle]), List.filter_eq_self]
    decide +kernel
  exact Prod.ext h1 h2

/-- The hypotheses are met: a graph of three pairwise adjacent candidates and one permanent node. -/
example : ∃ g : Graph, (∀ a b, g.adj a b = g.adj b a) ∧ ([1, 2, 3] : List Nat).Pairwise (fun a b => g.adj a b = true) ∧
    1 + g.petol ≤ ((([1, 2, 3] : List Nat).reverse ++ [0]).map g.val).sum ∧
    ∀ d ∈ ([4] : List Nat), ∃ v ∈ ([1, 2, 3] : List Nat).reverse ++ [0], g.adj d v = false := by
  refine ⟨⟨fun a b => decide (a ≠ b ∧ a < 4 ∧ b < 4), fun _ => 2 / 5, 1 / 10 ^ 7, id⟩, ?_, by decide, by decide +kernel, by decide⟩
  intro a b
  simp only [decide_eq_decide]
  constructor <;> rintro ⟨h1, h2, h3⟩ <;> exact ⟨h1.symm, h3, h2⟩

end Cgl.Clique
