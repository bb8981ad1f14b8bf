import Verif.Clique.Model

namespace Cgl.Clique

/-! ### The intersection graph -/

theorem orthLoop_false {fuel : Nat} {l m : List Nat} (h : orthLoop fuel l m = false) : ∃ a, a ∈ l ∧ a ∈ m := by
  induction fuel generalizing l m with
  | zero => simp [orthLoop] at h
  | succ k ih =>
    cases l with
    | nil => simp [orthLoop] at h
    | cons a as =>
      cases m with
      | nil => simp [orthLoop] at h
      | cons b bs =>
        simp only [orthLoop] at h
        split at h
        · rename_i e; subst e; exact ⟨a, by simp, by simp⟩
        · split at h
          · obtain ⟨c, h1, h2⟩ := ih h; exact ⟨c, List.mem_cons_of_mem _ h1, h2⟩
          · obtain ⟨c, h1, h2⟩ := ih h; exact ⟨c, h1, List.mem_cons_of_mem _ h2⟩

theorem orthLoop_common {fuel : Nat} {l m : List Nat} (hf : l.length + m.length ≤ fuel) (hl : l.Pairwise (· < ·))
    (hm : m.Pairwise (· < ·)) {c : Nat} (h1 : c ∈ l) (h2 : c ∈ m) : orthLoop fuel l m = false := by
  induction fuel generalizing l m with
  | zero => have : l.length = 0 := by omega
            rw [List.length_eq_zero_iff.mp this] at h1; cases h1
  | succ k ih =>
    cases l with
    | nil => cases h1
    | cons a as =>
      cases m with
      | nil => cases h2
      | cons b bs =>
        simp only [orthLoop]
        simp only [List.length_cons] at hf
        rw [List.pairwise_cons] at hl hm
        split
        · rfl
        · rename_i hab
          split
          · rename_i hlt
            refine ih (by simp only [List.length_cons]; omega) hl.2 (List.pairwise_cons.mpr hm) ?_ h2
            rcases List.mem_cons.mp h1 with rfl | h
            · rcases List.mem_cons.mp h2 with rfl | h'
              · omega
              · have := hm.1 c h'; omega
            · exact h
          · rename_i hlt
            refine ih (by simp only [List.length_cons]; omega) (List.pairwise_cons.mpr hl) hm.2 h1 ?_
            rcases List.mem_cons.mp h2 with rfl | h
            · rcases List.mem_cons.mp h1 with rfl | h'
              · omega
              · have := hl.1 c h'; omega
            · exact h

theorem rowsOfNode_sorted (sel : List Nat) (rows : List Row) (j : Nat) : (rowsOfNode sel rows j).Pairwise (· < ·) := by
  unfold rowsOfNode
  exact List.Pairwise.filter _ List.pairwise_lt_range

theorem mem_rowsOfNode {sel : List Nat} {rows : List Row} {j i : Nat} :
    i ∈ rowsOfNode sel rows j ↔ ∃ r, rows[i]? = some r ∧ sel.getD j 0 ∈ r.coefs.map Prod.fst := by
  unfold rowsOfNode
  rw [List.mem_filter, List.mem_range]
  constructor
  · rintro ⟨h1, h2⟩
    split at h2
    · rename_i r hr; exact ⟨r, hr, by simpa using h2⟩
    · cases h2
  · rintro ⟨r, hr, h⟩
    refine ⟨(List.getElem?_eq_some_iff.mp hr).1, ?_⟩
    rw [hr]; simpa using h

/-- Two nodes are adjacent exactly if they are different and their columns share a row of the submatrix. -/
theorem nodeNode_iff (sel : List Nat) (rows : List Row) (i j : Nat) :
    nodeNode sel rows i j = true ↔ i ≠ j ∧ ∃ r ∈ rows, sel.getD i 0 ∈ r.coefs.map Prod.fst ∧ sel.getD j 0 ∈ r.coefs.map Prod.fst := by
  have key : ∀ a b, isOrthogonal (rowsOfNode sel rows a) (rowsOfNode sel rows b) = false ↔
      ∃ r ∈ rows, sel.getD a 0 ∈ r.coefs.map Prod.fst ∧ sel.getD b 0 ∈ r.coefs.map Prod.fst := by
    intro a b
    constructor
    · intro h
      obtain ⟨k, h1, h2⟩ := orthLoop_false h
      obtain ⟨r, hr, hr1⟩ := mem_rowsOfNode.mp h1
      obtain ⟨r', hr', hr1'⟩ := mem_rowsOfNode.mp h2
      rw [hr] at hr'
      simp only [Option.some.injEq] at hr'
      subst hr'
      exact ⟨r, List.mem_of_getElem? hr, hr1, hr1'⟩
    · rintro ⟨r, hr, h1, h2⟩
      obtain ⟨k, hk⟩ := List.getElem?_of_mem hr
      exact orthLoop_common (le_refl _) (rowsOfNode_sorted ..) (rowsOfNode_sorted ..)
        (mem_rowsOfNode.mpr ⟨r, hk, h1⟩) (mem_rowsOfNode.mpr ⟨r, hk, h2⟩)
  unfold nodeNode
  split
  · rename_i h
    rw [Bool.not_eq_true', key]
    exact ⟨fun h' => ⟨by omega, h'⟩, fun h' => h'.2⟩
  · split
    · rw [Bool.not_eq_true', key]
      constructor
      · rintro ⟨r, a, b, c⟩; exact ⟨by omega, r, a, c, b⟩
      · rintro ⟨_, r, a, b, c⟩; exact ⟨r, a, c, b⟩
    · constructor
      · intro h; cases h
      · rintro ⟨h, _⟩; omega

theorem nodeNode_symm (sel : List Nat) (rows : List Row) (i j : Nat) : nodeNode sel rows i j = nodeNode sel rows j i := by
  rw [Bool.eq_iff_iff, nodeNode_iff, nodeNode_iff]
  constructor <;> rintro ⟨h, r, a, b, c⟩ <;> exact ⟨h.symm, r, a, c, b⟩

/-! ### Greedy choice -/

theorem adjAll_iff {g : Graph} {v : Nat} {l : List Nat} : adjAll g v l = true ↔ ∀ u ∈ l, g.adj v u = true := by
  unfold adjAll; simp

/-- Pairwise adjacency. -/
def IsClique (g : Graph) (l : List Nat) : Prop := l.Pairwise fun a b => g.adj a b = true

theorem greedyLoop_spec {g : Graph} (hs : ∀ a b, g.adj a b = g.adj b a) (l acc : List Nat) (h : IsClique g acc) :
    IsClique g (greedyLoop g l acc) ∧ (∀ v ∈ greedyLoop g l acc, v ∈ acc ∨ v ∈ l) ∧ (∀ v ∈ acc, v ∈ greedyLoop g l acc) ∧
    (∀ v ∈ l, v ∉ greedyLoop g l acc → ∃ u ∈ greedyLoop g l acc, g.adj v u = false) := by
  induction l generalizing acc with
  | nil => exact ⟨h, fun v hv => Or.inl hv, fun v hv => hv, fun v hv => by cases hv⟩
  | cons a t ih =>
    unfold greedyLoop
    by_cases ha : adjAll g a acc = true
    · rw [if_pos ha]
      have hc : IsClique g (acc ++ [a]) := by
        unfold IsClique
        rw [List.pairwise_append]
        refine ⟨h, by simp, fun u hu b hb => ?_⟩
        rw [List.mem_singleton] at hb
        subst hb
        rw [hs]; exact adjAll_iff.mp ha u hu
      obtain ⟨h1, h2, h3, h4⟩ := ih _ hc
      refine ⟨h1, fun v hv => ?_, fun v hv => h3 v (by simp [hv]), fun v hv hn => ?_⟩
      · rcases h2 v hv with h | h
        · rcases List.mem_append.mp h with h | h
          · exact Or.inl h
          · rw [List.mem_singleton] at h; subst h; simp
        · exact Or.inr (List.mem_cons_of_mem _ h)
      · rcases List.mem_cons.mp hv with rfl | hv
        · exact absurd (h3 v (by simp)) hn
        · exact h4 v hv hn
    · rw [if_neg ha]
      obtain ⟨h1, h2, h3, h4⟩ := ih _ h
      refine ⟨h1, fun v hv => (h2 v hv).imp_right (List.mem_cons_of_mem _), h3, fun v hv hn => ?_⟩
      rcases List.mem_cons.mp hv with rfl | hv
      · rw [adjAll_iff] at ha
        push Not at ha
        obtain ⟨u, hu, hn'⟩ := ha
        exact ⟨u, h3 u hu, by simpa using hn'⟩
      · exact h4 v hv hn

/-! ### The enumeration -/

/-- The candidates labelled among the first `pos`. -/
def labs (cl : List Nat) (pos : Nat) (label : Nat → Bool) : List Nat :=
  ((List.range pos).filter fun j => label j).map fun j => cl.getD j 0

theorem labs_succ (cl : List Nat) (pos : Nat) (label : Nat → Bool) :
    labs cl (pos + 1) label = labs cl pos label ++ (if label pos then [cl.getD pos 0] else []) := by
  unfold labs
  rw [List.range_succ, List.filter_append, List.map_append]
  congr 1
  by_cases h : label pos = true
  · simp [h]
  · simp [h]

theorem labs_congr {cl : List Nat} {pos : Nat} {l1 l2 : Nat → Bool} (h : ∀ j < pos, l1 j = l2 j) :
    labs cl pos l1 = labs cl pos l2 := by
  unfold labs
  congr 1
  apply List.filter_congr
  intro j hj
  exact h j (List.mem_range.mp hj)

theorem labelled_eq (cl : List Nat) (label : Nat → Bool) : labelled cl label = (labs cl cl.length label).reverse := by
  unfold labelled labs
  rw [List.filter_reverse, List.map_reverse]

theorem ok_eq (g : Graph) (cl : List Nat) (pos : Nat) (label : Nat → Bool) :
    ((List.range pos).all fun j => !(label j) || g.adj (cl.getD pos 0) (cl.getD j 0)) =
      adjAll g (cl.getD pos 0) (labs cl pos label) := by
  rw [Bool.eq_iff_iff, adjAll_iff, List.all_eq_true]
  unfold labs
  constructor
  · intro h u hu
    obtain ⟨j, hj, rfl⟩ := List.mem_map.mp hu
    rw [List.mem_filter] at hj
    have := h j hj.1
    simpa [hj.2] using this
  · intro h j hj
    by_cases hl : label j = true
    · have := h (cl.getD j 0) (List.mem_map.mpr ⟨j, List.mem_filter.mpr ⟨hj, hl⟩, rfl⟩)
      rw [this, Bool.or_true]
    · simp [hl]

/-- All positions processed without stopping. -/
def ffit (g : Graph) (cl : List Nat) : Nat → Nat → (Nat → Bool) → (Nat → Bool)
  | 0, _, label => label
  | k + 1, pos, label => ffit g cl k (pos + 1) (setLabel label pos (adjAll g (cl.getD pos 0) (labs cl pos label)))

theorem advance_spec (g : Graph) (cl : List Nat) : ∀ (k pos : Nat) (label : Nat → Bool), pos + k = cl.length →
    pos ≤ (advance g cl k pos label).1 ∧ (advance g cl k pos label).1 ≤ cl.length ∧ (0 < k → pos < (advance g cl k pos label).1) ∧
    ffit g cl (cl.length - (advance g cl k pos label).1) (advance g cl k pos label).1 (advance g cl k pos label).2 =
      ffit g cl k pos label
  | 0, pos, label, h => by simp only [advance]; exact ⟨le_refl _, by omega, fun h => absurd h (by omega), by
      rw [show cl.length - pos = 0 by omega]⟩
  | k + 1, pos, label, h => by
    unfold advance
    rw [ok_eq]
    dsimp only
    by_cases ha : adjAll g (cl.getD pos 0) (labs cl pos label) = true
    · rw [if_pos ha]
      refine ⟨by simp, by simp; omega, fun _ => by simp, ?_⟩
      show ffit g cl (cl.length - (pos + 1)) (pos + 1) (setLabel label pos true) = ffit g cl (k + 1) pos label
      rw [show cl.length - (pos + 1) = k by omega]
      conv_rhs => unfold ffit
      rw [ha]
    · rw [if_neg ha]
      obtain ⟨h1, h2, h3, h4⟩ := advance_spec g cl k (pos + 1) (setLabel label pos false) (by omega)
      refine ⟨by omega, h2, fun _ => by omega, ?_⟩
      rw [h4]
      conv_rhs => unfold ffit
      simp only [Bool.not_eq_true] at ha
      rw [ha]

theorem drop_getD {cl : List Nat} {pos : Nat} (h : pos < cl.length) : cl.drop pos = cl.getD pos 0 :: cl.drop (pos + 1) := by
  rw [List.drop_eq_getElem_cons h]; simp [h]

theorem setLabel_self (label : Nat → Bool) (p : Nat) (b : Bool) : setLabel label p b p = b := by simp [setLabel]
theorem setLabel_ne (label : Nat → Bool) {p j : Nat} (b : Bool) (h : j ≠ p) : setLabel label p b j = label j := by
  simp [setLabel, h]

theorem ffit_labs (g : Graph) (cl : List Nat) : ∀ (k pos : Nat) (label : Nat → Bool), pos + k = cl.length →
    labs cl cl.length (ffit g cl k pos label) = greedyLoop g (cl.drop pos) (labs cl pos label)
  | 0, pos, label, h => by
    rw [List.drop_of_length_le (by omega)]
    simp only [ffit, greedyLoop]
    rw [show pos = cl.length by omega]
  | k + 1, pos, label, h => by
    unfold ffit
    rw [ffit_labs g cl k (pos + 1) _ (by omega), drop_getD (by omega : pos < cl.length), labs_succ, setLabel_self,
      labs_congr (l2 := label) (fun j hj => setLabel_ne _ _ (by omega))]
    conv_rhs => unfold greedyLoop
    congr 1
    split
    · rfl
    · simp

/-- The clique that positions processed in order give. -/
def firstFit (g : Graph) (cl : List Nat) : List Nat := greedyLoop g cl []

/-- A record is made of the first-fit clique. -/
def recordIf (g : Graph) (perm del cl : List Nat) (cs : List RowCut) : List RowCut :=
  if cl = [] ∨ (((firstFit g cl).reverse ++ perm).map g.val).sum < 1 + g.petol ∨
      del.any (fun d => adjAll g d ((firstFit g cl).reverse ++ perm)) then cs
  else recordClique g ((firstFit g cl).reverse ++ perm) cs

theorem recordClique_twice (g : Graph) (l : List Nat) (cs : List RowCut) :
    recordClique g l (recordClique g l cs) = recordClique g l cs := by
  unfold recordClique
  generalize ({ lb := -dblMax, ub := 1, row := _ } : RowCut) = c
  unfold insertIfNotDuplicate
  by_cases h : c ∈ cs
  · rw [if_pos h, if_pos h]
  · rw [if_neg h, if_pos (by simp)]

theorem firstFit_ne_nil {g : Graph} (hs : ∀ a b, g.adj a b = g.adj b a) {cl : List Nat} (h : cl ≠ []) : firstFit g cl ≠ [] := by
  cases cl with
  | nil => exact absurd rfl h
  | cons a t =>
    unfold firstFit greedyLoop
    rw [if_pos (by rfl)]
    have := (greedyLoop_spec hs t ([] ++ [a]) (by simp [IsClique])).2.2.1 a (by simp)
    intro h0; rw [h0] at this; cases this

theorem mem_labs {cl : List Nat} {pos : Nat} {label : Nat → Bool} {v : Nat} :
    v ∈ labs cl pos label ↔ ∃ j < pos, label j = true ∧ cl.getD j 0 = v := by
  unfold labs
  simp only [List.mem_map, List.mem_filter, List.mem_range]
  constructor
  · rintro ⟨j, ⟨a, b⟩, c⟩; exact ⟨j, a, b, c⟩
  · rintro ⟨j, a, b, c⟩; exact ⟨j, ⟨a, b⟩, c⟩

/-- In the final labelling, an unlabelled position has a labelled earlier one it is not adjacent to; two different
labelled positions are adjacent. -/
structure Final (g : Graph) (cl : List Nat) (label : Nat → Bool) : Prop where
  unl : ∀ k < cl.length, label k = false → ∃ j < cl.length, label j = true ∧ g.adj (cl.getD k 0) (cl.getD j 0) = false
  lab : ∀ k < cl.length, ∀ j < k, label k = true → label j = true → g.adj (cl.getD k 0) (cl.getD j 0) = true

theorem ffit_mono (g : Graph) (cl : List Nat) : ∀ (k pos : Nat) (label : Nat → Bool) (j : Nat), j < pos →
    ffit g cl k pos label j = label j
  | 0, _, _, _, _ => rfl
  | k + 1, pos, label, j, h => by
    unfold ffit
    rw [ffit_mono g cl k (pos + 1) _ j (by omega), setLabel_ne _ _ (by omega)]

theorem ffit_final (g : Graph) (cl : List Nat) : ∀ (k pos : Nat) (label : Nat → Bool), pos + k = cl.length →
    ∀ p, pos ≤ p → p < cl.length → ffit g cl k pos label p =
      adjAll g (cl.getD p 0) (labs cl p (ffit g cl k pos label))
  | 0, pos, label, h, p, h1, h2 => by omega
  | k + 1, pos, label, h, p, h1, h2 => by
    unfold ffit
    rcases Nat.lt_or_ge pos p with hp | hp
    · exact ffit_final g cl k (pos + 1) _ (by omega) p (by omega) h2
    · have : p = pos := by omega
      subst this
      rw [ffit_mono g cl k (p + 1) _ p (by omega), setLabel_self]
      congr 1
      apply labs_congr
      intro j hj
      rw [ffit_mono g cl k (p + 1) _ j (by omega), setLabel_ne _ _ (by omega)]

theorem ffit_isFinal (g : Graph) (cl : List Nat) : Final g cl (ffit g cl cl.length 0 fun _ => false) := by
  have key := ffit_final g cl cl.length 0 (fun _ => false) (by omega)
  constructor
  · intro k hk hl
    rw [key k (by omega) hk] at hl
    have : ¬ adjAll g (cl.getD k 0) (labs cl k (ffit g cl cl.length 0 fun _ => false)) = true := by rw [hl]; simp
    rw [adjAll_iff] at this
    push Not at this
    obtain ⟨u, hu, hn⟩ := this
    obtain ⟨j, hj, h1, rfl⟩ := mem_labs.mp hu
    exact ⟨j, by omega, h1, by simpa using hn⟩
  · intro k hk j hj h1 h2
    rw [key k (by omega) hk, adjAll_iff] at h1
    exact h1 _ (mem_labs.mpr ⟨j, hj, h2, rfl⟩)

/-- Recording from the final labelling. -/
theorem leaf_final {g : Graph} (hs : ∀ a b, g.adj a b = g.adj b a) {perm del cl : List Nat} {label : Nat → Bool}
    (hf : Final g cl label) (hl : labs cl cl.length label = firstFit g cl) (cs : List RowCut) :
    (leaf g perm del cl label cs).1 = recordIf g perm del cl cs := by
  unfold leaf recordIf
  rw [labelled_eq, hl]
  dsimp only
  by_cases hcl : cl = []
  · subst hcl
    rw [if_pos (by rfl), if_pos (Or.inl rfl)]
  · have hne := firstFit_ne_nil hs hcl
    have hany : ((List.range cl.length).any fun k => !label k && adjAll g (cl.getD k 0) (firstFit g cl).reverse) = false := by
      rw [List.any_eq_false]
      intro k hk hh
      rw [List.mem_range] at hk
      simp only [Bool.and_eq_true, Bool.not_eq_true'] at hh
      obtain ⟨j, hj, h1, h2⟩ := hf.unl k hk hh.1
      have := adjAll_iff.mp hh.2 (cl.getD j 0) (by rw [List.mem_reverse, ← hl]; exact mem_labs.mpr ⟨j, hj, h1, rfl⟩)
      rw [h2] at this; cases this
    rw [if_neg (by simpa using hne), hany]
    simp only [Bool.false_eq_true, if_false, hcl, false_or]
    split
    · rename_i h; rw [if_pos (Or.inl h)]
    · rename_i h
      split
      · rename_i h'; rw [if_pos (Or.inr h')]
      · rename_i h'; rw [if_neg (by push Not; exact ⟨le_of_not_gt h, by simpa using h'⟩)]

/-- Clearing the last label and checking again changes nothing. -/
theorem leaf_cleared {g : Graph} (hs : ∀ a b, g.adj a b = g.adj b a) {perm del cl : List Nat} {label : Nat → Bool}
    (hf : Final g cl label) (hl : labs cl cl.length label = firstFit g cl) (cs : List RowCut) :
    (leaf g perm del cl (setLabel label (cl.length - 1) false) (recordIf g perm del cl cs)).1 = recordIf g perm del cl cs := by
  by_cases hlast : label (cl.length - 1) = true
  · by_cases hcl : cl.length = 0
    · have : cl = [] := List.length_eq_zero_iff.mp hcl
      subst this
      rfl
    · unfold leaf
      dsimp only
      split
      · rfl
      · rw [if_pos]
        rw [List.any_eq_true]
        refine ⟨cl.length - 1, by rw [List.mem_range]; omega, ?_⟩
        rw [setLabel_self]
        simp only [Bool.not_false, Bool.true_and]
        rw [adjAll_iff]
        intro u hu
        rw [labelled_eq, List.mem_reverse] at hu
        obtain ⟨j, hj, h1, rfl⟩ := mem_labs.mp hu
        have hne : j ≠ cl.length - 1 := by rintro rfl; rw [setLabel_self] at h1; cases h1
        rw [setLabel_ne _ _ hne] at h1
        exact hf.lab _ (by omega) j (by omega) hlast h1
  · have hsame : setLabel label (cl.length - 1) false = label := by
      funext j
      by_cases h : j = cl.length - 1
      · subst h; rw [setLabel_self]; simpa using hlast
      · exact setLabel_ne _ _ h
    rw [hsame, leaf_final hs hf hl]
    unfold recordIf
    split
    · rfl
    · rw [recordClique_twice]

/-- What the enumeration computes. -/
theorem enumerate_run {g : Graph} (hs : ∀ a b, g.adj a b = g.adj b a) {perm del cl : List Nat} {L : Nat → Bool}
    (hf : Final g cl L) (hl : labs cl cl.length L = firstFit g cl) :
    ∀ (fuel : Nat) (s : EState), s.pos ≤ cl.length → cl.length - s.pos + 1 ≤ fuel →
      ffit g cl (cl.length - s.pos) s.pos s.label = L →
      ∃ s', enumerate g perm del cl fuel s = some s' ∧ s'.pos = cl.length ∧ s'.cuts = recordIf g perm del cl s.cuts ∧
        (s'.label = L ∨ s'.label = setLabel L (cl.length - 1) false)
  | 0, s, h1, h2, _ => by omega
  | fuel + 1, s, h1, h2, h3 => by
    obtain ⟨a1, a2, a3, a4⟩ := advance_spec g cl (cl.length - s.pos) s.pos s.label (by omega)
    unfold enumerate
    dsimp only
    generalize advance g cl (cl.length - s.pos) s.pos s.label = a at a1 a2 a3 a4
    by_cases hlt : a.1 < cl.length
    · rw [if_pos hlt]
      obtain ⟨s1, e1, e2, e3, e4⟩ := enumerate_run hs hf hl fuel { s with pos := a.1, label := a.2 } (by simp; omega)
        (by simp only; have := a3 (by omega); omega) (by simp only; rw [a4, h3])
      rw [e1]
      dsimp only
      have hlab : setLabel s1.label (s1.pos - 1) false = setLabel L (cl.length - 1) false := by
        rw [e2]
        rcases e4 with e | e
        · rw [e]
        · rw [e]; funext j; unfold setLabel; split <;> rfl
      rw [hlab]
      cases fuel with
      | zero => have := a3 (by omega); omega
      | succ f =>
        unfold enumerate
        dsimp only
        rw [e2, Nat.sub_self]
        simp only [advance, lt_irrefl, if_false]
        refine ⟨_, rfl, rfl, ?_, Or.inr rfl⟩
        simp only
        rw [e3]
        exact leaf_cleared hs hf hl s.cuts
    · rw [if_neg hlt]
      have ha : a.1 = cl.length := by omega
      refine ⟨_, rfl, ha, ?_, Or.inl ?_⟩
      · have : a.2 = L := by rw [← h3, ← a4, ha, Nat.sub_self]; rfl
        simp only
        rw [this]
        exact leaf_final hs hf hl s.cuts
      · rw [← h3, ← a4, ha, Nat.sub_self]; rfl

/-- The enumeration always ends, and records the first-fit clique and nothing else. -/
theorem enumerate_eq {g : Graph} (hs : ∀ a b, g.adj a b = g.adj b a) (perm del cl : List Nat) (cs : List RowCut) :
    (enumerate g perm del cl (cl.length + 2) { pos := 0, label := fun _ => false, cuts := cs, found := 0 }).map EState.cuts =
      some (recordIf g perm del cl cs) := by
  have hl : labs cl cl.length (ffit g cl cl.length 0 fun _ => false) = firstFit g cl := by
    rw [ffit_labs g cl cl.length 0 _ (by omega)]; simp [firstFit, labs]
  obtain ⟨s', e1, _, e3, _⟩ := enumerate_run hs (perm := perm) (del := del) (ffit_isFinal g cl) hl (cl.length + 2)
    { pos := 0, label := fun _ => false, cuts := cs, found := 0 } (by simp) (by simp) (by simp)
  rw [e1]
  simp [e3]

/-! ### Every recorded cut is a violated clique -/

/-- The cut of a list of nodes. -/
def cutOf (g : Graph) (K : List Nat) : RowCut :=
  { lb := -dblMax, ub := 1, row := ((K.map g.orig).insertionSort (· ≤ ·)).map fun c => (c, 1) }

/-- The cut comes from a clique of nodes below `n` whose values sum to at least `1 + petol`. -/
def FromClique (g : Graph) (n : Nat) (c : RowCut) : Prop :=
  ∃ K : List Nat, IsClique g K ∧ (∀ v ∈ K, v < n) ∧ 1 + g.petol ≤ (K.map g.val).sum ∧ c = cutOf g K

theorem mem_recordClique {g : Graph} {K : List Nat} {cs : List RowCut} {c : RowCut} (h : c ∈ recordClique g K cs) :
    c ∈ cs ∨ c = cutOf g K := mem_insertIfNotDuplicate.mp h

/-- What a search step does to the collection: it appends cuts from cliques, none twice. -/
structure Step (g : Graph) (n : Nat) (cs out : List RowCut) : Prop where
  pre : cs <+: out
  nodup : cs.Nodup → out.Nodup
  new : ∀ c ∈ out, c ∈ cs ∨ FromClique g n c

theorem Step.refl (g : Graph) (n : Nat) (cs : List RowCut) : Step g n cs cs := ⟨List.prefix_rfl, id, fun _ h => Or.inl h⟩

theorem Step.trans {g : Graph} {n : Nat} {a b c : List RowCut} (h1 : Step g n a b) (h2 : Step g n b c) : Step g n a c :=
  ⟨h1.pre.trans h2.pre, fun h => h2.nodup (h1.nodup h), fun d hd => by
    rcases h2.new d hd with h | h
    · exact h1.new d h
    · exact Or.inr h⟩

theorem Step.record {g : Graph} {n : Nat} {K : List Nat} (h1 : IsClique g K) (h2 : ∀ v ∈ K, v < n)
    (h3 : 1 + g.petol ≤ (K.map g.val).sum) (cs : List RowCut) : Step g n cs (recordClique g K cs) := by
  refine ⟨?_, ?_, fun c hc => ?_⟩
  · unfold recordClique insertIfNotDuplicate
    split
    · exact List.prefix_rfl
    · exact List.prefix_append _ _
  · intro h
    unfold recordClique insertIfNotDuplicate
    split
    · exact h
    · rename_i hn
      rw [List.nodup_append]
      exact ⟨h, by simp, fun a ha b hb => by rw [List.mem_singleton] at hb; subst hb; rintro rfl; exact hn ha⟩
  · rcases mem_recordClique hc with h | rfl
    · exact Or.inl h
    · exact Or.inr ⟨K, h1, h2, h3, rfl⟩

theorem clique_append {g : Graph} {l m : List Nat} (h1 : IsClique g l) (h2 : IsClique g m)
    (h3 : ∀ a ∈ l, ∀ b ∈ m, g.adj a b = true) : IsClique g (l ++ m) := List.pairwise_append.mpr ⟨h1, h2, h3⟩

theorem clique_reverse {g : Graph} (hs : ∀ a b, g.adj a b = g.adj b a) {l : List Nat} (h : IsClique g l) : IsClique g l.reverse := by
  unfold IsClique at *
  rw [List.pairwise_reverse]
  exact h.imp (fun h => by rw [hs]; exact h)

theorem sortByDegree_mem {l : List (Int × Nat)} {v : Nat} (h : v ∈ sortByDegree l) : v ∈ l.map Prod.snd := by
  unfold sortByDegree at h
  exact ((List.perm_insertionSort _ l).map Prod.snd).mem_iff.mp h

theorem search_spec {g : Graph} {n : Nat} (hs : ∀ a b, g.adj a b = g.adj b a) {perm del cl : List Nat} (hp : IsClique g perm)
    (hpc : ∀ a ∈ cl, ∀ b ∈ perm, g.adj a b = true) (hpn : ∀ v ∈ perm, v < n) (hcn : ∀ v ∈ cl, v < n) (enum : Bool)
    (deg : Nat → Int) (cs : List RowCut) :
    ∃ out, search g perm del cl enum deg cs = some out ∧ Step g n cs out := by
  unfold search
  cases enum
  · simp only [Bool.false_eq_true, if_false]
    refine ⟨_, rfl, ?_⟩
    have hmem : ∀ v ∈ sortByDegree (cl.map fun v => (deg v, v)), v ∈ cl := by
      intro v hv
      have := sortByDegree_mem hv
      rw [List.map_map] at this
      simpa using this
    generalize sortByDegree (cl.map fun v => (deg v, v)) = sc at hmem
    cases sc with
    | nil => exact Step.refl _ _ _
    | cons a rest =>
      unfold greedy
      dsimp only
      obtain ⟨g1, g2, _, _⟩ := greedyLoop_spec hs rest [a] (by simp [IsClique])
      split
      · exact Step.refl _ _ _
      · split
        · rename_i hv
          have hsub : ∀ v ∈ greedyLoop g rest [a], v ∈ cl := by
            intro v hv
            apply hmem
            rcases g2 v hv with h | h
            · rw [List.mem_singleton] at h; subst h; simp
            · simp [h]
          refine Step.record (clique_append g1 hp fun a ha b hb => hpc a (hsub a ha) b hb) ?_ (le_of_lt hv) cs
          intro v hv
          rcases List.mem_append.mp hv with h | h
          · exact hcn v (hsub v h)
          · exact hpn v h
        · exact Step.refl _ _ _
  · simp only [if_true]
    rw [enumerate_eq hs]
    refine ⟨_, rfl, ?_⟩
    unfold recordIf
    split
    · exact Step.refl _ _ _
    · rename_i hn
      push Not at hn
      obtain ⟨g1, g2, _, _⟩ := greedyLoop_spec hs cl [] (by simp [IsClique])
      have hsub : ∀ v ∈ firstFit g cl, v ∈ cl := fun v hv => by
        rcases g2 v hv with h | h
        · cases h
        · exact h
      refine Step.record (clique_append (clique_reverse hs g1) hp fun a ha b hb => hpc a (hsub a (List.mem_reverse.mp ha)) b hb)
        ?_ hn.2.1 cs
      intro v hv
      rcases List.mem_append.mp hv with h | h
      · exact hcn v (hsub v (List.mem_reverse.mp h))
      · exact hpn v h

theorem findRcl_spec {g : Graph} {n : Nat} (hs : ∀ a b, g.adj a b = g.adj b a) (threshold : Int) (rows : List (List Nat))
    (hr : ∀ row ∈ rows, IsClique g row ∧ ∀ v ∈ row, v < n) (cs : List RowCut) :
    ∃ out, findRcl g n threshold rows cs = some out ∧ Step g n cs out := by
  induction rows generalizing cs with
  | nil => exact ⟨cs, rfl, Step.refl _ _ _⟩
  | cons row rows ih =>
    have ih' := ih (fun r h => hr r (List.mem_cons_of_mem _ h))
    unfold findRcl
    split
    · exact ih' cs
    · dsimp only
      split
      · exact ih' cs
      · obtain ⟨h1, h2⟩ := hr row (List.mem_cons_self ..)
        obtain ⟨cs1, e1, e2⟩ := search_spec (g := g) (n := n) hs (perm := row) (del := [])
          (cl := (List.range n).filter fun k => row.all fun u => g.adj u k) h1
          (fun a ha b hb => by
            rw [List.mem_filter] at ha
            have := List.all_eq_true.mp ha.2 b hb
            rw [hs]; exact this) h2
          (fun v hv => by rw [List.mem_filter, List.mem_range] at hv; exact hv.1)
          (decide ((((List.range n).filter fun k => row.all fun u => g.adj u k).length : Int) ≤ threshold))
          (fun v => degree n g.adj v) cs
        rw [e1]
        obtain ⟨out, o1, o2⟩ := ih' cs1
        exact ⟨out, o1, e2.trans o2⟩

theorem chooseNext_mem (rule : NextRule) (b : Cur) (l : List Cur) : chooseNext rule b l ∈ b :: l := by
  induction l generalizing b with
  | nil => simp [chooseNext]
  | cons c cs ih =>
    unfold chooseNext
    have := ih (if better rule b c = true then c else b)
    split at this
    · rename_i h
      rw [if_pos h]
      exact List.mem_cons_of_mem _ this
    · rename_i h
      rw [if_neg h]
      rcases List.mem_cons.mp this with h | h
      · rw [h]; simp
      · simp [h]

theorem deleteNode_length (g : Graph) {cur : List Cur} {b : Cur} (h : b ∈ cur) : (deleteNode g b.idx cur).length < cur.length := by
  unfold deleteNode
  rw [List.length_map]
  apply lt_of_le_of_ne (List.length_filter_le _ _)
  intro he
  have := List.length_filter_eq_length_iff.mp he b h
  simp at this

theorem deleteNode_mem {g : Graph} {cur : List Cur} {v : Nat} {c : Cur} (h : c ∈ deleteNode g v cur) : ∃ c' ∈ cur, c'.idx = c.idx := by
  unfold deleteNode at h
  obtain ⟨c', h', rfl⟩ := List.mem_map.mp h
  refine ⟨c', (List.mem_filter.mp h').1, ?_⟩
  split <;> rfl

theorem sclLoop_spec {g : Graph} {n : Nat} (hs : ∀ a b, g.adj a b = g.adj b a) (rule : NextRule) (threshold : Int) :
    ∀ (fuel : Nat) (cur : List Cur) (del : List Nat) (cs : List RowCut), cur.length < fuel → (∀ c ∈ cur, c.idx < n) →
    ∃ out, sclLoop g rule threshold fuel cur del cs = some out ∧ Step g n cs out
  | 0, cur, del, cs, h, _ => by omega
  | fuel + 1, cur, del, cs, h, hn => by
    unfold sclLoop
    split
    · exact ⟨cs, rfl, Step.refl _ _ _⟩
    · cases cur with
      | nil => exact ⟨cs, rfl, Step.refl _ _ _⟩
      | cons c0 rest =>
        dsimp only
        have hb := chooseNext_mem rule c0 rest
        generalize chooseNext rule c0 rest = b at hb
        have hlen := deleteNode_length g hb
        have hrec := fun cs' => sclLoop_spec hs rule threshold fuel (deleteNode g b.idx (c0 :: rest)) (del ++ [b.idx]) cs'
          (by omega) (fun c hc => by obtain ⟨c', h1, h2⟩ := deleteNode_mem hc; rw [← h2]; exact hn c' h1)
        split
        · exact hrec cs
        · split
          · obtain ⟨cs1, e1, e2⟩ := search_spec (g := g) (n := n) hs (perm := [b.idx]) (del := del)
              (cl := ((c0 :: rest).filter fun c => g.adj b.idx c.idx).map Cur.idx) (by simp [IsClique])
              (fun a ha b' hb' => by
                rw [List.mem_singleton] at hb'
                subst hb'
                obtain ⟨c, hc, rfl⟩ := List.mem_map.mp ha
                rw [hs]; exact (List.mem_filter.mp hc).2)
              (fun v hv => by rw [List.mem_singleton] at hv; subst hv; exact hn b hb)
              (fun v hv => by
                obtain ⟨c, hc, rfl⟩ := List.mem_map.mp hv
                exact hn c (List.mem_filter.mp hc).1)
              (decide (b.deg < threshold))
              (degOf ((c0 :: rest).filter fun c => g.adj b.idx c.idx)) cs
            rw [e1]
            obtain ⟨out, o1, o2⟩ := hrec cs1
            exact ⟨out, o1, e2.trans o2⟩
          · exact hrec cs

theorem nodesOfRow_spec (sel : List Nat) (rows : List Row) {r : Row} (hr : r ∈ rows) (petol : ℚ) (x : Nat → ℚ) :
    IsClique (mkGraph petol x sel rows) (nodesOfRow sel r) ∧ ∀ v ∈ nodesOfRow sel r, v < sel.length := by
  constructor
  · unfold IsClique nodesOfRow
    apply List.Pairwise.imp_of_mem (R := (· < ·))
    · intro a b ha hb hab
      rw [List.mem_filter] at ha hb
      show nodeNode sel rows a b = true
      rw [nodeNode_iff]
      exact ⟨by omega, r, hr, by simpa using ha.2, by simpa using hb.2⟩
    · exact List.Pairwise.filter _ List.pairwise_lt_range
  · intro v hv
    unfold nodesOfRow at hv
    rw [List.mem_filter, List.mem_range] at hv
    exact hv.1

/-- Every cut `generateCuts` adds comes from a clique of the intersection graph; it always returns. -/
theorem generateCuts_spec (o : Obj) (primalTol : ℚ) (info : Info) (P : Prob) (x : Nat → ℚ) (cs : List RowCut) :
    ∃ out, generateCuts o primalTol info P x cs = some out ∧
      Step (mkGraph (if o.petol ≠ -1 then o.petol else primalTol) x
        (selection o (if o.petol ≠ -1 then o.petol else primalTol) primalTol info P x).1
        (selection o (if o.petol ≠ -1 then o.petol else primalTol) primalTol info P x).2)
        (selection o (if o.petol ≠ -1 then o.petol else primalTol) primalTol info P x).1.length cs out := by
  unfold generateCuts
  dsimp only
  generalize (if o.petol ≠ -1 then o.petol else primalTol) = petol
  generalize selection o petol primalTol info P x = s
  obtain ⟨sel, rows⟩ := s
  dsimp only
  split
  · exact ⟨cs, rfl, Step.refl _ _ _⟩
  · have hs : ∀ a b, (mkGraph petol x sel rows).adj a b = (mkGraph petol x sel rows).adj b a := nodeNode_symm sel rows
    have h1 : ∃ cs1, (if o.doRow = true then findRcl (mkGraph petol x sel rows) sel.length o.rclThreshold
          (rows.map (nodesOfRow sel)) cs else some cs) = some cs1 ∧
        Step (mkGraph petol x sel rows) sel.length cs cs1 := by
      split
      · refine findRcl_spec hs _ _ (fun row hrow => ?_) cs
        obtain ⟨r, hr, rfl⟩ := List.mem_map.mp hrow
        exact nodesOfRow_spec sel rows hr petol x
      · exact ⟨cs, rfl, Step.refl _ _ _⟩
    obtain ⟨cs1, e1, e2⟩ := h1
    rw [e1]
    dsimp only
    split
    · obtain ⟨out, o1, o2⟩ := sclLoop_spec (n := sel.length) hs o.rule o.sclThreshold (sel.length + 1)
        ((List.range sel.length).map fun i => ⟨i, (degree sel.length (mkGraph petol x sel rows).adj i : Int), (mkGraph petol x sel rows).val i⟩)
        [] cs1 (by simp) (fun c hc => by
          obtain ⟨i, hi, rfl⟩ := List.mem_map.mp hc
          simpa using hi)
      exact ⟨out, o1, e2.trans o2⟩
    · exact ⟨cs1, rfl, e2⟩

end Cgl.Clique
