import Verif.OddHole.Lemmas
import Mathlib.Algebra.Order.Floor.Semiring
import Mathlib.Data.Finset.Card
import Mathlib.Algebra.Order.BigOperators.Group.Finset

/-! The search of the odd-hole generator ends, and the walk back finds the start. -/

namespace Cgl.OddHole

/-- Invariant of the search from `icol` on `N` nodes. -/
structure SInv (N icol : Nat) (lab : Labels) : Prop where
  nonneg : ∀ v, 0 ≤ lab.cost v
  start : lab.cost icol = 0
  back : ∀ v, v ≠ icol → lab.cost v < 10 ^ 70 → ∃ u, lab.back v = some u ∧ u < N ∧ lab.cost u < lab.cost v

/-- The stack holds current labels. -/
def StackOk (N : Nat) (lab : Labels) (stack : List (ℚ × Nat)) : Prop := ∀ p ∈ stack, p.1 = lab.cost p.2 ∧ p.2 < N

/-- Sum of the labels in units of the tolerance. -/
def pot (N : Nat) (lab : Labels) : Nat := ∑ v ∈ Finset.range N, ⌊lab.cost v * 10 ^ 12⌋₊

theorem pot_drop {N : Nat} {lab : Labels} {d : Nat} (hd : d < N) {c : ℚ} {b : Nat → Option Nat} (hc : 0 ≤ c)
    (h : c < lab.cost d - 1 / 10 ^ 12) :
    pot N { cost := fun j => if j = d then c else lab.cost j, back := b } + 1 ≤ pot N lab := by
  unfold pot
  rw [← Finset.add_sum_erase _ _ (Finset.mem_range.mpr hd), ← Finset.add_sum_erase (Finset.range N) _ (Finset.mem_range.mpr hd)]
  simp only [if_true]
  have e : ∑ x ∈ (Finset.range N).erase d, ⌊(if x = d then c else lab.cost x) * 10 ^ 12⌋₊
      = ∑ x ∈ (Finset.range N).erase d, ⌊lab.cost x * 10 ^ 12⌋₊ := by
    apply Finset.sum_congr rfl
    intro x hx
    rw [if_neg (Finset.ne_of_mem_erase hx)]
  rw [e]
  have h1 : c * 10 ^ 12 + 1 ≤ lab.cost d * 10 ^ 12 := by
    have : c * 10 ^ 12 < (lab.cost d - 1 / 10 ^ 12) * 10 ^ 12 := mul_lt_mul_of_pos_right h (by norm_num)
    rw [sub_mul] at this
    norm_num at this ⊢
    linarith
  have h2 : ⌊c * 10 ^ 12⌋₊ + 1 ≤ ⌊lab.cost d * 10 ^ 12⌋₊ := by
    rw [← Nat.floor_add_one (mul_nonneg hc (by norm_num))]
    exact Nat.floor_le_floor h1
  omega

theorem relax_inv {N icol inode : Nat} {thisCost : ℚ} (hin : inode < N) (as : List Arc)
    (has : ∀ a ∈ as, a.dst < N ∧ 0 < a.cost) (lab : Labels) (stack : List (ℚ × Nat)) (hi : SInv N icol lab)
    (hs : StackOk N lab stack) (hc : lab.cost inode = thisCost) :
    SInv N icol (relax inode thisCost as (lab, stack)).1 ∧
      StackOk N (relax inode thisCost as (lab, stack)).1 (relax inode thisCost as (lab, stack)).2 ∧
      2 * pot N (relax inode thisCost as (lab, stack)).1 + (relax inode thisCost as (lab, stack)).2.length
        ≤ 2 * pot N lab + stack.length := by
  induction as generalizing lab stack with
  | nil => exact ⟨hi, hs, le_refl _⟩
  | cons a as ih =>
    obtain ⟨ha1, ha2⟩ := has a (List.mem_cons_self ..)
    unfold relax
    split
    · rename_i hcond
      obtain ⟨hn, hlt⟩ := hcond
      have h0 : 0 ≤ thisCost := by rw [← hc]; exact hi.nonneg _
      have hne : a.dst ≠ icol := by
        intro h
        rw [h, hi.start] at hlt
        have : (0:ℚ) < 1 / 10 ^ 12 := by norm_num
        linarith
      have hne2 : a.dst ≠ inode := by
        intro h
        rw [h, hc] at hlt
        have : (0:ℚ) < 1 / 10 ^ 12 := by norm_num
        linarith
      have hlt' : thisCost + a.cost < lab.cost a.dst := by
        have : (0:ℚ) < 1 / 10 ^ 12 := by norm_num
        linarith
      have hi' : SInv N icol ⟨fun j => if j = a.dst then thisCost + a.cost else lab.cost j,
          fun j => if j = a.dst then some inode else lab.back j⟩ := by
        refine ⟨?_, ?_, ?_⟩
        · intro v; dsimp only; split
          · linarith
          · exact hi.nonneg v
        · dsimp only; rw [if_neg (Ne.symm hne)]; exact hi.start
        · intro v hv hf
          dsimp only at hf ⊢
          by_cases hva : v = a.dst
          · refine ⟨inode, by rw [if_pos hva], hin, ?_⟩
            rw [if_pos hva, if_neg (Ne.symm hne2), hc]; linarith
          · rw [if_neg hva] at hf ⊢
            rw [if_neg hva]
            obtain ⟨u, hu1, hu2, hu3⟩ := hi.back v hv hf
            refine ⟨u, hu1, hu2, ?_⟩
            split
            · rename_i hu; rw [hu] at hu3; linarith
            · exact hu3
      have hs' : StackOk N ⟨fun j => if j = a.dst then thisCost + a.cost else lab.cost j,
          fun j => if j = a.dst then some inode else lab.back j⟩ ((thisCost + a.cost, a.dst) :: stack) := by
        intro p hp
        rcases List.mem_cons.mp hp with rfl | hp
        · exact ⟨by simp, ha1⟩
        · have hpd : p.2 ≠ a.dst := fun h => hn (h ▸ List.mem_map_of_mem hp)
          dsimp only
          rw [if_neg hpd]
          exact hs p hp
      obtain ⟨r1, r2, r3⟩ := ih (fun b hb => has b (List.mem_cons_of_mem _ hb)) _ _ hi' hs' (by
        dsimp only; rw [if_neg (Ne.symm hne2)]; exact hc)
      refine ⟨r1, r2, le_trans r3 ?_⟩
      have := pot_drop (N := N) (b := fun j => if j = a.dst then some inode else lab.back j) ha1 (by linarith) hlt
      simp only [List.length_cons]
      omega
    · exact ih (fun b hb => has b (List.mem_cons_of_mem _ hb)) _ _ hi hs hc

theorem search_total {N icol : Nat} {arcs : Nat → List Arc} (harc : ∀ v, ∀ a ∈ arcs v, a.dst < N ∧ 0 < a.cost)
    (fuel : Nat) (lab : Labels) (stack : List (ℚ × Nat)) (hi : SInv N icol lab) (hs : StackOk N lab stack)
    (hf : 2 * pot N lab + stack.length < fuel) : ∃ lab', search arcs fuel (lab, stack) = .ok lab' ∧ SInv N icol lab' := by
  induction fuel generalizing lab stack with
  | zero => omega
  | succ fuel ih =>
    cases stack with
    | nil => exact ⟨lab, rfl, hi⟩
    | cons p stack =>
      obtain ⟨c, v⟩ := p
      obtain ⟨h1, h2⟩ := hs (c, v) (List.mem_cons_self ..)
      obtain ⟨r1, r2, r3⟩ := relax_inv h2 (arcs v) (harc v) lab stack hi
        (fun q hq => hs q (List.mem_cons_of_mem _ hq)) h1.symm
      simp only [List.length_cons] at hf r3
      exact ih _ _ r1 r2 (by omega)

theorem walk_total {n icol : Nat} {lab : Labels} (hi : SInv (2 * n) icol lab) (fuel : Nat) (jcol : Nat)
    (mark cand : List Nat) (hj : lab.cost jcol < 10 ^ 70) (hjn : jcol < 2 * n) (hm : mark.Nodup) (hmn : ∀ m ∈ mark, m < n)
    (hlen : cand.length ≤ mark.length + 1)
    (hf : ((Finset.range (2 * n)).filter fun v => lab.cost v < lab.cost jcol).card < fuel) :
    ∃ out, walk n icol lab fuel jcol mark cand = .ok out ∧ out.length ≤ n + 1 := by
  induction fuel generalizing jcol mark cand with
  | zero => omega
  | succ fuel ih =>
    unfold walk
    by_cases hji : jcol = icol
    · rw [if_pos hji]
      refine ⟨cand, rfl, ?_⟩
      have h1 : mark.length ≤ n := by
        have h2 := List.toFinset_card_of_nodup hm
        have h3 : mark.toFinset ⊆ Finset.range n := by
          intro m hm'; rw [List.mem_toFinset] at hm'; exact Finset.mem_range.mpr (hmn m hm')
        have h4 := Finset.card_le_card h3
        rw [Finset.card_range] at h4
        omega
      omega
    · rw [if_neg hji]
      obtain ⟨u, h1, h2, h3⟩ := hi.back jcol hji hj
      have hcard : ((Finset.range (2 * n)).filter fun v => lab.cost v < lab.cost u).card <
          ((Finset.range (2 * n)).filter fun v => lab.cost v < lab.cost jcol).card := by
        apply Finset.card_lt_card
        constructor
        · intro v hv
          rw [Finset.mem_filter] at hv ⊢
          exact ⟨hv.1, lt_trans hv.2 h3⟩
        · intro hsub
          have : u ∈ (Finset.range (2 * n)).filter fun v => lab.cost v < lab.cost jcol := by
            rw [Finset.mem_filter]; exact ⟨Finset.mem_range.mpr h2, h3⟩
          have := hsub this
          rw [Finset.mem_filter] at this
          exact lt_irrefl _ this.2
      simp only [h1]
      have hjj : (if u ≥ n then u - n else u) < n := by split <;> omega
      generalize (if u ≥ n then u - n else u) = w at hjj
      split
      · exact ih u mark cand (lt_trans h3 hj) h2 hm hmn hlen (by omega)
      · rename_i hnm
        refine ih u _ _ (lt_trans h3 hj) h2 (List.nodup_cons.mpr ⟨hnm, hm⟩) ?_ ?_ (by omega)
        · intro m hm'
          rcases List.mem_cons.mp hm' with rfl | hm'
          · exact hjj
          · exact hmn m hm'
        · simp only [List.length_append, List.length_cons, List.length_nil]; omega

theorem pot_init (N icol : Nat) (b : Nat → Option Nat) :
    pot N { cost := fun j => if j = icol then 0 else 10 ^ 70, back := b } ≤ N * 10 ^ 82 := by
  unfold pot
  have : ∀ v ∈ Finset.range N, ⌊(if v = icol then (0:ℚ) else 10 ^ 70) * 10 ^ 12⌋₊ ≤ 10 ^ 82 := by
    intro v _
    apply Nat.floor_le_of_le
    split
    · norm_num
    · norm_num
  calc _ ≤ (Finset.range N).card • 10 ^ 82 := Finset.sum_le_card_nsmul _ _ _ this
    _ = N * 10 ^ 82 := by rw [Finset.card_range, smul_eq_mul]

theorem oneColumn_total {o : Obj} {rows : List (Row × Int)} {n : Nat} {arcs : Nat → List Arc} {packed : Bool}
    {sol dj check : Nat → ℚ} {fuel icol : Nat} {st : List RowCut × List ℚ} (hicol : icol < n)
    (harc : ∀ v, ∀ a ∈ arcs v, a.dst < 2 * n ∧ 0 < a.cost) (hfuel : 4 * n * 10 ^ 82 + 1 < fuel) :
    (∃ st', oneColumn o rows n arcs packed sol dj check fuel icol st = .ok st') ∨
      (rows.length < n ∧ oneColumn o rows n arcs packed sol dj check fuel icol st = .error .mrowOverflow) := by
  unfold oneColumn
  dsimp only
  obtain ⟨lab, h1, h2⟩ := search_total (N := 2 * n) (icol := icol) harc fuel
    { cost := fun j => if j = icol then 0 else 10 ^ 70, back := fun _ => none } [(0, icol)]
    ⟨fun v => by dsimp only; split <;> norm_num, by simp, fun v hv hf => by
      dsimp only at hf; rw [if_neg hv] at hf; exact absurd hf (lt_irrefl _)⟩
    (by
      intro p hp
      rw [List.mem_singleton] at hp
      subst hp
      exact ⟨by simp, by simp only; omega⟩)
    (by
      have := pot_init (2 * n) icol (fun _ => none)
      simp only [List.length_singleton]
      have e : 4 * n * 10 ^ 82 = 2 * (2 * n * 10 ^ 82) := by ring
      omega)
  rw [h1]
  dsimp only
  split
  · rename_i hlt
    obtain ⟨cand, h3, h4⟩ := walk_total h2 (2 * n + 1) (icol + n) [] [icol + n]
      (lt_trans hlt (by norm_num)) (by omega) List.nodup_nil (by simp) (by simp) (by
        have := Finset.card_filter_le (Finset.range (2 * n)) (fun v => lab.cost v < lab.cost (icol + n))
        rw [Finset.card_range] at this
        omega)
    rw [h3]
    dsimp only
    unfold useChain
    dsimp only
    have h5 := chainRows_length arcs cand
    split
    · right; exact ⟨by omega, rfl⟩
    · left
      split
      · exact ⟨_, rfl⟩
      · split
        · exact ⟨_, rfl⟩
        · split <;> exact ⟨_, rfl⟩
  · exact Or.inl ⟨_, rfl⟩

theorem columnLoop_total {o : Obj} {rows : List (Row × Int)} {n : Nat} {arcs : Nat → List Arc} {packed : Bool}
    {sol dj check : Nat → ℚ} {fuel : Nat} (harc : ∀ v, ∀ a ∈ arcs v, a.dst < 2 * n ∧ 0 < a.cost)
    (hfuel : 4 * n * 10 ^ 82 + 1 < fuel) (k icol : Nat) (hk : icol + k ≤ n) (st : List RowCut × List ℚ) :
    (∃ st', columnLoop o rows n arcs packed sol dj check fuel k icol st = .ok st') ∨
      (rows.length < n ∧ columnLoop o rows n arcs packed sol dj check fuel k icol st = .error .mrowOverflow) := by
  induction k generalizing icol st with
  | zero => exact Or.inl ⟨st, rfl⟩
  | succ k ih =>
    unfold columnLoop
    rcases oneColumn_total (o := o) (rows := rows) (packed := packed) (sol := sol) (dj := dj) (check := check) (st := st)
      (show icol < n by omega) harc hfuel with ⟨st', h⟩ | ⟨h0, h⟩
    · rw [h]; exact ih (icol + 1) (by omega) st'
    · rw [h]; exact Or.inr ⟨h0, rfl⟩

theorem pass_total (o : Obj) (P : Prob) (lp dj check : Nat → ℚ) (fuel : Nat) (suit : List Int) (packed : Bool)
    (cs : List RowCut) (hlen : suit.length = P.rows.length) (hfuel : 4 * P.nCols * 10 ^ 82 + 1 < fuel) :
    (∃ cs', pass o P lp dj check fuel suit packed cs = .ok cs') ∨
      (P.rows.length < P.nCols ∧ pass o P lp dj check fuel suit packed cs = .error .mrowOverflow) := by
  unfold pass
  dsimp only
  have hn : (freeCols P lp).length ≤ P.nCols := by
    unfold freeCols
    calc _ ≤ (List.range P.nCols).length := List.length_filter_le _ _
      _ = P.nCols := List.length_range
  have hz : (P.rows.zip suit).length = P.rows.length := by rw [List.length_zip, hlen, Nat.min_self]
  have h4 : 4 * (freeCols P lp).length * 10 ^ 82 ≤ 4 * P.nCols * 10 ^ 82 := by
    apply Nat.mul_le_mul_right; omega
  rcases columnLoop_total (o := o) (rows := P.rows.zip suit) (packed := packed) (sol := cleanSol P lp) (dj := dj)
    (check := check) (fuel := fuel) (n := (freeCols P lp).length)
    (arcs := arcs2 (freeCols P lp).length (arcsFrom (freeCols P lp) (cleanSol P lp) (P.rows.zip suit) packed))
    (fun v a ha => (arcs2_inv (fun v a ha => arcsFrom_inv a ha) v a ha).2) (lt_of_le_of_lt (Nat.add_le_add_right h4 1) hfuel)
    (freeCols P lp).length 0 (by omega) (cs, []) with ⟨st', h⟩ | ⟨h0, h⟩
  · rw [h]; exact Or.inl ⟨st'.1, rfl⟩
  · rw [h]; exact Or.inr ⟨by omega, rfl⟩

end Cgl.OddHole
