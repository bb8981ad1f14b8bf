import Verif.FlowCover.Point
import Verif.FlowCover.Pre
import Verif.Clique.Props

/-!
# From the lifted inequality back to the columns of the problem
-/

namespace Cgl.FlowCover

open Cgl.MIR (Representable lower_le le_upper)

/-- A class of numbers closed under addition and negation, and what is lost when a number of the class of size at most 1e-6 is
dropped as coefficient of a variable between zero and one. -/
structure Tol (G : ℚ → Prop) (e : ℚ) : Prop where
  zero : G 0
  add : ∀ a b, G a → G b → G (a + b)
  neg : ∀ a, G a → G (-a)
  nonneg : 0 ≤ e
  drop : ∀ a y, G a → |a| ≤ eps → 0 ≤ y → y ≤ 1 → -a * y ≤ e

namespace Tol

variable {G : ℚ → Prop} {e : ℚ} (T : Tol G e)
include T

theorem sub {a b : ℚ} (ha : G a) (hb : G b) : G (a - b) := by rw [sub_eq_add_neg]; exact T.add _ _ ha (T.neg _ hb)

theorem nsmul (n : Nat) {a : ℚ} (ha : G a) : G (n * a) := by
  induction n with
  | zero => simpa using T.zero
  | succ n ih =>
    have : ((n + 1 : Nat) : ℚ) * a = n * a + a := by push_cast; ring
    rw [this]; exact T.add _ _ ih ha

theorem sum {l : List ℚ} (h : ∀ a ∈ l, G a) : G l.sum := by
  induction l with
  | nil => exact T.zero
  | cons a l ih => rw [List.sum_cons]; exact T.add _ _ (h a (by simp)) (ih fun b hb => h b (by simp [hb]))

theorem abs {a : ℚ} (h : G a) : G |a| := by
  rcases abs_choice a with e | e <;> rw [e]
  · exact h
  · exact T.neg _ h

theorem upSum {sel : Item × Bool → Bool} {ps : List (Item × Bool)} (h : ∀ p ∈ ps, G p.1.up) : G (upSum sel ps) := by
  refine T.sum ?_
  intro a ha
  obtain ⟨p, hp, rfl⟩ := List.mem_map.1 ha
  exact h p (List.mem_filter.1 hp).1

end Tol

/-- Every number: dropping costs at most 1e-6. -/
theorem tol_all : Tol (fun _ => True) eps where
  zero := trivial
  add _ _ _ _ := trivial
  neg _ _ := trivial
  nonneg := eps_pos.le
  drop a y _ h h0 h1 := by
    have := (abs_le.1 h).1
    have he := eps_pos
    nlinarith

/-- Multiples of a step above 1e-6: nothing is ever lost. -/
theorem tol_grid {δ : ℚ} (h : eps < δ) : Tol (fun a => IsInteger (a / δ)) 0 where
  zero := ⟨0, by simp⟩
  add := by
    rintro a b ⟨k, hk⟩ ⟨l, hl⟩
    exact ⟨k + l, by rw [add_div, hk, hl]; push_cast; rfl⟩
  neg := by
    rintro a ⟨k, hk⟩
    exact ⟨-k, by rw [neg_div, hk]; push_cast; rfl⟩
  nonneg := le_refl _
  drop := by
    rintro a y ⟨k, hk⟩ ha - -
    have he := eps_pos
    have hδ : 0 < δ := by linarith
    have hak : a = k * δ := by rw [← hk]; field_simp
    have hk0 : k = 0 := by
      by_contra hne
      have h1 : (1 : ℚ) ≤ |(k : ℚ)| := by
        have : (1 : ℤ) ≤ |k| := Int.one_le_abs hne
        exact_mod_cast this
      rw [hak, abs_mul, abs_of_pos hδ] at ha
      nlinarith
    rw [hak, hk0]; simp

/-! ### The coefficients of the inequality -/

section
variable {G : ℚ → Prop} {e : ℚ} {rhs lam : ℚ} {ps : List (Item × Bool)}

theorem mt_mem {u : ℚ} (h : u ∈ mtOf lam ps) : ∃ p ∈ ps, u = p.1.up := by
  unfold mtOf at h
  have h2 := (List.perm_insertionSort _ _).mem_iff.1 ((List.takeWhile_sublist _).subset h)
  obtain ⟨p, hp, rfl⟩ := List.mem_map.1 h2
  exact ⟨p, (List.mem_filter.1 hp).1, rfl⟩

theorem grid_M (T : Tol G e) (hu : ∀ p ∈ ps, G p.1.up) (i : Nat) : G ((mkLift rhs lam ps).M i) := by
  unfold Lift.M
  refine T.sum ?_
  intro a ha
  obtain ⟨p, hp, rfl⟩ := mt_mem (List.mem_of_mem_take ha)
  exact hu p hp

theorem grid_rise (T : Tol G e) (hl : G lam) (hu : ∀ p ∈ ps, G p.1.up) {z : ℚ} (hz : G z) (i : Nat) :
    G (z - (mkLift rhs lam ps).M i + i * lam) := T.add _ _ (T.sub hz (grid_M T hu i)) (T.nsmul i hl)

theorem grid_liftMinus (T : Tol G e) (hl : G lam) (hu : ∀ p ∈ ps, G p.1.up) {z : ℚ} (hz : G z) :
    G (liftMinus (mkLift rhs lam ps) z) := by
  have e1 : (mkLift rhs lam ps).lam = lam := rfl
  unfold liftMinus
  rw [e1]
  split
  · exact grid_rise T hl hu hz _
  · split
    · exact T.nsmul _ hl
    · split
      · exact grid_rise T hl hu hz _
      · split
        · exact grid_rise T hl hu hz _
        · split
          · exact T.nsmul _ hl
          · split
            · exact grid_rise T hl hu hz _
            · exact T.zero

theorem grid_plusPiece (T : Tol G e) (hl : G lam) (hu : ∀ p ∈ ps, G p.1.up) (y x : ℚ) (i : Nat) :
    G (plusPiece (mkLift rhs lam ps) y x i).2 ∧
      ((plusPiece (mkLift rhs lam ps) y x i).1 = 0 ∨ (plusPiece (mkLift rhs lam ps) y x i).1 = 1) := by
  have e1 : (mkLift rhs lam ps).lam = lam := rfl
  unfold plusPiece
  rw [e1]
  split
  · exact ⟨T.sub (grid_M T hu i) (T.nsmul i hl), Or.inr rfl⟩
  · exact ⟨T.zero, Or.inl rfl⟩

theorem grid_liftPlus (T : Tol G e) (hl : G lam) (hu : ∀ p ∈ ps, G p.1.up) (m y x : ℚ) :
    G (liftPlus (mkLift rhs lam ps) m y x).2 ∧
      ((liftPlus (mkLift rhs lam ps) m y x).1 = 0 ∨ (liftPlus (mkLift rhs lam ps) m y x).1 = 1) := by
  unfold liftPlus
  split
  · split
    · exact grid_plusPiece T hl hu _ _ _
    · exact ⟨T.zero, Or.inl rfl⟩
  · split
    · exact grid_plusPiece T hl hu _ _ _
    · exact ⟨T.zero, Or.inl rfl⟩

/-- The coefficient of a flow variable is 0, 1 or -1. -/
def Unit3 (a : ℚ) : Prop := a = 0 ∨ a = 1 ∨ a = -1

theorem grid_base (T : Tol G e) (hl : G lam) (hu : ∀ p ∈ ps, G p.1.up) {p : Item × Bool} (hp : p ∈ ps) :
    G (baseCoef lam p).1 ∧ Unit3 (baseCoef lam p).2 := by
  unfold baseCoef Unit3
  split_ifs
  · exact ⟨T.sub hl (hu p hp), by simp⟩
  · exact ⟨T.zero, by simp⟩
  · exact ⟨T.neg _ hl, by simp⟩
  · exact ⟨T.zero, by simp⟩
  · exact ⟨T.zero, by simp⟩

theorem grid_lifted (T : Tol G e) (hl : G lam) (hu : ∀ p ∈ ps, G p.1.up) {p : Item × Bool} (hp : p ∈ ps) :
    G (liftedCoef (mkLift rhs lam ps) p).1 ∧ Unit3 (liftedCoef (mkLift rhs lam ps) p).2 := by
  unfold liftedCoef
  split
  · obtain ⟨h1, h2⟩ := grid_liftPlus (rhs := rhs) T hl hu p.1.up p.1.y p.1.x
    exact ⟨T.neg _ h1, h2.elim Or.inl fun h => Or.inr (Or.inl h)⟩
  · split
    · simp only
      split
      · exact ⟨T.neg _ (grid_liftMinus T hl hu (hu p hp)), Or.inl rfl⟩
      · exact ⟨T.zero, Or.inl rfl⟩
    · exact grid_base T hl hu hp

theorem grid_ineq (T : Tol G e) (hl : G lam) (hu : ∀ p ∈ ps, G p.1.up) {c : Coef} (hc : c ∈ (inequality rhs lam ps).1) :
    G c.xc ∧ Unit3 c.yc := by
  unfold inequality at hc
  simp only at hc
  split at hc
  · obtain ⟨p, hp, rfl⟩ := List.mem_map.1 hc
    exact grid_lifted T hl hu hp
  · obtain ⟨p, hp, rfl⟩ := List.mem_map.1 hc
    exact grid_base T hl hu hp

theorem ineq_items : (inequality rhs lam ps).1.map Coef.it = ps.map Prod.fst := by
  unfold inequality
  simp only
  split <;> simp

end

/-! ### The entries of one column -/

/-- The item belongs to a column of the problem. -/
structure ItemOk (P : Prob) (G : ℚ → Prop) (i : Item) : Prop where
  lt : i.j < P.nCols
  bin : i.bin = isBin P i.j
  big : eps < |i.coef|
  grid : i.bin = true → G |i.coef|

/-- Openness of the arc at a feasible point. -/
def openAt (pre : Pre) (x : Nat → ℚ) (i : Item) : ℚ :=
  if i.bin then x i.j else match pre.vub i.j with
    | some b => x b.1
    | none => 1

/-- Flow on the arc at a feasible point. -/
def flowAt (x : Nat → ℚ) (i : Item) : ℚ := |i.coef| * x i.j

/-- Number of binary entries. -/
def binCount (P : Prob) (v : SVec) : ℚ := (v.map fun p => if isBin P p.1 then (1 : ℚ) else 0).sum

theorem binCount_cons (P : Prob) (p : Nat × ℚ) (v : SVec) :
    binCount P (p :: v) = (if isBin P p.1 then 1 else 0) + binCount P v := by simp [binCount]

theorem binCount_append (P : Prob) (v w : SVec) : binCount P (v ++ w) = binCount P v + binCount P w := by simp [binCount]

theorem binary_cases {P : Prob} (hinf : 1 < P.inf) {j : Nat} (hj : j < P.nCols) (h : isBin P j = true) {x : Nat → ℚ}
    (hf : P.Feasible x) : x j = 0 ∨ x j = 1 :=
  Cgl.Clique.binary_value hinf hj (by simpa [isBin] using h) hf

/-- What is known of the entries before sorting. -/
structure EntryOk (P : Prob) (G : ℚ → Prop) (p : Nat × ℚ) : Prop where
  lt : p.1 < P.nCols
  grid : isBin P p.1 = true → G p.2
  big : isBin P p.1 = false → eps ≤ |p.2|

theorem unit3_big {a : ℚ} (h : Unit3 a) (h' : eps < |a|) : a = 1 ∨ a = -1 := by
  rcases h with rfl | h
  · simp at h'; have := eps_pos; linarith
  · exact h

theorem unit3_small {a : ℚ} (h : Unit3 a) (h' : ¬ eps < |a|) : a = 0 := by
  have he : eps < 1 := by unfold eps; norm_num
  rcases h with h | h | h
  · exact h
  · exact absurd (by rw [h]; simpa using he) h'
  · exact absurd (by rw [h]; simpa using he) h'

theorem entries_ok {P : Prob} {pre : Pre} {x : Nat → ℚ} {G : ℚ → Prop} {e : ℚ} (T : Tol G e) (ok : PreOk P pre x)
    {c : Coef} (hi : ItemOk P G c.it) (hx : G c.xc) (hy : Unit3 c.yc) : ∀ p ∈ backEntries pre c, EntryOk P G p := by
  intro p hp
  unfold backEntries at hp
  simp only at hp
  split at hp
  · rename_i hb
    split at hp
    · simp only [List.mem_singleton] at hp; subst hp
      refine ⟨hi.lt, fun _ => ?_, fun h => by rw [← hi.bin, hb] at h; cases h⟩
      refine T.add _ _ ?_ hx
      rcases hy with h | h | h <;> rw [h]
      · simpa using T.zero
      · simpa using hi.grid hb
      · simpa using T.neg _ (hi.grid hb)
    · simp at hp
  · rename_i hb
    rw [List.mem_append] at hp
    rcases hp with hp | hp
    · split at hp
      · rename_i hbig
        simp only [List.mem_singleton] at hp; subst hp
        refine ⟨hi.lt, fun h => ?_, fun _ => ?_⟩
        · rw [← hi.bin] at h; exact absurd h hb
        · have := hi.big
          rcases unit3_big hy hbig with h | h <;> simp [h] <;> linarith
      · simp at hp
    · split at hp
      · split at hp
        · rename_i b hv
          simp only [List.mem_singleton] at hp; subst hp
          exact ⟨(ok.vub _ _ hv).1, fun _ => hx, fun h => by rw [(ok.vub _ _ hv).2.1] at h; cases h⟩
        · simp at hp
      · simp at hp

/-- One column: its entries are at most its term of the inequality, up to the loss. -/
theorem entries_dot {P : Prob} {pre : Pre} {x : Nat → ℚ} {G : ℚ → Prop} {e : ℚ} (T : Tol G e) (hinf : 1 < P.inf)
    (hf : P.Feasible x) (ok : PreOk P pre x) {c : Coef} (hi : ItemOk P G c.it) (hx : G c.xc) (hy : Unit3 c.yc) :
    (backEntries pre c).dot x + e * binCount P (backEntries pre c) ≤
      c.yc * flowAt x c.it + c.xc * openAt pre x c.it - backRhs pre c + e := by
  have he := T.nonneg
  unfold backEntries backRhs openAt flowAt
  simp only
  by_cases hb : c.it.bin = true
  · have hbin : isBin P c.it.j = true := by rw [← hi.bin]; exact hb
    have hnn : ¬ ((!c.it.bin) = true ∧ eps < |c.xc| ∧ pre.vub c.it.j = none) := by simp [hb]
    rw [if_pos hb, if_pos hb, if_neg hnn]
    split
    · simp [binCount, hbin]; nlinarith
    · rename_i hsm
      rw [not_or] at hsm
      have h0 := unit3_small hy hsm.1
      have := binary_cases hinf hi.lt hbin hf
      have := T.drop _ (x c.it.j) hx (not_lt.1 hsm.2) (by rcases this with h | h <;> rw [h] <;> norm_num)
        (by rcases this with h | h <;> rw [h] <;> norm_num)
      simp [binCount, h0]; linarith
  · have hbf : c.it.bin = false := by simpa using hb
    have hnb : isBin P c.it.j = false := by rw [← hi.bin]; exact hbf
    rw [if_neg hb, if_neg hb, SVec.dot_append, binCount_append]
    have hown : SVec.dot (if eps < |c.yc| then [(c.it.j, |c.it.coef| * c.yc)] else []) x +
        e * binCount P (if eps < |c.yc| then [(c.it.j, |c.it.coef| * c.yc)] else ([] : SVec)) =
        c.yc * (|c.it.coef| * x c.it.j) := by
      split
      · simp [binCount, hnb]; ring
      · rename_i hsm
        rw [unit3_small hy hsm]; simp [binCount]
    rw [mul_add]
    rcases hv : pre.vub c.it.j with _ | b
    · by_cases hl : eps < |c.xc|
      · simp [hl, hbf, binCount] at hown ⊢; linarith
      · have := T.drop _ 1 hx (not_lt.1 hl) zero_le_one (le_refl _)
        simp [hl, binCount] at hown ⊢; linarith
    · obtain ⟨hlt, hbin, -⟩ := ok.vub _ _ hv
      by_cases hl : eps < |c.xc|
      · simp [hl, binCount, hbin] at hown ⊢; linarith
      · have h01 := binary_cases hinf hlt hbin hf
        have := T.drop _ (x b.1) hx (not_lt.1 hl) (by rcases h01 with h | h <;> rw [h] <;> norm_num)
          (by rcases h01 with h | h <;> rw [h] <;> norm_num)
        simp [hl, binCount] at hown ⊢; linarith

/-! ### Merging -/

/-- Only binary columns may occur more than once. -/
def OnceOr (P : Prob) (p q : Nat × ℚ) : Prop := p.1 = q.1 → isBin P p.1 = true

theorem mergeRuns_dot {P : Prob} {x : Nat → ℚ} {G : ℚ → Prop} {e : ℚ} (T : Tol G e) (hinf : 1 < P.inf) (hf : P.Feasible x) :
    ∀ (v : SVec) (j : Nat) (a : ℚ), ((j, a) :: v).Pairwise (fun p q => p.1 ≤ q.1) → ((j, a) :: v).Pairwise (OnceOr P) →
      (∀ p ∈ (j, a) :: v, EntryOk P G p) →
      (mergeRuns j a v).dot x ≤ a * x j + v.dot x + e * binCount P ((j, a) :: v) := by
  have hkeep : ∀ (j : Nat) (a : ℚ), EntryOk P G (j, a) →
      (keep j a).dot x ≤ a * x j + e * (if isBin P j then 1 else 0) := by
    intro j a ok
    have he := T.nonneg
    unfold keep
    split
    · simp; split_ifs <;> simp [he]
    · rename_i hsm
      rcases hb : isBin P j with _ | _
      · exact absurd (ok.big hb) hsm
      · have h01 := binary_cases hinf ok.lt hb hf
        have := T.drop a (x j) (ok.grid hb) (not_le.1 hsm).le (by rcases h01 with h | h <;> rw [h] <;> norm_num)
          (by rcases h01 with h | h <;> rw [h] <;> norm_num)
        simp; linarith
  intro v
  induction v with
  | nil =>
    intro j a _ _ hok
    have := hkeep j a (hok _ (by simp))
    simp only [mergeRuns, binCount_cons]
    simp [binCount]; simpa using this
  | cons p v ih =>
    intro j a hs ho hok
    rw [mergeRuns]
    split
    · have h1 := hkeep j a (hok _ (by simp))
      have h2 := ih p.1 p.2 (List.pairwise_cons.1 hs).2 (List.pairwise_cons.1 ho).2 (fun q hq => hok q (by
        rw [List.mem_cons]; exact Or.inr hq))
      rw [SVec.dot_append, SVec.dot_cons, binCount_cons]
      have e1 : binCount P ((p.1, p.2) :: v) = binCount P (p :: v) := rfl
      rw [e1] at h2
      simp only at *
      linarith
    · rename_i hlt
      have hle : j ≤ p.1 := List.rel_of_pairwise_cons hs (a' := p) (by simp)
      have heq : p.1 = j := by omega
      have hb : isBin P j = true := List.rel_of_pairwise_cons ho (a' := p) (by simp) heq.symm
      have okj := hok (j, a) (by simp)
      have okp := hok p (by simp)
      have h2 := ih j (a + p.2)
        (List.pairwise_cons.2 ⟨fun q hq => List.rel_of_pairwise_cons hs (a' := q) (by simp [hq]),
          (List.pairwise_cons.1 (List.pairwise_cons.1 hs).2).2⟩)
        (List.pairwise_cons.2 ⟨fun q hq h => hb, (List.pairwise_cons.1 (List.pairwise_cons.1 ho).2).2⟩)
        (by
          intro q hq
          rw [List.mem_cons] at hq
          rcases hq with rfl | hq
          · exact ⟨okj.lt, fun _ => T.add _ _ (okj.grid hb) (okp.grid (by rw [heq]; exact hb)),
              fun h => by simp only at h; rw [hb] at h; cases h⟩
          · exact hok q (by simp [hq]))
      have he := T.nonneg
      rw [binCount_cons] at h2
      rw [SVec.dot_cons, binCount_cons, binCount_cons, heq]
      simp only [hb, if_true] at *
      have e2 : (a + p.2) * x j = a * x j + p.2 * x j := by ring
      rw [e2] at h2
      linarith

theorem mergeCut_dot {P : Prob} {x : Nat → ℚ} {G : ℚ → Prop} {e : ℚ} (T : Tol G e) (hinf : 1 < P.inf) (hf : P.Feasible x)
    {v : SVec} (ho : v.Pairwise (OnceOr P)) (hok : ∀ p ∈ v, EntryOk P G p) :
    (mergeCut v).dot x ≤ v.dot x + e * binCount P v := by
  have hperm := List.perm_insertionSort (fun p q : Nat × ℚ => p.1 ≤ q.1) v
  have : Std.Total (fun p q : Nat × ℚ => p.1 ≤ q.1) := ⟨fun a b => le_total _ _⟩
  have : IsTrans (Nat × ℚ) (fun p q : Nat × ℚ => p.1 ≤ q.1) := ⟨fun a b c h h' => le_trans h h'⟩
  have hsort := List.pairwise_insertionSort (fun p q : Nat × ℚ => p.1 ≤ q.1) v
  have hdot := SVec.dot_perm hperm x
  have hcount : binCount P (v.insertionSort fun p q => p.1 ≤ q.1) = binCount P v := (hperm.map _).sum_eq
  have ho' := (hperm.symm.pairwise_iff (R := OnceOr P) (by
    intro a b h h'
    rw [h']
    exact h h'.symm)).1 ho
  have hok' : ∀ p ∈ v.insertionSort fun p q => p.1 ≤ q.1, EntryOk P G p := fun p hp => hok p (hperm.mem_iff.1 hp)
  rw [← hdot, ← hcount]
  unfold mergeCut
  rcases h : v.insertionSort (fun p q => p.1 ≤ q.1) with _ | ⟨p, w⟩
  · rw [h]; simp [binCount]
  · rw [h] at hsort ho' hok' ⊢
    have := mergeRuns_dot T hinf hf w p.1 p.2 hsort ho' hok'
    rw [SVec.dot_cons]
    exact this

/-- The whole row of the cut. -/
theorem cut_dot {P : Prob} {pre : Pre} {x : Nat → ℚ} {G : ℚ → Prop} {e : ℚ} (T : Tol G e) (hinf : 1 < P.inf)
    (hf : P.Feasible x) (ok : PreOk P pre x) {cs : List Coef} (hnd : (cs.map fun c => c.it.j).Nodup)
    (hcs : ∀ c ∈ cs, ItemOk P G c.it ∧ G c.xc ∧ Unit3 c.yc) :
    (mergeCut (cs.flatMap (backEntries pre))).dot x ≤
      (cs.map fun c => c.yc * flowAt x c.it + c.xc * openAt pre x c.it).sum - (cs.map (backRhs pre)).sum + e * cs.length := by
  have h1 := mergeCut_dot (P := P) (x := x) T hinf hf (v := cs.flatMap (backEntries pre)) (by
      rw [List.pairwise_flatMap]
      have hnonbin : ∀ c ∈ cs, ∀ p ∈ backEntries pre c, isBin P p.1 = false → p.1 = c.it.j := by
        intro c hc p hp hnb
        obtain ⟨hi, -, -⟩ := hcs c hc
        unfold backEntries at hp
        simp only at hp
        split at hp
        · split at hp
          · simp only [List.mem_singleton] at hp; rw [hp]
          · simp at hp
        · rw [List.mem_append] at hp
          rcases hp with hp | hp
          · split at hp
            · simp only [List.mem_singleton] at hp; rw [hp]
            · simp at hp
          · split at hp
            · split at hp
              · rename_i b hv
                simp only [List.mem_singleton] at hp; rw [hp] at hnb
                rw [(ok.vub _ _ hv).2.1] at hnb; cases hnb
              · simp at hp
            · simp at hp
      refine ⟨?_, ?_⟩
      · intro c hc
        obtain ⟨hi, -, -⟩ := hcs c hc
        unfold backEntries
        simp only
        split
        · split <;> simp
        · split
          · split
            · split
              · rename_i b hv
                simp only [List.cons_append, List.nil_append, List.pairwise_cons, List.mem_singleton, forall_eq,
                  List.not_mem_nil, false_imp_iff, implies_true, List.Pairwise.nil, and_self, and_true]
                intro h
                rw [h]
                exact (ok.vub _ _ hv).2.1
              · simp
            · simp
          · split
            · split <;> simp
            · simp
      · rw [List.Nodup, List.pairwise_map] at hnd
        refine List.Pairwise.imp_of_mem ?_ hnd
        intro c d hc hd hne p hp q hq hpq
        by_contra hb
        have hb' : isBin P p.1 = false := by simpa using hb
        have e1 := hnonbin c hc p hp hb'
        have e2 := hnonbin d hd q hq (by rw [← hpq]; exact hb')
        exact hne (by rw [← e1, ← e2, hpq]))
    (by
      intro p hp
      obtain ⟨c, hc, hp⟩ := List.mem_flatMap.1 hp
      obtain ⟨hi, hx, hy⟩ := hcs c hc
      exact entries_ok T ok hi hx hy p hp)
  have h2 : SVec.dot (cs.flatMap (backEntries pre)) x + e * binCount P (cs.flatMap (backEntries pre)) ≤
      (cs.map fun c => c.yc * flowAt x c.it + c.xc * openAt pre x c.it).sum - (cs.map (backRhs pre)).sum + e * cs.length := by
    clear h1 hnd
    induction cs with
    | nil => simp [binCount]
    | cons c cs ih =>
      obtain ⟨hi, hx, hy⟩ := hcs c (by simp)
      have h1 := entries_dot T hinf hf ok hi hx hy
      have h2 := ih fun d hd => hcs d (by simp [hd])
      rw [List.flatMap_cons, SVec.dot_append, binCount_append]
      simp only [List.map_cons, List.sum_cons, List.length_cons]
      push_cast
      linarith
  linarith

/-! ### One row -/

theorem mkItem_j (P : Prob) (pre : Pre) (xlp : Nat → ℚ) (p : Nat × ℚ) : (mkItem P pre xlp p).j = p.1 := by
  unfold mkItem; split <;> rfl

theorem mkItem_coef (P : Prob) (pre : Pre) (xlp : Nat → ℚ) (p : Nat × ℚ) : (mkItem P pre xlp p).coef = p.2 := by
  unfold mkItem; split <;> rfl

theorem mkItem_bin (P : Prob) (pre : Pre) (xlp : Nat → ℚ) (p : Nat × ℚ) : (mkItem P pre xlp p).bin = isBin P p.1 := by
  unfold mkItem; split <;> rename_i h
  · exact h.symm
  · simpa using h

theorem mkItem_up (P : Prob) (pre : Pre) (xlp : Nat → ℚ) (p : Nat × ℚ) :
    (mkItem P pre xlp p).up = if isBin P p.1 then |p.2| else |p.2| * ubOf P pre p.1 := by
  unfold mkItem; split <;> rfl

/-- The capacity of the arc of a row entry is in the class. -/
def EntryGrid (P : Prob) (pre : Pre) (G : ℚ → Prop) (p : Nat × ℚ) : Prop :=
  G (if isBin P p.1 then |p.2| else |p.2| * ubOf P pre p.1)

/-- The columns of a row give a point of the flow set. -/
theorem flowPoint {P : Prob} {x xlp : Nat → ℚ} (hinf : 1 < P.inf) (hE : Exact P) (hf : P.Feasible x) (hr : Representable P x)
    (ok : PreOk P (preprocess P) x) {v : SVec} {rhs : ℚ} (hcols : ∀ p ∈ v, p.1 < P.nCols)
    (hlb : ∀ p ∈ v, ¬ lbOf P (preprocess P) p.1 < -eps) (hrow : v.dot x ≤ rhs) {ps : List (Item × Bool)}
    (hps : ps.map Prod.fst = v.map (mkItem P (preprocess P) xlp)) :
    FlowPoint ps rhs (openAt (preprocess P) x) (flowAt x) := by
  have hmem : ∀ p ∈ ps, ∃ q ∈ v, p.1 = mkItem P (preprocess P) xlp q := by
    intro p hp
    have : p.1 ∈ ps.map Prod.fst := List.mem_map_of_mem hp
    rw [hps] at this
    obtain ⟨q, hq, h⟩ := List.mem_map.1 this
    exact ⟨q, hq, h.symm⟩
  have h01 : ∀ j < P.nCols, isBin P j = true → 0 ≤ x j ∧ x j ≤ 1 := by
    intro j hj hb
    rcases binary_cases hinf hj hb hf with h | h <;> rw [h] <;> norm_num
  have hx0 : ∀ q ∈ v, 0 ≤ x q.1 := by
    intro q hq
    have hlt := hcols q hq
    have h1 := (hE.lb q.1 hlt).resolve_right (hlb q hq)
    unfold lbOf at h1
    rcases hv : (preprocess P).vlb q.1 with _ | b
    · rw [hv] at h1; exact le_trans h1 (lower_le hf hr hlt)
    · rw [hv] at h1
      obtain ⟨hl, hb, hle⟩ := ok.vlb _ _ hv
      exact le_trans (mul_nonneg h1 (h01 _ hl hb).1) hle
  have hY : ∀ q ∈ v, 0 ≤ flowAt x (mkItem P (preprocess P) xlp q) := by
    intro q hq
    unfold flowAt; rw [mkItem_coef, mkItem_j]
    exact mul_nonneg (abs_nonneg _) (hx0 q hq)
  have hbd : ∀ q ∈ v, flowAt x (mkItem P (preprocess P) xlp q) ≤
        (mkItem P (preprocess P) xlp q).up * openAt (preprocess P) x (mkItem P (preprocess P) xlp q) ∧
      0 ≤ (mkItem P (preprocess P) xlp q).up ∧
      (openAt (preprocess P) x (mkItem P (preprocess P) xlp q) = 0 ∨
        openAt (preprocess P) x (mkItem P (preprocess P) xlp q) = 1) := by
    intro q hq
    have hlt := hcols q hq
    unfold flowAt openAt
    rw [mkItem_up, mkItem_coef, mkItem_j, mkItem_bin]
    by_cases hb : isBin P q.1 = true
    · rw [if_pos hb, if_pos hb]
      exact ⟨le_refl _, abs_nonneg _, binary_cases hinf hlt hb hf⟩
    · rw [if_neg hb, if_neg hb]
      have hub := (hE.ub q.1 hlt).resolve_left (hlb q hq)
      unfold ubOf
      rcases hv : (preprocess P).vub q.1 with _ | b
      · simp only
        have hle := le_upper hf hr hlt
        exact ⟨by rw [mul_one]; exact mul_le_mul_of_nonneg_left hle (abs_nonneg _),
          mul_nonneg (abs_nonneg _) (le_trans (hx0 q hq) hle), by simp⟩
      · rw [hv] at hub
        obtain ⟨hl, hb', hle⟩ := ok.vub _ _ hv
        simp only
        refine ⟨?_, mul_nonneg (abs_nonneg _) hub, binary_cases hinf hl hb' hf⟩
        rw [mul_assoc]
        exact mul_le_mul_of_nonneg_left hle (abs_nonneg _)
  refine ⟨?_, ?_, ?_, ?_, ?_⟩
  · intro p hp; obtain ⟨q, hq, e⟩ := hmem p hp; rw [e]; exact (hbd q hq).2.2
  · intro p hp; obtain ⟨q, hq, e⟩ := hmem p hp; rw [e]; exact hY q hq
  · intro p hp; obtain ⟨q, hq, e⟩ := hmem p hp; rw [e]; exact (hbd q hq).1
  · intro p hp; obtain ⟨q, hq, e⟩ := hmem p hp; rw [e]; exact (hbd q hq).2.1
  · refine le_trans (le_of_eq ?_) hrow
    have e1 : (ps.map fun p => if p.1.pos then flowAt x p.1 else -flowAt x p.1) =
        (ps.map Prod.fst).map fun i => if i.pos then flowAt x i else -flowAt x i := by simp
    rw [e1, hps, List.map_map]
    unfold SVec.dot
    congr 1
    refine List.map_congr_left ?_
    intro q hq
    simp only [Function.comp, Item.pos, flowAt, mkItem_coef, mkItem_j]
    split
    · rename_i h; rw [decide_eq_true_eq] at h; rw [abs_of_pos h]
    · rename_i h; rw [decide_eq_true_eq] at h; rw [abs_of_nonpos (not_lt.1 h)]; ring

/-- A cut from one `<=` row. -/
theorem flowCutL_holds {P : Prob} {x xlp : Nat → ℚ} {G : ℚ → Prop} {e : ℚ} (T : Tol G e) (hinf : 1 < P.inf) (hE : Exact P)
    (hf : P.Feasible x) (hr : Representable P x) (ok : PreOk P (preprocess P) x) {v : SVec} {rhs : ℚ}
    (hcols : ∀ p ∈ v, p.1 < P.nCols) (hnd : (v.map Prod.fst).Nodup) (hbig : ∀ p ∈ v, eps < |p.2|)
    (hg : ∀ p ∈ v, EntryGrid P (preprocess P) G p) (hrg : G rhs) (hrow : v.dot x ≤ rhs) {c : RowCut}
    (h : flowCutL P (preprocess P) xlp v rhs = some c) : c.lb = -P.inf ∧ c.row.dot x ≤ c.ub + e * v.length := by
  unfold flowCutL at h
  split at h
  · cases h
  rename_i hlb
  have hlb' : ∀ p ∈ v, ¬ lbOf P (preprocess P) p.1 < -eps := by
    intro p hp hlt
    exact hlb (List.any_eq_true.2 ⟨p, hp, by simpa using hlt⟩)
  rcases hfc : findCover rhs (v.map (mkItem P (preprocess P) xlp)) with _ | ⟨ps, lam⟩
  · rw [hfc] at h; cases h
  rw [hfc] at h
  simp only at h
  obtain ⟨hps, hbal, hlam⟩ := findCover_spec hfc
  split at h
  · cases h
  rename_i hne
  have hpp : ∃ p ∈ ps, inCpp lam p = true := by
    have : ps.any (inCpp lam) = true := by
      by_contra hcon
      exact hne (Or.inr hcon)
    exact List.any_eq_true.1 this
  have hlam0 : 0 < lam := lt_of_lt_of_le eps_pos hlam
  have hpt := flowPoint hinf hE hf hr ok hcols hlb' hrow hps
  have hineq := inequality_holds hlam0 hpp hpt hbal
  have hmem : ∀ i ∈ v.map (mkItem P (preprocess P) xlp), ItemOk P G i ∧ G i.up := by
    intro i hi
    obtain ⟨q, hq, rfl⟩ := List.mem_map.1 hi
    have hgq := hg q hq
    unfold EntryGrid at hgq
    refine ⟨⟨by rw [mkItem_j]; exact hcols q hq, by rw [mkItem_bin, mkItem_j], by rw [mkItem_coef]; exact hbig q hq, ?_⟩,
      by rw [mkItem_up]; exact hgq⟩
    intro hb
    rw [mkItem_bin] at hb
    rw [if_pos hb] at hgq
    rw [mkItem_coef]; exact hgq
  have hup : ∀ p ∈ ps, G p.1.up := by
    intro p hp
    have : p.1 ∈ ps.map Prod.fst := List.mem_map_of_mem hp
    rw [hps] at this
    exact (hmem _ this).2
  have hlg : G lam := by
    rw [hbal]
    refine T.sub (T.sum ?_) hrg
    intro a ha
    obtain ⟨p, hp, rfl⟩ := List.mem_map.1 ha
    unfold balOne
    split_ifs
    all_goals first | exact hup p hp | exact T.neg _ (hup p hp) | exact T.zero
  have hits : (inequality rhs lam ps).1.map Coef.it = v.map (mkItem P (preprocess P) xlp) := by rw [ineq_items, hps]
  have hd := cut_dot T hinf hf ok (cs := (inequality rhs lam ps).1) (by
      have : ((inequality rhs lam ps).1.map fun c => c.it.j) = v.map Prod.fst := by
        have e1 : ((inequality rhs lam ps).1.map fun c => c.it.j) = ((inequality rhs lam ps).1.map Coef.it).map Item.j := by simp
        rw [e1, hits, List.map_map]
        refine List.map_congr_left ?_
        intro q hq
        simp [mkItem_j]
      rw [this]; exact hnd)
    (by
      intro c hc
      obtain ⟨h1, h2⟩ := grid_ineq T hlg hup hc
      have : c.it ∈ (inequality rhs lam ps).1.map Coef.it := List.mem_map_of_mem hc
      rw [hits] at this
      exact ⟨(hmem _ this).1, h1, h2⟩)
  have hlen : (inequality rhs lam ps).1.length = v.length := by
    have := congrArg List.length hits
    simpa using this
  unfold finish at h
  split at h
  · simp only at h
    split at h
    · cases h
    · split at h
      · simp only [Option.some.injEq] at h
        subst h
        rw [hlen] at hd
        exact ⟨rfl, by simp only; linarith⟩
      · cases h
  · cases h

end Cgl.FlowCover
