import Verif.Probing.Tighten
import Verif.Snapshot.Spec
import Mathlib.Algebra.BigOperators.Group.List.Lemmas

/-!
# What `tighten` does to rows, for any state
-/

namespace Cgl.Snapshot
open Cgl.Probing

variable {rows : List PRow} {isInt : Nat → Bool} {n : Nat} {lo0 up0 : Nat → ℚ} {s s' : TSt} {t : ℚ}

/-- The bounds of the columns got tighter, those of the rows are the same. -/
def Tighter (s s' : TSt) : Prop := TLe s s' ∧ s'.lb = s.lb ∧ s'.ub = s.ub

theorem Tighter.refl (s : TSt) : Tighter s s := ⟨⟨fun _ => le_rfl, fun _ => le_rfl⟩, rfl, rfl⟩

theorem Tighter.trans {a b c : TSt} (h : Tighter a b) (h2 : Tighter b c) : Tighter a c :=
  ⟨h.1.trans h2.1, h2.2.1.trans h.2.1, h2.2.2.trans h.2.2⟩

theorem raise_tighter (rows : List PRow) (t : ℚ) (c : Nat) (d : ℚ) (s : TSt) : Tighter s (raise rows t c d s) := by
  unfold raise
  split
  · rename_i hlt
    obtain ⟨a, b, e, f, -⟩ := afterChange_same rows t c { s with lo := Function.update s.lo c d }
    refine ⟨⟨?_, ?_⟩, e, f⟩
    · rw [a]; intro k
      by_cases hk : k = c
      · subst hk
        have h8 : (0 : ℚ) < 1 / 10 ^ 8 := by norm_num
        simp only [Function.update_self]
        linarith
      · simp only [Function.update_of_ne hk]; exact le_rfl
    · rw [b]; intro k; exact le_rfl
  · exact .refl s

theorem lower_tighter (rows : List PRow) (t : ℚ) (c : Nat) (d : ℚ) (s : TSt) : Tighter s (lower rows t c d s) := by
  unfold lower
  split
  · rename_i hlt
    obtain ⟨a, b, e, f, -⟩ := afterChange_same rows t c { s with up := Function.update s.up c d }
    refine ⟨⟨?_, ?_⟩, e, f⟩
    · rw [a]; intro k; exact le_rfl
    · rw [b]; intro k
      by_cases hk : k = c
      · subst hk
        have h8 : (0 : ℚ) < 1 / 10 ^ 8 := by norm_num
        simp only [Function.update_self]
        linarith
      · simp only [Function.update_of_ne hk]; exact le_rfl
  · exact .refl s

theorem upLoop_tighter (rows : List PRow) (t lb h : ℚ) : ∀ (es : List (Nat × ℚ)) (s : TSt),
    Tighter s (upLoop rows t lb h es s)
  | [], s => .refl s
  | e :: es, s => by
    unfold upLoop
    refine Tighter.trans ?_ (upLoop_tighter rows t lb h es _)
    unfold upEl
    split <;> split
    · exact raise_tighter ..
    · exact .refl s
    · exact lower_tighter ..
    · exact .refl s

theorem downLoop_tighter (rows : List PRow) (t ub h : ℚ) : ∀ (es : List (Nat × ℚ)) (s : TSt),
    Tighter s (downLoop rows t ub h es s)
  | [], s => .refl s
  | e :: es, s => by
    unfold downLoop
    refine Tighter.trans ?_ (downLoop_tighter rows t ub h es _)
    unfold downEl
    split <;> split
    · exact raise_tighter ..
    · exact .refl s
    · exact lower_tighter ..
    · exact .refl s

theorem tightenWith_tighter (rows : List PRow) (t : ℚ) (dol : Bool) (lb ub : ℚ) (r : PRow) (s : TSt) :
    Tighter s (tightenWith rows t dol lb ub r s) := by
  unfold tightenWith
  dsimp only
  refine Tighter.trans (b := if (!(hiInf s.lo s.up r || onlyOne s.lo s.up lb ub r && dol) && decide (-10 ^ 15 < lb)) = true then
    upLoop rows t lb (maxAct s.lo s.up r) r.els s else s) ?_ ?_
  · split
    · exact upLoop_tighter ..
    · exact .refl s
  · generalize (if (!(hiInf s.lo s.up r || onlyOne s.lo s.up lb ub r && dol) && decide (-10 ^ 15 < lb)) = true then
      upLoop rows t lb (maxAct s.lo s.up r) r.els s else s) = s1
    split
    · exact downLoop_tighter ..
    · exact .refl s1

/-- The box of the state is within `L` and `U`, up to the rounding of bounds of integer columns. -/
def Near (isInt : Nat → Bool) (n : Nat) (L U : Nat → ℚ) (s : TSt) : Prop :=
  ∀ c < n, (s.up c ≤ U c ∨ isInt c = true ∧ s.up c ≤ (⌊U c + 1 / 10 ^ 4⌋ : ℤ)) ∧
    (L c ≤ s.lo c ∨ isInt c = true ∧ ((⌈L c - 1 / 10 ^ 4⌉ : ℤ) : ℚ) ≤ s.lo c)

/-- The row follows from bounds the state is near to. -/
def Implied (isInt : Nat → Bool) (n : Nat) (t : ℚ) (r : PRow) (s : TSt) : Prop :=
  ∃ L U, maxAct L U r ≤ r.ub + t ∧ r.lb - t ≤ minAct L U r ∧ Near isInt n L U s

/-- Bounds of columns are not beyond the first ones; rows have their bounds or are implied. -/
structure Keep (rows : List PRow) (isInt : Nat → Bool) (n : Nat) (t : ℚ) (lo0 up0 : Nat → ℚ) (s : TSt) : Prop where
  mono : ∀ c < n, lo0 c ≤ s.lo c ∧ s.up c ≤ up0 c
  row : ∀ (i : Nat) r, rows[i]? = some r → (s.lb i = r.lb ∧ s.ub i = r.ub) ∨ Implied isInt n t r s

theorem Near.tighter {L U : Nat → ℚ} (h : Near isInt n L U s) (hs : TLe s s') : Near isInt n L U s' := by
  intro c hc
  obtain ⟨h1, h2⟩ := h c hc
  have a := hs.1 c
  have b := hs.2 c
  refine ⟨?_, ?_⟩
  · rcases h1 with h1 | ⟨hi, h1⟩
    · exact .inl (b.trans h1)
    · exact .inr ⟨hi, b.trans h1⟩
  · rcases h2 with h2 | ⟨hi, h2⟩
    · exact .inl (h2.trans a)
    · exact .inr ⟨hi, h2.trans a⟩

theorem Implied.tighter {r : PRow} (h : Implied isInt n t r s) (hs : TLe s s') : Implied isInt n t r s' := by
  obtain ⟨L, U, a, b, c⟩ := h
  exact ⟨L, U, a, b, c.tighter hs⟩

theorem Keep.tighter (h : Keep rows isInt n t lo0 up0 s) (hs : Tighter s s') : Keep rows isInt n t lo0 up0 s' := by
  refine ⟨fun c hc => ⟨(h.mono c hc).1.trans (hs.1.1 c), (hs.1.2 c).trans (h.mono c hc).2⟩, ?_⟩
  intro i r hr
  rw [hs.2.1, hs.2.2]
  exact (h.row i r hr).imp id fun k => k.tighter hs.1

theorem tightenRow_keep {dol : Bool} {i : Nat} (h : Keep rows isInt n t lo0 up0 s) :
    Keep rows isInt n t lo0 up0 (tightenRow rows t dol i s).1 := by
  unfold tightenRow
  rcases hr : rows[i]? with _ | r
  · exact h
  · dsimp only
    split
    · exact h
    · split
      · rename_i hred
        refine ⟨h.mono, ?_⟩
        intro k r' hk
        by_cases hki : k = i
        · subst hki
          have hrr : r' = r := by rw [hr] at hk; cases hk; rfl
          subst hrr
          right
          rcases h.row k r' hr with ⟨a, b⟩ | hh
          · rw [a, b] at hred
            exact ⟨s.lo, s.up, hred.1, hred.2, fun c _ => ⟨.inl le_rfl, .inl le_rfl⟩⟩
          · exact hh.tighter ⟨fun _ => le_rfl, fun _ => le_rfl⟩
        · simp only [Function.update_of_ne hki]
          exact (h.row k r' hk).imp id fun hh => hh.tighter ⟨fun _ => le_rfl, fun _ => le_rfl⟩
      · split
        · exact h.tighter (.refl _)
        · exact h.tighter (tightenWith_tighter ..)

theorem rowLoop_keep {dol : Bool} : ∀ (is : List Nat) (s : TSt), Keep rows isInt n t lo0 up0 s →
    Keep rows isInt n t lo0 up0 (rowLoop rows t dol is s)
  | [], _, h => h
  | i :: is, s, h => by
    have a := tightenRow_keep (dol := dol) (i := i) h
    unfold rowLoop
    rcases hh : tightenRow rows t dol i s with ⟨s', d⟩
    rw [hh] at a
    dsimp only at a
    cases d
    · exact rowLoop_keep is s' a
    · exact a

theorem floor_mono_near {u U : ℚ} (h : u ≤ U ∨ u ≤ ((⌊U + 1 / 10 ^ 4⌋ : ℤ) : ℚ)) :
    ((⌊u + 1 / 10 ^ 4⌋ : ℤ) : ℚ) ≤ ((⌊U + 1 / 10 ^ 4⌋ : ℤ) : ℚ) := by
  rcases h with h | h
  · have : ⌊u + 1 / 10 ^ 4⌋ ≤ ⌊U + 1 / 10 ^ 4⌋ := Int.floor_le_floor (by linarith)
    exact_mod_cast this
  · exact floor_le_of_int ⟨_, rfl⟩ h

theorem ceil_mono_near {l L : ℚ} (h : L ≤ l ∨ ((⌈L - 1 / 10 ^ 4⌉ : ℤ) : ℚ) ≤ l) :
    ((⌈L - 1 / 10 ^ 4⌉ : ℤ) : ℚ) ≤ ((⌈l - 1 / 10 ^ 4⌉ : ℤ) : ℚ) := by
  rcases h with h | h
  · have : ⌈L - 1 / 10 ^ 4⌉ ≤ ⌈l - 1 / 10 ^ 4⌉ := Int.ceil_le_ceil (by linarith)
    exact_mod_cast this
  · exact le_ceil_of_int ⟨_, rfl⟩ h

theorem cleanCol_keep (h0 : ∀ c < n, isInt c = true → IsInteger (lo0 c) ∧ IsInteger (up0 c)) {c : Nat}
    (h : Keep rows isInt n t lo0 up0 s) : Keep rows isInt n t lo0 up0 (cleanCol isInt c s) := by
  unfold cleanCol
  split
  · rename_i hi
    refine ⟨?_, ?_⟩
    · intro k hk
      dsimp only
      by_cases hkc : k = c
      · subst hkc
        simp only [Function.update_self]
        exact ⟨le_ceil_of_int (h0 k hk hi).1 (h.mono k hk).1, floor_le_of_int (h0 k hk hi).2 (h.mono k hk).2⟩
      · simp only [Function.update_of_ne hkc]; exact h.mono k hk
    · intro i r hr
      refine (h.row i r hr).imp id ?_
      rintro ⟨L, U, a, b, hn⟩
      refine ⟨L, U, a, b, ?_⟩
      intro k hk
      dsimp only
      by_cases hkc : k = c
      · subst hkc
        simp only [Function.update_self]
        exact ⟨.inr ⟨hi, floor_mono_near ((hn k hk).1.imp id And.right)⟩,
          .inr ⟨hi, ceil_mono_near ((hn k hk).2.imp id And.right)⟩⟩
      · simp only [Function.update_of_ne hkc]; exact hn k hk
  · exact h

theorem cleanCols_keep (h0 : ∀ c < n, isInt c = true → IsInteger (lo0 c) ∧ IsInteger (up0 c)) :
    ∀ (cs : List Nat) (s : TSt), Keep rows isInt n t lo0 up0 s → Keep rows isInt n t lo0 up0 (cleanCols isInt cs s)
  | [], _, h => h
  | _ :: cs, _, h => cleanCols_keep h0 cs _ (cleanCol_keep h0 h)

theorem tLoop_keep (h0 : ∀ c < n, isInt c = true → IsInteger (lo0 c) ∧ IsInteger (up0 c)) :
    ∀ (k : Nat) (dol : Bool) (s : TSt), Keep rows isInt n (10 * tol) lo0 up0 s →
      Keep rows isInt n (10 * tol) lo0 up0 (tLoop rows isInt k dol s)
  | 0, _, _, h => h
  | k + 1, dol, s, h => by
    have h1 : Keep rows isInt n (10 * tol) lo0 up0 (tPass rows isInt dol s) := by
      have h2 := rowLoop_keep (dol := dol) s.next
        { s with
          change := false
          cols := []
          next := [] } ⟨h.mono, h.row⟩
      have h3 := cleanCols_keep h0 (rowLoop rows (10 * tol) dol s.next
        { s with
          change := false
          cols := []
          next := [] }).cols _ h2
      exact ⟨h3.mono, h3.row⟩
    unfold tLoop
    dsimp only
    split
    · exact h1
    · exact tLoop_keep h0 k _ _ h1

/-- Elements in the order of the copy. -/
theorem splitRow_perm (sel : Bool) (r : Row) : (splitRow sel r).els.Perm r.coefs :=
  List.filter_append_perm (fun p : Nat × ℚ => decide (p.2 < 0)) r.coefs

theorem dot_perm {v w : SVec} (h : v.Perm w) (x : Nat → ℚ) : v.dot x = w.dot x := (h.map _).sum_eq

theorem splitRow_wf {sel : Bool} {r : Row} (h : ∀ p ∈ r.coefs, p.2 ≠ 0) : (splitRow sel r).WF where
  neg := by
    intro p hp
    simpa using (List.mem_filter.mp hp).2
  pos := by
    intro p hp
    obtain ⟨hm, hp⟩ := List.mem_filter.mp hp
    have : ¬ p.2 < 0 := by simpa using hp
    exact lt_of_le_of_ne (not_lt.mp this) (h p hm).symm

theorem copyRows_get (P : Prob) (possible : Option (List Bool)) (i : Nat) :
    (copyRows P possible)[i]? = P.rows[i]?.map fun r => splitRow (selected possible i) r := by
  unfold copyRows
  rw [List.getElem?_map, List.getElem?_zipIdx]
  cases P.rows[i]? <;> simp

theorem copyRows_mem {P : Prob} {possible : Option (List Bool)} {q : PRow} (h : q ∈ copyRows P possible) :
    ∃ i r, P.rows[i]? = some r ∧ q = splitRow (selected possible i) r := by
  obtain ⟨i, hi⟩ := List.getElem?_of_mem h
  rw [copyRows_get] at hi
  rcases hr : P.rows[i]? with _ | r
  · rw [hr] at hi; cases hi
  · rw [hr] at hi
    exact ⟨i, r, hr, (Option.some.inj hi).symm⟩

/-- The sum over a row with relaxed bounds. -/
theorem dot_relax_pos (e U : Nat → ℚ) : ∀ v : SVec, (∀ p ∈ v, 0 < p.2) →
    v.dot (fun c => U c + e c) = v.dot U + (v.map fun p => |p.2| * e p.1).sum
  | [], _ => by simp [SVec.dot]
  | p :: v, h => by
    have ih := dot_relax_pos e U v fun q hq => h q (List.mem_cons_of_mem _ hq)
    have hp := h p List.mem_cons_self
    simp only [SVec.dot, List.map_cons, List.sum_cons] at ih ⊢
    rw [ih, abs_of_pos hp]; ring

theorem dot_relax_neg (e U : Nat → ℚ) : ∀ v : SVec, (∀ p ∈ v, p.2 < 0) →
    v.dot (fun c => U c - e c) = v.dot U + (v.map fun p => |p.2| * e p.1).sum
  | [], _ => by simp [SVec.dot]
  | p :: v, h => by
    have ih := dot_relax_neg e U v fun q hq => h q (List.mem_cons_of_mem _ hq)
    have hp := h p List.mem_cons_self
    simp only [SVec.dot, List.map_cons, List.sum_cons] at ih ⊢
    rw [ih, abs_of_neg hp]; ring

theorem dot_relax_pos' (e U : Nat → ℚ) (v : SVec) (h : ∀ p ∈ v, 0 < p.2) :
    v.dot (fun c => U c - e c) = v.dot U - (v.map fun p => |p.2| * e p.1).sum := by
  have := dot_relax_pos e (fun c => U c - e c) v h
  simp only [sub_add_cancel] at this
  linarith

theorem dot_relax_neg' (e U : Nat → ℚ) (v : SVec) (h : ∀ p ∈ v, p.2 < 0) :
    v.dot (fun c => U c + e c) = v.dot U - (v.map fun p => |p.2| * e p.1).sum := by
  have := dot_relax_neg e (fun c => U c + e c) v h
  simp only [add_sub_cancel_right] at this
  linarith

/-- What the rounding of an integer column may give back. -/
def giveBack (isInt : Nat → Bool) (c : Nat) : ℚ := if isInt c then 1 / 10 ^ 4 else 0

theorem Near.inBox {L U x : Nat → ℚ} {r : PRow} (h : Near isInt n L U s) (hcols : ∀ p ∈ r.els, p.1 < n)
    (hx : ∀ c < n, s.lo c ≤ x c ∧ x c ≤ s.up c) :
    InBox (fun c => L c - giveBack isInt c) (fun c => U c + giveBack isInt c) x r := by
  intro p hp
  have hc := hcols p hp
  obtain ⟨h1, h2⟩ := h p.1 hc
  obtain ⟨x1, x2⟩ := hx p.1 hc
  have h4 : (0 : ℚ) < 1 / 10 ^ 4 := by norm_num
  have hg : 0 ≤ giveBack isInt p.1 := by unfold giveBack; split <;> linarith
  refine ⟨?_, ?_⟩
  · dsimp only
    rcases h2 with h2 | ⟨hi, h2⟩
    · linarith
    · have := Int.le_ceil (L p.1 - 1 / 10 ^ 4)
      have hgi : giveBack isInt p.1 = 1 / 10 ^ 4 := by unfold giveBack; rw [if_pos hi]
      rw [hgi]; linarith
  · dsimp only
    rcases h1 with h1 | ⟨hi, h1⟩
    · linarith
    · have := Int.floor_le (U p.1 + 1 / 10 ^ 4)
      have hgi : giveBack isInt p.1 = 1 / 10 ^ 4 := by unfold giveBack; rw [if_pos hi]
      rw [hgi]; linarith

theorem Implied.nearly {r : PRow} (hr : r.WF) (hcols : ∀ p ∈ r.els, p.1 < n) (h : Implied isInt n t r s) {x : Nat → ℚ}
    (ht : t < 1) (hx : ∀ c < n, s.lo c ≤ x c ∧ x c ≤ s.up c) :
    (-10 ^ 30 ≤ r.lb → r.lb - (t + (r.els.map fun p => |p.2| * giveBack isInt p.1).sum) ≤ r.els.dot x) ∧
    (r.ub ≤ 10 ^ 30 → r.els.dot x ≤ r.ub + (t + (r.els.map fun p => |p.2| * giveBack isInt p.1).sum)) := by
  obtain ⟨L, U, h1, h2, hn⟩ := h
  have hb := hn.inBox hcols hx
  have hs : (r.els.map fun p => |p.2| * giveBack isInt p.1).sum =
      (r.neg.map fun p => |p.2| * giveBack isInt p.1).sum + (r.pos.map fun p => |p.2| * giveBack isInt p.1).sum := by
    unfold PRow.els; rw [List.map_append, List.sum_append]
  have p1 := dot_relax_pos (giveBack isInt) U r.pos hr.pos
  have p2 := dot_relax_pos' (giveBack isInt) L r.pos hr.pos
  have n1 := dot_relax_neg (giveBack isInt) L r.neg hr.neg
  have n2 := dot_relax_neg' (giveBack isInt) U r.neg hr.neg
  have k1 := (le_hi hr hb).1
  have k2 := (low_le hr hb).1
  unfold hi at k1
  unfold low at k2
  have h31 : (10 : ℚ) ^ 30 + 1 < 10 ^ 31 := by norm_num
  refine ⟨?_, ?_⟩
  · intro hlb
    unfold minAct at h2
    split at h2
    · linarith
    · linarith
  · intro hub
    unfold maxAct at h1
    split at h1
    · linarith
    · linarith

end Cgl.Snapshot
