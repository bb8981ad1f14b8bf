import Verif.DupRow.Valid4

/-!
# Mode 4 on pure 0-1 problems with integer data: the rows that go are implied by what stays
-/

namespace Cgl.DupRow

/-- Problems with integer data of moderate size, in which every column that is not fixed is a 0-1 column. -/
structure Exact4 (P : Prob) : Prop where
  int : ∀ j < P.nCols, P.isInt j = true ∧ IsInteger (P.colLower j) ∧ IsInteger (P.colUpper j)
  bin : ∀ j < P.nCols, P.colUpper j ≤ P.colLower j + 1
  coefs : ∀ r ∈ P.rows, ∀ p ∈ r.coefs, IsInteger p.2
  bounds : ∀ r ∈ P.rows, IsInteger r.lb ∧ IsInteger r.ub
  big : ∀ r ∈ P.rows, r.ub ≠ 10 ^ 20
  size : ∀ r ∈ P.rows, DupRow.size P (openEls P r.coefs) ≤ 10 ^ 9 ∧ |r.coefs.dot P.colLower| ≤ 10 ^ 19

/-- Integrality in the course of the comparison. -/
structure Good (P : Prob) (rows : List SRow) (rhs0 : List ℚ) (s : St) : Prop where
  tlInt : ∀ j, Col P j → IsInteger (s.tl j)
  nbInt : ∀ j, Col P j → IsInteger (s.nb j)
  rhsInt : ∀ q ∈ s.rhs, IsInteger q
  tch : ∀ j, s.tch j = false → s.tl j = P.colLower j ∧ s.nb j = P.colUpper j - P.colLower j
  rel : ∀ (i : Nat) (r : SRow) (q q' : ℚ), rows[i]? = some r → s.rhs[i]? = some q → rhs0[i]? = some q' →
    q = q' + r.els.dot (fun j => P.colLower j - s.tl j)
  dup : ∀ d ∈ s.dup, d = -1 ∨ d = -2

/-- A row with a right-hand side holds, counted from the current lower bounds. -/
def RowAt (s : St) (x : Nat → ℚ) (r : SRow) (q : ℚ) : Prop :=
  r.els.dot (fun j => x j - s.tl j) ≤ q ∧ (r.eqn = true → r.els.dot (fun j => x j - s.tl j) = q)

/-- The point lies within the current bounds and satisfies the rows that are not dropped. -/
structure Sat (P : Prob) (rows : List SRow) (s : St) (x : Nat → ℚ) : Prop where
  box : ∀ j, Col P j → 0 ≤ x j - s.tl j ∧ x j - s.tl j ≤ s.nb j
  row : ∀ (i : Nat) (r : SRow) (q : ℚ), rows[i]? = some r → s.rhs[i]? = some q → s.dup[i]? ≠ some (-2) → RowAt s x r q

/-- What is known of the small rows. -/
structure IntRows (P : Prob) (rows : List SRow) : Prop where
  ok : RowsOK P rows
  bin : ∀ j, Col P j → isBin P j = true
  one : ∀ j, Col P j → P.colUpper j = P.colLower j + 1
  int : ∀ r ∈ rows, ∀ p ∈ r.els, IsInteger p.2
  size : ∀ r ∈ rows, DupRow.size P r.els ≤ 10 ^ 9

theorem IsInteger.add {a b : ℚ} (ha : IsInteger a) (hb : IsInteger b) : IsInteger (a + b) := by
  obtain ⟨m, rfl⟩ := ha; obtain ⟨n, rfl⟩ := hb; exact ⟨m + n, by push_cast; ring⟩
theorem IsInteger.sub {a b : ℚ} (ha : IsInteger a) (hb : IsInteger b) : IsInteger (a - b) := by
  obtain ⟨m, rfl⟩ := ha; obtain ⟨n, rfl⟩ := hb; exact ⟨m - n, by push_cast; ring⟩
theorem IsInteger.mul {a b : ℚ} (ha : IsInteger a) (hb : IsInteger b) : IsInteger (a * b) := by
  obtain ⟨m, rfl⟩ := ha; obtain ⟨n, rfl⟩ := hb; exact ⟨m * n, by push_cast; ring⟩
theorem IsInteger.neg {a : ℚ} (ha : IsInteger a) : IsInteger (-a) := by
  obtain ⟨m, rfl⟩ := ha; exact ⟨-m, by push_cast; ring⟩
theorem IsInteger.zero : IsInteger 0 := ⟨0, by norm_num⟩

theorem dot_int {v : SVec} {z : Nat → ℚ} (h : ∀ p ∈ v, IsInteger p.2) (hz : ∀ p ∈ v, IsInteger (z p.1)) :
    IsInteger (v.dot z) := by
  induction v with
  | nil => exact IsInteger.zero
  | cons p v ih =>
    rw [SVec.dot_cons]
    exact IsInteger.add (IsInteger.mul (h p List.mem_cons_self) (hz p List.mem_cons_self))
      (ih (fun q hq => h q (List.mem_cons_of_mem _ hq)) fun q hq => hz q (List.mem_cons_of_mem _ hq))

theorem coefAt_int {v : SVec} (h : ∀ p ∈ v, IsInteger p.2) (c : Nat) : IsInteger (coefAt v c) := by
  induction v with
  | nil => exact IsInteger.zero
  | cons p v ih =>
    rw [coefAt_cons]
    refine IsInteger.add ?_ (ih fun q hq => h q (List.mem_cons_of_mem _ hq))
    split
    · exact h p List.mem_cons_self
    · exact IsInteger.zero

theorem abs_dot_le {P : Prob} {v : SVec} {z : Nat → ℚ} (hw : ∀ p ∈ v, P.colLower p.1 ≤ P.colUpper p.1)
    (h : ∀ p ∈ v, |z p.1| ≤ 1 + (P.colUpper p.1 - P.colLower p.1)) : |v.dot z| ≤ size P v := by
  rw [abs_le]
  refine ⟨dot_ge_size hw h, ?_⟩
  have := dot_ge_size (z := fun j => - z j) hw fun p hp => by rw [abs_neg]; exact h p hp
  have e : v.dot (fun j => - z j) = - v.dot z := by
    clear this h hw
    induction v with
    | nil => simp
    | cons p v ih => rw [SVec.dot_cons, SVec.dot_cons, ih]; ring
  rw [e] at this
  linarith

/-- With integers the tolerance has no effect. -/
theorem le_of_tol {w q : ℚ} (hw : IsInteger w) (hq : IsInteger q) (hb : |w| ≤ 10 ^ 9) (h : w < q + tol q) : w ≤ q := by
  obtain ⟨m, rfl⟩ := hw
  obtain ⟨n, rfl⟩ := hq
  by_contra hc
  have hc := not_le.mp hc
  have h1 : n + 1 ≤ m := by have : n < m := by exact_mod_cast hc
                            omega
  have h2 : (n : ℚ) + 1 ≤ m := by exact_mod_cast h1
  have h3 : 1 < tol (n : ℚ) := by linarith
  unfold tol at h3
  rcases lt_max_iff.mp h3 with h4 | h4
  · norm_num at h4
  · have hn : (10 : ℚ) ^ 10 < |(n : ℚ)| := by
      rw [lt_div_iff₀ (by norm_num)] at h4; linarith
    have hm := abs_le.mp hb
    rcases abs_cases (n : ℚ) with ⟨e, hs⟩ | ⟨e, hs⟩
    · rw [e] at hn; linarith
    · have ht : tol (n : ℚ) = |(n : ℚ)| / 10 ^ 10 := by
        unfold tol
        refine max_eq_right (le_trans ?_ h4.le)
        norm_num
      rw [ht, e] at h
      rw [e] at hn
      have : (n : ℚ) + -(n : ℚ) / 10 ^ 10 = (n : ℚ) * (1 - 1 / 10 ^ 10) := by ring
      rw [this] at h
      have h5 : (n : ℚ) * (1 - 1 / 10 ^ 10) ≤ -10 ^ 10 * (1 - 1 / 10 ^ 10) := by
        apply mul_le_mul_of_nonneg_right
        · linarith
        · norm_num
      have : -(10 : ℚ) ^ 10 * (1 - 1 / 10 ^ 10) < - 10 ^ 9 := by norm_num
      linarith

theorem ge_of_tol {w q : ℚ} (hw : IsInteger w) (hq : IsInteger q) (hb : |w| ≤ 10 ^ 9) (h : q - tol q < w) : q ≤ w := by
  have ht : tol (-q) = tol q := by unfold tol; rw [abs_neg]
  have := le_of_tol (IsInteger.neg hw) (IsInteger.neg hq) (by rw [abs_neg]; exact hb) (by rw [ht]; linarith)
  linarith

section
variable {P : Prob} {rows : List SRow} {rhs0 : List ℚ} {x x0 : Nat → ℚ} {s : St}

theorem IntRows.col (hR : IntRows P rows) {r : SRow} (hr : r ∈ rows) : ∀ p ∈ r.els, Col P p.1 := fun p hp =>
  ⟨(hR.ok.small r hr).lt p hp, (hR.ok.small r hr).open_ p hp, (hR.ok.small r hr).notFree p hp⟩

/-- The table says exactly whether the row holds. -/
theorem allowed_exact (hR : IntRows P rows) (hg : Good P rows rhs0 s) (hwid : ∀ j, Col P j → s.nb j ≤ 1)
    (hx : ∀ j, Col P j → IsInteger (x j)) (hbox : ∀ j, Col P j → 0 ≤ x j - s.tl j ∧ x j - s.tl j ≤ s.nb j) {i : Nat} {r : SRow}
    {q : ℚ} (hr : rows[i]? = some r) (hq : s.rhs[i]? = some q) :
    allowed (r.els.map Prod.snd) q r.eqn (vals (fun j => x j - s.tl j) r.els) = true ↔ RowAt s x r q := by
  have m := List.mem_of_getElem? hr
  have hcol := hR.col m
  have hint := dot_int (z := fun j => x j - s.tl j) (hR.int r m) fun p hp =>
    IsInteger.sub (hx _ (hcol p hp)) (hg.tlInt _ (hcol p hp))
  have hqi := hg.rhsInt q (List.mem_of_getElem? hq)
  have hb : |r.els.dot fun j => x j - s.tl j| ≤ 10 ^ 9 := by
    refine le_trans (abs_dot_le (P := P) ?_ ?_) (hR.size r m)
    · intro p hp; rw [hR.one _ (hcol p hp)]; linarith
    · intro p hp
      have := hbox _ (hcol p hp)
      have := hwid _ (hcol p hp)
      rw [hR.one _ (hcol p hp), abs_of_nonneg (by linarith)]; linarith
  rw [allowed_iff, lin_dot]
  unfold RowAt loRhs
  constructor
  · rintro ⟨h1, h2⟩
    refine ⟨le_of_tol hint hqi hb h1, fun he => le_antisymm (le_of_tol hint hqi hb h1) ?_⟩
    rw [if_pos he] at h2
    exact ge_of_tol hint hqi hb h2
  · rintro ⟨h1, h2⟩
    have ht := tol_pos q
    refine ⟨by linarith, ?_⟩
    split
    · rename_i he; rw [h2 he]; linarith
    · have := (abs_le.mp hb).1
      have : (10 : ℚ) ^ 9 ≤ 10 ^ 30 := by norm_num
      linarith

theorem Sat.mem_bits (hR : IntRows P rows) (hg : Good P rows rhs0 s) (hwid : ∀ j, Col P j → s.nb j ≤ 1)
    (hx : ∀ j, Col P j → IsInteger (x j)) (hbox : ∀ j, Col P j → 0 ≤ x j - s.tl j ∧ x j - s.tl j ≤ s.nb j) {r : SRow}
    (hr : r ∈ rows) : vals (fun j => x j - s.tl j) r.els ∈ bits r.els.length := by
  refine vals_mem_bits fun p hp => ?_
  have hc := hR.col hr p hp
  obtain ⟨z, hz⟩ := IsInteger.sub (hx _ hc) (hg.tlInt _ hc)
  have := hbox _ hc
  have := hwid _ hc
  rw [hz] at *
  have h1 : 0 ≤ z := by exact_mod_cast (by linarith : (0 : ℚ) ≤ z)
  have h2 : z ≤ 1 := by exact_mod_cast (by linarith : (z : ℚ) ≤ 1)
  have : z = 0 ∨ z = 1 := by omega
  rcases this with rfl | rfl
  · left; norm_num
  · right; norm_num

theorem Good.drop (hg : Good P rows rhs0 s) (k : Nat) : Good P rows rhs0 (drop k s) := by
  refine ⟨hg.tlInt, hg.nbInt, hg.rhsInt, hg.tch, hg.rel, ?_⟩
  intro d hd
  rcases List.mem_or_eq_of_mem_set hd with h | h
  · exact hg.dup d h
  · exact Or.inr h

theorem Sat.undrop {k : Nat} (h : Sat P rows (DupRow.drop k s) x)
    (hk : ∀ r q, rows[k]? = some r → s.rhs[k]? = some q → RowAt s x r q) : Sat P rows s x := by
  refine ⟨h.box, ?_⟩
  intro i r q hr hq hd
  by_cases hik : i = k
  · subst hik; exact hk r q hr hq
  · refine h.row i r q hr hq ?_
    show (s.dup.set k (-2))[i]? ≠ _
    rw [List.getElem?_set_ne (fun e => hik e.symm)]
    exact hd

theorem Good.shift (hR : IntRows P rows) (hg : Good P rows rhs0 s) {c : Nat} {lo : ℚ} (hl : IsInteger lo)
    : Good P rows rhs0 (shift rows c lo 0 s) := by
  refine ⟨?_, ?_, ?_, ?_, ?_, hg.dup⟩
  · intro j hj
    show IsInteger (Function.update s.tl c (s.tl c + lo) j)
    by_cases h : j = c
    · subst h; rw [Function.update_self]; exact IsInteger.add (hg.tlInt j hj) hl
    · rw [Function.update_of_ne h]; exact hg.tlInt j hj
  · intro j hj
    show IsInteger (Function.update s.nb c 0 j)
    by_cases h : j = c
    · subst h; rw [Function.update_self]; exact IsInteger.zero
    · rw [Function.update_of_ne h]; exact hg.nbInt j hj
  · intro q hq
    change q ∈ List.zipWith _ rows s.rhs at hq
    rw [List.mem_iff_getElem?] at hq
    obtain ⟨i, hi⟩ := hq
    rw [List.getElem?_zipWith] at hi
    rcases hr : rows[i]? with _ | r
    · rw [hr] at hi; cases hi
    · rcases hs : s.rhs[i]? with _ | q'
      · rw [hr, hs] at hi; cases hi
      · rw [hr, hs] at hi
        simp only [Option.some.injEq] at hi
        rw [← hi]
        exact IsInteger.sub (hg.rhsInt _ (List.mem_of_getElem? hs))
          (IsInteger.mul hl (coefAt_int (hR.int r (List.mem_of_getElem? hr)) c))
  · intro j hj
    change Function.update s.tch c true j = false at hj
    have h : j ≠ c := by rintro rfl; rw [Function.update_self] at hj; cases hj
    rw [Function.update_of_ne h] at hj
    show Function.update s.tl c (s.tl c + lo) j = _ ∧ Function.update s.nb c 0 j = _
    rw [Function.update_of_ne h, Function.update_of_ne h]
    exact hg.tch j hj
  · intro i r q q' hr hq hq'
    change (List.zipWith _ rows s.rhs)[i]? = some q at hq
    rw [List.getElem?_zipWith, hr] at hq
    rcases hs : s.rhs[i]? with _ | q1
    · rw [hs] at hq; cases hq
    · rw [hs] at hq
      simp only [Option.some.injEq] at hq
      have := hg.rel i r q1 q' hr hs hq'
      have hd : r.els.dot (fun j => P.colLower j - (DupRow.shift rows c lo 0 s).tl j) =
          r.els.dot (fun j => P.colLower j - s.tl j) - lo * coefAt r.els c := dot_shift r.els P.colLower s.tl c lo
      rw [hd, ← hq, this]; ring

theorem Sat.unshift {c : Nat} {lo : ℚ} (h0 : 0 ≤ lo) (h1 : lo ≤ s.nb c)
    (h : Sat P rows (DupRow.shift rows c lo 0 s) x) : Sat P rows s x := by
  refine ⟨?_, ?_⟩
  · intro j hj
    obtain ⟨a, b⟩ := h.box j hj
    change 0 ≤ x j - Function.update s.tl c (s.tl c + lo) j at a
    change x j - Function.update s.tl c (s.tl c + lo) j ≤ Function.update s.nb c 0 j at b
    by_cases hc : j = c
    · subst hc
      rw [Function.update_self] at a b
      rw [Function.update_self] at b
      constructor <;> linarith
    · rw [Function.update_of_ne hc] at a b
      rw [Function.update_of_ne hc] at b
      exact ⟨a, b⟩
  · intro i r q hr hq hd
    have := h.row i r (q - lo * coefAt r.els c) hr (by
      show (List.zipWith _ rows s.rhs)[i]? = _
      rw [List.getElem?_zipWith, hr, hq]) hd
    have hdot : r.els.dot (fun j => x j - (DupRow.shift rows c lo 0 s).tl j) =
        r.els.dot (fun j => x j - s.tl j) - lo * coefAt r.els c := dot_shift r.els x s.tl c lo
    unfold RowAt at this ⊢
    rw [hdot] at this
    exact ⟨by linarith [this.1], fun he => by linarith [this.2 he]⟩

theorem fix_back (hR : IntRows P rows) (hx0 : ∀ j, Col P j → IsInteger (x0 j)) (l : List (Nat × Option ℚ)) {s : St}
    (hi : Inv P rows x0 s) (hg : Good P rows rhs0 s) (hnd : (l.map Prod.fst).Nodup) (hc : ∀ p ∈ l, Col P p.1)
    (hv : ∀ c v, (c, some v) ∈ l → x0 c - s.tl c = v) :
    Good P rows rhs0 (applyFix rows l s) ∧ (Sat P rows (applyFix rows l s) x → Sat P rows s x) := by
  have hw : ∀ j, Col P j → P.colLower j ≤ P.colUpper j := fun j hj => (of_decide_eq_true hj.2.1).le
  induction l generalizing s with
  | nil => exact ⟨hg, id⟩
  | cons p l ih =>
    obtain ⟨c, o⟩ := p
    rw [List.map_cons, List.nodup_cons] at hnd
    have hc' : ∀ p ∈ l, Col P p.1 := fun q hq => hc q (List.mem_cons_of_mem _ hq)
    rcases o with _ | v
    · exact ih hi hg hnd.2 hc' fun c v hcv => hv c v (List.mem_cons_of_mem _ hcv)
    · have hcv := hv c v List.mem_cons_self
      have hcol : Col P c := hc _ List.mem_cons_self
      have hlo := hi.lo c hcol
      have hup := hi.up c hcol
      rw [hcv] at hlo hup
      have hvi : IsInteger v := by rw [← hcv]; exact IsInteger.sub (hx0 c hcol) (hg.tlInt c hcol)
      have hi' : Inv P rows x0 (shift rows c v 0 s) := by
        apply hi.shift
        · rw [hcv]; linarith
        · rw [hcv]; linarith
        · have := hw c hcol; linarith
        · intro _; left; rw [hcv]; ring
      obtain ⟨a, b⟩ := ih hi' (hg.shift hR hvi) hnd.2 hc' (by
        intro c' v' hm
        have hne : c' ≠ c := by
          rintro rfl
          exact hnd.1 (List.mem_map.mpr ⟨_, hm, rfl⟩)
        show x0 c' - Function.update s.tl c (s.tl c + v) c' = v'
        rw [Function.update_of_ne hne]
        exact hv c' v' (List.mem_cons_of_mem _ hm))
      exact ⟨a, fun h => Sat.unshift hlo hup (b h)⟩

theorem pure_back (hR : IntRows P rows) (hx0 : ∀ j, Col P j → IsInteger (x0 j)) (hx : ∀ j, Col P j → IsInteger (x j))
    (hi : Inv P rows x0 s) (hg : Good P rows rhs0 s) {i k : Nat} {r0 r1 : SRow} {q0 q1 : ℚ} (hik : i ≠ k)
    (hri : rows[i]? = some r0) (hrk : rows[k]? = some r1) (hqi : s.rhs[i]? = some q0) (hqk : s.rhs[k]? = some q1)
    (hdi : s.dup[i]? ≠ some (-2)) (hdk : s.dup[k]? ≠ some (-2)) (hcols : r1.els.map Prod.fst = r0.els.map Prod.fst) :
    Good P rows rhs0 (purePair rows r0 i k r0.eqn r1 q0 q1 s) ∧
      (Sat P rows (purePair rows r0 i k r0.eqn r1 q0 q1 s) x → Sat P rows s x) := by
  have m0 := List.mem_of_getElem? hri
  have m1 := List.mem_of_getElem? hrk
  have s0 := hR.ok.small _ m0
  have hcol := hR.col m0
  have hwid : ∀ j, Col P j → s.nb j ≤ 1 := fun j hj => by
    have := hi.wid j hj
    rw [hR.one j hj] at this; linarith
  -- the feasible point
  have b0 : ∀ j, Col P j → 0 ≤ x0 j - s.tl j ∧ x0 j - s.tl j ≤ s.nb j := fun j hj => ⟨hi.lo j hj, hi.up j hj⟩
  have mem0 : vals (fun j => x0 j - s.tl j) r0.els ∈ bits (r0.els.map Prod.snd).length := by
    rw [List.length_map]; exact Sat.mem_bits hR hg hwid hx0 b0 m0
  have f0 := (allowed_exact hR hg hwid hx0 b0 hri hqi).mpr (hi.row i r0 q0 hri hqi)
  have f1 := (allowed_exact hR hg hwid hx0 b0 hrk hqk).mpr (hi.row k r1 q1 hrk hqk)
  rw [vals_cols (y := fun j => x0 j - s.tl j) hcols] at f1
  -- the other point
  have key : (∀ j, Col P j → 0 ≤ x j - s.tl j ∧ x j - s.tl j ≤ s.nb j) →
      ∃ a ∈ bits (r0.els.map Prod.snd).length,
        (allowed (r0.els.map Prod.snd) q0 r0.eqn a = true ↔ RowAt s x r0 q0) ∧
        (allowed (r1.els.map Prod.snd) q1 r1.eqn a = true ↔ RowAt s x r1 q1) := by
    intro hb
    refine ⟨vals (fun j => x j - s.tl j) r0.els, ?_, allowed_exact hR hg hwid hx hb hri hqi, ?_⟩
    · rw [List.length_map]; exact Sat.mem_bits hR hg hwid hx hb m0
    · rw [← vals_cols (y := fun j => x j - s.tl j) hcols]; exact allowed_exact hR hg hwid hx hb hrk hqk
  have dropk : (∀ a ∈ bits (r0.els.map Prod.snd).length, allowed (r0.els.map Prod.snd) q0 r0.eqn a = true →
      allowed (r1.els.map Prod.snd) q1 r1.eqn a = true) → Sat P rows (DupRow.drop k s) x → Sat P rows s x := by
    intro himp h
    obtain ⟨a, ha, e0, e1⟩ := key h.box
    have hi0 : RowAt s x r0 q0 := h.row i r0 q0 hri hqi (by
      show (s.dup.set k (-2))[i]? ≠ _
      rw [List.getElem?_set_ne (fun e => hik e.symm)]; exact hdi)
    refine h.undrop fun r q hr hq => ?_
    rw [hrk] at hr
    rw [hqk] at hq
    obtain rfl := Option.some.inj hr
    obtain rfl := Option.some.inj hq
    exact e1.mp (himp a ha (e0.mpr hi0))
  have dropi : (∀ a ∈ bits (r0.els.map Prod.snd).length, allowed (r1.els.map Prod.snd) q1 r1.eqn a = true →
      allowed (r0.els.map Prod.snd) q0 r0.eqn a = true) → Sat P rows (DupRow.drop i s) x → Sat P rows s x := by
    intro himp h
    obtain ⟨a, ha, e0, e1⟩ := key h.box
    have hi0 : RowAt s x r1 q1 := h.row k r1 q1 hrk hqk (by
      show (s.dup.set i (-2))[k]? ≠ _
      rw [List.getElem?_set_ne hik]; exact hdk)
    refine h.undrop fun r q hr hq => ?_
    rw [hri] at hr
    rw [hqi] at hq
    obtain rfl := Option.some.inj hr
    obtain rfl := Option.some.inj hq
    exact e0.mp (himp a ha (e1.mpr hi0))
  unfold purePair
  dsimp only
  have hfeas := verdict_feasible mem0 f0 f1
  have hfix : ∀ {j : Nat} {v : ℚ}, _ → _ := fun {j v} => fixed_spec (j := j) (v := v) mem0 f0 f1
  generalize hv : verdict (r0.els.map Prod.snd).length (allowed (r0.els.map Prod.snd) q0 r0.eqn)
    (allowed (r1.els.map Prod.snd) q1 r1.eqn) = v at *
  have hsame : v.same = true → ∀ a ∈ bits (r0.els.map Prod.snd).length,
      allowed (r0.els.map Prod.snd) q0 r0.eqn a = allowed (r1.els.map Prod.snd) q1 r1.eqn a := by
    intro h a ha
    rw [← hv] at h
    simp only [verdict, List.all_eq_true, beq_iff_eq] at h
    exact h a ha
  split
  · rename_i s' hact
    unfold act at hact
    rw [hfeas] at hact
    simp only [Bool.not_true, Bool.false_eq_true, if_false] at hact
    split at hact
    · obtain rfl := Option.some.inj hact
      refine fix_back hR hx0 _ hi hg ?_ ?_ ?_
      · exact List.Nodup.sublist (zip_fst_sublist _ _) s0.nodup
      · intro p hp
        obtain ⟨p', hp', he⟩ := List.mem_map.mp (List.of_mem_zip hp).1
        rw [← he]; exact hcol p' hp'
      · intro c q hm
        obtain ⟨j, hj⟩ := List.mem_iff_getElem?.mp hm
        rw [List.getElem?_zip_eq_some] at hj
        have := hfix hj.2
        unfold vals at this
        rw [List.getElem?_map] at hj this
        rcases hp : r0.els[j]? with _ | p
        · rw [hp] at this; cases this
        · rw [hp] at this hj
          have e1 : p.1 = c := Option.some.inj hj.1
          have e2 := Option.some.inj this
          rw [← e1]; exact e2
    · split at hact
      · rename_i ht
        obtain rfl := Option.some.inj hact
        rw [Bool.and_eq_true, Bool.or_eq_true] at ht
        split
        · rename_i h0
          refine ⟨hg.drop k, dropk ?_⟩
          intro a ha h1
          rw [← hv] at h0
          simp only [verdict, List.all_eq_true, Bool.or_eq_true, Bool.not_eq_true'] at h0
          rcases h0 a ha with h | h
          · rw [h] at h1; cases h1
          · exact h
        · rename_i h0
          have h1' : v.tighter1 = true := by
            rcases ht.2 with h | h
            · exact absurd h h0
            · exact h
          refine ⟨hg.drop i, dropi ?_⟩
          intro a ha h1
          rw [← hv] at h1'
          simp only [verdict, List.all_eq_true, Bool.or_eq_true, Bool.not_eq_true'] at h1'
          rcases h1' a ha with h | h
          · rw [h] at h1; cases h1
          · exact h
      · split at hact
        · rename_i hred
          obtain rfl := Option.some.inj hact
          refine ⟨(hg.drop i).drop k, fun h => ?_⟩
          obtain ⟨a, ha, e0, e1⟩ := key h.box
          rw [← hv] at hred
          simp only [verdict, List.all_eq_true, Bool.and_eq_true] at hred
          have hr := hred a ha
          refine Sat.undrop (k := i) (Sat.undrop (k := k) h fun r q hr' hq' => ?_) fun r q hr' hq' => ?_
          · rw [hrk] at hr'
            change s.rhs[k]? = some q at hq'
            rw [hqk] at hq'
            obtain rfl := Option.some.inj hr'
            obtain rfl := Option.some.inj hq'
            exact e1.mp hr.2
          · rw [hri] at hr'
            rw [hqi] at hq'
            obtain rfl := Option.some.inj hr'
            obtain rfl := Option.some.inj hq'
            exact e0.mp hr.1
        · cases hact
  · split
    · rename_i h
      rw [Bool.and_eq_true, Bool.and_eq_true] at h
      refine ⟨hg.drop k, dropk ?_⟩
      intro a ha h1
      rw [← hsame h.1.1 a ha]; exact h1
    · exact ⟨hg, id⟩

theorem pair_back (hR : IntRows P rows) (hx0 : ∀ j, Col P j → IsInteger (x0 j)) (hx : ∀ j, Col P j → IsInteger (x j))
    (hi : Inv P rows x0 s) (hg : Good P rows rhs0 s) {i k : Nat} {r0 : SRow} (hik : i ≠ k) (hri : rows[i]? = some r0)
    (hdi : s.dup[i]? ≠ some (-2)) (hdk : s.dup[k]? ≠ some (-2)) {i' : Nat} {s' : St}
    (hs : pair P rows r0 i k s = .ok (i', s')) :
    Good P rows rhs0 s' ∧ (Sat P rows s' x → Sat P rows s x) := by
  unfold pair at hs
  split at hs
  · rename_i ri q0 r1 q1 h1 hq0 hk hq1
    rw [hri] at h1
    obtain rfl := Option.some.inj h1
    have s0 := hR.ok.small _ (List.mem_of_getElem? hri)
    have s1 := hR.ok.small _ (List.mem_of_getElem? hk)
    have hb : (r0.els.all fun p => isBin P p.1) = true := by
      rw [List.all_eq_true]
      exact fun p hp => hR.bin _ (hR.col (List.mem_of_getElem? hri) p hp)
    rw [hb] at hs
    split at hs
    · rename_i hsame
      simp only [if_true] at hs
      split at hs
      · obtain ⟨rfl, rfl⟩ := Prod.mk.inj (Except.ok.inj hs)
        exact pure_back hR hx0 hx hi hg hik hri hk hq0 hq1 hdi hdk (sameCols_eq s0 s1 hsame)
      · cases hs
    · obtain ⟨rfl, rfl⟩ := Prod.mk.inj (Except.ok.inj hs)
      exact ⟨hg, id⟩
  · cases hs

theorem inner_back (hR : IntRows P rows) (hbd : ∀ j, Col P j → P.colUpper j - P.colLower j ≤ 10 ^ 30)
    (hx0 : ∀ j, Col P j → IsInteger (x0 j)) (hx : ∀ j, Col P j → IsInteger (x j)) {i : Nat} {r0 : SRow}
    (hri : rows[i]? = some r0) (ks : List Nat) (hks : ∀ k ∈ ks, i < k) {s : St} (hi : Inv P rows x0 s)
    (hg : Good P rows rhs0 s) {i' : Nat} {s' : St} (hs : inner P rows r0 ks i s = .ok (i', s')) :
    Good P rows rhs0 s' ∧ (Sat P rows s' x → Sat P rows s x) := by
  induction ks generalizing s with
  | nil =>
    obtain ⟨rfl, rfl⟩ := Prod.mk.inj (Except.ok.inj hs)
    exact ⟨hg, id⟩
  | cons k ks ih =>
    have hks' : ∀ k ∈ ks, i < k := fun k' hk' => hks k' (List.mem_cons_of_mem _ hk')
    have hk := hks k List.mem_cons_self
    unfold inner at hs
    split at hs
    · rename_i dk di hdk hdi
      split at hs
      · exact ih hks' hi hg hs
      · rename_i hk2
        split at hs
        · obtain ⟨rfl, rfl⟩ := Prod.mk.inj (Except.ok.inj hs)
          exact ⟨hg, id⟩
        · rename_i hi2
          split at hs
          · cases hs
          · rename_i i1 s1 hp
            obtain ⟨rfl, h1⟩ := pair_inv hR.ok hbd hi hk hri hp
            obtain ⟨g1, b1⟩ := pair_back hR hx0 hx hi hg (Nat.ne_of_lt hk) hri
              (by rw [hdi]; intro e; exact hi2 (Option.some.inj e)) (by rw [hdk]; intro e; exact hk2 (Option.some.inj e)) hp
            obtain ⟨g2, b2⟩ := ih hks' h1 g1 hs
            exact ⟨g2, fun h => b1 (b2 h)⟩
    · cases hs

theorem outer_back (hR : IntRows P rows) (hbd : ∀ j, Col P j → P.colUpper j - P.colLower j ≤ 10 ^ 30)
    (hx0 : ∀ j, Col P j → IsInteger (x0 j)) (hx : ∀ j, Col P j → IsInteger (x j)) (n f : Nat) {i : Nat} {s : St}
    (hi : Inv P rows x0 s) (hg : Good P rows rhs0 s) {s' : St} (hs : outer P rows n f i s = .ok s') :
    Good P rows rhs0 s' ∧ (Sat P rows s' x → Sat P rows s x) := by
  induction f generalizing i s with
  | zero => obtain rfl := Except.ok.inj hs; exact ⟨hg, id⟩
  | succ f ih =>
    unfold outer at hs
    split at hs
    · split at hs
      · cases hs
      · rename_i r0 hri
        split at hs
        · cases hs
        · rename_i i1 s1 hin
          have hks : ∀ k ∈ List.range' (i + 1) (n - (i + 1)), i < k := by
            intro k hk
            rw [List.mem_range'_1] at hk
            omega
          obtain ⟨-, h1⟩ := inner_inv hR.ok hbd hri _ hks hi hin
          obtain ⟨g1, b1⟩ := inner_back hR hbd hx0 hx hri _ hks hi hg hin
          obtain ⟨g2, b2⟩ := ih h1 g1 hs
          exact ⟨g2, fun h => b1 (b2 h)⟩
    · obtain rfl := Except.ok.inj hs; exact ⟨hg, id⟩

end

end Cgl.DupRow
