import Verif.UniqueCuts.Lemmas
import Mathlib.Data.Fintype.Pigeonhole
import Mathlib.Data.Set.Finite.Basic
import Mathlib.Tactic.Linarith

/-! # Properties of the collectors -/

namespace Cgl.UniqueCuts

variable {K : Kind}

theorem sortCut_alike (c : RowCut) : Alike (sortCut c) c :=
  ⟨rfl, rfl, List.perm_insertionSort _ _⟩

/-- One insertion. -/
theorem insert_step {t : Table} {l : List RowCut} (h : Inv K t l) (hf : Fits K) (hh : ∀ s, 0 < s → 0 < K.hashSize s)
    (c : RowCut) :
    ∃ r t', insert K t c = .ok (r, t') ∧
      ((r = 0 ∧ K.bad (sortCut c) = false ∧ t' = added K (room K t l) (sortCut c) ∧ Inv K t' (l ++ [sortCut c])) ∨
        (r = 1 ∧ t' = room K t l ∧ Inv K t' l ∧ (K.bad (sortCut c) = true ∨ ∃ e ∈ l, K.same (sortCut c) e = true))) := by
  obtain ⟨h1, h2⟩ := room_inv h hf hh
  rw [insert_eq h hf hh]
  cases hb : K.bad (sortCut c) with
  | true => exact ⟨1, _, add_bad h2 hb, Or.inr ⟨rfl, rfl, h1, Or.inl rfl⟩⟩
  | false =>
    have hp := hf (sortCut c) _ (links_pos h1 h2 hh)
    rw [add_good h1 h2 hb hp]
    by_cases h3 : (hit K l (room K t l).links[K.hash (sortCut c) (room K t l).links.length] (sortCut c)).isSome
    · rw [if_pos h3]
      exact ⟨1, _, rfl, Or.inr ⟨rfl, rfl, h1, Or.inr (hit_some h3)⟩⟩
    · rw [if_neg h3]
      exact ⟨0, _, rfl, Or.inl ⟨rfl, rfl, rfl, added_inv h1 h2 _⟩⟩

theorem inserts_step (hf : Fits K) (hh : ∀ s, 0 < s → 0 < K.hashSize s) (cs : List RowCut) {t : Table}
    {l : List RowCut} (h : Inv K t l) :
    ∃ rs t' out, inserts K t cs = .ok (rs, t') ∧ Inv K t' out ∧ Account K.bad K.same l cs rs out := by
  induction cs generalizing t l with
  | nil => exact ⟨[], t, l, rfl, h, .done l⟩
  | cons c cs ih =>
    obtain ⟨r, t1, h1, h2⟩ := insert_step h hf hh c
    unfold inserts
    rw [h1]
    rcases h2 with ⟨rfl, h3, -, h4⟩ | ⟨rfl, -, h4, h3⟩
    · obtain ⟨rs, t', out, h5, h6, h7⟩ := ih h4
      refine ⟨0 :: rs, t', out, ?_, h6, .added (sortCut_alike c) h3 h7⟩
      simp only [Except.bind, h5]
    · obtain ⟨rs, t', out, h5, h6, h7⟩ := ih h4
      refine ⟨1 :: rs, t', out, ?_, h6, .skipped (sortCut_alike c) h3 h7⟩
      simp only [Except.bind, h5]

/-- **Insertions are safe and accounted for.**  For every sequence of cuts offered to a new collector, whatever the
positions that cuts have in the hash table: no array is read outside its bounds, no assertion fails, no search is
endless; and the answers and the cuts that are held in the end are as `Account` says. -/
theorem insertions_accounted (hf : Fits K) (hh : ∀ s, 0 < s → 0 < K.hashSize s) (size : Nat) (cs : List RowCut) :
    ∃ rs t, inserts K (new K size) cs = .ok (rs, t) ∧ Account K.bad K.same [] cs rs t.held := by
  obtain ⟨rs, t, out, h1, h2, h3⟩ := inserts_step hf hh cs (new_inv K size)
  exact ⟨rs, t, h1, by rw [h2.held]; exact h3⟩

/-- What `Account` means for the cuts: those that are held are acceptable and were held before or offered, ... -/
theorem account_sound {bad : RowCut → Bool} {same : RowCut → RowCut → Bool} {l cs rs out}
    (h : Account bad same l cs rs out) : ∀ d ∈ out, d ∈ l ∨ (bad d = false ∧ ∃ c ∈ cs, Alike d c) := by
  induction h with
  | done l => exact fun d hd => Or.inl hd
  | added h1 h2 _ ih =>
    intro d hd
    rcases ih d hd with h3 | ⟨h3, c, h4, h5⟩
    · rcases List.mem_append.1 h3 with h3 | h3
      · exact Or.inl h3
      · rw [List.mem_singleton.1 h3]
        exact Or.inr ⟨h2, _, List.mem_cons_self, h1⟩
    · exact Or.inr ⟨h3, c, List.mem_cons_of_mem _ h4, h5⟩
  | skipped h1 h2 _ ih =>
    intro d hd
    rcases ih d hd with h3 | ⟨h3, c, h4, h5⟩
    · exact Or.inl h3
    · exact Or.inr ⟨h3, c, List.mem_cons_of_mem _ h4, h5⟩

theorem account_keeps {bad : RowCut → Bool} {same : RowCut → RowCut → Bool} {l cs rs out}
    (h : Account bad same l cs rs out) : l <+: out := by
  induction h with
  | done l => exact List.prefix_rfl
  | added h1 h2 _ ih => exact (List.prefix_append _ _).trans ih
  | skipped h1 h2 _ ih => exact ih

/-- ... and for every cut that is offered and acceptable, the same cut is held. -/
theorem account_complete {bad : RowCut → Bool} {same : RowCut → RowCut → Bool} (hr : ∀ c, same c c = true) {l cs rs out}
    (h : Account bad same l cs rs out) : ∀ c ∈ cs, ∃ d, Alike d c ∧ (bad d = true ∨ ∃ e ∈ out, same d e = true) := by
  induction h with
  | done l => intro c hc; simp at hc
  | added h1 h2 h3 ih =>
    intro c hc
    rcases List.mem_cons.1 hc with rfl | hc
    · exact ⟨_, h1, Or.inr ⟨_, (account_keeps h3).subset (List.mem_append_right _ (List.mem_singleton.2 rfl)), hr _⟩⟩
    · exact ih c hc
  | skipped h1 h2 h3 ih =>
    intro c hc
    rcases List.mem_cons.1 hc with rfl | hc
    · refine ⟨_, h1, ?_⟩
      rcases h2 with h2 | ⟨e, h2, h4⟩
      · exact Or.inl h2
      · exact Or.inr ⟨e, (account_keeps h3).subset h2, h4⟩
    · exact ih c hc

/-- The number of cuts that are held is the number of answers 0. -/
theorem account_count {bad : RowCut → Bool} {same : RowCut → RowCut → Bool} {l cs rs out}
    (h : Account bad same l cs rs out) : out.length = l.length + rs.count 0 ∧ rs.length = cs.length := by
  induction h with
  | done l => simp
  | added h1 h2 _ ih => simp at ih ⊢; omega
  | skipped h1 h2 _ ih => simp at ih ⊢; omega

/-! ### Duplicates -/

/-- A family of cuts: `0 ≤ x₀ ≤ 1 / (n + 1)`. -/
def fam (n : Nat) : RowCut := ⟨0, 1 / ((n : ℚ) + 1), [(0, 1)]⟩

theorem fam_inj {m n : Nat} (h : fam m = fam n) : m = n := by
  have h1 : 1 / ((m : ℚ) + 1) = 1 / ((n : ℚ) + 1) := congrArg RowCut.ub h
  have h2 : (0 : ℚ) < (m : ℚ) + 1 := by positivity
  have h3 : (0 : ℚ) < (n : ℚ) + 1 := by positivity
  rw [div_eq_div_iff h2.ne' h3.ne'] at h1
  have h4 : (m : ℚ) = n := by linarith
  exact_mod_cast h4

theorem fam_sorted (n : Nat) : sortCut (fam n) = fam n := rfl

theorem two_alike (l : List RowCut) (m : Nat) (hm : 0 < m) (f : RowCut → Nat) (hf : ∀ c, f c < m) :
    ∃ i j, fam i ≠ fam j ∧ fam i ∉ l ∧ fam j ∉ l ∧ f (fam i) = f (fam j) := by
  have hfin : {n | fam n ∈ l}.Finite := by
    apply Set.Finite.preimage (f := fam) (s := {c | c ∈ l})
    · exact fun a _ b _ hab => fam_inj hab
    · exact l.finite_toSet
  have hinf : ({n | fam n ∈ l}ᶜ).Infinite := hfin.infinite_compl
  have := hinf.to_subtype
  have : NeZero m := ⟨hm.ne'⟩
  obtain ⟨⟨i, hi⟩, ⟨j, hj⟩, h1, h2⟩ := Finite.exists_ne_map_eq_of_infinite
    (fun n : ({n | fam n ∈ l}ᶜ : Set Nat) => (⟨f (fam n), hf _⟩ : Fin m))
  refine ⟨i, j, fun h => h1 (by simpa using fam_inj h), hi, hj, ?_⟩
  simpa using h2

theorem room_of_lt {t : Table} {l : List RowCut} (h : t.number < t.slots.length) : room K t l = t := by
  unfold room; rw [if_neg (by omega)]

/-- An insertion of a cut when the table has room and the cut at its place is another one. -/
theorem insert_new {t : Table} {l : List RowCut} (h : Inv K t l) (hf : Fits K) (hh : ∀ s, 0 < s → 0 < K.hashSize s)
    (hr : t.number < t.slots.length) {c : RowCut} (hs : sortCut c = c) (hb : K.bad c = false)
    (hx : ∀ hp : K.hash c t.links.length < t.links.length, (hit K l t.links[K.hash c t.links.length] c).isSome = false) :
    insert K t c = .ok (0, added K t c) := by
  rw [insert_eq h hf hh, room_of_lt hr]
  have hp := hf c _ (links_pos h hr hh)
  have h1 := hx hp
  rw [add_good h hr (by rw [hs]; exact hb) (by rw [hs]; exact hp)]
  simp only [hs]
  rw [if_neg (by simp [h1])]

/-- **The collectors do not keep duplicates out**, whatever function gives the positions in the hash table: in every
state that insertions lead to and that has room for three cuts, there are two different cuts such that the first, the
second and the first again are all added. -/
theorem duplicates_held (hf : Fits K) (hh : ∀ s, 0 < s → 0 < K.hashSize s) (hsame : ∀ a b, K.same a b = true ↔ a = b)
    (hgood : ∀ n, K.bad (fam n) = false) (size : Nat) (cs : List RowCut) {rs : List ℤ} {t : Table}
    (hreach : inserts K (new K size) cs = .ok (rs, t)) (hroom : t.number + 3 ≤ t.slots.length) :
    ∃ a b, a ≠ b ∧ ∃ rs' t', inserts K (new K size) (cs ++ [a, b, a]) = .ok (rs', t') ∧ t'.held = t.held ++ [a, b, a] := by
  obtain ⟨rs0, t0, l, h1, h2, -⟩ := inserts_step hf hh cs (new_inv K size)
  rw [hreach] at h1
  obtain ⟨rfl, rfl⟩ := Prod.mk.inj (Except.ok.inj h1)
  have hn := h2.number
  have hpos := links_pos h2 (by omega) hh
  obtain ⟨i, j, hij, hi, hj, hhash⟩ := two_alike l t.links.length hpos (fun c => K.hash c t.links.length)
    (fun c => hf c _ hpos)
  generalize ha : fam i = a at hij hi hhash
  generalize hb : fam j = b at hij hj hhash
  have hsa : sortCut a = a := by rw [← ha]; rfl
  have hsb : sortCut b = b := by rw [← hb]; rfl
  have hga : K.bad a = false := by rw [← ha]; exact hgood i
  have hgb : K.bad b = false := by rw [← hb]; exact hgood j
  have miss : ∀ (l : List RowCut) (c : RowCut) (h : Link), c ∉ l → (hit K l h c).isSome = false := by
    intro l c h hc
    by_contra hcon
    obtain ⟨d, hd, he⟩ := hit_some (K := K) (l := l) (h := h) (c := c) (by rwa [Bool.not_eq_false] at hcon)
    rw [(hsame c d).1 he] at hc
    exact hc hd
  have s1 := insert_new h2 hf hh (by omega) hsa hga (fun hp => miss l a _ hi)
  have i1 := added_inv h2 (by omega) a
  have n1 : (added K t a).number = t.number + 1 := rfl
  have z1 : (added K t a).slots.length = t.slots.length := List.length_set
  have k1 : (added K t a).links.length = t.links.length := setIndex_length _ _ _
  have s2 := insert_new i1 hf hh (by rw [n1, z1]; omega) hsb hgb (fun hp => miss _ b _ (by simp [hj, Ne.symm hij]))
  have i2 := added_inv i1 (by rw [n1, z1]; omega) b
  have n2 : (added K (added K t a) b).number = t.number + 2 := rfl
  have z2 : (added K (added K t a) b).slots.length = t.slots.length := by
    rw [← z1]; exact List.length_set
  have k2 : (added K (added K t a) b).links.length = t.links.length := by
    rw [← k1]; exact setIndex_length _ _ _
  have s3 := insert_new i2 hf hh (by rw [n2, z2]; omega) hsa hga (by
    intro hp
    have hq : K.hash a (added K (added K t a) b).links.length < (added K t a).links.length := by
      rw [k1, ← k2]; exact hp
    have e1 : (added K (added K t a) b).links[K.hash a (added K (added K t a) b).links.length].index =
        ((added K t a).number : ℤ) := by
      have := setIndex_get (added K t a).links (K.hash b (added K t a).links.length) (added K t a).number hq
      have hc : K.hash b (added K t a).links.length = K.hash a (added K (added K t a) b).links.length := by
        rw [k1, k2]; exact hhash.symm
      rw [if_pos hc] at this
      exact congrArg Link.index this
    unfold hit
    rw [e1, if_pos (by omega), n1, hn]
    have e2 : (l ++ [a] ++ [b])[((l.length + 1 : Nat) : ℤ).toNat]? = some b := by
      rw [Int.toNat_natCast, List.getElem?_append_right (by simp)]
      simp
    rw [e2]
    simp only
    rw [if_neg (by rw [hsame]; exact hij)]
    rfl)
  have i3 := added_inv i2 (by rw [n2, z2]; omega) a
  have happ : ∀ (cs ds : List RowCut) (t0 t1 t2 : Table) (r1 r2 : List ℤ), inserts K t0 cs = .ok (r1, t1) →
      inserts K t1 ds = .ok (r2, t2) → inserts K t0 (cs ++ ds) = .ok (r1 ++ r2, t2) := by
    intro cs
    induction cs with
    | nil =>
      intro ds t0 t1 t2 r1 r2 e1 e2
      obtain ⟨rfl, rfl⟩ := Prod.mk.inj (Except.ok.inj e1)
      exact e2
    | cons c cs ih =>
      intro ds t0 t1 t2 r1 r2 e1 e2
      rw [List.cons_append]
      unfold inserts at e1 ⊢
      cases e3 : insert K t0 c with
      | error f => rw [e3] at e1; exact absurd e1 (by simp [Except.bind])
      | ok r =>
        rw [e3] at e1
        simp only [Except.bind] at e1 ⊢
        cases e4 : inserts K r.2 cs with
        | error f => rw [e4] at e1; exact absurd e1 (by simp)
        | ok q =>
          rw [e4] at e1
          obtain ⟨rfl, rfl⟩ := Prod.mk.inj (Except.ok.inj e1)
          rw [ih ds r.2 q.2 t2 q.1 r2 e4 e2]
          rfl
  refine ⟨a, b, hij, _, _, happ cs [a, b, a] _ _ (added K (added K (added K t a) b) a) _ [0, 0, 0] hreach ?_, ?_⟩
  · simp only [inserts, s1, s2, s3, Except.bind]
  · rw [i3.held, h2.held]; simp

end Cgl.UniqueCuts
