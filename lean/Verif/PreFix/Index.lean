import Verif.PreFix.Spec
import Mathlib.Tactic.Linarith
import Mathlib.Data.List.Nodup
import Mathlib.Data.List.Perm.Subperm

/-! # Keeping track of indices -/

namespace Cgl.PreFix

theorem at_ok {α : Type} {l : List α} {i : ℤ} {a : α} (h0 : 0 ≤ i) (h : l[i.toNat]? = some a) : at? l i = .ok a := by
  unfold at?
  rw [if_neg (by omega), h]

theorem at_of_ok {α : Type} {l : List α} {i : ℤ} {a : α} (h : at? l i = .ok a) : 0 ≤ i ∧ l[i.toNat]? = some a := by
  unfold at? at h
  split at h
  · cases h
  · rename_i hi
    cases h1 : l[i.toNat]? with
    | none => rw [h1] at h; cases h
    | some b =>
      rw [h1] at h
      rw [Except.ok.inj h]
      exact ⟨by omega, rfl⟩

/-! ### Copying in place -/

theorem gather_spec {α : Type} : ∀ (os : List ℤ) (i : Nat) (a : List α), (∀ o ∈ os, (i : ℤ) ≤ o ∧ o < a.length) →
    os.Pairwise (· < ·) → ∃ a', gather i os a = .ok a' ∧ a'.length = a.length ∧ (∀ k < i, a'[k]? = a[k]?) ∧
      ∀ (k : Nat) (o : ℤ), os[k]? = some o → a'[i + k]? = a[o.toNat]? := by
  intro os
  induction os with
  | nil => intro i a _ _; exact ⟨a, rfl, rfl, fun _ _ => rfl, fun k o h => by simp at h⟩
  | cons o os ih =>
    intro i a hr hp
    obtain ⟨h1, h2⟩ := hr o List.mem_cons_self
    rw [List.pairwise_cons] at hp
    have hlt : o.toNat < a.length := by omega
    have hi : i < a.length := by omega
    have hv : a[o.toNat]? = some a[o.toNat] := List.getElem?_eq_getElem hlt
    obtain ⟨a', g1, g2, g3, g4⟩ := ih (i + 1) (a.set i a[o.toNat]) (by
      intro o' ho'
      have := hp.1 o' ho'
      have := (hr o' (List.mem_cons_of_mem _ ho')).2
      rw [List.length_set]
      constructor
      · push_cast; omega
      · exact this) hp.2
    refine ⟨a', ?_, ?_, ?_, ?_⟩
    · rw [gather, at_ok (by omega) hv]
      change (if i < a.length then gather (i + 1) os (a.set i a[o.toNat]) else .error .outside) = _
      rw [if_pos hi, g1]
    · rw [g2, List.length_set]
    · intro k hk
      rw [g3 k (by omega), List.getElem?_set_ne (by omega)]
    · intro k o' hk
      cases k with
      | zero =>
        rw [List.getElem?_cons_zero] at hk
        obtain rfl := Option.some.inj hk
        rw [Nat.add_zero, g3 i (by omega), List.getElem?_set_self hi, hv]
      | succ k =>
        rw [List.getElem?_cons_succ] at hk
        have ho' : o < o' := hp.1 o' (List.mem_of_getElem? hk)
        have := g4 k o' hk
        rw [List.getElem?_set_ne (by omega)] at this
        rw [← this]
        congr 1
        omega

theorem increasing_iff (l : List ℤ) : increasing l = true ↔ l.Pairwise (· < ·) := by
  induction l with
  | nil => simp [increasing]
  | cons a l ih =>
    cases l with
    | nil => simp [increasing]
    | cons b l =>
      rw [increasing, Bool.and_eq_true, ih, decide_eq_true_eq]
      constructor
      · rintro ⟨h1, h2⟩
        refine List.pairwise_cons.2 ⟨fun c hc => ?_, h2⟩
        rcases List.mem_cons.1 hc with rfl | hc
        · exact h1
        · exact h1.trans ((List.pairwise_cons.1 h2).1 c hc)
      · intro h
        obtain ⟨h1, h2⟩ := List.pairwise_cons.1 h
        exact ⟨h1 b List.mem_cons_self, h2⟩

/-- The values at the given indices. -/
def picks {α : Type} (l : List α) (os : List ℤ) (r : List α) : Prop :=
  r.length = os.length ∧ ∀ (k : Nat) (o : ℤ), os[k]? = some o → 0 ≤ o ∧ ∃ v, l[o.toNat]? = some v ∧ r[k]? = some v

theorem gather_picks {α : Type} {os : List ℤ} {a : List α} (hr : ∀ o ∈ os, 0 ≤ o ∧ o < a.length)
    (hp : os.Pairwise (· < ·)) : ∃ a', gather 0 os a = .ok a' ∧ picks a os (a'.take os.length) := by
  obtain ⟨a', g1, g2, -, g4⟩ := gather_spec os 0 a (by simpa using hr) hp
  refine ⟨a', g1, ?_, ?_⟩
  · rw [List.length_take, g2]
    apply min_eq_left
    -- an increasing list of indices is no longer than the array
    have hn : (os.map Int.toNat).Nodup := by
      rw [List.nodup_map_iff_inj_on (hp.imp fun h => h.ne)]
      intro x hx y hy hxy
      have := (hr x hx).1
      have := (hr y hy).1
      omega
    have hs : os.map Int.toNat ⊆ List.range a.length := by
      intro k hk
      obtain ⟨o, ho, rfl⟩ := List.mem_map.1 hk
      have := hr o ho
      exact List.mem_range.2 (by omega)
    have := (List.subperm_of_subset hn hs).length_le
    rwa [List.length_map, List.length_range] at this
  · intro k o hk
    have hm := List.mem_of_getElem? hk
    have h1 := hr o hm
    refine ⟨h1.1, a[o.toNat]'(by omega), List.getElem?_eq_getElem _, ?_⟩
    have hkl : k < os.length := (List.getElem?_eq_some_iff.1 hk).1
    rw [List.getElem?_take_of_lt hkl]
    have := g4 k o hk
    rw [Nat.zero_add] at this
    rw [this]
    exact List.getElem?_eq_getElem _

theorem picks_map {α : Type} {l : List α} {os : List ℤ} {r : List α} (h : picks l os r) (d : α) :
    r = os.map fun o => l.getD o.toNat d := by
  apply List.ext_getElem?
  intro k
  rw [List.getElem?_map]
  cases hk : os[k]? with
  | none =>
    rw [List.getElem?_eq_none_iff] at hk
    rw [Option.map_none, List.getElem?_eq_none_iff, h.1]
    exact hk
  | some o =>
    obtain ⟨-, v, h1, h2⟩ := h.2 k o hk
    rw [h2, Option.map_some, List.getD_eq_getElem?_getD, h1]
    rfl

theorem count_kept {l : List Nat} {os : List ℤ} {r : List Nat} (h : picks l os r) (hp : os.Pairwise (· < ·))
    (hk : ∀ (k v : Nat), l[k]? = some v → v ≠ 0 → (k : ℤ) ∈ os) : r.countP (· != 0) = l.countP (· != 0) := by
  rw [picks_map h 0, List.countP_map]
  have e1 : l.countP (· != 0) = (List.range l.length).countP fun k => l.getD k 0 != 0 := by
    conv_lhs => rw [show l = (List.range l.length).map fun k => l.getD k 0 from by
      apply List.ext_getElem?
      intro k
      rw [List.getElem?_map]
      by_cases hkl : k < l.length
      · rw [List.getElem?_range hkl, Option.map_some, List.getD_eq_getElem?_getD, List.getElem?_eq_getElem hkl]
        rfl
      · rw [List.getElem?_eq_none_iff.2 (by omega), List.getElem?_eq_none_iff.2 (by rw [List.length_range]; omega)]
        rfl]
    rw [List.countP_map]
    rfl
  rw [e1, List.countP_eq_length_filter, List.countP_eq_length_filter]
  have hpos : ∀ o ∈ os, 0 ≤ o ∧ o.toNat < l.length := by
    intro o ho
    obtain ⟨k, hk⟩ := List.mem_iff_getElem?.1 ho
    obtain ⟨h0, v, h1, -⟩ := h.2 k o hk
    exact ⟨h0, (List.getElem?_eq_some_iff.1 h1).1⟩
  have hperm : ((os.filter ((fun x => x != 0) ∘ fun o => l.getD o.toNat 0)).map Int.toNat).Perm
      ((List.range l.length).filter fun k => l.getD k 0 != 0) := by
    rw [List.perm_ext_iff_of_nodup]
    · intro k
      constructor
      · intro hm
        obtain ⟨o, ho, rfl⟩ := List.mem_map.1 hm
        obtain ⟨h1, h2⟩ := List.mem_filter.1 ho
        exact List.mem_filter.2 ⟨List.mem_range.2 (hpos o h1).2, h2⟩
      · intro hm
        obtain ⟨h1, h2⟩ := List.mem_filter.1 hm
        have hkl := List.mem_range.1 h1
        have hv : l[k]? = some (l.getD k 0) := by
          rw [List.getD_eq_getElem?_getD, List.getElem?_eq_getElem hkl]; rfl
        refine List.mem_map.2 ⟨(k : ℤ), List.mem_filter.2 ⟨hk k _ hv (by simpa using h2), h2⟩, rfl⟩
    · rw [List.nodup_map_iff_inj_on ((hp.imp fun h => h.ne).filter _)]
      intro x hx y hy hxy
      have := (hpos x (List.mem_filter.1 hx).1).1
      have := (hpos y (List.mem_filter.1 hy).1).1
      omega
    · exact List.nodup_range.filter _
  have := hperm.length_eq
  rwa [List.length_map] at this

/-! ### The theorems on `update` and the functions that pass arrays in -/

/-- **`update` gives every remaining column and row its mark**, if the presolve keeps the order of columns and rows and
removes no prohibited column. -/
theorem update_follows {columns rows : List ℤ} {m : Marks} (hc : columns.Pairwise (· < ·)) (hr : rows.Pairwise (· < ·))
    (hp : ∀ p, m.prohibited = some p → (∀ o ∈ columns, 0 ≤ o ∧ o < p.length) ∧
      ∀ (k v : Nat), p[k]? = some v → v ≠ 0 → (k : ℤ) ∈ columns)
    (ht : ∀ t, m.rowType = some t → ∀ o ∈ rows, 0 ≤ o ∧ o < t.length) :
    ∃ m', update columns rows m = .ok m' ∧
      (m.prohibited = none ∧ m'.prohibited = none ∨
        ∃ p p', m.prohibited = some p ∧ m'.prohibited = some p' ∧ picks p columns p') ∧
      (m.rowType = none ∧ m'.rowType = none ∨
        ∃ t t', m.rowType = some t ∧ m'.rowType = some t' ∧ picks t rows t') := by
  have h1 : ∃ q, updateProhibited columns m.prohibited = .ok q ∧ (m.prohibited = none ∧ q = none ∨
      ∃ p p', m.prohibited = some p ∧ q = some p' ∧ picks p columns p') := by
    cases hm : m.prohibited with
    | none => exact ⟨none, rfl, Or.inl ⟨rfl, rfl⟩⟩
    | some p =>
      obtain ⟨r1, r2⟩ := hp p hm
      obtain ⟨a', g1, g2⟩ := gather_picks r1 hc
      refine ⟨some (a'.take columns.length), ?_, Or.inr ⟨p, _, rfl, rfl, g2⟩⟩
      unfold updateProhibited updateColumns
      dsimp only
      rw [g1]
      have := count_kept g2 hc r2
      simp only [Except.bind]
      rw [if_pos (by rw [(increasing_iff _).2 hc, decide_eq_true this]; rfl)]
  have h2 : ∃ q, updateRowType rows m.rowType = .ok q ∧ (m.rowType = none ∧ q = none ∨
      ∃ p p', m.rowType = some p ∧ q = some p' ∧ picks p rows p') := by
    cases hm : m.rowType with
    | none => exact ⟨none, rfl, Or.inl ⟨rfl, rfl⟩⟩
    | some t =>
      obtain ⟨a', g1, g2⟩ := gather_picks (ht t hm) hr
      refine ⟨some (a'.take rows.length), ?_, Or.inr ⟨t, _, rfl, rfl, g2⟩⟩
      unfold updateRowType updateRows
      dsimp only
      rw [g1]
      rfl
  obtain ⟨q, a1, a2⟩ := h1
  obtain ⟨t, b1, b2⟩ := h2
  refine ⟨⟨q, t⟩, ?_, a2, b2⟩
  unfold update
  rw [a1]
  simp only [Except.bind]
  rw [b1]

/-- **Row types that are passed in follow the rows through presolve**; the prohibited columns are as without them. -/
theorem passInRowTypes_follows {columns rows : List ℤ} {m : Marks} {types : List ℤ} (hc : columns.Pairwise (· < ·))
    (hr : rows.Pairwise (· < ·))
    (hp : ∀ p, m.prohibited = some p → (∀ o ∈ columns, 0 ≤ o ∧ o < p.length) ∧
      ∀ (k v : Nat), p[k]? = some v → v ≠ 0 → (k : ℤ) ∈ columns)
    (ht : ∀ o ∈ rows, 0 ≤ o ∧ o < types.length) :
    ∃ m' t', update columns rows (passInRowTypes m types) = .ok m' ∧ m'.rowType = some t' ∧ picks types rows t' ∧
      (m.prohibited = none ∧ m'.prohibited = none ∨
        ∃ p p', m.prohibited = some p ∧ m'.prohibited = some p' ∧ picks p columns p') := by
  obtain ⟨m', h1, h2, h3⟩ := update_follows (m := passInRowTypes m types) hc hr hp (by
    intro t e
    obtain rfl := Option.some.inj e
    exact ht)
  rcases h3 with ⟨h3, -⟩ | ⟨t, t', h3, h4, h5⟩
  · cases h3
  · obtain rfl := Option.some.inj h3
    exact ⟨m', t', h1, h4, h5, h2⟩

/-- **Prohibited columns are joined**: after `passInProhibited` a column is prohibited if it is in the new array, or was
before; an array of another length is replaced. -/
theorem passInProhibited_joins (m : Marks) (flags : List Nat) : ∃ p, (passInProhibited m flags).prohibited = some p ∧
    p.length = flags.length ∧ (passInProhibited m flags).rowType = m.rowType ∧
    ∀ k < flags.length, (p.getD k 0 ≠ 0 ↔ flags.getD k 0 ≠ 0 ∨
      ∃ old, m.prohibited = some old ∧ old.length = flags.length ∧ old.getD k 0 ≠ 0) := by
  cases hm : m.prohibited with
  | none =>
    refine ⟨flags, ?_, rfl, rfl, fun k _ => ?_⟩
    · unfold passInProhibited; rw [hm]
    · simp
  | some old =>
    by_cases hl : old.length = flags.length
    · refine ⟨List.zipWith (fun a b => a ||| b) flags old, ?_, ?_, rfl, fun k hk => ?_⟩
      · unfold passInProhibited; rw [hm]
        change some (if old.length = flags.length then _ else _) = _
        rw [if_pos hl]
      · rw [List.length_zipWith, hl, Nat.min_self]
      · have hk2 : k < old.length := by omega
        rw [List.getD_eq_getElem?_getD, List.getD_eq_getElem?_getD, List.getElem?_zipWith,
          List.getElem?_eq_getElem hk, List.getElem?_eq_getElem hk2]
        change flags[k] ||| old[k] ≠ 0 ↔ flags[k] ≠ 0 ∨ _
        rw [Ne, Nat.or_eq_zero_iff, not_and_or]
        constructor
        · rintro (h | h)
          · exact Or.inl h
          · refine Or.inr ⟨old, rfl, hl, ?_⟩
            rw [List.getD_eq_getElem?_getD, List.getElem?_eq_getElem hk2]
            exact h
        · rintro (h | ⟨old', h1, -, h3⟩)
          · exact Or.inl h
          · right
            obtain rfl := Option.some.inj h1
            rw [List.getD_eq_getElem?_getD, List.getElem?_eq_getElem hk2] at h3
            exact h3
    · refine ⟨flags, ?_, rfl, rfl, fun k hk => ?_⟩
      · unfold passInProhibited; rw [hm]
        change some (if old.length = flags.length then _ else _) = _
        rw [if_neg hl]
      · constructor
        · exact Or.inl
        · rintro (h | ⟨old', h1, h2, -⟩)
          · exact h
          · obtain rfl := Option.some.inj h1
            exact absurd h2 hl

/-! ### Original indices -/

theorem lookAll_spec : ∀ {table is : List ℤ}, (∀ i ∈ is, 0 ≤ i ∧ i < table.length) →
    ∃ r, lookAll table is = .ok r ∧ picks table is r := by
  intro table is
  induction is with
  | nil => intro _; exact ⟨[], rfl, rfl, fun k o h => by simp at h⟩
  | cons i is ih =>
    intro h
    obtain ⟨r, h1, h2, h3⟩ := ih fun j hj => h j (List.mem_cons_of_mem _ hj)
    have hi := h i List.mem_cons_self
    have hv : table[i.toNat]? = some (table[i.toNat]'(by omega)) := List.getElem?_eq_getElem _
    refine ⟨table[i.toNat]'(by omega) :: r, ?_, ?_, ?_⟩
    · rw [lookAll, at_ok hi.1 hv]
      simp only [Except.bind]
      rw [h1]
    · rw [List.length_cons, List.length_cons, h2]
    · intro k o hk
      cases k with
      | zero =>
        rw [List.getElem?_cons_zero] at hk
        obtain rfl := Option.some.inj hk
        exact ⟨hi.1, _, hv, by rw [List.getElem?_cons_zero]⟩
      | succ k =>
        rw [List.getElem?_cons_succ] at hk
        obtain ⟨a, v, b, c⟩ := h3 k o hk
        exact ⟨a, v, b, by rw [List.getElem?_cons_succ]; exact c⟩

/-- What a row is looked up as. -/
def rowLooked (table : List ℤ) (i v : ℤ) : Prop :=
  (0 ≤ i ∧ table[i.toNat]? = some v) ∨ ((i < 0 ∨ (table.length : ℤ) ≤ i) ∧ v = -1)

theorem lookRows_spec : ∀ {table is : List ℤ}, ∃ r, lookRows table table.length is = .ok r ∧ r.length = is.length ∧
    ∀ (k : Nat) (i : ℤ), is[k]? = some i → ∃ v, r[k]? = some v ∧ rowLooked table i v := by
  intro table is
  induction is with
  | nil => exact ⟨[], rfl, rfl, fun k o h => by simp at h⟩
  | cons i is ih =>
    obtain ⟨r, h1, h2, h3⟩ := ih
    have hone : ∃ v, lookRow table table.length i = .ok v ∧ rowLooked table i v := by
      unfold lookRow
      by_cases hi : 0 ≤ i ∧ i < (table.length : ℤ)
      · rw [if_pos hi]
        have hv : table[i.toNat]? = some (table[i.toNat]'(by omega)) := List.getElem?_eq_getElem _
        exact ⟨_, at_ok hi.1 hv, Or.inl ⟨hi.1, hv⟩⟩
      · rw [if_neg hi]
        exact ⟨-1, rfl, Or.inr ⟨by omega, rfl⟩⟩
    obtain ⟨v, hv, hl⟩ := hone
    refine ⟨v :: r, ?_, ?_, ?_⟩
    · rw [lookRows, hv]
      simp only [Except.bind]
      rw [h1]
    · rw [List.length_cons, List.length_cons, h2]
    · intro k o hk
      cases k with
      | zero =>
        rw [List.getElem?_cons_zero] at hk
        obtain rfl := Option.some.inj hk
        exact ⟨v, by rw [List.getElem?_cons_zero], hl⟩
      | succ k =>
        rw [List.getElem?_cons_succ] at hk
        obtain ⟨v, a, b⟩ := h3 k o hk
        exact ⟨v, by rw [List.getElem?_cons_succ]; exact a, b⟩

/-- The row is traced back, or is -1 if it cannot be traced back. -/
def Traced (ps : List Pass) (i k : ℤ) : Prop := Leads rowMap ps i k ∨ ((∀ k', ¬ Leads rowMap ps i k') ∧ k = -1)

theorem leads_cons {map : Pass → Option (List ℤ)} {p : Pass} {ps : List Pass} {l : List ℤ} (hm : map p = some l)
    {i k : ℤ} (h : Leads map (p :: ps) i k) : ∃ j, 0 ≤ i ∧ l[i.toNat]? = some j ∧ Leads map ps j k := by
  cases h with
  | cons hm' hi hj hk =>
    rw [hm] at hm'
    obtain rfl := Option.some.inj hm'
    exact ⟨_, hi, hj, hk⟩

/-- Once a row is lost it stays lost. -/
theorem leads_neg {map : Pass → Option (List ℤ)} {ps : List Pass} {i k : ℤ} (h : Leads map ps i k) (hi : i < 0) :
    ps = [] ∧ k = i := by
  cases h with
  | nil => exact ⟨rfl, rfl⟩
  | cons hm h0 hj hk => omega

theorem traced_neg {ps : List Pass} : Traced ps (-1) (-1) := by
  cases ps with
  | nil => exact Or.inl (.nil _)
  | cons p ps =>
    right
    refine ⟨fun k' h => ?_, rfl⟩
    have := (leads_neg h (by decide)).1
    cases this

theorem traced_fun {ps : List Pass} {i k : ℤ} (hi : i = -1) (h : Traced ps i k) : k = -1 := by
  rcases h with h | h
  · rw [(leads_neg h (by omega)).2, hi]
  · exact h.2

/-- The maps of a chain, composed. -/
theorem earlier_spec {nCols : Nat} : ∀ (ps : List Pass) (m : List ℤ × List ℤ), Fits nCols ps →
    (∀ c ∈ m.1, 0 ≤ c ∧ c < (before nCols ps : ℤ)) →
    ∃ r, earlier ps m = .ok r ∧ r.1.length = m.1.length ∧ r.2.length = m.2.length ∧
      (∀ c ∈ r.1, 0 ≤ c ∧ c < (nCols : ℤ)) ∧
      (∀ (k : Nat) (i : ℤ), m.1[k]? = some i → ∃ v, r.1[k]? = some v ∧ Leads colMap ps i v) ∧
      (∀ (k : Nat) (i : ℤ), m.2[k]? = some i → ∃ v, r.2[k]? = some v ∧ Traced ps i v) ∧
      (Ordered ps → m.1.Pairwise (· < ·) → r.1.Pairwise (· < ·)) := by
  intro ps
  induction ps with
  | nil =>
    intro m _ hm
    exact ⟨m, rfl, rfl, rfl, hm, fun k i h => ⟨i, h, .nil _⟩, fun k i h => ⟨i, h, Or.inl (.nil _)⟩, fun _ h => h⟩
  | cons p ps ih =>
    intro m hF hm
    obtain ⟨⟨cs, rs, h1, h2, h3, h4⟩, h5⟩ := hF
    have hm' : ∀ i ∈ m.1, 0 ≤ i ∧ i < cs.length := by
      intro i hi
      have := hm i hi
      change 0 ≤ i ∧ i < (p.nCols : ℤ) at this
      rw [h2]; exact this
    obtain ⟨c, c1, c2⟩ := lookAll_spec hm'
    obtain ⟨rr, r1, r2, r3⟩ := lookRows_spec (table := rs) (is := m.2)
    have hc : ∀ v ∈ c, 0 ≤ v ∧ v < (before nCols ps : ℤ) := by
      intro v hv
      obtain ⟨k, hk⟩ := List.mem_iff_getElem?.1 hv
      have hkl : k < m.1.length := by
        rw [← c2.1]; exact (List.getElem?_eq_some_iff.1 hk).1
      obtain ⟨-, w, e1, e2⟩ := c2.2 k m.1[k] (List.getElem?_eq_getElem hkl)
      rw [hk] at e2
      rw [Option.some.inj e2]
      exact h4 w (List.mem_of_getElem? e1)
    obtain ⟨r, a1, a2, a3, a4, a5, a6, a7⟩ := ih (c, rr) h5 hc
    have hcm : colMap p = some cs := by unfold colMap; rw [h1]; rfl
    have hrm : rowMap p = some rs := by unfold rowMap; rw [h1]; rfl
    refine ⟨r, ?_, ?_, ?_, a4, ?_, ?_, ?_⟩
    · rw [earlier, h1]
      change (lookAll cs m.1).bind (fun c => (lookRows rs p.nRows m.2).bind fun r => earlier ps (c, r)) = _
      rw [c1]
      simp only [Except.bind]
      rw [← h3, r1]
      exact a1
    · rw [a2]; exact c2.1
    · rw [a3]; exact r2
    · intro k i hk
      obtain ⟨h0, w, e1, e2⟩ := c2.2 k i hk
      obtain ⟨v, f1, f2⟩ := a5 k w e2
      exact ⟨v, f1, .cons hcm h0 e1 f2⟩
    · intro k i hk
      obtain ⟨w, e1, e2⟩ := r3 k i hk
      obtain ⟨v, f1, f2⟩ := a6 k w e1
      refine ⟨v, f1, ?_⟩
      rcases e2 with ⟨g0, g1⟩ | ⟨g0, g1⟩
      · rcases f2 with f2 | ⟨f2, f3⟩
        · exact Or.inl (.cons hrm g0 g1 f2)
        · refine Or.inr ⟨fun k' hk' => ?_, f3⟩
          obtain ⟨j, -, j2, j3⟩ := leads_cons hrm hk'
          rw [g1] at j2
          rw [← Option.some.inj j2] at j3
          exact f2 k' j3
      · right
        refine ⟨fun k' hk' => ?_, traced_fun g1 f2⟩
        obtain ⟨j, j1, j2, -⟩ := leads_cons hrm hk'
        have := (List.getElem?_eq_some_iff.1 j2).1
        omega
    · intro hO hp
      apply a7 (fun q hq => hO q (List.mem_cons_of_mem _ hq))
      have hcs := hO p List.mem_cons_self cs hcm
      rw [List.pairwise_iff_getElem]
      intro a b ha hb hab
      change a < c.length at ha
      change b < c.length at hb
      have ha' : a < m.1.length := by rw [← c2.1]; exact ha
      have hb' : b < m.1.length := by rw [← c2.1]; exact hb
      obtain ⟨p0, v, e1, e2⟩ := c2.2 a m.1[a] (List.getElem?_eq_getElem ha')
      obtain ⟨q0, w, f1, f2⟩ := c2.2 b m.1[b] (List.getElem?_eq_getElem hb')
      have hlt := List.pairwise_iff_getElem.1 hp a b ha' hb' hab
      obtain ⟨e3, e4⟩ := List.getElem?_eq_some_iff.1 e1
      obtain ⟨f3, f4⟩ := List.getElem?_eq_some_iff.1 f1
      have := List.pairwise_iff_getElem.1 hcs _ _ e3 f3 (by omega)
      rw [e4, f4] at this
      obtain ⟨e5, e6⟩ := List.getElem?_eq_some_iff.1 e2
      obtain ⟨f5, f6⟩ := List.getElem?_eq_some_iff.1 f2
      change c[a] < c[b]
      rw [e6, f6]
      exact this

theorem dropWhile_done {A B : List Pass} {p : Pass} {ps : List Pass} (hA : A.reverse = p :: ps)
    (hp : p.presolve.isNone = false) (hB : ∀ q ∈ B, q.presolve = none) :
    (A ++ B).reverse.dropWhile (fun p => p.presolve.isNone) = p :: ps := by
  rw [List.reverse_append, hA, List.dropWhile_append_of_pos]
  · rw [List.dropWhile_cons, if_neg (by rw [hp]; decide)]
  · intro q hq
    rw [hB q (List.mem_reverse.1 hq)]; rfl

/-- Everything about the original indices after at least one presolve. -/
theorem original_full {nRows nCols : Nat} {A B : List Pass} {p : Pass} {ps : List Pass} (hA : A.reverse = p :: ps)
    (hF : Fits nCols (p :: ps)) (hB : ∀ q ∈ B, q.presolve = none) :
    ∃ (c cs rs : List ℤ), originalIndices nRows nCols (A ++ B) = .ok (cs, rs) ∧ cs = c.insertionSort (· ≤ ·) ∧
      c.length = p.nCols ∧ rs.length = p.nRows ∧
      (∀ k < p.nCols, ∃ v, c[k]? = some v ∧ Leads colMap (p :: ps) (k : ℤ) v ∧ 0 ≤ v ∧ v < (nCols : ℤ)) ∧
      (∀ k < p.nRows, ∃ v, rs[k]? = some v ∧ Traced (p :: ps) (k : ℤ) v) ∧
      (Ordered (p :: ps) → c.Pairwise (· < ·)) := by
  obtain ⟨⟨cs0, rs0, h1, h2, h3, h4⟩, h5⟩ := hF
  have hcm : colMap p = some cs0 := by unfold colMap; rw [h1]; rfl
  have hrm : rowMap p = some rs0 := by unfold rowMap; rw [h1]; rfl
  have hd := dropWhile_done hA (by rw [h1]; rfl) hB
  obtain ⟨r, a1, a2, a3, a4, a5, a6, a7⟩ := earlier_spec ps (cs0, rs0) h5 h4
  refine ⟨r.1, r.1.insertionSort (· ≤ ·), r.2, ?_, rfl, by rw [a2]; exact h2, by rw [a3]; exact h3, ?_, ?_, ?_⟩
  · unfold originalIndices
    rw [hd]
    dsimp only
    rw [h1]
    change (firstN cs0 p.nCols).bind (fun c => (firstN rs0 p.nRows).bind fun r => (earlier ps (c, r)).bind fun m =>
      .ok (m.1.insertionSort (· ≤ ·), m.2)) = _
    unfold firstN
    rw [if_pos h2.ge, if_pos h3.ge, ← h2, ← h3, List.take_length, List.take_length]
    simp only [Except.bind]
    rw [a1]
  · intro k hk
    have hk' : k < cs0.length := by rw [h2]; exact hk
    obtain ⟨v, f1, f2⟩ := a5 k cs0[k] (List.getElem?_eq_getElem hk')
    refine ⟨v, f1, .cons hcm (by omega) ?_ f2, a4 v (List.mem_of_getElem? f1)⟩
    rw [Int.toNat_natCast]
    exact List.getElem?_eq_getElem hk'
  · intro k hk
    have hk' : k < rs0.length := by rw [h3]; exact hk
    obtain ⟨v, f1, f2⟩ := a6 k rs0[k] (List.getElem?_eq_getElem hk')
    have hg : rs0[((k : ℤ)).toNat]? = some rs0[k] := by
      rw [Int.toNat_natCast]; exact List.getElem?_eq_getElem hk'
    refine ⟨v, f1, ?_⟩
    rcases f2 with f2 | ⟨f2, f3⟩
    · exact Or.inl (.cons hrm (by omega) hg f2)
    · refine Or.inr ⟨fun k' hk' => ?_, f3⟩
      obtain ⟨j, -, j2, j3⟩ := leads_cons hrm hk'
      rw [hg] at j2
      rw [← Option.some.inj j2] at j3
      exact f2 k' j3
  · intro hO
    exact a7 (fun q hq => hO q (List.mem_cons_of_mem _ hq)) (hO p List.mem_cons_self cs0 hcm)

/-- **The original columns and rows are those the presolves lead to**, if every presolve keeps the order of the columns;
a row that does not come from the original problem has the index -1. -/
theorem originalIndices_partial {nRows nCols : Nat} {A B : List Pass} {p : Pass} {ps : List Pass}
    (hA : A.reverse = p :: ps) (hF : Fits nCols (p :: ps)) (hO : Ordered (p :: ps))
    (hB : ∀ q ∈ B, q.presolve = none) :
    ∃ cs rs, originalIndices nRows nCols (A ++ B) = .ok (cs, rs) ∧ cs.length = p.nCols ∧ rs.length = p.nRows ∧
      (∀ k < p.nCols, ∃ v, cs[k]? = some v ∧ Leads colMap (p :: ps) (k : ℤ) v ∧ 0 ≤ v ∧ v < (nCols : ℤ)) ∧
      ∀ k < p.nRows, ∃ v, rs[k]? = some v ∧ Traced (p :: ps) (k : ℤ) v := by
  obtain ⟨c, cs, rs, h1, h2, h3, h4, h5, h6, h7⟩ := original_full (nRows := nRows) hA hF hB
  have hs : c.insertionSort (· ≤ ·) = c := List.Pairwise.insertionSort_eq ((h7 hO).imp fun h => h.le)
  rw [hs] at h2
  subst h2
  exact ⟨cs, rs, h1, h3, h4, h5, h6⟩

/-- **In any order, the original columns are the right ones, sorted**, and the rows are right. -/
theorem originalIndices_sorted {nRows nCols : Nat} {A B : List Pass} {p : Pass} {ps : List Pass}
    (hA : A.reverse = p :: ps) (hF : Fits nCols (p :: ps)) (hB : ∀ q ∈ B, q.presolve = none) :
    ∃ (c cs rs : List ℤ), originalIndices nRows nCols (A ++ B) = .ok (cs, rs) ∧ cs.Perm c ∧ cs.Pairwise (· ≤ ·) ∧
      c.length = p.nCols ∧ rs.length = p.nRows ∧
      (∀ k < p.nCols, ∃ v, c[k]? = some v ∧ Leads colMap (p :: ps) (k : ℤ) v ∧ 0 ≤ v ∧ v < (nCols : ℤ)) ∧
      ∀ k < p.nRows, ∃ v, rs[k]? = some v ∧ Traced (p :: ps) (k : ℤ) v := by
  obtain ⟨c, cs, rs, h1, h2, h3, h4, h5, h6, -⟩ := original_full (nRows := nRows) hA hF hB
  exact ⟨c, cs, rs, h1, by rw [h2]; exact List.perm_insertionSort (· ≤ ·) _, by rw [h2]; exact List.pairwise_insertionSort (· ≤ ·) _,
    h3, h4, h5, h6⟩

/-- **Without a presolve every column and row is its own original.** -/
theorem originalIndices_none {nRows nCols : Nat} {B : List Pass} (hB : ∀ q ∈ B, q.presolve = none) :
    ∃ cs rs, originalIndices nRows nCols B = .ok (cs, rs) ∧ cs.length = nCols ∧ rs.length = nRows ∧
      (∀ k < nCols, cs[k]? = some (k : ℤ)) ∧ ∀ k < nRows, rs[k]? = some (k : ℤ) := by
  have hd : B.reverse.dropWhile (fun p => p.presolve.isNone) = [] := by
    have h := List.dropWhile_append_of_pos (p := fun p : Pass => p.presolve.isNone) (l₁ := B.reverse) (l₂ := [])
      (fun q hq => by rw [hB q (List.mem_reverse.1 hq)]; rfl)
    rwa [List.append_nil] at h
  refine ⟨(List.range nCols).map fun (i : Nat) => (i : ℤ), (List.range nRows).map fun (i : Nat) => (i : ℤ), ?_, by rw [List.length_map, List.length_range],
    by rw [List.length_map, List.length_range],
    fun k hk => by rw [List.getElem?_map, List.getElem?_range hk]; rfl,
    fun k hk => by rw [List.getElem?_map, List.getElem?_range hk]; rfl⟩
  unfold originalIndices
  rw [hd]

end Cgl.PreFix
