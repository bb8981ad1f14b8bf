import Verif.UniqueCuts.Spec

/-! # The hash table during insertions: no chain is ever formed -/

namespace Cgl.UniqueCuts

variable {K : Kind}

/-- What holds between insertions; `l` is the list of the cuts. -/
structure Inv (K : Kind) (t : Table) (l : List RowCut) : Prop where
  slots : t.slots.take t.number = l.map Slot.cut
  number : t.number = l.length
  links : t.links.length = K.hashSize t.slots.length
  next : ∀ h ∈ t.links, h.next = -1
  index : ∀ h ∈ t.links, h.index = -1 ∨ ∃ i : Nat, i < l.length ∧ h.index = i

theorem Inv.held {t : Table} {l : List RowCut} (h : Inv K t l) : t.held = l := by
  unfold Table.held; rw [h.slots]
  clear h
  induction l with
  | nil => rfl
  | cons c l ih => simp only [List.map_cons, List.filterMap_cons, ih]

theorem slot_of_take {slots : List Slot} {n : Nat} {l : List RowCut} (h : slots.take n = l.map Slot.cut) {i : Nat}
    (hi : i < l.length) : slots[i]? = some (.cut l[i]) := by
  have h1 : (slots.take n)[i]? = some (.cut l[i]) := by rw [h]; simp [hi]
  rw [List.getElem?_take] at h1
  split at h1
  · exact h1
  · simp at h1

theorem cutAt_of_take {slots : List Slot} {n : Nat} {l : List RowCut} (h : slots.take n = l.map Slot.cut) {i : Nat}
    (hi : i < l.length) : cutAt slots i = .ok l[i] := by
  unfold cutAt get
  rw [if_pos (by omega)]
  simp only [Int.toNat_natCast, slot_of_take h hi]
  rfl

theorem get_nat {α : Type} {l : List α} {i : Nat} (h : i < l.length) : get l (i : ℤ) = .ok l[i] := by
  unfold get
  rw [if_pos (by omega)]
  simp [h]

/-- Where a cut is looked for, and what is found there: `none` if the place is free or has another cut. -/
def hit (K : Kind) (l : List RowCut) (h : Link) (c : RowCut) : Option ℤ :=
  if 0 ≤ h.index then (match l[h.index.toNat]? with | some d => if K.same c d then some h.index else none | none => none)
  else none

theorem walk_eq {slots : List Slot} {n : Nat} {l : List RowCut} (hs : slots.take n = l.map Slot.cut) {links : List Link}
    (hn : ∀ h ∈ links, h.next = -1) (hi : ∀ h ∈ links, h.index = -1 ∨ ∃ i : Nat, i < l.length ∧ h.index = i)
    (c : RowCut) (k : Nat) {p : Nat} (hp : p < links.length) :
    walk K slots links c (k + 1) p = .ok (hit K l links[p] c, (p : ℤ)) := by
  have hm := List.getElem_mem hp
  have h1 := hn _ hm
  have h2 := hi _ hm
  unfold walk hit
  rw [get_nat hp]
  generalize links[p] = h at h1 h2
  obtain ⟨ix, nx⟩ := h
  simp only at h1 h2
  subst h1
  simp only [Except.bind]
  rcases h2 with h2 | ⟨i, hil, h2⟩
  · subst h2
    rw [if_neg (by omega), if_neg (by omega)]
  · subst h2
    have h0 : (0 : ℤ) ≤ (i : ℤ) := Int.natCast_nonneg i
    rw [cutAt_of_take hs hil]
    simp only [Int.toNat_natCast, List.getElem?_eq_getElem hil, h0, if_true]
    by_cases h3 : K.same c l[i]
    · rw [if_pos h3, if_pos h3]
    · rw [if_neg h3, if_neg h3]; rfl

theorem enter_eq {links : List Link} (hn : ∀ h ∈ links, h.next = -1) (last : ℤ) (i : Nat) {p : Nat}
    (hp : p < links.length) :
    enter links last i p p = .ok (setIndex links p i, last) := by
  unfold enter
  rw [get_nat hp]
  simp only [Except.bind]
  rw [if_pos (hn _ (List.getElem_mem hp))]
  rfl

theorem setIndex_length (links : List Link) (i v : ℤ) : (setIndex links i v).length = links.length := by
  unfold setIndex; simp

theorem setIndex_get (links : List Link) (p : Nat) (v : ℤ) {q : Nat} (hq : q < links.length) :
    (setIndex links p v)[q]'(by rw [setIndex_length]; exact hq) =
      if p = q then { links[q] with index := v } else links[q] := by
  unfold setIndex
  simp only [Int.toNat_natCast, List.getElem_modify]

theorem mem_setIndex {links : List Link} {p : Nat} {v : ℤ} {h : Link} (hm : h ∈ setIndex links p v) :
    h ∈ links ∨ ∃ h' ∈ links, h = { h' with index := v } := by
  obtain ⟨q, hq, rfl⟩ := List.mem_iff_getElem.1 hm
  rw [setIndex_length] at hq
  rw [setIndex_get links p v hq]
  by_cases h1 : p = q
  · rw [if_pos h1]; exact Or.inr ⟨_, List.getElem_mem hq, rfl⟩
  · rw [if_neg h1]; exact Or.inl (List.getElem_mem hq)

theorem setIndex_inv {links : List Link} {p v : Nat} {n m : Nat} (hn : ∀ h ∈ links, h.next = -1)
    (hi : ∀ h ∈ links, h.index = -1 ∨ ∃ i : Nat, i < n ∧ h.index = i) (hv : v < m) (hnm : n ≤ m) :
    (∀ h ∈ setIndex links p v, h.next = -1) ∧
      ∀ h ∈ setIndex links p v, h.index = -1 ∨ ∃ i : Nat, i < m ∧ h.index = i := by
  constructor
  · intro h hm
    rcases mem_setIndex hm with h1 | ⟨h', h1, rfl⟩
    · exact hn _ h1
    · exact hn h' h1
  · intro h hm
    rcases mem_setIndex hm with h1 | ⟨h', h1, rfl⟩
    · rcases hi _ h1 with h2 | ⟨i, h2, h3⟩
      · exact Or.inl h2
      · exact Or.inr ⟨i, by omega, h3⟩
    · exact Or.inr ⟨v, hv, rfl⟩

/-! ### Growing -/

/-- One cut of the loop that fills a new hash table. -/
def refill (K : Kind) (l : List RowCut) (links : List Link) (i : Nat) (c : RowCut) : List Link :=
  match links[K.hash c links.length]? with
  | none => links
  | some h => if (hit K l h c).isSome then links else setIndex links (K.hash c links.length) i

/-- The places are in the table. -/
def Fits (K : Kind) : Prop := ∀ c m, 0 < m → K.hash c m < m

theorem rehashOne_eq {slots : List Slot} {n : Nat} {l : List RowCut} (hs : slots.take n = l.map Slot.cut)
    {s : List Link × ℤ} (hf : Fits K) (hpos : 0 < s.1.length)
    (hn : ∀ h ∈ s.1, h.next = -1) (hi : ∀ h ∈ s.1, h.index = -1 ∨ ∃ i : Nat, i < l.length ∧ h.index = i) {i : Nat}
    (hil : i < l.length) :
    rehashOne K slots s i = .ok (refill K l s.1 i l[i], s.2) := by
  unfold rehashOne refill
  rw [cutAt_of_take hs hil]
  simp only [Except.bind]
  have hp := hf l[i] s.1.length hpos
  rw [walk_eq hs hn hi _ _ hp]
  simp only [List.getElem?_eq_getElem hp]
  by_cases h1 : (hit K l s.1[K.hash l[i] s.1.length] l[i]).isSome
  · rw [if_pos h1, if_pos h1]
  · rw [if_neg h1, if_neg h1, enter_eq hn _ _ hp]

theorem refill_inv {l : List RowCut} {links : List Link} {i : Nat} {c : RowCut} (hn : ∀ h ∈ links, h.next = -1)
    (hi : ∀ h ∈ links, h.index = -1 ∨ ∃ i : Nat, i < l.length ∧ h.index = i) (hil : i < l.length) :
    (refill K l links i c).length = links.length ∧ (∀ h ∈ refill K l links i c, h.next = -1) ∧
      ∀ h ∈ refill K l links i c, h.index = -1 ∨ ∃ i : Nat, i < l.length ∧ h.index = i := by
  unfold refill
  split
  · exact ⟨rfl, hn, hi⟩
  · split
    · exact ⟨rfl, hn, hi⟩
    · exact ⟨setIndex_length _ _ _, setIndex_inv hn hi hil le_rfl⟩

/-- The whole loop. -/
def refillAll (K : Kind) (l : List RowCut) : Nat → List RowCut → List Link → List Link
  | _, [], links => links
  | i, c :: cs, links => refillAll K l (i + 1) cs (refill K l links i c)

theorem rehash_eq {slots : List Slot} {n : Nat} {l : List RowCut} (hs : slots.take n = l.map Slot.cut) (hf : Fits K)
    (k i : Nat) {s : List Link × ℤ} (hpos : 0 < s.1.length) (hn : ∀ h ∈ s.1, h.next = -1)
    (hi : ∀ h ∈ s.1, h.index = -1 ∨ ∃ i : Nat, i < l.length ∧ h.index = i) (hik : i + k = l.length) :
    rehash K slots k i s = .ok (refillAll K l i (l.drop i) s.1, s.2) ∧
      (refillAll K l i (l.drop i) s.1).length = s.1.length ∧
      (∀ h ∈ refillAll K l i (l.drop i) s.1, h.next = -1) ∧
      ∀ h ∈ refillAll K l i (l.drop i) s.1, h.index = -1 ∨ ∃ i : Nat, i < l.length ∧ h.index = i := by
  induction k generalizing i s with
  | zero =>
    rw [List.drop_of_length_le (by omega)]
    exact ⟨rfl, rfl, hn, hi⟩
  | succ k ih =>
    have hil : i < l.length := by omega
    rw [List.drop_eq_getElem_cons hil]
    unfold rehash
    rw [rehashOne_eq hs hf hpos hn hi hil]
    obtain ⟨h1, h2, h3⟩ := refill_inv (K := K) (c := l[i]) hn hi hil
    obtain ⟨h4, h5, h6, h7⟩ := ih (i + 1) (s := (refill K l s.1 i l[i], s.2)) (by simpa [h1] using hpos) h2 h3 (by omega)
    refine ⟨h4, ?_, h6, h7⟩
    show (refillAll K l (i + 1) (l.drop (i + 1)) (refill K l s.1 i l[i])).length = _
    rw [h5]; exact h1

theorem noLinks_inv (m n : Nat) : (noLinks m).length = m ∧ (∀ h ∈ noLinks m, h.next = -1) ∧
    ∀ h ∈ noLinks m, h.index = -1 ∨ ∃ i : Nat, i < n ∧ h.index = i := by
  unfold noLinks
  refine ⟨by simp, ?_, ?_⟩ <;> intro h hm <;> rw [List.eq_of_mem_replicate hm]
  exact Or.inl rfl

/-- The table after it has grown. -/
def grown (K : Kind) (t : Table) (l : List RowCut) : Table where
  slots := l.map Slot.cut ++ List.replicate (larger t.slots.length - l.length) .garbage
  links := refillAll K l 0 l (noLinks (K.hashSize (larger t.slots.length)))
  number := l.length
  last := if K.resets then -1 else t.last

theorem grow_eq {t : Table} {l : List RowCut} (h : Inv K t l) (hf : Fits K) (hh : ∀ s, 0 < s → 0 < K.hashSize s) :
    grow K t = .ok (grown K t l) := by
  have hpos : 0 < K.hashSize (larger t.slots.length) := hh _ (by unfold larger; omega)
  obtain ⟨h1, h2, h3⟩ := noLinks_inv (K.hashSize (larger t.slots.length)) l.length
  obtain ⟨h4, -⟩ := rehash_eq h.slots hf t.number 0
    (s := (noLinks (K.hashSize (larger t.slots.length)), if K.resets then -1 else t.last)) (by simpa [h1] using hpos)
    h2 h3 (by have := h.number; omega)
  unfold grow grown
  rw [h4, h.slots]
  simp only [Except.bind, List.drop_zero, h.number]

theorem number_le {t : Table} {l : List RowCut} (h : Inv K t l) : t.number ≤ t.slots.length := by
  have h1 := congrArg List.length h.slots
  rw [List.length_take, List.length_map, ← h.number] at h1
  omega

theorem grown_inv {t : Table} {l : List RowCut} (h : Inv K t l) (hf : Fits K) (hh : ∀ s, 0 < s → 0 < K.hashSize s) :
    Inv K (grown K t l) l ∧ (grown K t l).number < (grown K t l).slots.length ∧
      (grown K t l).slots.length = larger t.slots.length := by
  have hpos : 0 < K.hashSize (larger t.slots.length) := hh _ (by unfold larger; omega)
  obtain ⟨h1, h2, h3⟩ := noLinks_inv (K.hashSize (larger t.slots.length)) l.length
  obtain ⟨-, h5, h6, h7⟩ := rehash_eq h.slots hf t.number 0
    (s := (noLinks (K.hashSize (larger t.slots.length)), (-1 : ℤ))) (by simpa [h1] using hpos)
    h2 h3 (by have := h.number; omega)
  have hl := number_le h
  have hn := h.number
  have hlen : (grown K t l).slots.length = larger t.slots.length := by
    unfold grown
    rw [List.length_append, List.length_map, List.length_replicate]
    unfold larger
    omega
  refine ⟨⟨?_, rfl, ?_, h6, h7⟩, ?_, hlen⟩
  · unfold grown
    simp only
    rw [List.take_append_of_le_length (by simp), List.take_of_length_le (by simp)]
  · rw [hlen]
    show (refillAll K l 0 l _).length = _
    have h8 : (refillAll K l 0 l (noLinks (K.hashSize (larger t.slots.length)))).length =
        (noLinks (K.hashSize (larger t.slots.length))).length := h5
    rw [h8, h1]
  · rw [hlen]; show l.length < _; unfold larger; omega

/-! ### Inserting -/

/-- The table at the time of the comparison. -/
def room (K : Kind) (t : Table) (l : List RowCut) : Table := if t.number = t.slots.length then grown K t l else t

theorem room_inv {t : Table} {l : List RowCut} (h : Inv K t l) (hf : Fits K) (hh : ∀ s, 0 < s → 0 < K.hashSize s) :
    Inv K (room K t l) l ∧ (room K t l).number < (room K t l).slots.length := by
  unfold room
  by_cases h1 : t.number = t.slots.length
  · rw [if_pos h1]
    exact ⟨(grown_inv h hf hh).1, (grown_inv h hf hh).2.1⟩
  · rw [if_neg h1]
    have := number_le h
    exact ⟨h, by omega⟩

theorem insert_eq {t : Table} {l : List RowCut} (h : Inv K t l) (hf : Fits K) (hh : ∀ s, 0 < s → 0 < K.hashSize s)
    (c : RowCut) : insert K t c = add K (room K t l) c := by
  unfold insert room
  by_cases h1 : t.number = t.slots.length
  · rw [if_pos h1, if_pos h1, grow_eq h hf hh]; rfl
  · rw [if_neg h1, if_neg h1]

/-- The table after a cut has been added. -/
def added (K : Kind) (t : Table) (c : RowCut) : Table where
  slots := t.slots.set t.number (.cut c)
  links := setIndex t.links (K.hash c t.links.length) t.number
  number := t.number + 1
  last := t.last

theorem links_pos {t : Table} {l : List RowCut} (h : Inv K t l) (hr : t.number < t.slots.length)
    (hh : ∀ s, 0 < s → 0 < K.hashSize s) : 0 < t.links.length := by
  rw [h.links]; exact hh _ (by omega)

theorem add_bad {t : Table} (hr : t.number < t.slots.length) {c : RowCut} (hb : K.bad (sortCut c) = true) :
    add K t c = .ok (1, t) := by
  unfold add
  rw [if_pos hr, if_pos hb]

theorem add_good {t : Table} {l : List RowCut} (h : Inv K t l)
    (hr : t.number < t.slots.length) {c : RowCut} (hb : K.bad (sortCut c) = false)
    (hp : K.hash (sortCut c) t.links.length < t.links.length) :
    add K t c = if (hit K l t.links[K.hash (sortCut c) t.links.length] (sortCut c)).isSome then .ok (1, t)
      else .ok (0, added K t (sortCut c)) := by
  unfold add
  rw [if_pos hr, if_neg (by simp [hb]), walk_eq h.slots h.next h.index _ _ hp]
  simp only [Except.bind]
  by_cases h1 : (hit K l t.links[K.hash (sortCut c) t.links.length] (sortCut c)).isSome
  · rw [if_pos h1, if_pos h1]
  · rw [if_neg h1, if_neg h1, enter_eq h.next _ _ hp]; rfl

theorem added_inv {t : Table} {l : List RowCut} (h : Inv K t l) (hr : t.number < t.slots.length) (c : RowCut) :
    Inv K (added K t c) (l ++ [c]) := by
  obtain ⟨h1, h2⟩ := setIndex_inv (p := K.hash c t.links.length) (v := t.number) (n := l.length) (m := (l ++ [c]).length)
    h.next h.index (by rw [h.number]; simp) (by simp)
  refine ⟨?_, ?_, ?_, h1, h2⟩
  · unfold added
    simp only
    rw [List.map_append, ← h.slots]
    apply List.ext_getElem?
    intro i
    rw [List.getElem?_take, List.getElem?_set, List.getElem?_append, List.length_take]
    by_cases h3 : i < t.number
    · rw [if_pos (by omega), if_neg (by omega), if_pos (by omega), List.getElem?_take, if_pos h3]
    · by_cases h4 : i = t.number
      · rw [if_pos (by omega), if_pos h4.symm, if_pos (by omega), if_neg (by omega)]
        have h5 : i - min t.number t.slots.length = 0 := by omega
        rw [h5]
        rfl
      · rw [if_neg (by omega), if_neg (by omega)]
        have h5 : ¬ i - min t.number t.slots.length < 1 := by omega
        rw [List.getElem?_eq_none (by simp only [List.map_cons, List.map_nil, List.length_cons, List.length_nil]; omega)]
  · unfold added; simp [h.number]
  · show (setIndex t.links _ _).length = K.hashSize (t.slots.set t.number (.cut c)).length
    rw [setIndex_length, List.length_set]
    exact h.links

theorem hit_some {l : List RowCut} {h : Link} {c : RowCut} (hs : (hit K l h c).isSome) : ∃ d ∈ l, K.same c d = true := by
  unfold hit at hs
  split at hs
  · split at hs
    · rename_i d hd
      split at hs
      · rename_i h1
        exact ⟨d, List.mem_of_getElem? hd, h1⟩
      · simp at hs
    · simp at hs
  · simp at hs

theorem new_inv (K : Kind) (size : Nat) : Inv K (new K size) [] := by
  obtain ⟨h1, h2, h3⟩ := noLinks_inv (K.hashSize size) 0
  exact ⟨rfl, rfl, by simp [new, h1], h2, fun h hm => by
    unfold new noLinks at hm
    rw [List.eq_of_mem_replicate hm]
    exact Or.inl rfl⟩

end Cgl.UniqueCuts
