import Verif.UniqueCuts.Props

/-! # No collisions: the collector as it is meant; erasing -/

namespace Cgl.UniqueCuts

variable {K : Kind} {size : Nat} {S : List RowCut} {gone : List Nat}

/-- The place of cut number `i`. -/
def Home (K : Kind) (links : List Link) (l : List RowCut) (i : Nat) : Prop :=
  ∃ c h, l[i]? = some c ∧ links[K.hash c links.length]? = some h ∧ h.index = (i : ℤ)

/-- Every entry of the hash table belongs to the cut at its place, or is left over from an erased cut. -/
def Only (K : Kind) (gone : List Nat) (links : List Link) (l : List RowCut) : Prop :=
  ∀ p h, links[p]? = some h → h.index = -1 ∨
    ∃ j : Nat, h.index = (j : ℤ) ∧ (j ∈ gone ∨ ∃ c, l[j]? = some c ∧ K.hash c links.length = p)

structure Uniq (K : Kind) (size : Nat) (S : List RowCut) (gone : List Nat) (t : Table) (l : List RowCut) : Prop where
  inv : Inv K t l
  apart : ∀ (i j : Nat) (a b : RowCut), l[i]? = some a → l[j]? = some b → K.same a b = true → i = j
  home : ∀ i, i < l.length → Home K t.links l i
  size : ∃ k, t.slots.length = sizeAfter size k
  inS : ∀ c ∈ l, c ∈ S
  only : Only K gone t.links l
  gone : ∀ g ∈ gone, g < l.length

theorem hit_of_index {l : List RowCut} {h : Link} {c d : RowCut} {i : Nat} (hi : h.index = i) (hd : l[i]? = some d) :
    hit K l h c = if K.same c d then some (i : ℤ) else none := by
  unfold hit
  rw [hi, if_pos (by omega)]
  simp only [Int.toNat_natCast, hd]

theorem setIndex_get? (links : List Link) (p : Nat) (v : ℤ) (q : Nat) :
    (setIndex links p v)[q]? = if p = q then links[q]?.map (fun h => { h with index := v }) else links[q]? := by
  unfold setIndex
  simp only [Int.toNat_natCast, List.getElem?_modify]
  split <;> simp

theorem refillAll_home {l : List RowCut} {m : Nat} (hm : 0 < m) (hf : Fits K)
    (hc : ∀ a ∈ l, ∀ b ∈ l, K.hash a m = K.hash b m ↔ K.same a b = true)
    (ha : ∀ (i j : Nat) (a b : RowCut), l[i]? = some a → l[j]? = some b → K.same a b = true → i = j)
    (k i : Nat) (links : List Link) (hlen : links.length = m) (hik : i + k = l.length)
    (hi : ∀ h ∈ links, h.index = -1 ∨ ∃ i : Nat, i < l.length ∧ h.index = i)
    (hn : ∀ h ∈ links, h.next = -1)
    (hh : ∀ j, j < i → Home K links l j) : ∀ j, j < l.length → Home K (refillAll K l i (l.drop i) links) l j := by
  induction k generalizing i links with
  | zero =>
    intro j hj
    rw [List.drop_of_length_le (by omega)]
    exact hh j (by omega)
  | succ k ih =>
    have hil : i < l.length := by omega
    rw [List.drop_eq_getElem_cons hil]
    obtain ⟨r1, r2, r3⟩ := refill_inv (K := K) (c := l[i]) hn hi hil
    refine ih (i + 1) (refill K l links i l[i]) (by rw [r1, hlen]) (by omega) r3 r2 ?_
    intro j hj
    have hp : K.hash l[i] m < links.length := by rw [hlen]; exact hf _ _ hm
    have hgi : l[i]? = some l[i] := List.getElem?_eq_getElem hil
    unfold refill
    rw [hlen, List.getElem?_eq_getElem hp]
    simp only
    by_cases h1 : (hit K l links[K.hash l[i] m] l[i]).isSome
    · rw [if_pos h1]
      by_cases h2 : j < i
      · exact hh j h2
      · have h3 : j = i := by omega
        subst h3
        refine ⟨l[j], links[K.hash l[j] m], hgi, by rw [hlen, List.getElem?_eq_getElem hp], ?_⟩
        rcases hi _ (List.getElem_mem hp) with h4 | ⟨q, hq, h4⟩
        · unfold hit at h1
          rw [h4, if_neg (by omega)] at h1
          simp at h1
        · have hgq : l[q]? = some l[q] := List.getElem?_eq_getElem hq
          rw [hit_of_index h4 hgq] at h1
          by_cases h5 : K.same l[j] l[q]
          · rw [h4, ha j q _ _ hgi hgq h5]
          · rw [if_neg h5] at h1; simp at h1
    · rw [if_neg h1]
      by_cases h2 : j < i
      · obtain ⟨c, h, h3, h4, h5⟩ := hh j h2
        refine ⟨c, h, h3, ?_, h5⟩
        rw [setIndex_length, setIndex_get?, if_neg, h4]
        intro h6
        rw [hlen] at h6
        have h7 := (hc _ (List.getElem_mem hil) c (List.mem_of_getElem? h3)).1 h6
        have := ha i j _ _ hgi h3 h7
        omega
      · have h3 : j = i := by omega
        subst h3
        refine ⟨l[j], { links[K.hash l[j] m] with index := (j : ℤ) }, hgi, ?_, rfl⟩
        rw [setIndex_length, setIndex_get?, hlen, if_pos rfl, List.getElem?_eq_getElem hp]
        rfl

theorem refillAll_only {l : List RowCut} (k i : Nat) (links : List Link) (hik : i + k = l.length)
    (ho : Only K gone links l) : Only K gone (refillAll K l i (l.drop i) links) l := by
  induction k generalizing i links with
  | zero => rw [List.drop_of_length_le (by omega)]; exact ho
  | succ k ih =>
    have hil : i < l.length := by omega
    rw [List.drop_eq_getElem_cons hil]
    refine ih (i + 1) (refill K l links i l[i]) (by omega) ?_
    unfold refill
    split
    · exact ho
    · split
      · exact ho
      · intro p h hp
        rw [setIndex_length]
        rw [setIndex_get?] at hp
        split at hp
        · rename_i h1
          cases h2 : links[p]? with
          | none => rw [h2] at hp; simp at hp
          | some h' =>
            rw [h2] at hp
            obtain rfl := Option.some.inj hp
            exact Or.inr ⟨i, rfl, Or.inr ⟨l[i], List.getElem?_eq_getElem hil, h1⟩⟩
        · exact ho p h hp

theorem Uniq.room {t : Table} {l : List RowCut} (h : Uniq K size S gone t l) (hf : Fits K)
    (hh : ∀ s, 0 < s → 0 < K.hashSize s) (hS : NoCollision K size S) :
    Uniq K size S gone (room K t l) l := by
  unfold UniqueCuts.room
  by_cases h1 : t.number = t.slots.length
  · rw [if_pos h1]
    obtain ⟨g1, g2, g3⟩ := grown_inv h.inv hf hh
    obtain ⟨k, hk⟩ := h.size
    have hsz : (grown K t l).slots.length = sizeAfter size (k + 1) := by rw [g3, hk]; rfl
    have hpos := links_pos g1 g2 hh
    have ho : Only K gone (grown K t l).links l := by
      refine refillAll_only l.length 0 _ (by omega) ?_
      intro p h' hp
      unfold noLinks at hp
      rw [List.eq_of_mem_replicate (List.mem_of_getElem? hp)]
      exact Or.inl rfl
    refine ⟨g1, h.apart, ?_, ⟨k + 1, hsz⟩, h.inS, ho, h.gone⟩
    obtain ⟨n1, n2, n3⟩ := noLinks_inv (K.hashSize (larger t.slots.length)) l.length
    have e : larger t.slots.length = sizeAfter size (k + 1) := by rw [hk]; rfl
    have hpos' : 0 < K.hashSize (larger t.slots.length) := hh _ (by unfold larger; omega)
    have := refillAll_home (K := K) (l := l) hpos' hf
      (fun a ha b hb => by rw [e]; exact hS (k + 1) (by rw [← e]; exact hpos') a (h.inS a ha) b (h.inS b hb))
      h.apart l.length 0 _ n1 (by omega) n3 n2 (fun j hj => by omega)
    exact this
  · rw [if_neg h1]; exact h

theorem Uniq.collide {t : Table} {l : List RowCut} (h : Uniq K size S gone t l) (hS : NoCollision K size S)
    (hpos : 0 < t.links.length) {a b : RowCut} (ha : a ∈ S) (hb : b ∈ S) :
    K.hash a t.links.length = K.hash b t.links.length ↔ K.same a b = true := by
  obtain ⟨k, hk⟩ := h.size
  have h1 := h.inv.links
  rw [hk] at h1
  rw [h1] at hpos ⊢
  exact hS k hpos a ha b hb

/-- One insertion without collisions. -/
theorem Uniq.insert {t : Table} {l : List RowCut} (h : Uniq K size S gone t l) (hf : Fits K)
    (hh : ∀ s, 0 < s → 0 < K.hashSize s) (hS : NoCollision K size S) {c : RowCut} (hc : sortCut c ∈ S) :
    ∃ r t', insert K t c = .ok (r, t') ∧ Uniq K size S gone t'
      (if K.bad (sortCut c) || l.any (fun d => K.same (sortCut c) d) then l else l ++ [sortCut c]) := by
  have hroom := h.room hf hh hS
  obtain ⟨-, hlt⟩ := room_inv h.inv hf hh
  rw [insert_eq h.inv hf hh]
  generalize UniqueCuts.room K t l = u at hroom hlt
  cases hb : K.bad (sortCut c) with
  | true =>
    rw [add_bad hlt hb]
    refine ⟨_, _, rfl, ?_⟩
    rw [if_pos (by simp)]
    exact hroom
  | false =>
    have hpos := links_pos hroom.inv hlt hh
    have hp := hf (sortCut c) _ hpos
    rw [add_good hroom.inv hlt hb hp]
    by_cases h3 : (hit K l u.links[K.hash (sortCut c) u.links.length] (sortCut c)).isSome
    · rw [if_pos h3]
      refine ⟨_, _, rfl, ?_⟩
      obtain ⟨d, hd, he⟩ := hit_some h3
      rw [if_pos (by simpa using ⟨d, hd, he⟩)]
      exact hroom
    · rw [if_neg h3]
      refine ⟨_, _, rfl, ?_⟩
      have hno : ∀ (j : Nat) (d : RowCut), l[j]? = some d →
          K.hash (sortCut c) u.links.length ≠ K.hash d u.links.length := by
        intro j d hd heq
        apply h3
        have hjl : j < l.length := (List.getElem?_eq_some_iff.1 hd).1
        obtain ⟨c', g, e1, e2, e3⟩ := hroom.home j hjl
        rw [hd] at e1
        obtain rfl := Option.some.inj e1
        rw [← heq, List.getElem?_eq_getElem hp] at e2
        obtain rfl := Option.some.inj e2
        rw [hit_of_index e3 hd, if_pos]
        · rfl
        · exact (hroom.collide hS hpos hc (hroom.inS d (List.mem_of_getElem? hd))).1 heq
      rw [if_neg]
      swap
      · simp only [Bool.false_or, List.any_eq_true, not_exists, not_and]
        intro d hd he
        obtain ⟨j, hj, rfl⟩ := List.mem_iff_getElem.1 hd
        exact hno j _ (List.getElem?_eq_getElem hj) ((hroom.collide hS hpos hc (hroom.inS _ hd)).2 he)
      have hn := hroom.inv.number
      refine ⟨added_inv hroom.inv hlt _, ?_, ?_, ?_, ?_, ?_, ?_⟩
      · have hlast : ∀ (i : Nat) (a : RowCut), (l ++ [sortCut c])[i]? = some a →
            (i < l.length ∧ l[i]? = some a) ∨ (i = l.length ∧ a = sortCut c) := by
          intro i a hi
          rcases Nat.lt_trichotomy i l.length with h4 | h4 | h4
          · rw [List.getElem?_append_left h4] at hi; exact Or.inl ⟨h4, hi⟩
          · subst h4; rw [List.getElem?_concat_length] at hi; exact Or.inr ⟨rfl, (Option.some.inj hi).symm⟩
          · rw [List.getElem?_eq_none (by simp; omega)] at hi; simp at hi
        intro i j a b hi hj hab
        rcases hlast i a hi with ⟨h4, h5⟩ | ⟨h4, h5⟩ <;> rcases hlast j b hj with ⟨h6, h7⟩ | ⟨h6, h7⟩
        · exact hroom.apart i j a b h5 h7 hab
        · subst h7
          exact absurd ((hroom.collide hS hpos (hroom.inS a (List.mem_of_getElem? h5)) hc).2 hab).symm (hno i a h5)
        · subst h5
          exact absurd ((hroom.collide hS hpos hc (hroom.inS b (List.mem_of_getElem? h7))).2 hab) (hno j b h7)
        · omega
      · intro i hi
        have hkl : (added K u (sortCut c)).links.length = u.links.length := setIndex_length _ _ _
        unfold Home
        rw [hkl]
        show ∃ c' g, _ ∧ (setIndex u.links (K.hash (sortCut c) u.links.length) u.number)[_]? = _ ∧ _
        by_cases h4 : i < l.length
        · obtain ⟨c', g, e1, e2, e3⟩ := hroom.home i h4
          refine ⟨c', g, by rw [List.getElem?_append_left h4]; exact e1, ?_, e3⟩
          rw [setIndex_get?, if_neg (hno i c' e1)]
          exact e2
        · have h5 : i = l.length := by simp at hi; omega
          subst h5
          refine ⟨sortCut c, { u.links[K.hash (sortCut c) u.links.length] with index := (u.number : ℤ) },
            List.getElem?_concat_length, ?_, by rw [← hn]⟩
          rw [setIndex_get?, if_pos rfl, List.getElem?_eq_getElem hp]
          rfl
      · obtain ⟨k, hk⟩ := hroom.size
        exact ⟨k, by rw [← hk]; exact List.length_set⟩
      · intro d hd
        rcases List.mem_append.1 hd with hd | hd
        · exact hroom.inS d hd
        · rw [List.mem_singleton.1 hd]; exact hc
      · intro p g hg
        have hkl : (added K u (sortCut c)).links.length = u.links.length := setIndex_length _ _ _
        rw [hkl]
        have hg' : (setIndex u.links (K.hash (sortCut c) u.links.length) u.number)[p]? = some g := hg
        rw [setIndex_get?] at hg'
        split at hg'
        · rename_i h1
          cases h2 : u.links[p]? with
          | none => rw [h2] at hg'; simp at hg'
          | some h' =>
            rw [h2] at hg'
            obtain rfl := Option.some.inj hg'
            exact Or.inr ⟨l.length, by rw [← hn], Or.inr ⟨sortCut c, List.getElem?_concat_length, h1⟩⟩
        · rcases hroom.only p g hg' with h4 | ⟨j, h4, h5⟩
          · exact Or.inl h4
          · refine Or.inr ⟨j, h4, ?_⟩
            rcases h5 with h5 | ⟨d, h5, h6⟩
            · exact Or.inl h5
            · refine Or.inr ⟨d, ?_, h6⟩
              rw [List.getElem?_append_left (List.getElem?_eq_some_iff.1 h5).1]
              exact h5
      · intro g hg
        have := hroom.gone g hg
        rw [List.length_append]
        omega

/-! ### Erasing -/

theorem findNumber_eq {links : List Link} (hn : ∀ h ∈ links, h.next = -1) (i k : Nat) {p : Nat} (hp : p < links.length) :
    findNumber links i (k + 1) p = .ok (if links[p].index = (i : ℤ) then some (p : ℤ) else none) := by
  have h1 := hn _ (List.getElem_mem hp)
  unfold findNumber
  rw [get_nat hp]
  generalize links[p] = h at h1
  obtain ⟨ix, nx⟩ := h
  simp only at h1
  subst h1
  simp only [Except.bind]
  by_cases h2 : ix = (i : ℤ)
  · subst h2
    have h0 : (0 : ℤ) ≤ (i : ℤ) := Int.natCast_nonneg i
    simp [h0]
  · by_cases h3 : 0 ≤ ix
    · simp [h2, h3]
    · simp [h2, h3]

theorem shuffle_eq {links : List Link} (hn : ∀ h ∈ links, h.next = -1) (k : Nat) {p : Nat} (hp : p < links.length) :
    shuffle (k + 1) links p = .ok links := by
  have h1 := hn _ (List.getElem_mem hp)
  unfold shuffle
  rw [get_nat hp]
  simp [Except.bind, h1]

theorem findLast_eq {links : List Link} (n k : Nat) {p : Nat} (hp : p < links.length) (h : links[p].index = (n : ℤ)) :
    findLast links n (k + 1) p = .ok (p : ℤ) := by
  unfold findLast
  rw [get_nat hp]
  simp [Except.bind, h]

theorem findLast_none {links : List Link} (hn : ∀ h ∈ links, h.next = -1) (n k : Nat) {p : Nat} (hp : p < links.length)
    (h : links[p].index ≠ (n : ℤ)) : findLast links n (k + 2) p = .error .outside := by
  unfold findLast
  rw [get_nat hp]
  simp only [Except.bind]
  rw [if_pos h, hn _ (List.getElem_mem hp)]
  rfl

/-- The table after cut number `i` of the cuts `l` has been erased; `c` is the last cut. -/
def erased (K : Kind) (t : Table) (l : List RowCut) (i : Nat) (c : RowCut) : Table where
  slots := ((t.slots.set i .dangling).set i (.cut c)).set (l.length - 1) .null
  links := setIndex t.links (K.hash c t.links.length) i
  number := l.length - 1
  last := t.last

theorem erase_eq {t : Table} {l : List RowCut} (h : Inv K t l) (hf : Fits K) (hpos : 0 < t.links.length) {i : Nat}
    (hi : i + 1 < l.length) (h1 : Home K t.links l i) {c : RowCut} (hc : l[l.length - 1]? = some c)
    (h2 : Home K t.links l (l.length - 1)) : erase K t i = .ok (erased K t l i c) := by
  obtain ⟨a, g, e1, e2, e3⟩ := h1
  obtain ⟨b, g', f1, f2, f3⟩ := h2
  rw [hc] at f1
  obtain rfl := Option.some.inj f1
  have hil : i < l.length := by omega
  have hp := hf a _ hpos
  have hq := hf c _ hpos
  have ea : l[i] = a := by rw [List.getElem?_eq_getElem hil] at e1; exact Option.some.inj e1
  rw [List.getElem?_eq_getElem hp] at e2
  rw [List.getElem?_eq_getElem hq] at f2
  have e4 : t.links[K.hash a t.links.length].index = (i : ℤ) := by rw [Option.some.inj e2]; exact e3
  have f4 : t.links[K.hash c t.links.length].index = ((l.length - 1 : Nat) : ℤ) := by rw [Option.some.inj f2]; exact f3
  unfold erase
  rw [if_pos (by rw [h.number]; omega), cutAt_of_take h.slots hil, ea]
  simp only [Except.bind]
  rw [findNumber_eq h.next i _ hp, if_pos e4]
  simp only
  rw [shuffle_eq h.next _ hp]
  simp only
  unfold moveLast
  rw [h.number, if_pos (by omega)]
  have hcut : cutAt (t.slots.set i .dangling) ((l.length - 1 : Nat) : ℤ) = .ok c := by
    have h5 : t.slots[l.length - 1]? = some (.cut c) := by
      have hlt : l.length - 1 < l.length := by omega
      rw [slot_of_take h.slots hlt]
      rw [List.getElem?_eq_getElem hlt] at hc
      rw [Option.some.inj hc]
    unfold cutAt get
    rw [if_pos (by omega), Int.toNat_natCast, List.getElem?_set_ne (by omega), h5]
    rfl
  rw [hcut]
  simp only [Except.bind]
  rw [findLast_eq _ _ hq f4]
  rfl

/-- One erasure without collisions. -/
theorem Uniq.erase {t : Table} {l : List RowCut} (h : Uniq K size S gone t l) (hf : Fits K)
    (hh : ∀ s, 0 < s → 0 < K.hashSize s) (hS : NoCollision K size S) {i : Nat} (hi : i + 1 < l.length)
    (hg : ∀ g ∈ gone, g + 1 < l.length) :
    ∃ t', erase K t i = .ok t' ∧
      Uniq K size S (i :: gone) t' ((l.set i (l.getLast?.getD ⟨0, 0, []⟩)).dropLast) := by
  have hlt : l.length - 1 < l.length := by omega
  have hle := number_le h.inv
  have hn := h.inv.number
  have hpos : 0 < t.links.length := by rw [h.inv.links]; exact hh _ (by omega)
  have hlast : l[l.length - 1]? = some l[l.length - 1] := List.getElem?_eq_getElem hlt
  refine ⟨_, erase_eq h.inv hf hpos hi (h.home i (by omega)) hlast (h.home _ hlt), ?_⟩
  have hgl : l.getLast?.getD ⟨0, 0, []⟩ = l[l.length - 1] := by
    rw [List.getLast?_eq_getElem?, hlast]; rfl
  rw [hgl]
  generalize hc : l[l.length - 1] = c at hlast
  generalize hl' : (l.set i c).dropLast = l'
  have hlen : l'.length = l.length - 1 := by rw [← hl']; simp
  have hget : ∀ j, l'[j]? = if j < l.length - 1 then (if i = j then some c else l[j]?) else none := by
    intro j
    rw [← hl', List.getElem?_dropLast, List.length_set]
    by_cases h1 : j < l.length - 1
    · rw [if_pos h1, if_pos h1, List.getElem?_set]
      by_cases h2 : i = j
      · rw [if_pos h2, if_pos h2, if_pos (by omega)]
      · rw [if_neg h2, if_neg h2]
    · rw [if_neg h1, if_neg h1]
  have hcS : c ∈ S := h.inS c (List.mem_of_getElem? hlast)
  have hkl : (erased K t l i c).links.length = t.links.length := setIndex_length _ _ _
  have hfrom : ∀ (j : Nat) (a : RowCut), l'[j]? = some a →
      j < l.length - 1 ∧ ((j = i ∧ a = c) ∨ (j ≠ i ∧ l[j]? = some a)) := by
    intro j a hj
    rw [hget] at hj
    split at hj
    · rename_i h1
      refine ⟨h1, ?_⟩
      split at hj
      · rename_i h2; exact Or.inl ⟨h2.symm, (Option.some.inj hj).symm⟩
      · rename_i h2; exact Or.inr ⟨fun h => h2 h.symm, hj⟩
    · simp at hj
  refine ⟨⟨?_, ?_, ?_, ?_, ?_⟩, ?_, ?_, ?_, ?_, ?_, ?_⟩
  · show List.take (l.length - 1) (((t.slots.set i .dangling).set i (.cut c)).set (l.length - 1) .null) = l'.map Slot.cut
    apply List.ext_getElem?
    intro j
    rw [List.getElem?_take, List.getElem?_map, hget]
    by_cases h1 : j < l.length - 1
    · rw [if_pos h1, if_pos h1, List.getElem?_set_ne (by omega), List.getElem?_set]
      by_cases h2 : i = j
      · rw [if_pos h2, if_pos h2, List.length_set, if_pos (by omega)]; rfl
      · rw [if_neg h2, if_neg h2, List.getElem?_set_ne h2]
        have h3 : j < l.length := by omega
        rw [slot_of_take h.inv.slots h3, List.getElem?_eq_getElem h3]
        rfl
    · rw [if_neg h1, if_neg h1]; rfl
  · exact hlen.symm
  · rw [hkl, h.inv.links]
    congr 1
    unfold erased
    simp
  · intro g hg'
    rcases mem_setIndex hg' with h1 | ⟨h', h1, rfl⟩
    · exact h.inv.next _ h1
    · exact h.inv.next h' h1
  · intro g hg'
    obtain ⟨p, hp⟩ := List.mem_iff_getElem?.1 hg'
    have hp' : (setIndex t.links (K.hash c t.links.length) i)[p]? = some g := hp
    rw [setIndex_get?] at hp'
    split at hp'
    · cases h2 : t.links[p]? with
      | none => rw [h2] at hp'; simp at hp'
      | some h' =>
        rw [h2] at hp'
        obtain rfl := Option.some.inj hp'
        exact Or.inr ⟨i, by omega, rfl⟩
    · rename_i h1
      rcases h.only p g hp' with h4 | ⟨j, h4, h5⟩
      · exact Or.inl h4
      · refine Or.inr ⟨j, ?_, h4⟩
        rcases h5 with h5 | ⟨d, h5, h6⟩
        · have := hg j h5; omega
        · have hj := (List.getElem?_eq_some_iff.1 h5).1
          by_contra h7
          have h8 : j = l.length - 1 := by omega
          subst h8
          rw [hlast] at h5
          obtain rfl := Option.some.inj h5
          exact h1 h6
  · intro j k a b hj hk hab
    obtain ⟨j1, j2⟩ := hfrom j a hj
    obtain ⟨k1, k2⟩ := hfrom k b hk
    rcases j2 with ⟨rfl, rfl⟩ | ⟨j2, j3⟩ <;> rcases k2 with ⟨rfl, rfl⟩ | ⟨k2, k3⟩
    · rfl
    · have := h.apart _ _ _ _ hlast k3 hab; omega
    · have := h.apart _ _ _ _ j3 hlast hab; omega
    · exact h.apart _ _ _ _ j3 k3 hab
  · intro j hj
    unfold Home
    rw [hkl]
    show ∃ c' g, _ ∧ (setIndex t.links (K.hash c t.links.length) i)[_]? = _ ∧ _
    have hj' : j < l.length - 1 := by omega
    by_cases h2 : i = j
    · have hq := hf c _ hpos
      refine ⟨c, { t.links[K.hash c t.links.length] with index := (i : ℤ) }, by rw [hget, if_pos hj', if_pos h2], ?_,
        by rw [h2]⟩
      rw [setIndex_get?, if_pos rfl, List.getElem?_eq_getElem hq]
      rfl
    · obtain ⟨c', g, e1, e2, e3⟩ := h.home j (by omega)
      refine ⟨c', g, by rw [hget, if_pos hj', if_neg h2]; exact e1, ?_, e3⟩
      rw [setIndex_get?, if_neg]
      · exact e2
      · intro h3
        have := h.apart _ _ _ _ hlast e1 ((h.collide hS hpos hcS (h.inS c' (List.mem_of_getElem? e1))).1 h3)
        omega
  · obtain ⟨k, hk⟩ := h.size
    exact ⟨k, by rw [← hk]; unfold erased; simp⟩
  · intro a ha
    obtain ⟨j, hj⟩ := List.mem_iff_getElem?.1 ha
    rcases (hfrom j a hj).2 with ⟨-, rfl⟩ | ⟨-, h3⟩
    · exact hcS
    · exact h.inS a (List.mem_of_getElem? h3)
  · intro p g hg'
    rw [hkl]
    have hp' : (setIndex t.links (K.hash c t.links.length) i)[p]? = some g := hg'
    rw [setIndex_get?] at hp'
    split at hp'
    · cases h2 : t.links[p]? with
      | none => rw [h2] at hp'; simp at hp'
      | some h' =>
        rw [h2] at hp'
        obtain rfl := Option.some.inj hp'
        exact Or.inr ⟨i, rfl, Or.inl List.mem_cons_self⟩
    · rename_i h1
      rcases h.only p g hp' with h4 | ⟨j, h4, h5⟩
      · exact Or.inl h4
      · refine Or.inr ⟨j, h4, ?_⟩
        rcases h5 with h5 | ⟨d, h5, h6⟩
        · exact Or.inl (List.mem_cons_of_mem _ h5)
        · by_cases h7 : j = i
          · exact Or.inl (by rw [h7]; exact List.mem_cons_self)
          · refine Or.inr ⟨d, ?_, h6⟩
            have hj := (List.getElem?_eq_some_iff.1 h5).1
            have h8 : j < l.length - 1 := by
              by_contra h7
              have h8 : j = l.length - 1 := by omega
              subst h8
              rw [hlast] at h5
              obtain rfl := Option.some.inj h5
              exact h1 h6
            rw [hget, if_pos h8, if_neg (fun h => h7 h.symm)]
            exact h5
  · intro g hg'
    rw [hlen]
    rcases List.mem_cons.1 hg' with rfl | hg'
    · omega
    · have := hg g hg'; omega

theorem Uniq.run (hf : Fits K) (hh : ∀ s, 0 < s → 0 < K.hashSize s) (hS : NoCollision K size S) (ops : List Op)
    (hops : ∀ c ∈ offered ops, c ∈ S) {t : Table} {l : List RowCut} (h : Uniq K size S gone t l)
    (hc : Careful K l gone ops = true) :
    ∃ t' gone', run K t ops = .ok t' ∧ Uniq K size S gone' t' (expected K l ops) := by
  induction ops generalizing t l gone with
  | nil => exact ⟨t, gone, rfl, h⟩
  | cons op ops ih =>
    cases op with
    | insert c =>
      obtain ⟨r, t1, h1, h2⟩ := h.insert hf hh hS (hops _ List.mem_cons_self)
      obtain ⟨t', gone', h3, h4⟩ := ih (fun d hd => hops d (List.mem_cons_of_mem _ hd)) h2 hc
      refine ⟨t', gone', ?_, h4⟩
      unfold UniqueCuts.run
      rw [h1]
      exact h3
    | erase i =>
      unfold Careful at hc
      rw [Bool.and_eq_true, List.all_eq_true] at hc
      have hi := of_decide_eq_true (hc.1 i List.mem_cons_self)
      obtain ⟨t1, h1, h2⟩ := h.erase hf hh hS hi
        (fun g hg => of_decide_eq_true (hc.1 g (List.mem_cons_of_mem _ hg)))
      obtain ⟨t', gone', h3, h4⟩ := ih hops h2 hc.2
      refine ⟨t', gone', ?_, h4⟩
      unfold UniqueCuts.run
      rw [h1]
      exact h3

theorem new_uniq (K : Kind) (size : Nat) (S : List RowCut) : Uniq K size S [] (new K size) [] where
  inv := new_inv K size
  apart := fun i j a b h => by simp at h
  home := fun i h => by simp at h
  size := ⟨0, by simp [new, sizeAfter]⟩
  inS := fun c h => by simp at h
  only := fun p h hp => by
    unfold new noLinks at hp
    rw [List.eq_of_mem_replicate (List.mem_of_getElem? hp)]
    exact Or.inl rfl
  gone := fun g h => by simp at h

/-- **The collector works as meant, if there are no collisions** (part of the claim for all histories): if among the cuts
that a history offers only those that are the same have the same place in the hash table, and the history is careful
about what it erases, then nothing fails, the cuts held in the end are those expected, and no two of them are the same.
Missing: histories with collisions (false, `duplicates_held`) and careless ones (false, `erase_last_fails`,
`stale_result`). -/
theorem collector_partial (hf : Fits K) (hh : ∀ s, 0 < s → 0 < K.hashSize s) (size : Nat) (ops : List Op)
    (hS : NoCollision K size (offered ops)) (hc : Careful K [] [] ops = true) :
    ∃ t, run K (new K size) ops = .ok t ∧ t.held = expected K [] ops ∧
      t.held.Pairwise (fun a b => K.same a b = false) := by
  obtain ⟨t, gone, h1, h2⟩ := Uniq.run hf hh hS ops (fun c hc => hc) (new_uniq K size (offered ops)) hc
  refine ⟨t, h1, h2.inv.held, ?_⟩
  rw [h2.inv.held, List.pairwise_iff_getElem]
  intro i j hi hj hij
  by_contra hne
  have := h2.apart i j _ _ (List.getElem?_eq_getElem hi) (List.getElem?_eq_getElem hj) (by simpa using hne)
  omega

/-! ### What fails -/

/-- **The last cut cannot be erased**: in every state that insertions lead to, whatever the positions in the hash table,
erasing the cut with the greatest number fails an assertion or uses a deleted cut. -/
theorem erase_last_fails (hf : Fits K) (hh : ∀ s, 0 < s → 0 < K.hashSize s) (size : Nat) (cs : List RowCut)
    {rs : List ℤ} {t : Table} (hreach : inserts K (new K size) cs = .ok (rs, t)) (h1 : 1 ≤ t.number) :
    erase K t (t.number - 1) = .error .assertion ∨ erase K t (t.number - 1) = .error .deleted := by
  obtain ⟨rs0, t0, l, h0, h2, -⟩ := inserts_step hf hh cs (new_inv K size)
  rw [hreach] at h0
  obtain ⟨rfl, rfl⟩ := Prod.mk.inj (Except.ok.inj h0)
  have hn := h2.number
  have hle := number_le h2
  have hpos : 0 < t.links.length := by rw [h2.links]; exact hh _ (by omega)
  have hil : t.number - 1 < l.length := by omega
  have hp := hf l[t.number - 1] _ hpos
  unfold erase
  rw [if_pos (by omega), cutAt_of_take h2.slots hil]
  simp only [Except.bind]
  rw [findNumber_eq h2.next _ _ hp]
  by_cases h3 : t.links[K.hash l[t.number - 1] t.links.length].index = ((t.number - 1 : Nat) : ℤ)
  · rw [if_pos h3]
    simp only
    rw [shuffle_eq h2.next _ hp]
    simp only
    unfold moveLast
    have hsl : (t.slots.set (t.number - 1) Slot.dangling)[t.number - 1]? = some .dangling := by
      rw [List.getElem?_set_self (by omega)]
    by_cases h4 : t.number - 1 ≠ 0
    · rw [if_pos h4]
      right
      unfold cutAt get
      rw [if_pos (by omega), Int.toNat_natCast, hsl]
      rfl
    · rw [if_neg h4, if_neg]
      · exact Or.inl rfl
      · have h5 : t.number - 1 = 0 := by omega
        rw [h5] at hsl ⊢
        rw [hsl]
        simp
  · rw [if_neg h3]
    exact Or.inl rfl

end Cgl.UniqueCuts
