import Verif.UniqueCuts.Props

/-! # Copies, `addCuts`, and a collector that is used again -/

namespace Cgl.UniqueCuts

variable {K : Kind}

/-- What else holds in a collector into which cuts were only inserted: the rest of the array was never set, and the
place of every cut is taken. -/
structure Fresh (K : Kind) (t : Table) (l : List RowCut) : Prop where
  inv : Inv K t l
  slots : t.slots = l.map Slot.cut ++ List.replicate (t.slots.length - l.length) .garbage
  taken : ∀ c ∈ l, ∃ h, t.links[K.hash c t.links.length]? = some h ∧ 0 ≤ h.index

theorem setIndex_at (links : List Link) (p : Nat) (v : ℤ) (q : Nat) :
    (setIndex links p v)[q]? = if p = q then links[q]?.map (fun h => { h with index := v }) else links[q]? := by
  unfold setIndex
  simp only [Int.toNat_natCast, List.getElem?_modify]
  split <;> simp

theorem taken_set {links : List Link} {p v q : Nat} (h : ∃ h : Link, links[q]? = some h ∧ 0 ≤ h.index) :
    ∃ h : Link, (setIndex links p v)[q]? = some h ∧ 0 ≤ h.index := by
  obtain ⟨h, h1, h2⟩ := h
  rw [setIndex_at]
  by_cases h3 : p = q
  · rw [if_pos h3, h1]; exact ⟨_, rfl, Int.natCast_nonneg v⟩
  · rw [if_neg h3]; exact ⟨h, h1, h2⟩

theorem refill_taken {l : List RowCut} {links : List Link} (hf : Fits K) (hpos : 0 < links.length) (i : Nat) (c : RowCut) :
    (∃ h : Link, (refill K l links i c)[K.hash c links.length]? = some h ∧ 0 ≤ h.index) ∧
      ∀ q : Nat, (∃ h : Link, links[q]? = some h ∧ 0 ≤ h.index) → ∃ h : Link, (refill K l links i c)[q]? = some h ∧ 0 ≤ h.index := by
  have hp := hf c _ hpos
  unfold refill
  rw [List.getElem?_eq_getElem hp]
  simp only
  by_cases h1 : (hit K l links[K.hash c links.length] c).isSome
  · rw [if_pos h1]
    refine ⟨⟨_, List.getElem?_eq_getElem hp, ?_⟩, fun q h => h⟩
    by_contra h2
    unfold hit at h1
    rw [if_neg h2] at h1
    simp at h1
  · rw [if_neg h1]
    refine ⟨?_, fun q h => taken_set h⟩
    rw [setIndex_at, if_pos rfl, List.getElem?_eq_getElem hp]
    exact ⟨_, rfl, Int.natCast_nonneg i⟩

theorem refill_length (l : List RowCut) (links : List Link) (i : Nat) (c : RowCut) :
    (refill K l links i c).length = links.length := by
  unfold refill
  split
  · rfl
  · split
    · rfl
    · exact setIndex_length _ _ _

theorem refillAll_taken {l : List RowCut} (hf : Fits K) (cs : List RowCut) (i : Nat) (links : List Link)
    (hpos : 0 < links.length) :
    (refillAll K l i cs links).length = links.length ∧
    (∀ q : Nat, (∃ h : Link, links[q]? = some h ∧ 0 ≤ h.index) → ∃ h : Link, (refillAll K l i cs links)[q]? = some h ∧ 0 ≤ h.index) ∧
      ∀ c ∈ cs, ∃ h : Link, (refillAll K l i cs links)[K.hash c links.length]? = some h ∧ 0 ≤ h.index := by
  induction cs generalizing i links with
  | nil => exact ⟨rfl, fun q h => h, fun c h => by simp at h⟩
  | cons c cs ih =>
    have h0 := refill_length (K := K) l links i c
    obtain ⟨h1, h2⟩ := refill_taken (K := K) (l := l) hf hpos i c
    obtain ⟨h3, h4, h5⟩ := ih (i + 1) (refill K l links i c) (by rw [h0]; exact hpos)
    refine ⟨h3.trans h0, fun q h => h4 q (h2 q h), ?_⟩
    intro d hd
    rcases List.mem_cons.1 hd with rfl | hd
    · exact h4 _ h1
    · have := h5 d hd
      rw [h0] at this
      exact this

theorem Fresh.room {t : Table} {l : List RowCut} (h : Fresh K t l) (hf : Fits K)
    (hh : ∀ s, 0 < s → 0 < K.hashSize s) : Fresh K (room K t l) l := by
  unfold UniqueCuts.room
  by_cases h1 : t.number = t.slots.length
  · rw [if_pos h1]
    obtain ⟨g1, g2, g3⟩ := grown_inv h.inv hf hh
    have hpos' : 0 < K.hashSize (larger t.slots.length) := hh _ (by unfold larger; omega)
    obtain ⟨n1, -, -⟩ := noLinks_inv (K.hashSize (larger t.slots.length)) l.length
    obtain ⟨r1, -, r2⟩ := refillAll_taken (K := K) (l := l) hf l 0 (noLinks (K.hashSize (larger t.slots.length)))
      (by rw [n1]; exact hpos')
    refine ⟨g1, by rw [g3]; rfl, ?_⟩
    intro c hc
    have e : (grown K t l).links.length = (noLinks (K.hashSize (larger t.slots.length))).length := r1
    rw [e]
    exact r2 c hc
  · rw [if_neg h1]; exact h

theorem Fresh.insert {t : Table} {l : List RowCut} (h : Fresh K t l) (hf : Fits K)
    (hh : ∀ s, 0 < s → 0 < K.hashSize s) (c : RowCut) :
    ∃ r t' l', insert K t c = .ok (r, t') ∧ Fresh K t' l' := by
  have hr := h.room hf hh
  obtain ⟨-, hlt⟩ := room_inv h.inv hf hh
  obtain ⟨r, t', h1, h2⟩ := insert_step h.inv hf hh c
  rcases h2 with ⟨-, -, h3, h4⟩ | ⟨-, h3, -, -⟩
  · refine ⟨r, t', l ++ [sortCut c], h1, h4, ?_, ?_⟩
    · subst h3
      generalize UniqueCuts.room K t l = u at hr hlt h4
      have hn := hr.inv.number
      have hs := hr.slots
      have hsl : (added K u (sortCut c)).slots.length = u.slots.length := List.length_set
      rw [hsl]
      show u.slots.set u.number (.cut (sortCut c)) = _
      rw [hs, hn, List.set_append_right _ _ (by simp)]
      simp only [List.length_map, Nat.sub_self, List.map_append, List.map_cons, List.map_nil, List.append_assoc,
        List.length_append, List.length_cons, List.length_nil, List.length_replicate]
      have h5 : ∃ k, u.slots.length - l.length = k + 1 := ⟨u.slots.length - l.length - 1, by omega⟩
      obtain ⟨k, hk⟩ := h5
      have h6 : l.length + (k + 1) - (l.length + (0 + 1)) = k := by omega
      rw [hk, h6]
      rfl
    · subst h3
      generalize UniqueCuts.room K t l = u at hr hlt h4
      have hkl : (added K u (sortCut c)).links.length = u.links.length := setIndex_length _ _ _
      rw [hkl]
      intro d hd
      show ∃ h : Link, (setIndex u.links (K.hash (sortCut c) u.links.length) u.number)[_]? = some h ∧ _
      rcases List.mem_append.1 hd with hd | hd
      · exact taken_set (hr.taken d hd)
      · rw [List.mem_singleton.1 hd, setIndex_at, if_pos rfl]
        have hp := hf (sortCut c) _ (links_pos hr.inv hlt hh)
        rw [List.getElem?_eq_getElem hp]
        exact ⟨_, rfl, Int.natCast_nonneg _⟩
  · subst h3
    exact ⟨r, _, l, h1, hr⟩

theorem Fresh.inserts (hf : Fits K) (hh : ∀ s, 0 < s → 0 < K.hashSize s) (cs : List RowCut) {t : Table}
    {l : List RowCut} (h : Fresh K t l) {rs : List ℤ} {t' : Table} (hr : inserts K t cs = .ok (rs, t')) :
    ∃ l', Fresh K t' l' := by
  induction cs generalizing t l rs with
  | nil =>
    obtain ⟨-, rfl⟩ := Prod.mk.inj (Except.ok.inj hr)
    exact ⟨l, h⟩
  | cons c cs ih =>
    obtain ⟨r, t1, l1, h1, h2⟩ := h.insert hf hh c
    unfold UniqueCuts.inserts at hr
    rw [h1] at hr
    simp only [Except.bind] at hr
    cases h3 : UniqueCuts.inserts K t1 cs with
    | error f => rw [h3] at hr; exact absurd hr (by simp)
    | ok q =>
      rw [h3] at hr
      obtain ⟨-, h4⟩ := Prod.mk.inj (Except.ok.inj hr)
      exact ih h2 (rs := q.1) (by rw [h3, ← h4])

theorem new_fresh (K : Kind) (size : Nat) : Fresh K (new K size) [] where
  inv := new_inv K size
  slots := by simp [new]
  taken := fun c h => by simp at h

theorem mapM_deref (l : List RowCut) : (l.map Slot.cut).mapM deref = (.ok l : Except Fault (List RowCut)) := by
  induction l with
  | nil => rfl
  | cons c l ih =>
    rw [List.map_cons, List.mapM_cons, ih]
    rfl

theorem mapM_copy (l : List RowCut) : (l.map Slot.cut).mapM copySlot = (.ok (l.map Slot.cut) : Except Fault (List Slot)) := by
  induction l with
  | nil => rfl
  | cons c l ih =>
    rw [List.map_cons, List.mapM_cons, ih]
    rfl

theorem mapM_copy_garbage (l : List RowCut) (r : List Slot) :
    (l.map Slot.cut ++ .garbage :: r).mapM copySlot = (.error .uninitialised : Except Fault (List Slot)) := by
  induction l with
  | nil => rfl
  | cons c l ih =>
    rw [List.map_cons, List.cons_append, List.mapM_cons, ih]
    rfl

/-- **A collector that is not full cannot be copied**: after any insertions, if there are fewer cuts than elements in the
array, the copy constructor and the assignment use pointers that were never set. -/
theorem copy_fails (hf : Fits K) (hh : ∀ s, 0 < s → 0 < K.hashSize s) (size : Nat) (cs : List RowCut)
    {rs : List ℤ} {t : Table} (hreach : inserts K (new K size) cs = .ok (rs, t)) (h1 : t.number < t.slots.length) :
    copy t = .error .uninitialised := by
  obtain ⟨l, h⟩ := Fresh.inserts hf hh cs (new_fresh K size) hreach
  have hn := h.inv.number
  obtain ⟨k, hk⟩ : ∃ k, t.slots.length - l.length = k + 1 := ⟨t.slots.length - l.length - 1, by omega⟩
  unfold copy
  rw [h.slots, hk, List.replicate_succ, mapM_copy_garbage]
  rfl

/-- The copy of a full collector is the same collector. -/
theorem copy_full_partial (hf : Fits K) (hh : ∀ s, 0 < s → 0 < K.hashSize s) (size : Nat) (cs : List RowCut)
    {rs : List ℤ} {t : Table} (hreach : inserts K (new K size) cs = .ok (rs, t)) (h1 : t.number = t.slots.length) :
    copy t = .ok t := by
  obtain ⟨l, h⟩ := Fresh.inserts hf hh cs (new_fresh K size) hreach
  have hn := h.inv.number
  have hs : t.slots = l.map Slot.cut := by
    have h2 := h.slots
    rw [show t.slots.length - l.length = 0 by omega, List.replicate_zero, List.append_nil] at h2
    exact h2
  unfold copy
  rw [hs, mapM_copy]
  show Except.ok { t with slots := l.map Slot.cut } = _
  rw [← hs]

theorem foldl_mem (l cs : List RowCut) (d : RowCut) : d ∈ l.foldl insertIfNotDuplicate cs ↔ d ∈ cs ∨ d ∈ l := by
  induction l generalizing cs with
  | nil => simp
  | cons c l ih =>
    rw [List.foldl_cons, ih, mem_insertIfNotDuplicate, List.mem_cons, or_assoc]

theorem foldl_nodup (l cs : List RowCut) (h : cs.Nodup) : (l.foldl insertIfNotDuplicate cs).Nodup := by
  induction l generalizing cs with
  | nil => exact h
  | cons c l ih =>
    refine ih _ ?_
    unfold insertIfNotDuplicate
    by_cases h1 : c ∈ cs
    · rw [if_pos h1]; exact h
    · rw [if_neg h1]
      rw [List.nodup_append]
      exact ⟨h, by simp, fun a ha b hb => by rw [List.mem_singleton.1 hb]; exact fun e => h1 (e ▸ ha)⟩

/-- **`addCuts` gives all cuts to the collection**, each once, and the collector is then empty. -/
theorem addCuts_delivers (hf : Fits K) (hh : ∀ s, 0 < s → 0 < K.hashSize s) (size : Nat) (cs : List RowCut)
    {rs : List ℤ} {t : Table} (hreach : inserts K (new K size) cs = .ok (rs, t)) (out : List RowCut) :
    ∃ out' t', addCuts t out = .ok (out', t') ∧ t'.held = [] ∧ (∀ d, d ∈ out' ↔ d ∈ out ∨ d ∈ t.held) ∧
      (out.Nodup → out'.Nodup) := by
  obtain ⟨l, h⟩ := Fresh.inserts hf hh cs (new_fresh K size) hreach
  unfold addCuts
  rw [h.inv.slots, mapM_deref]
  refine ⟨_, _, rfl, rfl, ?_, foldl_nodup _ _⟩
  intro d
  rw [foldl_mem, h.inv.held]

/-- **A collector cannot be used again after `addCuts`**: offering any acceptable cut that it held before uses a null
pointer, because the hash table still has the numbers of the cuts that are gone. -/
theorem reuse_fails (hf : Fits K) (hh : ∀ s, 0 < s → 0 < K.hashSize s) (size : Nat) (cs : List RowCut)
    {rs : List ℤ} {t : Table} (hreach : inserts K (new K size) cs = .ok (rs, t)) {out out' : List RowCut} {t' : Table}
    (hadd : addCuts t out = .ok (out', t')) {c : RowCut} (hc : sortCut c ∈ t.held) (hb : K.bad (sortCut c) = false) :
    insert K t' c = .error .nullPointer := by
  obtain ⟨l, h⟩ := Fresh.inserts hf hh cs (new_fresh K size) hreach
  rw [h.inv.held] at hc
  unfold addCuts at hadd
  rw [h.inv.slots, mapM_deref] at hadd
  obtain ⟨-, rfl⟩ := Prod.mk.inj (Except.ok.inj hadd)
  obtain ⟨g, h1, h2⟩ := h.taken _ hc
  have hm := List.mem_of_getElem? h1
  have hn := h.inv.number
  have hl : 0 < l.length := List.length_pos_of_mem hc
  have hle := number_le h.inv
  obtain ⟨i, hi, h3⟩ : ∃ i : Nat, i < l.length ∧ g.index = i := by
    rcases h.inv.index g hm with h3 | h3
    · omega
    · exact h3
  have hlen : (List.replicate t.number Slot.null ++ t.slots.drop t.number).length = t.slots.length := by
    simp; omega
  unfold insert
  simp only
  rw [hlen, if_neg (by omega)]
  unfold add
  simp only
  rw [hlen, if_pos (by omega), if_neg (by simp [hb])]
  unfold walk
  have hg : get t.links (K.hash (sortCut c) t.links.length : ℤ) = .ok g := by
    unfold get
    rw [if_pos (by omega), Int.toNat_natCast, h1]
  rw [hg]
  simp only [Except.bind]
  rw [if_pos h2]
  have hcut : cutAt (List.replicate t.number Slot.null ++ t.slots.drop t.number) g.index = .error .nullPointer := by
    unfold cutAt get
    rw [h3, if_pos (by omega), Int.toNat_natCast, List.getElem?_append_left (by simp; omega),
      List.getElem?_replicate, if_pos (by omega)]
    rfl
  rw [hcut]

end Cgl.UniqueCuts
