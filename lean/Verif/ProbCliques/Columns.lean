import Verif.ProbCliques.Complete
import Mathlib.Data.List.Induction

/-! # The lists of cliques of the columns -/

namespace Cgl.ProbCliques

/-! ### The numbered entries -/

theorem numbered_snoc (cs : List Clique) (c : Clique) :
    numbered (cs ++ [c]) = numbered cs ++ c.entries.map fun e => (cs.length, e) := by
  unfold numbered
  rw [List.zipIdx_append, List.flatMap_append]
  simp

theorem numbered_snd (cs : List Clique) : (numbered cs).map Prod.snd = cs.flatMap Clique.entries := by
  induction cs using List.reverseRecOn with
  | nil => rfl
  | append_singleton cs c ih =>
    rw [numbered_snoc, List.map_append, ih, List.flatMap_append, List.map_map]
    congr 1
    simp only [List.flatMap_cons, List.flatMap_nil, List.append_nil]
    exact List.map_id _

theorem filter_single {es : List Entry} (h : es.Nodup) (e : Entry) (n : Nat) :
    (((es.map fun e => (n, e)).filter fun p => decide (p.2 = e)).map Prod.fst) = if e ∈ es then [n] else [] := by
  induction es with
  | nil => simp
  | cons a es ih =>
    obtain ⟨h1, h2⟩ := List.nodup_cons.1 h
    rw [List.map_cons, List.filter_cons]
    by_cases ha : a = e
    · subst ha
      have : (es.map fun e => (n, e)).filter (fun p => decide (p.2 = a)) = [] := by
        rw [List.filter_eq_nil_iff]
        intro p hp
        obtain ⟨b, hb, rfl⟩ := List.mem_map.1 hp
        rw [decide_eq_true_eq]
        intro hba
        exact h1 (hba ▸ hb)
      simp [this]
    · simp only [ha, decide_false, Bool.false_eq_true, if_false]
      rw [ih h2]
      have : e ≠ a := fun h => ha h.symm
      simp [this]

theorem cliquesWith_eq {cs : List Clique} (h : ∀ c ∈ cs, c.entries.Nodup) (j : Nat) (one : Bool) :
    ((numbered cs).filter fun p => decide (p.2 = ⟨j, one⟩)).map Prod.fst = cliquesWith cs j one := by
  induction cs using List.reverseRecOn with
  | nil => rfl
  | append_singleton cs c ih =>
    rw [numbered_snoc, List.filter_append, List.map_append, ih fun c hc => h c (List.mem_append_left _ hc),
      filter_single (h c (List.mem_append_right _ List.mem_cons_self))]
    unfold cliquesWith
    rw [List.length_append, List.length_singleton, List.range_succ, List.filter_append]
    congr 1
    · apply List.filter_congr
      intro k hk
      rw [List.getElem?_append_left (List.mem_range.1 hk)]
    · rw [List.filter_cons]
      simp

/-! ### Positions -/

/-- How often an entry occurs, and how many entries have a smaller column. -/
def cnt (es : List Entry) (e : Entry) : Nat := es.countP fun a => decide (a = e)
def off (es : List Entry) (j : Nat) : Nat := es.countP fun a => decide (a.col < j)
def pos (es : List Entry) (e : Entry) : Nat := off es e.col + if e.one then 0 else cnt es ⟨e.col, true⟩

theorem off_succ (es : List Entry) (j : Nat) : off es (j + 1) = off es j + cnt es ⟨j, true⟩ + cnt es ⟨j, false⟩ := by
  unfold off cnt
  induction es with
  | nil => rfl
  | cons a es ih =>
    simp only [List.countP_cons, ih, decide_eq_true_eq]
    obtain ⟨k, b⟩ := a
    simp only [Entry.mk.injEq]
    rcases Nat.lt_trichotomy k j with h | h | h
    · have h1 : ¬ k = j := by omega
      have h2 : k < j + 1 := by omega
      simp [h, h1, h2]; omega
    · subst h
      cases b <;> simp <;> omega
    · have h1 : ¬ k = j := by omega
      have h2 : ¬ k < j + 1 := by omega
      have h3 : ¬ k < j := by omega
      simp [h1, h2, h3]

theorem off_mono (es : List Entry) {i j : Nat} (h : i ≤ j) : off es i ≤ off es j := by
  unfold off
  apply List.countP_mono_left
  intro a _ ha
  rw [decide_eq_true_eq] at ha ⊢
  omega

theorem off_le (es : List Entry) (j : Nat) : off es j ≤ es.length := List.countP_le_length

theorem pos_bounds (es : List Entry) (e : Entry) : off es e.col ≤ pos es e ∧ pos es e + cnt es e ≤ off es (e.col + 1) := by
  obtain ⟨j, b⟩ := e
  unfold pos
  rw [off_succ]
  cases b
  · simp
  · simp

theorem pos_disjoint (es : List Entry) {a b : Entry} (h : a ≠ b) {i k : Nat} (hi : i < cnt es a) (hk : k < cnt es b) :
    pos es a + i ≠ pos es b + k := by
  obtain ⟨a1, a2⟩ := pos_bounds es a
  obtain ⟨b1, b2⟩ := pos_bounds es b
  rcases Nat.lt_trichotomy a.col b.col with hc | hc | hc
  · have := off_mono es (i := a.col + 1) (j := b.col) hc
    omega
  · obtain ⟨j, u⟩ := a
    obtain ⟨j', v⟩ := b
    dsimp only at hc
    subst hc
    unfold pos
    cases u <;> cases v
    · exact absurd rfl h
    · simp; omega
    · simp; omega
    · exact absurd rfl h
  · have := off_mono es (i := b.col + 1) (j := a.col) hc
    omega

theorem counts_eq : ∀ (es : List Entry) (c : (Nat → ℤ) × (Nat → ℤ)) (j : Nat),
    (es.foldl count1 c).1 j = c.1 j + cnt es ⟨j, true⟩ ∧ (es.foldl count1 c).2 j = c.2 j + cnt es ⟨j, false⟩ := by
  intro es
  induction es with
  | nil => intro c j; simp [cnt]
  | cons a es ih =>
    intro c j
    rw [List.foldl_cons]
    obtain ⟨h1, h2⟩ := ih (count1 c a) j
    rw [h1, h2]
    obtain ⟨k, b⟩ := a
    unfold count1 cnt
    rw [List.countP_cons, List.countP_cons]
    cases b
    · by_cases hk : j = k
      · subst hk; simp; omega
      · have hk' : ¬ k = j := fun h => hk h.symm
        simp [Function.update_of_ne hk, hk']
    · by_cases hk : j = k
      · subst hk; simp; omega
      · have hk' : ¬ k = j := fun h => hk h.symm
        simp [Function.update_of_ne hk, hk']

/-- The column is in a clique. -/
def Used (es : List Entry) (j : Nat) : Prop := ∃ e ∈ es, e.col = j

instance (es : List Entry) (j : Nat) : Decidable (Used es j) := by unfold Used; infer_instance

theorem touched_eq (es : List Entry) (j : Nat) : touched es j = if Used es j then 0 else -1 := by
  unfold touched Used
  simp

theorem cnt_unused {es : List Entry} {j : Nat} (h : ¬ Used es j) (b : Bool) : cnt es ⟨j, b⟩ = 0 := by
  unfold cnt
  rw [List.countP_eq_zero]
  intro a ha hc
  rw [decide_eq_true_eq] at hc
  exact h ⟨a, ha, by rw [hc]⟩

/-- The starts before the loop over the columns. -/
def starts0 (es : List Entry) : Starts :=
  ⟨(es.foldl count1 (touched es, touched es)).1, (es.foldl count1 (touched es, touched es)).2, fun _ => -1, fun _ => 0, 0⟩

theorem starts0_one (es : List Entry) (j : Nat) : (starts0 es).one j = (if Used es j then 0 else -1) + cnt es ⟨j, true⟩ ∧
    (starts0 es).zero' j = (if Used es j then 0 else -1) + cnt es ⟨j, false⟩ := by
  obtain ⟨h1, h2⟩ := counts_eq es (touched es, touched es) j
  unfold starts0
  dsimp only at h1 h2 ⊢
  rw [h1, h2, touched_eq]
  exact ⟨rfl, rfl⟩

theorem startsOf_eq (es : List Entry) : ∀ n, ((List.range n).foldl start1 (starts0 es)).n = off es n ∧
    (∀ j < n, Used es j → ((List.range n).foldl start1 (starts0 es)).one j = off es j ∧
      ((List.range n).foldl start1 (starts0 es)).next j = off es j ∧
      ((List.range n).foldl start1 (starts0 es)).zero' j = off es j + cnt es ⟨j, true⟩ ∧
      ((List.range n).foldl start1 (starts0 es)).stop j = off es j + cnt es ⟨j, true⟩) ∧
    (∀ j, ¬ (j < n ∧ Used es j) → ((List.range n).foldl start1 (starts0 es)).one j = (starts0 es).one j ∧
      ((List.range n).foldl start1 (starts0 es)).zero' j = (starts0 es).zero' j ∧
      ((List.range n).foldl start1 (starts0 es)).stop j = -1) := by
  intro n
  induction n with
  | zero => exact ⟨by simp [off, starts0], by simp, fun j _ => ⟨rfl, rfl, rfl⟩⟩
  | succ n ih =>
    obtain ⟨h1, h2, h3⟩ := ih
    rw [List.range_succ, List.foldl_append]
    simp only [List.foldl_cons, List.foldl_nil]
    generalize (List.range n).foldl start1 (starts0 es) = s at h1 h2 h3
    obtain ⟨o1, o2, -⟩ := h3 n (by omega)
    obtain ⟨q1, q2⟩ := starts0_one es n
    by_cases hu : Used es n
    · rw [if_pos hu, zero_add] at q1 q2
      rw [q1] at o1
      rw [q2] at o2
      unfold start1
      rw [if_pos (by rw [o1]; omega)]
      dsimp only
      refine ⟨?_, ?_, ?_⟩
      · rw [h1, o1, o2, off_succ]; push_cast; ring
      · intro j hj hju
        by_cases hjn : j = n
        · subst hjn
          simp only [Function.update_self]
          rw [h1, o1]
          exact ⟨rfl, rfl, rfl, rfl⟩
        · simp only [Function.update_of_ne hjn]
          exact h2 j (by omega) hju
      · intro j hj
        have hjn : j ≠ n := fun h => hj ⟨by omega, h ▸ hu⟩
        simp only [Function.update_of_ne hjn]
        exact h3 j fun h => hj ⟨by omega, h.2⟩
    · rw [if_neg hu, cnt_unused hu] at q1 q2
      rw [q1] at o1
      unfold start1
      rw [if_neg (by rw [o1]; simp)]
      refine ⟨?_, ?_, ?_⟩
      · rw [h1, off_succ, cnt_unused hu, cnt_unused hu]; rfl
      · intro j hj hju
        have hjn : j ≠ n := fun h => hu (h ▸ hju)
        exact h2 j (by omega) hju
      · intro j hj
        exact h3 j fun h => hj ⟨by omega, h.2⟩

/-! ### Filling in -/

/-- The cliques put in for an entry. -/
def doneFor (l : List (Nat × Entry)) (e : Entry) : List Nat := (l.filter fun p => decide (p.2 = e)).map Prod.fst

theorem doneFor_snoc (l : List (Nat × Entry)) (p : Nat × Entry) (e : Entry) :
    doneFor (l ++ [p]) e = if p.2 = e then doneFor l e ++ [p.1] else doneFor l e := by
  unfold doneFor
  rw [List.filter_append, List.map_append, List.filter_cons]
  by_cases h : p.2 = e
  · simp [h]
  · simp [h]

theorem doneFor_length (l : List (Nat × Entry)) (e : Entry) : (doneFor l e).length = cnt (l.map Prod.snd) e := by
  unfold doneFor cnt
  rw [List.length_map, ← List.countP_eq_length_filter, List.countP_map]
  rfl

theorem cnt_append (a b : List Entry) (e : Entry) : cnt (a ++ b) e = cnt a e + cnt b e := List.countP_append

/-- The invariant while entries are put in. -/
structure Filled (es : List Entry) (nCols : Nat) (z : Starts) (size : Nat) (l : List (Nat × Entry)) (s : Starts × List (Option Nat)) :
    Prop where
  one : s.1.one = z.one
  zero' : s.1.zero' = z.zero'
  next : ∀ j < nCols, Used es j → s.1.next j = off es j + (doneFor l ⟨j, true⟩).length
  stop : ∀ j < nCols, Used es j → s.1.stop j = off es j + cnt es ⟨j, true⟩ + (doneFor l ⟨j, false⟩).length
  other : ∀ j, ¬ Used es j → s.1.stop j = z.stop j
  length : s.2.length = size
  which : ∀ e i c, (doneFor l e)[i]? = some c → s.2[pos es e + i]? = some (some c)

theorem put1_ok {es : List Entry} {nCols size : Nat} {z : Starts} {l : List (Nat × Entry)} {s : Starts × List (Option Nat)}
    (h : Filled es nCols z size l s) (hs : es.length ≤ size) {p : Nat × Entry} (hc : p.2.col < nCols) (hm : p.2 ∈ es)
    (hlt : ∀ e, cnt ((l ++ [p]).map Prod.snd) e ≤ cnt es e) :
    ∃ s', put1 p.1 s p.2 = .ok s' ∧ Filled es nCols z size (l ++ [p]) s' := by
  obtain ⟨c, ⟨j, b⟩⟩ := p
  dsimp only at hc hm ⊢
  have hu : Used es j := ⟨_, hm, rfl⟩
  have hlt' : ∀ e, cnt (l.map Prod.snd) e ≤ cnt es e := by
    intro e
    have := hlt e
    rw [List.map_append, cnt_append] at this
    omega
  have hpos : (doneFor l ⟨j, b⟩).length < cnt es ⟨j, b⟩ := by
    have := hlt ⟨j, b⟩
    rw [← doneFor_length, doneFor_snoc, if_pos rfl, List.length_append, List.length_singleton] at this
    omega
  have hin : pos es ⟨j, b⟩ + (doneFor l ⟨j, b⟩).length < s.2.length := by
    have := (pos_bounds es ⟨j, b⟩).2
    have h2 := off_le es (j + 1)
    have h3 := h.length
    dsimp only at this
    omega
  have hset : ∀ v : ℤ, v = ((pos es ⟨j, b⟩ + (doneFor l ⟨j, b⟩).length : Nat) : ℤ) →
      setAt s.2 v c = .ok (s.2.set (pos es ⟨j, b⟩ + (doneFor l ⟨j, b⟩).length) (some c)) := by
    intro v hv
    unfold setAt
    rw [hv, if_pos ⟨by omega, by exact_mod_cast hin⟩, Int.toNat_natCast]
  have hwhich : ∀ e i d, (doneFor (l ++ [(c, ⟨j, b⟩)]) e)[i]? = some d →
      (s.2.set (pos es ⟨j, b⟩ + (doneFor l ⟨j, b⟩).length) (some c))[pos es e + i]? = some (some d) := by
    intro e i d hd
    rw [doneFor_snoc] at hd
    by_cases he : (⟨j, b⟩ : Entry) = e
    · subst he
      rw [if_pos rfl] at hd
      by_cases hi : i < (doneFor l ⟨j, b⟩).length
      · rw [List.getElem?_append_left hi] at hd
        rw [List.getElem?_set_ne (by omega)]
        exact h.which _ _ _ hd
      · rw [List.getElem?_append_right (by omega)] at hd
        obtain ⟨k, hk⟩ : ∃ k, i = (doneFor l ⟨j, b⟩).length + k := ⟨i - (doneFor l ⟨j, b⟩).length, by omega⟩
        subst hk
        rw [Nat.add_sub_cancel_left] at hd
        cases k with
        | succ k => simp at hd
        | zero =>
          simp only [List.getElem?_cons_zero, Option.some.injEq] at hd
          subst hd
          rw [Nat.add_zero, List.getElem?_set_self hin]
    · rw [if_neg he] at hd
      have hi : i < (doneFor l e).length := by
        by_contra hi
        rw [List.getElem?_eq_none (by omega)] at hd
        cases hd
      have hie : i < cnt es e := by
        have := hlt' e
        rw [← doneFor_length] at this
        omega
      rw [List.getElem?_set_ne (pos_disjoint es he hpos hie)]
      exact h.which _ _ _ hd
  cases b with
  | true =>
    have e1 := h.next j hc hu
    have hv : s.1.next j = ((pos es ⟨j, true⟩ + (doneFor l ⟨j, true⟩).length : Nat) : ℤ) := by
      rw [e1]; unfold pos; simp
    unfold put1
    rw [if_pos rfl, hset _ hv]
    refine ⟨_, rfl, h.one, h.zero', ?_, ?_, h.other, ?_, hwhich⟩
    · intro k hk hku
      dsimp only
      rw [doneFor_snoc]
      by_cases hkj : k = j
      · subst hkj
        rw [Function.update_self, if_pos rfl, e1, List.length_append, List.length_singleton]
        push_cast; ring
      · rw [Function.update_of_ne hkj, if_neg (by simp [Ne.symm hkj])]
        exact h.next k hk hku
    · intro k hk hku
      dsimp only
      rw [doneFor_snoc, if_neg (by simp)]
      exact h.stop k hk hku
    · rw [List.length_set]; exact h.length
  | false =>
    have e1 := h.stop j hc hu
    have hv : s.1.stop j = ((pos es ⟨j, false⟩ + (doneFor l ⟨j, false⟩).length : Nat) : ℤ) := by
      rw [e1]; unfold pos; simp
    unfold put1
    rw [if_neg (by simp), hset _ hv]
    refine ⟨_, rfl, h.one, h.zero', ?_, ?_, ?_, ?_, hwhich⟩
    · intro k hk hku
      dsimp only
      rw [doneFor_snoc, if_neg (by simp)]
      exact h.next k hk hku
    · intro k hk hku
      dsimp only
      rw [doneFor_snoc]
      by_cases hkj : k = j
      · subst hkj
        rw [Function.update_self, if_pos rfl, e1, List.length_append, List.length_singleton]
        push_cast; ring
      · rw [Function.update_of_ne hkj, if_neg (by simp [Ne.symm hkj])]
        exact h.stop k hk hku
    · intro k hk
      have hkj : k ≠ j := fun h => hk (h ▸ hu)
      dsimp only
      rw [Function.update_of_ne hkj]
      exact h.other k hk
    · rw [List.length_set]; exact h.length

theorem putAll_ok {es : List Entry} {nCols size : Nat} {z : Starts} (hs : es.length ≤ size) (hcol : ∀ e ∈ es, e.col < nCols) :
    ∀ (l done : List (Nat × Entry)) (s : Starts × List (Option Nat)), (done ++ l).map Prod.snd = es →
      Filled es nCols z size done s → ∃ s', putAll l s = .ok s' ∧ Filled es nCols z size (done ++ l) s' := by
  intro l
  induction l with
  | nil => intro done s _ h; exact ⟨s, rfl, by rw [List.append_nil]; exact h⟩
  | cons p l ih =>
    intro done s he h
    have hm : p.2 ∈ es := by
      rw [← he]
      exact List.mem_map.2 ⟨p, List.mem_append_right _ List.mem_cons_self, rfl⟩
    have he' : ((done ++ [p]) ++ l).map Prod.snd = es := by rw [List.append_assoc]; exact he
    obtain ⟨s', h1, h2⟩ := put1_ok h hs (hcol _ hm) hm (by
      intro e
      have : cnt es e = cnt ((done ++ [p]).map Prod.snd) e + cnt (l.map Prod.snd) e := by
        rw [← cnt_append, ← List.map_append, he']
      omega)
    obtain ⟨s'', h3, h4⟩ := ih (done ++ [p]) s' he' h2
    refine ⟨s'', ?_, ?_⟩
    · rw [putAll, h1]; exact h3
    · rw [List.append_assoc] at h4; exact h4

theorem between_eq {w : List (Option Nat)} {L : List Nat} {a : Nat}
    (h : ∀ i c, L[i]? = some c → w[a + i]? = some (some c)) : between w a (a + L.length : Nat) = L.map some := by
  unfold between
  have e : (((a + L.length : Nat) : ℤ) - (a : ℤ)).toNat = L.length := by omega
  rw [e, Int.toNat_natCast]
  apply List.ext_getElem?
  intro i
  by_cases hi : i < L.length
  · rw [List.getElem?_take_of_lt hi, List.getElem?_drop, List.getElem?_map, List.getElem?_eq_getElem hi]
    exact h i _ (List.getElem?_eq_getElem hi)
  · rw [List.getElem?_eq_none (by rw [List.length_take]; omega), List.getElem?_eq_none (by rw [List.length_map]; omega)]

/-- The lists of the columns say which cliques contain the column. -/
structure Store.Lists (S : Store) (nCols : Nat) (cs : List Clique) : Prop where
  used : ∀ j < nCols, (∃ c ∈ cs, ∃ e ∈ c.entries, e.col = j) → 0 ≤ S.one j ∧ S.one j ≤ S.zero' j ∧ S.zero' j ≤ S.stop j ∧
    S.stop j ≤ S.which.length ∧ between S.which (S.one j) (S.zero' j) = (cliquesWith cs j true).map some ∧
    between S.which (S.zero' j) (S.stop j) = (cliquesWith cs j false).map some
  free : ∀ j < nCols, (¬ ∃ c ∈ cs, ∃ e ∈ c.entries, e.col = j) → S.one j = -1 ∧ S.zero' j = -1 ∧ S.stop j = -1

theorem columnLists_ok {nCols size : Nat} {cs : List Clique} (hs : (cs.flatMap Clique.entries).length ≤ size)
    (hcol : ∀ c ∈ cs, ∀ e ∈ c.entries, e.col < nCols) (hnd : ∀ c ∈ cs, c.entries.Nodup) :
    ∃ S, columnLists nCols size cs = .ok S ∧ S.Lists nCols cs := by
  generalize hes : cs.flatMap Clique.entries = es at hs
  have hcol' : ∀ e ∈ es, e.col < nCols := by
    intro e he
    rw [← hes] at he
    obtain ⟨c, hc, he⟩ := List.mem_flatMap.1 he
    exact hcol c hc e he
  obtain ⟨-, z2, z3⟩ := startsOf_eq es nCols
  have hz : Filled es nCols (startsOf nCols es) size [] (startsOf nCols es, List.replicate size none) := by
    refine ⟨rfl, rfl, ?_, ?_, fun _ _ => rfl, List.length_replicate, ?_⟩
    · intro j hj hu
      rw [show (doneFor [] ⟨j, true⟩).length = 0 from rfl]
      have := (z2 j hj hu).2.1
      unfold startsOf
      unfold starts0 at this
      simpa using this
    · intro j hj hu
      rw [show (doneFor [] ⟨j, false⟩).length = 0 from rfl]
      have := (z2 j hj hu).2.2.2
      unfold startsOf
      unfold starts0 at this
      simpa using this
    · intro e i c h
      simp [doneFor] at h
  obtain ⟨s', h1, h2⟩ := putAll_ok hs hcol' (numbered cs) [] _ (by rw [List.nil_append, numbered_snd, hes]) hz
  rw [List.nil_append] at h2
  unfold columnLists
  rw [hes, h1]
  refine ⟨_, rfl, ?_, ?_⟩
  · intro j hj hc
    have hu : Used es j := by
      obtain ⟨c, hc, e, he, hej⟩ := hc
      exact ⟨e, by rw [← hes]; exact List.mem_flatMap.2 ⟨c, hc, he⟩, hej⟩
    have a1 : s'.1.one j = off es j := by rw [h2.one]; exact (z2 j hj hu).1
    have a2 : s'.1.zero' j = off es j + cnt es ⟨j, true⟩ := by rw [h2.zero']; exact (z2 j hj hu).2.2.1
    have a3 := h2.stop j hj hu
    have l1 : (doneFor (numbered cs) ⟨j, true⟩).length = cnt es ⟨j, true⟩ := by rw [doneFor_length, numbered_snd, hes]
    have l2 : (doneFor (numbered cs) ⟨j, false⟩).length = cnt es ⟨j, false⟩ := by rw [doneFor_length, numbered_snd, hes]
    rw [l2] at a3
    dsimp only
    have hend : off es j + cnt es ⟨j, true⟩ + cnt es ⟨j, false⟩ ≤ s'.2.length := by
      rw [← off_succ, h2.length]
      exact (off_le es _).trans hs
    refine ⟨by omega, by omega, by omega, by omega, ?_, ?_⟩
    · rw [a1, a2, ← cliquesWith_eq hnd, ← l1]
      have := between_eq (w := s'.2) (L := doneFor (numbered cs) ⟨j, true⟩) (a := off es j) (by
        intro i c hi
        have := h2.which ⟨j, true⟩ i c hi
        unfold pos at this
        simpa using this)
      push_cast at this
      exact this
    · rw [a2, a3, ← cliquesWith_eq hnd, ← l2]
      have := between_eq (w := s'.2) (L := doneFor (numbered cs) ⟨j, false⟩) (a := off es j + cnt es ⟨j, true⟩) (by
        intro i c hi
        have := h2.which ⟨j, false⟩ i c hi
        unfold pos at this
        simpa using this)
      push_cast at this
      exact this
  · intro j hj hc
    have hu : ¬ Used es j := by
      rintro ⟨e, he, hej⟩
      rw [← hes] at he
      obtain ⟨c, hc', he⟩ := List.mem_flatMap.1 he
      exact hc ⟨c, hc', e, he, hej⟩
    obtain ⟨o1, o2, o3⟩ := z3 j fun h => hu h.2
    obtain ⟨q1, q2⟩ := starts0_one es j
    rw [if_neg hu, cnt_unused hu] at q1 q2
    dsimp only
    refine ⟨?_, ?_, ?_⟩
    · rw [h2.one]; exact o1.trans q1
    · rw [h2.zero']; exact o2.trans q2
    · rw [h2.other j hu]; exact o3

/-! ### Returning -/

theorem intUpper_returns {v : ℚ} (h : (intMin : ℚ) ≤ v) : ∃ i, intUpper v = .ok i := by
  unfold intUpper
  split
  · exact ⟨_, rfl⟩
  · rw [if_neg (by rw [not_lt, Int.le_floor]; linarith)]; exact ⟨_, rfl⟩

theorem intLower_returns {v : ℚ} (h : v ≤ (intMax : ℚ)) : ∃ i, intLower v = .ok i := by
  unfold intLower
  split
  · exact ⟨_, rfl⟩
  · rw [if_neg (by rw [not_lt, Int.ceil_le]; linarith)]; exact ⟨_, rfl⟩

variable {P Q : Prob}

theorem scan_range {bin : Nat → Bool} (h : Derived P Q) : ∀ (l : SVec) (s : Scan),
    s.up - (l.map (weight P)).sum ≤ (scan bin Q l s).up ∧ (scan bin Q l s).lo ≤ s.lo + (l.map (weight P)).sum := by
  intro l
  induction l with
  | nil => intro s; simp [scan]
  | cons p l ih =>
    intro s
    have hw := weight_nonneg P p
    have hs : 0 ≤ (l.map (weight P)).sum := List.sum_nonneg (by
      intro a ha
      obtain ⟨q, -, rfl⟩ := List.mem_map.1 ha
      exact weight_nonneg P q)
    rw [scan, List.map_cons, List.sum_cons]
    by_cases hf : fixedCol Q p.1 = true
    · rw [if_pos hf]
      obtain ⟨h1, h2⟩ := ih (s.fixed (Q.colLower p.1 * p.2))
      have := abs_le.1 (h.term p hf)
      unfold Scan.fixed at h1 h2 ⊢
      dsimp only at h1 h2 ⊢
      constructor <;> linarith
    · rw [if_neg hf]
      split
      · obtain ⟨h1, h2⟩ := ih (s.add p.1 p.2)
        have e1 : (s.add p.1 p.2).up = s.up := by unfold Scan.add; split <;> rfl
        have e2 : (s.add p.1 p.2).lo = s.lo := by unfold Scan.add; split <;> rfl
        rw [e1] at h1
        rw [e2] at h2
        constructor <;> linarith
      · constructor
        · change _ ≤ s.up; linarith
        · change s.lo ≤ _; linarith

/-- The bounds of the rows fit into an `int` even if the fixed columns are moved to the right hand side, or they are
infinite on the harmless side. -/
def Fits (P : Prob) : Prop :=
  ∀ r ∈ P.rows, (intMin : ℚ) ≤ r.ub - (r.coefs.map (weight P)).sum ∧ r.lb + (r.coefs.map (weight P)).sum ≤ (intMax : ℚ)

theorem firstLoop_returns (hF : Fits P) {bin : Nat → Bool} (hb : ∀ j, bin j = true → P.isInt j = true) {minSize maxSize : ℤ} :
    ∀ (l : List Row) (s : First), (∀ r ∈ l, r ∈ P.rows) → Derived P s.P → ∃ t, firstLoop bin minSize maxSize l s = .ok t := by
  intro l
  induction l with
  | nil => intro s _ _; exact ⟨s, rfl⟩
  | cons r l ih =>
    intro s hl hd
    rw [firstLoop]
    obtain ⟨f1, f2⟩ := hF r (hl r List.mem_cons_self)
    obtain ⟨r1, r2⟩ := scan_range (bin := bin) hd r.coefs (scan0 r)
    obtain ⟨iU, hU⟩ := intUpper_returns (v := (scan bin s.P r.coefs (scan0 r)).up) (le_trans f1 r1)
    obtain ⟨iL, hL⟩ := intLower_returns (v := (scan bin s.P r.coefs (scan0 r)).lo) (le_trans r2 f2)
    rw [hU, hL]
    simp only [Except.bind]
    split
    · exact ⟨_, rfl⟩
    · refine ih _ (fun r' hr' => hl r' (List.mem_cons_of_mem _ hr')) (hd.trans ?_)
      exact (afterRow_derived (fun j hj => by rw [hd.isInt]; exact hb j hj) _).1

theorem secondLoop_returns (hF : Fits P) (h : Derived P Q) : ∀ (l : List Row), (∀ r ∈ l, r ∈ P.rows) →
    ∃ cs, secondLoop Q l = .ok cs := by
  intro l
  induction l with
  | nil => intro _; exact ⟨[], rfl⟩
  | cons r l ih =>
    intro hl
    obtain ⟨cs, hcs⟩ := ih fun r' hr' => hl r' (List.mem_cons_of_mem _ hr')
    obtain ⟨f1, f2⟩ := hF r (hl r List.mem_cons_self)
    have hs := abs_le.1 (h.sum r.coefs)
    change -_ ≤ fixedSum Q r ∧ fixedSum Q r ≤ _ at hs
    obtain ⟨iU, hU⟩ := intUpper_returns (v := r.ub - fixedSum Q r) (by linarith [hs.2])
    obtain ⟨iL, hL⟩ := intLower_returns (v := r.lb - fixedSum Q r) (by linarith [hs.1])
    rw [secondLoop, hcs]
    unfold secondRow
    rw [rescan_row]
    dsimp only
    rw [hU, hL]
    exact ⟨_, rfl⟩

/-- `createCliques` returns if the row bounds fit into an `int`: it never writes outside its arrays. -/
theorem createCliques_returns (hM : Moderate P) (hW : P.WF) (hF : Fits P) (minSize maxSize : ℤ) :
    ∃ out, createCliques P minSize maxSize = .ok out := by
  unfold createCliques
  obtain ⟨s, hs⟩ := firstLoop_returns hF (bin_int P) (minSize := minSize) (maxSize := maxSize) P.rows ⟨P, [], 0, false⟩
    (fun _ h => h) (Derived.refl P)
  rw [hs]
  have hi := run_inv hM hW hs
  simp only [Except.bind]
  unfold secondPart
  split
  · exact ⟨_, rfl⟩
  · split
    · exact ⟨_, rfl⟩
    · obtain ⟨cs, hcs⟩ := secondLoop_returns hF hi.derived s.rows fun r hr => (hi.rows r hr).mem
      have hsh := clique_shape hW hi hcs
      obtain ⟨S, hS, -⟩ := columnLists_ok (nCols := s.P.nCols) (entries_fit hi hcs)
        (fun c hc e he => by rw [hi.derived.nCols]; exact ((hsh c hc).2.1 e he).1) (fun c hc => (hsh c hc).1.of_map)
      rw [hcs]
      simp only [Except.bind]
      rw [hS]
      exact ⟨_, rfl⟩

/-- The clique lists of the columns: for a column of a clique, the part of the array between `oneFixStart_` and
`zeroFixStart_` has the cliques in which the column fixes the others at 1, and the part up to `endFixStart_` the cliques in
which it does at 0.  Columns without cliques have -1 in all three arrays. -/
theorem createCliques_lists (hM : Moderate P) (hW : P.WF) {minSize maxSize : ℤ} {P' : Prob} {T : Tables} {S : Store}
    (h : createCliques P minSize maxSize = .ok (P', T)) (hS : T.store = some S) :
    T.number = T.cliques.length ∧ S.Lists P.nCols T.cliques := by
  obtain ⟨s, hf, rfl, h1 | h1 | ⟨-, -, cs, st, h1, h2, h3⟩⟩ := createCliques_run h
  · rw [h1.2] at hS; cases hS
  · rw [h1.2.2] at hS; cases hS
  · have hi := run_inv hM hW hf
    have hsh := clique_shape hW hi h1
    obtain ⟨S', hS', hl⟩ := columnLists_ok (nCols := s.P.nCols) (entries_fit hi h1)
      (fun c hc e he => by rw [hi.derived.nCols]; exact ((hsh c hc).2.1 e he).1) (fun c hc => (hsh c hc).1.of_map)
    rw [h2] at hS'
    obtain rfl := Except.ok.inj hS'
    rw [h3] at hS ⊢
    obtain rfl := Option.some.inj hS
    refine ⟨rfl, ?_⟩
    rw [← hi.derived.nCols]
    exact hl

end Cgl.ProbCliques
