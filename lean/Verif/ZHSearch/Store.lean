import Verif.ZHSearch.Spec
import Mathlib.Tactic.Ring
import Mathlib.Tactic.Linarith
import Mathlib.Data.List.Nodup
import Mathlib.Data.List.Induction

/-!
# The two ways of storing the separation graph
-/

namespace Cgl.ZHSearch

open ZeroHalf

/-! ### The edge kept for two nodes and a parity -/

/-- The edge kept when `e` arrives. -/
def keep : Option Edge → Edge → Option Edge
  | none, e => some e
  | some o, e => some (better o e)

/-- The edge kept for two nodes and a parity. -/
def bestOf (es : List Edge) (j k : Nat) (p : Bool) : Option Edge :=
  (es.filter fun e => joins e j k p).foldl keep none

theorem joins_comm {e : Edge} {j k : Nat} {p : Bool} : joins e j k p ↔ joins e k j p := by
  unfold joins; tauto

theorem bestOf_comm (es : List Edge) (j k : Nat) (p : Bool) : bestOf es j k p = bestOf es k j p := by
  unfold bestOf
  congr 1
  apply List.filter_congr
  intro e _
  exact decide_eq_decide.mpr joins_comm

theorem bestOf_snoc (es : List Edge) (e : Edge) (j k : Nat) (p : Bool) :
    bestOf (es ++ [e]) j k p = if joins e j k p then keep (bestOf es j k p) e else bestOf es j k p := by
  unfold bestOf
  rw [List.filter_append, List.foldl_append]
  by_cases h : joins e j k p
  · rw [if_pos h, List.filter_cons, if_pos (by simpa using h)]
    rfl
  · rw [if_neg h, List.filter_cons, if_neg (by simpa using h)]
    rfl

theorem keep_joins {o : Option Edge} {e d : Edge} {j k : Nat} {p : Bool} (ho : ∀ f, o = some f → joins f j k p)
    (he : joins e j k p) (h : keep o e = some d) : joins d j k p := by
  cases o with
  | none => cases h; exact he
  | some f =>
    obtain rfl := Option.some.inj h
    have := ho f rfl
    unfold better
    split
    · exact this
    · exact this

theorem bestOf_joins (es : List Edge) (j k : Nat) (p : Bool) :
    ∀ d, bestOf es j k p = some d → joins d j k p := by
  induction es using List.reverseRecOn with
  | nil => intro d h; cases h
  | append_singleton es e ih =>
    intro d h
    rw [bestOf_snoc] at h
    by_cases hj : joins e j k p
    · rw [if_pos hj] at h
      exact keep_joins ih hj h
    · rw [if_neg hj] at h
      exact ih d h

/-- **The edge kept is the lightest**, the first one of those. -/
theorem bestOf_lightest (es : List Edge) (j k : Nat) (p : Bool) :
    (bestOf es j k p = none ↔ ∀ e ∈ es, ¬ joins e j k p) ∧
      ∀ d, bestOf es j k p = some d → Lightest es j k p d.weight d.constr := by
  induction es using List.reverseRecOn with
  | nil => exact ⟨⟨fun _ e h => absurd h (List.not_mem_nil), fun _ => rfl⟩, fun d h => by cases h⟩
  | append_singleton es e ih =>
    rw [bestOf_snoc]
    by_cases hj : joins e j k p
    · rw [if_pos hj]
      constructor
      · constructor
        · intro h
          cases hb : bestOf es j k p <;> rw [hb] at h <;> cases h
        · intro h
          exact absurd hj (h e (by simp))
      · intro d hd
        cases hb : bestOf es j k p with
        | none =>
          rw [hb] at hd
          obtain rfl := Option.some.inj hd
          exact ⟨es, [], e, rfl, hj, rfl, rfl, fun f hf hfj => absurd hfj (ih.1.mp hb f hf),
            fun f hf => absurd hf (List.not_mem_nil)⟩
        | some o =>
          rw [hb] at hd
          obtain rfl := Option.some.inj hd
          obtain ⟨l, r, f, h1, h2, h3, h4, h5, h6⟩ := ih.2 o hb
          unfold better
          by_cases hw : e.weight < o.weight
          · rw [if_pos hw]
            refine ⟨es, [], e, rfl, hj, rfl, rfl, fun g hg hgj => ?_, fun g hg => absurd hg (List.not_mem_nil)⟩
            rw [h1] at hg
            rcases List.mem_append.mp hg with hg | hg
            · exact lt_trans hw (h5 g hg hgj)
            · rcases List.mem_cons.mp hg with rfl | hg
              · exact h3 ▸ hw
              · exact lt_of_lt_of_le hw (h6 g hg hgj)
          · rw [if_neg hw]
            refine ⟨l, r ++ [e], f, by rw [h1]; simp, h2, h3, h4, h5, fun g hg hgj => ?_⟩
            rcases List.mem_append.mp hg with hg | hg
            · exact h6 g hg hgj
            · obtain rfl := List.mem_singleton.mp hg
              exact not_lt.mp hw
    · rw [if_neg hj]
      refine ⟨?_, fun d hd => ?_⟩
      · rw [ih.1]
        constructor
        · intro h f hf
          rcases List.mem_append.mp hf with hf | hf
          · exact h f hf
          · obtain rfl := List.mem_singleton.mp hf
            exact hj
        · exact fun h f hf => h f (List.mem_append_left _ hf)
      · obtain ⟨l, r, f, h1, h2, h3, h4, h5, h6⟩ := ih.2 d hd
        refine ⟨l, r ++ [e], f, by rw [h1]; simp, h2, h3, h4, h5, fun g hg hgj => ?_⟩
        rcases List.mem_append.mp hg with hg | hg
        · exact h6 g hg hgj
        · obtain rfl := List.mem_singleton.mp hg
          exact absurd hgj hj

/-! ### Positions in the tables -/

/-- First position of the pairs with smaller node `j`. -/
def rowStart (n : Nat) : Nat → Nat
  | 0 => 0
  | j + 1 => rowStart n j + (n - 1 - j)

theorem rowStart_eq (n j : Nat) (h : j ≤ n) : (2 : ℤ) * rowStart n j = 2 * n * j - (j + 1) * j := by
  induction j with
  | zero => simp [rowStart]
  | succ j ih =>
    have := ih (by omega)
    have e : ((n - 1 - j : Nat) : ℤ) = n - 1 - j := by omega
    rw [rowStart]
    push_cast
    rw [e, mul_add, this]
    ring

theorem sgIndex_eq {n j k : Nat} (h : j < k) (hk : k < n) :
    sgIndex n j k = ((rowStart n j + (k - j - 1) : Nat) : ℤ) := by
  have e := rowStart_eq n j (by omega)
  have e2 : ((k - j - 1 : Nat) : ℤ) = k - j - 1 := by omega
  have e3 : ((j : ℤ) + 1) * j / 2 = n * j - rowStart n j := by
    have : ((j : ℤ) + 1) * j = 2 * (n * j - rowStart n j) := by rw [mul_sub, e]; ring
    rw [this]
    exact Int.mul_ediv_cancel_left _ (by norm_num)
  unfold sgIndex
  rw [if_pos h, e3]
  push_cast
  rw [e2]
  ring

theorem sgIndex_comm (n j k : Nat) : sgIndex n j k = sgIndex n k j := by
  unfold sgIndex
  rcases lt_trichotomy j k with h | h | h
  · rw [if_pos h, if_neg (by omega)]
  · subst h; rfl
  · rw [if_neg (by omega), if_pos h]

theorem rowStart_mono (n : Nat) {i j : Nat} (h : i ≤ j) : rowStart n i ≤ rowStart n j := by
  induction h with
  | refl => exact le_rfl
  | step _ ih => exact le_trans ih (by rw [rowStart]; omega)

theorem rowStart_last (n : Nat) : rowStart n n = n * (n - 1) / 2 := by
  have e := rowStart_eq n n le_rfl
  have : 2 * rowStart n n = n * (n - 1) := by
    cases n with
    | zero => rfl
    | succ m =>
      have e2 : m + 1 - 1 = m := rfl
      rw [e2]
      push_cast at e
      zify
      rw [e]
      ring
  omega

theorem index_lt {n j k : Nat} (h : j < k) (hk : k < n) : rowStart n j + (k - j - 1) < n * (n - 1) / 2 := by
  rw [← rowStart_last]
  have : rowStart n (j + 1) ≤ rowStart n n := rowStart_mono n (by omega)
  rw [rowStart] at this
  omega

theorem index_inj {n j k j' k' : Nat} (h : j < k) (hk : k < n) (h' : j' < k') (hk' : k' < n)
    (e : rowStart n j + (k - j - 1) = rowStart n j' + (k' - j' - 1)) : j = j' ∧ k = k' := by
  have hjj : j = j' := by
    rcases lt_trichotomy j j' with hl | hl | hl
    · have : rowStart n (j + 1) ≤ rowStart n j' := rowStart_mono n hl
      rw [rowStart] at this
      omega
    · exact hl
    · have : rowStart n (j' + 1) ≤ rowStart n j := rowStart_mono n hl
      rw [rowStart] at this
      omega
  subst hjj
  exact ⟨rfl, by omega⟩

/-! ### The tables -/

/-- A table holds the kept edges of one parity. -/
def Holds (n : Nat) (es : List Edge) (p : Bool) (t : List (Option Edge)) : Prop :=
  t.length = n * (n - 1) / 2 ∧
    ∀ j k, j < k → k < n → t.getD (rowStart n j + (k - j - 1)) none = bestOf es j k p

theorem entry_holds {n : Nat} {es : List Edge} {p : Bool} {t : List (Option Edge)} (h : Holds n es p t) {j k : Nat}
    (hj : j < n) (hk : k < n) (hne : j ≠ k) : entry t (sgIndex n j k) = .ok (bestOf es j k p) := by
  have key : ∀ {a b : Nat}, a < b → b < n → entry t (sgIndex n a b) = .ok (bestOf es a b p) := by
    intro a b hab hb
    have hlt := index_lt hab hb
    unfold entry
    rw [sgIndex_eq hab hb, if_pos ⟨by positivity, by rw [h.1]; exact_mod_cast hlt⟩, Int.toNat_natCast, h.2 a b hab hb]
  rcases Nat.lt_or_gt_of_ne hne with hl | hl
  · exact key hl hk
  · rw [sgIndex_comm, bestOf_comm]
    exact key hl hj

theorem putTable_holds {n : Nat} {es : List Edge} {t : List (Option Edge)} {e : Edge} (he : e.Proper n)
    (h : Holds n es e.odd t) : ∃ t', putTable t (sgIndex n e.u e.v) e = .ok t' ∧ Holds n (es ++ [e]) e.odd t' := by
  obtain ⟨hu, hv, hne⟩ := he
  have hent := entry_holds h hu hv hne
  have hstep : putTable t (sgIndex n e.u e.v) e = .ok (t.set (sgIndex n e.u e.v).toNat (keep (bestOf es e.u e.v e.odd) e)) := by
    unfold putTable
    rw [hent]
    cases bestOf es e.u e.v e.odd <;> rfl
  refine ⟨_, hstep, by rw [List.length_set]; exact h.1, fun j k hjk hk => ?_⟩
  have hpos : ∃ a b, a < b ∧ b < n ∧ sgIndex n e.u e.v = sgIndex n a b ∧ (e.u = a ∧ e.v = b ∨ e.u = b ∧ e.v = a) := by
    rcases Nat.lt_or_gt_of_ne hne with hl | hl
    · exact ⟨e.u, e.v, hl, hv, rfl, Or.inl ⟨rfl, rfl⟩⟩
    · exact ⟨e.v, e.u, hl, hu, sgIndex_comm n e.u e.v, Or.inr ⟨rfl, rfl⟩⟩
  obtain ⟨a, b, hab, hb, hi, hend⟩ := hpos
  have hbest : bestOf es e.u e.v e.odd = bestOf es a b e.odd := by
    rcases hend with ⟨h1, h2⟩ | ⟨h1, h2⟩
    · rw [h1, h2]
    · rw [h1, h2, bestOf_comm]
  rw [hi, hbest, sgIndex_eq hab hb, Int.toNat_natCast, bestOf_snoc]
  by_cases hsame : a = j ∧ b = k
  · obtain ⟨rfl, rfl⟩ := hsame
    rw [if_pos ⟨rfl, hend⟩, List.getD_eq_getElem?_getD, List.getElem?_set_self (by rw [h.1]; exact index_lt hab hb)]
    rfl
  · rw [if_neg]
    · rw [List.getD_eq_getElem?_getD, List.getElem?_set_ne (fun he => hsame (index_inj hab hb hjk hk he)),
        ← List.getD_eq_getElem?_getD]
      exact h.2 j k hjk hk
    · rintro ⟨_, hj⟩
      apply hsame
      rcases hend with ⟨h1, h2⟩ | ⟨h1, h2⟩ <;> rcases hj with ⟨h3, h4⟩ | ⟨h3, h4⟩ <;> omega

theorem holds_other {n : Nat} {es : List Edge} {e : Edge} {p : Bool} {t : List (Option Edge)} (hp : e.odd ≠ p)
    (h : Holds n es p t) : Holds n (es ++ [e]) p t := by
  refine ⟨h.1, fun j k hjk hk => ?_⟩
  rw [bestOf_snoc, if_neg (fun hj => hp hj.1)]
  exact h.2 j k hjk hk

theorem fillDense_holds {n : Nat} (es : List Edge) : ∀ (done : List Edge) (d : Dense), (∀ e ∈ es, e.Proper n) →
    Holds n done false d.even → Holds n done true d.odd →
    ∃ d', fillDense n es d = .ok d' ∧ Holds n (done ++ es) false d'.even ∧ Holds n (done ++ es) true d'.odd := by
  induction es with
  | nil => intro done d _ h1 h2; exact ⟨d, rfl, by simpa using h1, by simpa using h2⟩
  | cons e es ih =>
    intro done d hp h1 h2
    have hpe := hp e (List.mem_cons_self ..)
    have hrest := fun f hf => hp f (List.mem_cons_of_mem _ hf)
    by_cases ho : e.odd = true
    · obtain ⟨t, h3, h4⟩ := putTable_holds hpe (ho ▸ h2)
      obtain ⟨d', h5, h6, h7⟩ := ih (done ++ [e]) { d with odd := t } hrest (holds_other (by simp [ho]) h1) (ho ▸ h4)
      refine ⟨d', ?_, by simpa using h6, by simpa using h7⟩
      rw [fillDense, putDense, if_pos ho, h3]
      exact h5
    · have ho' : e.odd = false := by simpa using ho
      obtain ⟨t, h3, h4⟩ := putTable_holds hpe (ho' ▸ h1)
      obtain ⟨d', h5, h6, h7⟩ := ih (done ++ [e]) { d with even := t } hrest (ho' ▸ h4) (holds_other (by simp [ho']) h2)
      refine ⟨d', ?_, by simpa using h6, by simpa using h7⟩
      rw [fillDense, putDense, if_neg ho, h3]
      exact h5

theorem holds_start (n : Nat) (p : Bool) : Holds n [] p (List.replicate (n * (n - 1) / 2) none) := by
  refine ⟨List.length_replicate, fun j k _ _ => ?_⟩
  rw [List.getD_eq_getElem?_getD, List.getElem?_replicate]
  split <;> rfl

/-- The edges at `j` that lead to `k`. -/
def edgesTo (es : List Edge) (j k : Nat) : List (Nat × Edge) :=
  if k = j then []
  else ((bestOf es j k false).toList.map fun e => (k, e)) ++ (bestOf es j k true).toList.map fun e => (k, e)

/-- The edges at `j` by the other node and by parity. -/
def edgesAt (es : List Edge) (j n : Nat) : List (Nat × Edge) := (List.range n).flatMap (edgesTo es j)

theorem edgesAt_succ (es : List Edge) (j n : Nat) : edgesAt es j (n + 1) = edgesAt es j n ++ edgesTo es j n := by
  unfold edgesAt
  rw [List.range_succ, List.flatMap_append]
  simp

theorem incidentDense_eq {n : Nat} {es : List Edge} {d : Dense} (h1 : Holds n es false d.even)
    (h2 : Holds n es true d.odd) {j : Nat} (hj : j < n) :
    ∀ k, k ≤ n → incidentDense n d j k = .ok (edgesAt es j k) := by
  intro k
  induction k with
  | zero => intro _; rfl
  | succ k ih =>
    intro hk
    rw [incidentDense, ih (by omega), edgesAt_succ]
    dsimp only
    unfold edgesTo
    by_cases hkj : k = j
    · rw [if_pos hkj, if_pos hkj, List.append_nil]
    · rw [if_neg hkj, if_neg hkj, entry_holds h1 hj (by omega) (Ne.symm hkj),
        entry_holds h2 hj (by omega) (Ne.symm hkj)]
      dsimp only
      rw [List.append_assoc]

theorem collect_eq {f : Nat → Except Fault (List (Nat × Edge))} {g : Nat → List (Nat × Edge)} :
    ∀ n, (∀ j < n, f j = .ok (g j)) → collect f n = .ok ((List.range n).map g) := by
  intro n
  induction n with
  | zero => intro _; rfl
  | succ n ih =>
    intro h
    rw [collect, ih (fun j hj => h j (by omega))]
    dsimp only
    rw [h n (by omega), List.range_succ, List.map_append]
    rfl

/-- The lists of edges at the nodes. -/
def adjacency (n : Nat) (es : List Edge) : List (List (Nat × Edge)) := (List.range n).map fun j => edgesAt es j n

/-- **The tables give the lightest edges.** -/
theorem graphDense_eq {n : Nat} {es : List Edge} (h : ∀ e ∈ es, e.Proper n) :
    graphDense n es = .ok (adjacency n es) := by
  obtain ⟨d, h1, h2, h3⟩ := fillDense_holds es [] (denseStart n) h (holds_start n false) (holds_start n true)
  unfold graphDense
  rw [h1]
  exact collect_eq n fun j hj => incidentDense_eq h2 h3 hj n le_rfl

end Cgl.ZHSearch
