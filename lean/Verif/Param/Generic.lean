import Verif.Param.Spec
import Mathlib.Data.List.Induction

/-!
Local conditions on a class from which the history properties of `Verif/Param/Spec.lean` follow,
by induction on the history.
-/

namespace Cgl.Param

variable {N V : Type}

theorem Impl.run_append (C : Impl N V) (h : List (Op N V)) (op : Op N V) :
    C.run (h ++ [op]) = C.step (C.run h) op := by
  simp [Impl.run]

theorem Doc.run_append (D : Doc N V) (h : List (Op N V)) (op : Op N V) :
    D.run (h ++ [op]) = D.step (D.run h) op := by
  simp [Doc.run]

/-- An invariant of objects holds of every object of every history. -/
theorem Impl.run_inv (C : Impl N V) (I : C.Obj → Prop) (hf : I C.fresh)
    (hs : ∀ o n v, I o → I (C.set o n v)) (hc : ∀ o, I o → I (C.copy o))
    (ha : ∀ a b, I a → I b → I (C.assign a b)) (h : List (Op N V)) :
    ∀ o ∈ C.run h, I o := by
  induction h using List.reverseRecOn with
  | nil => simp [Impl.run]
  | append_singleton h op ih =>
    rw [Impl.run_append]
    intro o ho
    cases op with
    | new =>
      simp only [Impl.step, List.mem_append, List.mem_singleton] at ho
      rcases ho with ho | rfl
      · exact ih o ho
      · exact hf
    | copy i =>
      simp only [Impl.step] at ho
      split at ho
      · rename_i p hp
        simp only [List.mem_append, List.mem_singleton] at ho
        rcases ho with ho | rfl
        · exact ih o ho
        · exact hc _ (ih p (List.mem_of_getElem? hp))
      · exact ih o ho
    | assign i j =>
      simp only [Impl.step] at ho
      split at ho
      · rename_i a b hp hq
        split at ho
        · exact ih o ho
        · rcases List.mem_or_eq_of_mem_set ho with ho | rfl
          · exact ih o ho
          · exact ha _ _ (ih a (List.mem_of_getElem? hp)) (ih b (List.mem_of_getElem? hq))
      · exact ih o ho
    | set i n v =>
      simp only [Impl.step] at ho
      split at ho
      · rename_i p hp
        rcases List.mem_or_eq_of_mem_set ho with ho | rfl
        · exact ih o ho
        · exact hs _ _ _ (ih p (List.mem_of_getElem? hp))
      · exact ih o ho

theorem Impl.keepsRanges (C : Impl N V) (D : Doc N V)
    (hf : ∀ n, D.range n (C.get C.fresh n))
    (hs : ∀ o n v, (∀ m, D.range m (C.get o m)) → ∀ m, D.range m (C.get (C.set o n v) m))
    (hc : ∀ o n, C.get (C.copy o) n = C.get o n)
    (ha : ∀ a b n, C.get (C.assign a b) n = C.get b n) : C.KeepsRanges D := by
  intro h i o ho
  refine C.run_inv (fun o => ∀ n, D.range n (C.get o n)) hf hs ?_ ?_ h o
    (List.mem_of_getElem? ho)
  · intro o ho n; rw [hc]; exact ho n
  · intro a b _ hb n; rw [ha]; exact hb n

theorem Impl.rejectsQuietly (C : Impl N V) (D : Doc N V)
    (hs : ∀ o n v, ¬ D.accepts n v → ∀ m, C.get (C.set o n v) m = C.get o m) :
    C.RejectsQuietly D := by
  intro h i n v hv
  rw [Impl.run_append]
  simp only [Impl.step]
  split
  · rename_i o ho
    rw [List.map_set]
    have : C.get (C.set o n v) = C.get o := funext (hs o n v hv)
    rw [this]
    apply List.ext_getElem?
    intro k
    rw [List.getElem?_set]
    split
    · rename_i hk
      subst hk
      simp only [List.length_map, List.getElem?_map, ho, Option.map_some]
      split
      · rfl
      · rename_i hlt
        exact absurd (List.getElem?_eq_some_iff.mp ho).1 hlt
    · rfl
  · rfl

theorem getElem?_append_one {α β γ : Type} {st : List α} {sp : List β} (f : α → γ) (g : β → γ)
    (hlen : st.length = sp.length)
    (ih : ∀ i : ℕ, (st[i]?).map f = (sp[i]?).map g) {a : α} {b : β} (hab : f a = g b) (i : ℕ) :
    ((st ++ [a])[i]?).map f = ((sp ++ [b])[i]?).map g := by
  rcases Nat.lt_trichotomy i st.length with hi | hi | hi
  · rw [List.getElem?_append_left hi, List.getElem?_append_left (hlen ▸ hi)]
    exact ih i
  · subst hi
    rw [List.getElem?_concat_length, hlen, List.getElem?_concat_length]
    simp [hab]
  · rw [List.getElem?_eq_none (by simp; omega), List.getElem?_eq_none (by simp; omega)]
    rfl

theorem getElem?_set_one {α β γ : Type} {st : List α} {sp : List β} (f : α → γ) (g : β → γ)
    (hlen : st.length = sp.length)
    (ih : ∀ i : ℕ, (st[i]?).map f = (sp[i]?).map g) {a : α} {b : β} (k : ℕ) (hab : f a = g b)
    (i : ℕ) :
    ((st.set k a)[i]?).map f = ((sp.set k b)[i]?).map g := by
  rw [List.getElem?_set, List.getElem?_set]
  split
  · rw [hlen]
    split
    · simp [hab]
    · rfl
  · exact ih i

/-- The simulation: each member function agrees with the documentation on the getters in `G`,
when the setters called are in `S`. -/
theorem Impl.readsBack (C : Impl N V) (D : Doc N V) (G : N → Prop) (H : Op N V → Prop)
    (hf : ∀ n, G n → C.get C.fresh n = D.dflt n)
    (hs : ∀ i o n v, H (.set i n v) → ∀ m, G m →
      C.get (C.set o n v) m = D.update (C.get o) n v m)
    (hc : ∀ o n, G n → C.get (C.copy o) n = C.get o n)
    (ha : ∀ a b n, G n → C.get (C.assign a b) n = C.get b n) : C.ReadsBack D G H := by
  intro h
  suffices hh : (∀ op ∈ h, H op) → (C.run h).length = (D.run h).length ∧
      ∀ (n : N), G n → ∀ i : ℕ, ((C.run h)[i]?).map (fun o => C.get o n)
        = ((D.run h)[i]?).map (fun s => s n) by
    intro hH i n hn
    exact (hh hH).2 n hn i
  induction h using List.reverseRecOn with
  | nil => simp [Impl.run, Doc.run]
  | append_singleton h op ih =>
    intro hH
    obtain ⟨hlen, ih⟩ := ih (fun o ho => hH o (List.mem_append_left _ ho))
    have hop : H op := hH op (by simp)
    rw [Impl.run_append, Doc.run_append]
    generalize hst : C.run h = st at *
    generalize hsp : D.run h = sp at *
    have hnone : ∀ i : ℕ, st[i]? = none ↔ sp[i]? = none := by
      intro i; simp [hlen]
    cases op with
    | new =>
      refine ⟨by simp [Impl.step, Doc.step, hlen], fun n hn i => ?_⟩
      exact getElem?_append_one (fun o => C.get o n) (fun s => s n) hlen (ih n hn) (hf n hn) i
    | copy k =>
      simp only [Impl.step, Doc.step]
      rcases ho : st[k]? with _ | o
      · rw [(hnone k).mp ho]; exact ⟨hlen, ih⟩
      · rcases hs' : sp[k]? with _ | s
        · rw [(hnone k).mpr hs'] at ho; cases ho
        · refine ⟨by simp [hlen], fun n hn i => ?_⟩
          refine getElem?_append_one (fun o => C.get o n) (fun s => s n) hlen (ih n hn) ?_ i
          have := ih n hn k
          rw [ho, hs'] at this
          simp only [Option.map_some, Option.some.injEq] at this
          rw [hc o n hn, this]
    | assign k l =>
      simp only [Impl.step, Doc.step]
      rcases ho : st[k]? with _ | o
      · rw [(hnone k).mp ho]; exact ⟨hlen, ih⟩
      · rcases hs' : sp[k]? with _ | s
        · rw [(hnone k).mpr hs'] at ho; cases ho
        · rcases ho2 : st[l]? with _ | o2
          · rw [(hnone l).mp ho2]; exact ⟨hlen, ih⟩
          · rcases hs2 : sp[l]? with _ | s2
            · rw [(hnone l).mpr hs2] at ho2; cases ho2
            · have key : ∀ n, G n → C.get o2 n = s2 n := by
                intro n hn
                have := ih n hn l
                rw [ho2, hs2] at this
                simpa using this
              by_cases hkl : k = l
              · subst hkl
                rw [hs'] at hs2
                cases hs2
                simp only [if_true, List.length_set]
                refine ⟨hlen, fun n hn i => ?_⟩
                have hid : sp.set k s = sp := by
                  obtain ⟨hk, hks⟩ := List.getElem?_eq_some_iff.mp hs'
                  rw [← hks, List.set_getElem_self]
                rw [hid]
                exact ih n hn i
              · simp only [hkl, if_false, List.length_set]
                refine ⟨hlen, fun n hn i => ?_⟩
                refine getElem?_set_one (fun o => C.get o n) (fun s => s n) hlen (ih n hn) k ?_ i
                rw [ha o o2 n hn, key n hn]
    | set k n v =>
      simp only [Impl.step, Doc.step]
      rcases ho : st[k]? with _ | o
      · rw [(hnone k).mp ho]; exact ⟨hlen, ih⟩
      · rcases hs' : sp[k]? with _ | s
        · rw [(hnone k).mpr hs'] at ho; cases ho
        · refine ⟨by simp [hlen], fun m hm i => ?_⟩
          refine getElem?_set_one (fun o => C.get o m) (fun s => s m) hlen (ih m hm) k ?_ i
          have key : C.get o m = s m := by
            have := ih m hm k
            rw [ho, hs'] at this
            simpa using this
          rw [hs k o n v hop m hm]
          simp only [Doc.update, key]

end Cgl.Param
