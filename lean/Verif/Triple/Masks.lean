import Verif.Triple.Spec
import Mathlib.Data.List.Nodup
import Mathlib.Data.List.Perm.Basic
import Mathlib.Data.List.Lattice

/-! # Rows with equal masks have the same columns -/

namespace Cgl.Triple

/-- The mask `m` has exactly the bits of the columns `d`, all of which are marked. -/
def Bits (which d : List Nat) (m : Nat) : Prop :=
  (∀ k ∈ d, k ∈ which) ∧ ∀ s, m.testBit s = true ↔ ∃ k ∈ d, which[s]? = some k

theorem full_or {s : Nat} (h : s < 32) : full ||| (1 <<< s) = full := by
  have : ∀ s < 32, full ||| (1 <<< s) = full := by decide
  exact this s h

theorem testBit_or_shift (m s t : Nat) : (m ||| (1 <<< s)).testBit t = true ↔ m.testBit t = true ∨ s = t := by
  rw [Nat.testBit_or, Bool.or_eq_true, Nat.one_shiftLeft, Nat.testBit_two_pow, decide_eq_true_iff]

theorem Bits.mono {which w d : List Nat} {m : Nat} (h : Bits which d m) (hp : which <+: w) (hn : w.Nodup) : Bits w d m := by
  obtain ⟨t, rfl⟩ := hp
  refine ⟨fun k hk => List.mem_append_left _ (h.1 k hk), fun s => ?_⟩
  rw [h.2 s]
  constructor
  · rintro ⟨k, hk, hs⟩
    refine ⟨k, hk, ?_⟩
    have : s < which.length := by
      by_contra hc
      rw [List.getElem?_eq_none (by omega)] at hs
      cases hs
    rw [List.getElem?_append_left this, hs]
  · rintro ⟨k, hk, hs⟩
    refine ⟨k, hk, ?_⟩
    by_cases hl : s < which.length
    · rwa [List.getElem?_append_left hl] at hs
    · rw [List.getElem?_append_right (by omega)] at hs
      have h1 : k ∈ t := List.mem_of_getElem? hs
      exact absurd rfl ((List.nodup_append.mp hn).2.2 k (h.1 k hk) k h1)

/-- What holds while rows are marked. -/
structure Marking (w0 w : List Nat) : Prop where
  nodup : w.Nodup
  length : w.length ≤ 32
  pre : w0 <+: w

theorem markEntry_spec {w0 d : List Nat} {st : List Nat × Nat} {k : Nat} (h : Marking w0 st.1)
    (hm : st.2 = full ∨ Bits st.1 d st.2) :
    Marking w0 (markEntry st k).1 ∧ ((markEntry st k).2 = full ∨ Bits (markEntry st k).1 (d ++ [k]) (markEntry st k).2) ∧
      (st.2 = full → (markEntry st k).2 = full) := by
  obtain ⟨w, m⟩ := st
  dsimp only at h hm
  unfold markEntry
  dsimp only
  by_cases h1 : k ∈ w
  · rw [if_pos h1]
    dsimp only
    have hi : w.idxOf k < w.length := List.idxOf_lt_length_iff.mpr h1
    have hf : m = full → m ||| 1 <<< w.idxOf k = full := fun e => e ▸ full_or (lt_of_lt_of_le hi h.length)
    refine ⟨h, ?_, hf⟩
    rcases hm with hm | hm
    · exact Or.inl (hf hm)
    · right
      refine ⟨?_, fun s => ?_⟩
      · intro c hc
        rcases List.mem_append.mp hc with hc | hc
        · exact hm.1 c hc
        · rw [List.mem_singleton.mp hc]; exact h1
      · rw [testBit_or_shift, hm.2 s]
        constructor
        · rintro (⟨c, hc, hs⟩ | hs)
          · exact ⟨c, List.mem_append_left _ hc, hs⟩
          · refine ⟨k, by simp, ?_⟩
            rw [← hs, List.getElem?_eq_getElem hi, List.getElem_idxOf hi]
        · rintro ⟨c, hc, hs⟩
          rcases List.mem_append.mp hc with hc | hc
          · exact Or.inl ⟨c, hc, hs⟩
          · right
            rw [List.mem_singleton.mp hc] at hs
            have hs' : s < w.length := by
              by_contra hcc
              rw [List.getElem?_eq_none (by omega)] at hs
              cases hs
            rw [List.getElem?_eq_getElem hs'] at hs
            have hs := Option.some.inj hs
            exact (h.nodup.getElem_inj_iff).mp ((List.getElem_idxOf hi).trans hs.symm)
  · rw [if_neg h1]
    by_cases h2 : w.length = 32
    · rw [if_pos h2]; exact ⟨h, Or.inl rfl, fun _ => rfl⟩
    · rw [if_neg h2]
      by_cases h3 : m = full
      · rw [if_pos h3]; exact ⟨h, Or.inl h3, fun _ => h3⟩
      · rw [if_neg h3]
        dsimp only
        have hn : (w ++ [k]).Nodup := by
          rw [List.nodup_append]
          exact ⟨h.nodup, List.nodup_singleton _, fun a ha b hb => by
            rw [List.mem_singleton.mp hb]; rintro rfl; exact h1 ha⟩
        refine ⟨⟨hn, by rw [List.length_append, List.length_singleton]; have := h.length; omega,
          h.pre.trans (List.prefix_append _ _)⟩, ?_, fun e => absurd e h3⟩
        rcases hm with hm | hm
        · exact absurd hm h3
        · right
          have hb := hm.mono (List.prefix_append w [k]) hn
          refine ⟨?_, fun s => ?_⟩
          · intro c hc
            rcases List.mem_append.mp hc with hc | hc
            · exact hb.1 c hc
            · rw [List.mem_singleton.mp hc]; simp
          · rw [testBit_or_shift, hb.2 s]
            constructor
            · rintro (⟨c, hc, hs⟩ | hs)
              · exact ⟨c, List.mem_append_left _ hc, hs⟩
              · exact ⟨k, by simp, by rw [← hs]; simp⟩
            · rintro ⟨c, hc, hs⟩
              rcases List.mem_append.mp hc with hc | hc
              · exact Or.inl ⟨c, hc, hs⟩
              · right
                rw [List.mem_singleton.mp hc] at hs
                by_cases hl : s < w.length
                · rw [List.getElem?_append_left hl] at hs
                  exact absurd (List.mem_of_getElem? hs) h1
                · have hs' : s < (w ++ [k]).length := by
                    by_contra hcc
                    rw [List.getElem?_eq_none (by omega)] at hs
                    cases hs
                  rw [List.length_append, List.length_singleton] at hs'
                  omega

theorem foldMark_spec {w0 : List Nat} : ∀ (l : List Nat) (d : List Nat) (st : List Nat × Nat), Marking w0 st.1 →
    (st.2 = full ∨ Bits st.1 d st.2) →
    Marking w0 (l.foldl markEntry st).1 ∧
      ((l.foldl markEntry st).2 = full ∨ Bits (l.foldl markEntry st).1 (d ++ l) (l.foldl markEntry st).2) ∧
      (st.2 = full → (l.foldl markEntry st).2 = full) := by
  intro l
  induction l with
  | nil => intro d st h hm; rw [List.append_nil]; exact ⟨h, hm, id⟩
  | cons k l ih =>
    intro d st h hm
    obtain ⟨h1, h2, h3⟩ := markEntry_spec (k := k) h hm
    obtain ⟨a, b, c⟩ := ih (d ++ [k]) _ h1 h2
    rw [List.append_assoc, List.singleton_append] at b
    exact ⟨a, b, fun e => c (h3 e)⟩

/-- What a mask says about its row. -/
def GoodMask (P : Prob) (use : Nat → Bool) (which : List Nat) (p : Nat × Nat) : Prop :=
  ∃ r, P.rows[p.1]? = some r ∧ (p.2 = 0 ∨ p.2 = full ∨
    (use p.1 = true ∧ r.coefs.length ≤ 3 ∧ Bits which (r.coefs.map Prod.fst) p.2))

theorem markRow_spec {w0 : List Nat} {ok : Bool} {r : Row} (h : Marking w0 w0) :
    Marking w0 (markRow w0 ok r).1 ∧ ((markRow w0 ok r).2 = 0 ∨ (markRow w0 ok r).2 = full ∨
      (ok = true ∧ r.coefs.length ≤ 3 ∧ Bits (markRow w0 ok r).1 (r.coefs.map Prod.fst) (markRow w0 ok r).2)) := by
  unfold markRow
  by_cases h1 : r.coefs.length ≤ 3
  · rw [if_pos h1]
    cases ok with
    | false =>
      obtain ⟨a, -, c⟩ := foldMark_spec (r.coefs.map Prod.fst) [] (w0, full) h (Or.inl rfl)
      exact ⟨a, Or.inr (Or.inl (c rfl))⟩
    | true =>
      obtain ⟨a, b, -⟩ := foldMark_spec (r.coefs.map Prod.fst) [] (w0, 0) h
        (Or.inr ⟨by simp, fun s => by simp⟩)
      rw [List.nil_append] at b
      rcases b with b | b
      · exact ⟨a, Or.inr (Or.inl b)⟩
      · exact ⟨a, Or.inr (Or.inr ⟨rfl, h1, b⟩)⟩
  · rw [if_neg h1]
    cases ok with
    | false => exact ⟨h, Or.inr (Or.inl rfl)⟩
    | true => exact ⟨h, Or.inl rfl⟩

theorem markRows_spec {P : Prob} {use : Nat → Bool} : ∀ (l : List Nat) (w0 : List Nat), Marking w0 w0 →
    Marking w0 (markRows P use w0 l).1 ∧
      ∀ p ∈ (markRows P use w0 l).2, p.1 ∈ l ∧ GoodMask P use (markRows P use w0 l).1 p := by
  intro l
  induction l with
  | nil => intro w0 h; exact ⟨h, fun p hp => by cases hp⟩
  | cons i l ih =>
    intro w0 h
    unfold markRows
    cases hr : P.rows[i]? with
    | none =>
      dsimp only
      obtain ⟨a, b⟩ := ih w0 h
      exact ⟨a, fun p hp => ⟨List.mem_cons_of_mem _ (b p hp).1, (b p hp).2⟩⟩
    | some r =>
      dsimp only
      obtain ⟨a, b⟩ := markRow_spec (ok := use i) (r := r) h
      obtain ⟨c, d⟩ := ih _ (⟨a.nodup, a.length, List.prefix_refl _⟩ :
        Marking (markRow w0 (use i) r).1 (markRow w0 (use i) r).1)
      refine ⟨⟨c.nodup, c.length, a.pre.trans c.pre⟩, ?_⟩
      intro p hp
      rcases List.mem_cons.mp hp with rfl | hp
      · refine ⟨by simp, r, hr, ?_⟩
        rcases b with b | b | ⟨b1, b2, b3⟩
        · exact Or.inl b
        · exact Or.inr (Or.inl b)
        · exact Or.inr (Or.inr ⟨b1, b2, b3.mono c.pre c.nodup⟩)
      · exact ⟨List.mem_cons_of_mem _ (d p hp).1, (d p hp).2⟩

theorem Bits.same {which c d : List Nat} {m : Nat} (h : Bits which c m) (k : Bits which d m) (x : Nat) : x ∈ c ↔ x ∈ d := by
  have key : ∀ {c d : List Nat}, Bits which c m → Bits which d m → which.Nodup ∨ True → x ∈ c → x ∈ d := by
    intro c d h k _ hx
    obtain ⟨s, hs⟩ := List.mem_iff_getElem?.mp (h.1 x hx)
    obtain ⟨y, hy, hs'⟩ := (k.2 s).mp ((h.2 s).mpr ⟨x, hx, hs⟩)
    rw [hs] at hs'
    rw [Option.some.inj hs']; exact hy
  exact ⟨key h k (Or.inr trivial), key k h (Or.inr trivial)⟩

theorem countBits_eq {which d : List Nat} {m : Nat} (hw : which.Nodup) (hd : d.Nodup) (h : Bits which d m) :
    countBits which.length m = d.length := by
  have h1 : countBits which.length m = which.countP (fun k => decide (k ∈ d)) := by
    unfold countBits
    have h2 : which = (List.range which.length).map fun s => which.getD s 0 := by
      apply List.ext_getElem?
      intro s
      by_cases hs : s < which.length
      · simp [hs]
      · simp [hs]
    conv_rhs => rw [h2]
    rw [List.countP_map]
    apply List.countP_congr
    intro s hs
    have hs := List.mem_range.mp hs
    rw [h.2 s, Function.comp_apply, decide_eq_true_iff]
    rw [List.getD_eq_getElem?_getD, List.getElem?_eq_getElem hs, Option.getD_some]
    constructor
    · rintro ⟨k, hk, e⟩; rw [Option.some.inj e]; exact hk
    · intro hk; exact ⟨_, hk, rfl⟩
  rw [h1, List.countP_eq_length_filter]
  apply List.Perm.length_eq
  rw [List.perm_ext_iff_of_nodup (hw.filter _) hd]
  intro k
  rw [List.mem_filter, decide_eq_true_iff]
  exact ⟨fun hk => hk.2, fun hk => ⟨h.1 k hk, hk⟩⟩

end Cgl.Triple
