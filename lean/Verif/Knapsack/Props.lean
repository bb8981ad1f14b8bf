import Verif.Knapsack.VarBound

/-!
# Knapsack cover cuts: the properties
-/

namespace Cgl.Knapsack

theorem foldOpt_inv {α β : Type} {f : β → α → Option β} {I : β → Prop} : ∀ (l : List α) (b b' : β), I b →
    (∀ b a b', a ∈ l → I b → f b a = some b' → I b') → foldOpt f b l = some b' → I b'
  | [], b, b', h, _, e => by
    simp only [foldOpt, Option.some.injEq] at e
    subst e; exact h
  | a :: t, b, b', h, hs, e => by
    unfold foldOpt at e
    cases hf : f b a with
    | none => rw [hf] at e; cases e
    | some c =>
      rw [hf] at e
      exact foldOpt_inv t c b' (hs b a c List.mem_cons_self h hf) (fun b a b' ha => hs b a b' (List.mem_cons_of_mem _ ha)) e

/-- Every cut of the collection was there before or is satisfied by every feasible point. -/
structure Sound (P : Prob) (cs cs' : Cuts) : Prop where
  cols : cs'.cols = cs.cols
  rows : ∀ c ∈ cs'.rows, c ∈ cs.rows ∨ c.Valid P

theorem tryOne_sound {δ : ℚ} {P : Prob} (g : GridData δ P) (wf : P.WF) {xs : Nat → ℚ} (lp : LPPoint P xs) (S : Sorter) (pm : Params) {v : VB}
    (inv : VBInv P P.rows.length v) (longRow : Nat) {i : Nat} {r : Row} (hr : P.rows[i]? = some r) {itry : Nat} (h4 : itry < 4)
    {cs0 cs cs' : Cuts} (hs : Sound P cs0 cs) (h : tryOne S pm P xs v longRow i r cs itry = some cs') : Sound P cs0 cs' := by
  unfold tryOne at h
  split at h
  · simp only [Option.some.injEq] at h
    subst h; exact hs
  · rename_i row b ht
    obtain ⟨ok, hold⟩ := tryRow_spec g wf inv hr h4 ht
    have hrm : r ∈ P.rows := List.mem_of_getElem? hr
    have hinf : 1 < P.inf := by
      have := lp.act r hrm
      have := abs_nonneg (r.coefs.dot xs)
      linarith
    obtain ⟨d1, d2⟩ := derive_spec g hinf lp ok hold
    generalize hd : derive P xs (decide (itry % 2 = 1)) row b = res at h d1 d2
    obtain ⟨cc, ok'⟩ := res
    simp only at d1 d2
    subst d1
    cases ok' with
    | none =>
      simp only [List.append_nil, Option.some.injEq] at h
      subst h; exact hs
    | some k =>
      simp only [List.append_nil] at h
      obtain ⟨kok, kv⟩ := d2 k rfl
      obtain ⟨c1, c2⟩ := coverRow_valid S kok h
      refine ⟨by rw [c1]; exact hs.cols, ?_⟩
      intro c hc
      rcases c2 c hc with h | h
      · exact hs.rows c h
      · exact Or.inr (kv c h)

/-- **C22.** `generateCuts` at an LP solution of a problem whose data lie on a grid coarser than the tolerances: no column
cut is inserted, and every row cut that is inserted is satisfied by every feasible (mixed-integer) point. -/
theorem generateCuts_valid_partial {δ : ℚ} {P : Prob} (wf : P.WF) (g : GridData δ P) {xs : Nat → ℚ} (lp : LPPoint P xs) (S : Sorter)
    (pm : Params) (inTree : Bool) (pass : ℤ) {cs cs' : Cuts} (h : generateCuts S pm P inTree pass xs cs = some cs') :
    cs'.cols = cs.cols ∧ ∀ c ∈ cs'.rows, c ∈ cs.rows ∨ c.Valid P := by
  have lp' := lp.clip wf
  have htol : tightTol inTree pass ≤ 10000 := by
    unfold tightTol eps2
    split
    · norm_num
    · split <;> norm_num
  have inv := vbTable_inv g wf lp' pm htol
  have key : Sound P cs cs' := by
    unfold generateCuts at h
    simp only at h
    refine foldOpt_inv (I := Sound P cs) _ _ _ ⟨rfl, fun c hc => Or.inl hc⟩ ?_ h
    intro b i b' _ hb hd
    unfold doRow at hd
    split at hd
    · simp only [Option.some.injEq] at hd
      subst hd; exact hb
    · split at hd
      · simp only [Option.some.injEq] at hd
        subst hd; exact hb
      · rename_i r hr
        split at hd
        · simp only [Option.some.injEq] at hd
          subst hd; exact hb
        · refine foldOpt_inv (I := Sound P cs) _ _ _ hb ?_ hd
          intro b itry b' hi hb ht
          refine tryOne_sound g wf lp' S pm inv _ hr ?_ hb ht
          have := List.mem_range.mp hi
          split at this <;> omega
  exact ⟨key.cols, key.rows⟩

end Cgl.Knapsack
