import Verif.Probing.Total

/-!
# How many row cuts, and of which kind
-/

namespace Cgl.Probing

variable {g : Cfg}

theorem trueBound_off (h : g.rowCuts % 2 = 0) (b t lo up : ℚ) : trueBound g b t lo up = 0 := by
  unfold trueBound; rw [if_pos h]

theorem wayCuts_off (way : Bool) (j : Nat) (d : ℚ) (any : Bool) (s t : St) : wayCuts g way j d 0 any s t = [] := by
  unfold wayCuts; simp

theorem record_off (dup : List RowCut → RowCut → Bool) (r : St × Acc) : (record dup [] r).2.cand = r.2.cand := rfl

theorem keep_cand (s : St) (a : Acc) : (keep g s a).2.cand = a.cand := rfl

theorem both_cand (l : List Low) (s : St) (a : Acc) : (both g l s a).2.cand = a.cand := rfl

theorem acc_ite {p : Prop} [Decidable p] {a b : Acc} {v : List RowCut} (ha : a.cand = v) (hb : b.cand = v) :
    (if p then a else b).cand = v := by split <;> assumption

theorem second_cand (h : g.rowCuts % 2 = 0) (dup : List RowCut → RowCut → Bool) (j : Nat) (d u : ℚ) (ok0 : Bool)
    (l : List Low) (t : St) (a : Acc) : (second g dup j d u ok0 l t a).2.cand = a.cand := by
  unfold second
  dsimp only
  generalize branch g true j u t = s
  obtain ⟨a1, ha1⟩ : ∃ a1 : Acc, a1 = (if feasible g s = true then { a with fixes := a.fixes ++ fixes true j s } else a) :=
    ⟨_, rfl⟩
  have h1 : a1.cand = a.cand := by rw [ha1]; exact acc_ite rfl rfl
  rw [← ha1]
  split
  · split
    · rw [trueBound_off h, wayCuts_off, record_off]
      exact h1
    · rw [keep_cand]; exact h1
  · split
    · rw [keep_cand]
      exact acc_ite h1 h1
    · exact h1

theorem first_cand (h : g.rowCuts % 2 = 0) (dup : List RowCut → RowCut → Bool) (j : Nat) (d u : ℚ) (t : St) (a : Acc) :
    (first g dup j d u t a).2.cand = a.cand := by
  unfold first
  dsimp only
  rw [second_cand h, trueBound_off h, ite_self, wayCuts_off, record_off]
  exact acc_ite rfl rfl

theorem probeCol_cand (h : g.rowCuts % 2 = 0) (dup : List RowCut → RowCut → Bool) (j : Nat) (r : St × Acc) :
    (probeCol g dup j r).2.cand = r.2.cand := by
  unfold probeCol
  dsimp only
  split
  · rfl
  · exact first_cand h _ _ _ _ _ _

theorem passLoop_cand (h : g.rowCuts % 2 = 0) (dup : List RowCut → RowCut → Bool) : ∀ (js : List Nat) (r : St × Acc),
    (passLoop g dup js r).2.cand = r.2.cand
  | [], _ => rfl
  | j :: js, r => by
    have h1 := probeCol_cand h dup j r
    unfold passLoop
    dsimp only
    split
    · exact h1
    · exact (passLoop_cand h dup js _).trans h1

theorem passes_cand (h : g.rowCuts % 2 = 0) (dup : List RowCut → RowCut → Bool) (look : Nat → List Nat) :
    ∀ (m p : Nat) (r : St × Acc), (passes g dup look m p r).2.cand = r.2.cand
  | 0, _, _ => rfl
  | m + 1, p, r => by
    have h1 := passLoop_cand h dup (look p) (r.1, { r.2 with nfixed := 0 })
    unfold passes
    dsimp only
    split
    · exact h1
    · exact (passes_cand h dup look m _ _).trans h1

theorem addCuts_length (lim pass : Nat) (l : List RowCut) : (addCuts lim pass l).length ≤ lim := by
  unfold addCuts
  split
  · split
    · omega
    · rw [List.length_reverse]; omega
  · split
    · exact Nat.zero_le _
    · omega

variable {P : Prob} {A : Params} {L : Lp} {dup : List RowCut → RowCut → Bool} {look : Nat → List Nat}

/-- The row cuts of a call. -/
theorem guts_cuts {o : Out} (ho : guts P A L dup look = .ok o) {Q : List RowCut → Prop} (h0 : Q [])
    (h1 : ∀ t, Q (addCuts (cutLimit A (min (workRows P A L).length P.rows.length)) A.pass
      (bigMs (cfgOf P A L (workRows P A L) t) dup (min (workRows P A L).length P.rows.length)
        (probe P A L dup look (workRows P A L) (startLo P L.sol) (startUp P L.sol) t)))) : Q o.cuts := by
  unfold guts at ho
  split at ho
  · split at ho
    · cases ho; exact h0
    · change afterTighten P A L dup look (workRows P A L) _ _
        (tighten (workRows P A L) P.isInt (startLo P L.sol) (startUp P L.sol)) = _ at ho
      generalize tighten (workRows P A L) P.isInt (startLo P L.sol) (startUp P L.sol) = t at ho
      unfold afterTighten at ho
      split at ho
      · cases ho; exact h0
      · split at ho
        · split at ho
          · split at ho
            · cases ho
              unfold finish
              dsimp only
              split
              · exact h0
              · exact h1 t
            · cases ho
          · cases ho; exact h0
        · cases ho
  · cases ho

theorem guts_limit {o : Out} (ho : guts P A L dup look = .ok o) : o.cuts.length ≤ cutLimit A P.rows.length := by
  refine guts_cuts ho (Q := fun l => l.length ≤ cutLimit A P.rows.length) (Nat.zero_le _) fun t => ?_
  refine le_trans (addCuts_length _ _ _) ?_
  have : min (workRows P A L).length P.rows.length ≤ P.rows.length := min_le_right _ _
  generalize min (workRows P A L).length P.rows.length = k at this ⊢
  unfold cutLimit
  split
  · omega
  · split <;> omega

theorem guts_columns_only {o : Out} (hr : A.rowCutsNow = 0) (ho : guts P A L dup look = .ok o) : o.cuts = [] := by
  refine guts_cuts ho (Q := fun l => l = []) rfl fun t => ?_
  have hc : (probe P A L dup look (workRows P A L) (startLo P L.sol) (startUp P L.sol) t).2.cand = [] := by
    unfold probe
    exact passes_cand (g := cfgOf P A L (workRows P A L) t) (by show A.rowCutsNow % 2 = 0; rw [hr]) _ _ _ _ _
  unfold bigMs
  rw [if_neg (by intro h; exact h.2.2 hr), hc]
  unfold addCuts
  split
  · split <;> rfl
  · split <;> rfl

end Cgl.Probing
