import Verif.MIR.Pre

/-!
# Aggregated rows are implied equations
-/

namespace Cgl.MIR

/-! ### Packed vectors -/

/-- The indices of a packed vector. -/
abbrev keys (v : SVec) : List Nat := v.map Prod.fst

theorem keys_addCoef (v : SVec) (j : Nat) (a : ℚ) :
    keys (addCoef v j a) = if j ∈ keys v then keys v else keys v ++ [j] := by
  unfold addCoef
  by_cases h : j ∈ keys v
  · have h' : (v.any fun p => decide (p.1 = j)) = true := by
      obtain ⟨p, hp, e⟩ := List.mem_map.1 h
      exact List.any_eq_true.2 ⟨p, hp, by simpa using e⟩
    rw [if_pos h, if_pos h']
    simp only [keys, List.map_map]
    apply List.map_congr_left
    intro p _
    simp only [Function.comp]
    split
    · rename_i e; exact e.symm
    · rfl
  · have h' : ¬ (v.any fun p => decide (p.1 = j)) = true := by
      intro hh
      obtain ⟨p, hp, e⟩ := List.any_eq_true.1 hh
      exact h (List.mem_map.2 ⟨p, hp, by simpa using e⟩)
    rw [if_neg h, if_neg h']
    simp [keys]

theorem mem_keys_addCoef {v : SVec} {j i : Nat} {a : ℚ} : i ∈ keys (addCoef v j a) ↔ i ∈ keys v ∨ i = j := by
  rw [keys_addCoef]
  split
  · constructor
    · exact Or.inl
    · rintro (h | rfl) <;> assumption
  · rw [List.mem_append, List.mem_singleton]

theorem nodup_addCoef {v : SVec} (h : (keys v).Nodup) (j : Nat) (a : ℚ) : (keys (addCoef v j a)).Nodup := by
  rw [keys_addCoef]
  split
  · exact h
  · rename_i hj
    rw [List.nodup_append]
    refine ⟨h, List.nodup_singleton j, ?_⟩
    intro b hb c hc
    rw [List.mem_singleton] at hc
    rintro rfl; subst hc; exact hj hb

theorem dot_map_add {v : SVec} (h : (keys v).Nodup) {j : Nat} (hj : j ∈ keys v) (a : ℚ) (x : Nat → ℚ) :
    SVec.dot (v.map fun p => if p.1 = j then (j, p.2 + a) else p) x = SVec.dot v x + a * x j := by
  induction v with
  | nil => simp at hj
  | cons p v ih =>
    simp only [keys, List.map_cons, List.nodup_cons] at h
    simp only [List.map_cons, SVec.dot_cons]
    by_cases e : p.1 = j
    · have hv : (v.map fun p => if p.1 = j then (j, p.2 + a) else p) = v := by
        conv_rhs => rw [← List.map_id v]
        apply List.map_congr_left
        intro q hq
        rw [if_neg]; rfl
        intro e'
        exact h.1 (List.mem_map.2 ⟨q, hq, by rw [e', e]⟩)
      rw [hv, if_pos e, e]; ring
    · have hj' : j ∈ keys v := by
        rcases List.mem_cons.1 hj with h' | h'
        · exact absurd h'.symm e
        · exact h'
      rw [ih h.2 hj', if_neg e]; ring

theorem dot_addCoef {v : SVec} (h : (keys v).Nodup) (j : Nat) (a : ℚ) (x : Nat → ℚ) :
    SVec.dot (addCoef v j a) x = SVec.dot v x + a * x j := by
  unfold addCoef
  split
  · rename_i h'
    obtain ⟨p, hp, e⟩ := List.any_eq_true.1 h'
    exact dot_map_add h (List.mem_map.2 ⟨p, hp, by simpa using e⟩) a x
  · simp

theorem addScaled_spec (k : ℚ) (x : Nat → ℚ) : ∀ (w v : SVec), (keys v).Nodup →
    (keys (addScaled v k w)).Nodup ∧ SVec.dot (addScaled v k w) x = SVec.dot v x + k * SVec.dot w x ∧
    ∀ i, i ∈ keys (addScaled v k w) ↔ i ∈ keys v ∨ i ∈ keys w
  | [], v, h => by simp [addScaled, h]
  | p :: w, v, h => by
    have := addScaled_spec k x w (addCoef v p.1 (k * p.2)) (nodup_addCoef h _ _)
    have e : addScaled v k (p :: w) = addScaled (addCoef v p.1 (k * p.2)) k w := rfl
    rw [e]
    refine ⟨this.1, ?_, ?_⟩
    · rw [this.2.1, dot_addCoef h, SVec.dot_cons]; ring
    · intro i
      rw [this.2.2 i, mem_keys_addCoef]
      simp only [keys, List.map_cons, List.mem_cons]
      tauto

theorem insertNew_spec {v v' : SVec} {j : Nat} {a : ℚ} (h : insertNew v j a = some v') (hv : (keys v).Nodup) :
    (keys v').Nodup ∧ (∀ x, SVec.dot v' x = SVec.dot v x + a * x j) ∧ ∀ i, i ∈ keys v' ↔ i ∈ keys v ∨ i = j := by
  unfold insertNew at h
  split at h
  · cases h
  · rename_i h'
    obtain rfl := Option.some.inj h
    have hj : j ∉ keys v := by
      intro hj
      obtain ⟨p, hp, e⟩ := List.mem_map.1 hj
      exact h' (List.any_eq_true.2 ⟨p, hp, by simpa using e⟩)
    refine ⟨?_, fun x => by simp, fun i => by simp [keys]⟩
    rw [keys, List.map_append, List.nodup_append]
    refine ⟨hv, by simp, ?_⟩
    intro b hb c hc
    simp only [List.map_cons, List.map_nil, List.mem_singleton] at hc
    rintro rfl; subst hc; exact hj hb

theorem insertNew_isSome {v : SVec} {j : Nat} {a : ℚ} (hj : j ∉ keys v) : insertNew v j a = some (v ++ [(j, a)]) := by
  unfold insertNew
  rw [if_neg]
  intro h
  obtain ⟨p, hp, e⟩ := List.any_eq_true.1 h
  exact hj (List.mem_map.2 ⟨p, hp, by simpa using e⟩)

theorem at'_of_mem {v : SVec} (h : (keys v).Nodup) {p : Nat × ℚ} (hp : p ∈ v) : at' v p.1 = p.2 := by
  induction v with
  | nil => cases hp
  | cons q v ih =>
    simp only [keys, List.map_cons, List.nodup_cons] at h
    unfold at'
    rcases List.mem_cons.1 hp with rfl | hp'
    · simp
    · have hne : q.1 ≠ p.1 := by
        intro e; exact h.1 (List.mem_map.2 ⟨p, hp', e.symm⟩)
      have := ih h.2 hp'
      unfold at' at this
      simp [hne, this]

theorem dot_congr {v : SVec} {x y : Nat → ℚ} (h : ∀ j ∈ keys v, x j = y j) : SVec.dot v x = SVec.dot v y := by
  induction v with
  | nil => rfl
  | cons p v ih =>
    rw [SVec.dot_cons, SVec.dot_cons, h p.1 (by simp [keys]), ih fun j hj => h j (by
      simp only [keys, List.map_cons, List.mem_cons]; exact Or.inr hj)]

/-! ### Aggregated rows -/

/-- Value of the slack of the `k`-th aggregated row at `x`. -/
def slackVal (pre : Pre) (rows : List Row) (used : List Nat) (x : Nat → ℚ) (k : Nat) : ℚ :=
  match used[k]? with
  | none => 0
  | some i => match rows[i]?, pre.rows[i]? with
    | some r, some (_, s, b) =>
      match s with
      | .L => b - r.coefs.dot x
      | .G => r.coefs.dot x - b
      | _ => 0
    | _, _ => 0

/-- The point `x` extended by the values of the slacks. -/
def ext (pre : Pre) (rows : List Row) (used : List Nat) (x : Nat → ℚ) (j : Nat) : ℚ :=
  if j < pre.nCols then x j else slackVal pre rows used x (j - pre.nCols)

/-- An aggregated row holds at `x` as an equation with nonnegative slacks. -/
structure AggInv (pre : Pre) (rows : List Row) (x : Nat → ℚ) (g : Agg) : Prop where
  nodup : (keys g.row).Nodup
  keys : ∀ j ∈ keys g.row, j < pre.nCols + g.used.length
  ok : ∀ i ∈ g.used, ∃ r t s b, rows[i]? = some r ∧ pre.rows[i]? = some (t, s, b) ∧ RowImp s b (r.coefs.dot x)
  eq : SVec.dot g.row (ext pre rows g.used x) = g.rhs

theorem slackVal_nonneg {pre : Pre} {rows : List Row} {x : Nat → ℚ} {used : List Nat} (k : Nat)
    (ok : ∀ i ∈ used, ∃ r t s b, rows[i]? = some r ∧ pre.rows[i]? = some (t, s, b) ∧ RowImp s b (r.coefs.dot x)) :
    0 ≤ slackVal pre rows used x k := by
  unfold slackVal
  cases h : used[k]? with
  | none => exact le_refl _
  | some i =>
    obtain ⟨r, t, s, b, h1, h2, h3⟩ := ok i (List.mem_of_getElem? h)
    simp only [h1, h2]
    cases s <;> simp [RowImp] at h3 ⊢ <;> linarith

/-- The rows handed to the aggregation are rows of the problem, in place. -/
def SubOf (rows : List Row) (P : Prob) : Prop := ∀ (i : Nat) (r : Row), rows[i]? = some r → P.rows[i]? = some r

/-- The slack coefficients make the row an equation. -/
theorem copyRow_spec {pre : Pre} {rows : List Row} {x : Nat → ℚ} {used : List Nat} {i : Nat} {r : Row} {t : RowType}
    {s : Sense} {b lhs : ℚ} (hnd : (keys r.coefs).Nodup) (hcol : ∀ j ∈ keys r.coefs, j < pre.nCols)
    (h1 : rows[i]? = some r) (h2 : pre.rows[i]? = some (t, s, b)) (h3 : RowImp s b (r.coefs.dot x)) :
    (keys (copyRow pre.nCols used.length r.coefs s b lhs).1).Nodup ∧
    (∀ j ∈ keys (copyRow pre.nCols used.length r.coefs s b lhs).1, j < pre.nCols + used.length + 1) ∧
    SVec.dot (copyRow pre.nCols used.length r.coefs s b lhs).1 (ext pre rows (used ++ [i]) x) = b := by
  have hdot : SVec.dot r.coefs (ext pre rows (used ++ [i]) x) = SVec.dot r.coefs x :=
    dot_congr fun j hj => by unfold ext; rw [if_pos (hcol j hj)]
  have hsl : ext pre rows (used ++ [i]) x (pre.nCols + used.length) =
      (match s with | .L => b - r.coefs.dot x | .G => r.coefs.dot x - b | _ => 0) := by
    unfold ext slackVal
    rw [if_neg (by omega)]
    simp only [Nat.add_sub_cancel_left, List.getElem?_concat_length, h1, h2]
    cases s <;> rfl
  have hnd' : ∀ a : ℚ, (keys (r.coefs ++ [(pre.nCols + used.length, a)])).Nodup := by
    intro a
    rw [keys, List.map_append, List.nodup_append]
    refine ⟨hnd, by simp, ?_⟩
    intro c hc d hd
    simp only [List.map_cons, List.map_nil, List.mem_singleton] at hd
    have := hcol c hc
    omega
  have hk' : ∀ a : ℚ, ∀ j ∈ keys (r.coefs ++ [(pre.nCols + used.length, a)]), j < pre.nCols + used.length + 1 := by
    intro a j hj
    rw [keys, List.map_append, List.mem_append] at hj
    rcases hj with hj | hj
    · have := hcol j hj; omega
    · simp at hj; omega
  unfold copyRow
  cases s
  · refine ⟨hnd' 1, hk' 1, ?_⟩
    simp only [SVec.dot_append, SVec.dot_cons, SVec.dot_nil, hdot, hsl]; ring
  · refine ⟨hnd' (-1), hk' (-1), ?_⟩
    simp only [SVec.dot_append, SVec.dot_cons, SVec.dot_nil, hdot, hsl]; ring
  · refine ⟨hnd, fun j hj => ?_, ?_⟩
    · have := hcol j hj; omega
    · simp only [hdot]; exact h3
  · exact absurd h3 (by simp [RowImp])
  · exact absurd h3 (by simp [RowImp])

theorem rows_ok {P : Prob} {pre : Pre} {x : Nat → ℚ} {rows : List Row} {i : Nat} {r : Row} {t : RowType} {s : Sense} {b : ℚ}
    (hok : PreOk P pre x) (hsub : SubOf rows P) (h1 : rows[i]? = some r) (h2 : pre.rows[i]? = some (t, s, b))
    (ht : t = .mix ∨ t = .cont ∨ t = .int) : RowImp s b (r.coefs.dot x) :=
  hok.rows i t s b r h2 (hsub i r h1) ht

theorem startAgg_inv {P : Prob} {pre : Pre} {rows : List Row} {x act : Nat → ℚ} {i : Nat} {g : Agg} (hwf : P.WF)
    (hok : PreOk P pre x) (hsub : SubOf rows P) (ht : typeAt pre i = .mix ∨ typeAt pre i = .cont ∨ typeAt pre i = .int)
    (h : startAgg pre rows act i = some g) : AggInv pre rows x g := by
  unfold startAgg at h
  split at h
  · rename_i r t s b h1 h2
    obtain rfl := Option.some.inj h
    have ht' : typeAt pre i = t := by simp [typeAt, h2]
    rw [ht'] at ht
    have himp := rows_ok hok hsub h1 h2 ht
    have hr := List.mem_of_getElem? (hsub i r h1)
    have := copyRow_spec (used := []) (lhs := act i) (hwf.nodup r hr)
      (fun j hj => by obtain ⟨p, hp, e⟩ := List.mem_map.1 hj; rw [← e, hok.nCols]; exact hwf.cols r hr p hp) h1 h2 himp
    refine ⟨this.1, this.2.1, ?_, this.2.2⟩
    intro k hk
    simp only [List.mem_singleton] at hk
    subst hk
    exact ⟨r, t, s, b, h1, h2, himp⟩
  · cases h

theorem ext_append {pre : Pre} {rows : List Row} {x : Nat → ℚ} {used : List Nat} {i j : Nat}
    (hj : j < pre.nCols + used.length) : ext pre rows (used ++ [i]) x j = ext pre rows used x j := by
  unfold ext
  split
  · rfl
  · unfold slackVal
    rw [List.getElem?_append_left (by omega)]

theorem stepAgg_inv {P : Prob} {pre : Pre} {rows : List Row} {x act : Nat → ℚ} {i c : Nat} {g g' : Agg} (hwf : P.WF)
    (hok : PreOk P pre x) (hsub : SubOf rows P) (ht : typeAt pre i = .mix ∨ typeAt pre i = .cont ∨ typeAt pre i = .int)
    (hg : AggInv pre rows x g) (h : stepAgg pre rows act g i c = some g') : AggInv pre rows x g' := by
  unfold stepAgg at h
  split at h
  · rename_i r t s b h1 h2
    have ht' : typeAt pre i = t := by simp [typeAt, h2]
    rw [ht'] at ht
    have himp := rows_ok hok hsub h1 h2 ht
    have hr := List.mem_of_getElem? (hsub i r h1)
    have hc := copyRow_spec (used := g.used) (lhs := act i) (hwf.nodup r hr)
      (fun j hj => by obtain ⟨p, hp, e⟩ := List.mem_map.1 hj; rw [← e, hok.nCols]; exact hwf.cols r hr p hp) h1 h2 himp
    generalize copyRow pre.nCols g.used.length r.coefs s b (act i) = cp at h hc
    simp only [Option.some.injEq] at h
    generalize at' g.row c / at' cp.1 c = m at h
    subst h
    have hs := addScaled_spec (-m) (ext pre rows (g.used ++ [i]) x) cp.1 g.row hg.nodup
    refine ⟨hs.1, ?_, ?_, ?_⟩
    · intro j hj
      rw [List.length_append, List.length_singleton]
      rcases (hs.2.2 j).1 hj with hj | hj
      · have := hg.keys j hj; omega
      · have := hc.2.1 j hj; omega
    · intro k hk
      rcases List.mem_append.1 hk with hk | hk
      · exact hg.ok k hk
      · rw [List.mem_singleton] at hk; subst hk; exact ⟨r, t, s, b, h1, h2, himp⟩
    · simp only
      rw [hs.2.1, hc.2.2, dot_congr fun j hj => ext_append (hg.keys j hj), hg.eq]; ring
  · cases h

theorem usableRow_spec {types : Nat → RowType} {used : List Nat} {ents : List (Nat × ℚ)} {i : Nat}
    (h : usableRow types used ents = some i) : i ∉ used ∧ (types i = .mix ∨ types i = .cont) ∧
      ∃ e ∈ ents, e.1 = i ∧ eps < |e.2| := by
  unfold usableRow at h
  obtain ⟨e, he, rfl⟩ := Option.map_eq_some_iff.1 h
  have h1 := List.find?_some he
  have h2 := List.mem_of_find?_eq_some he
  simp only [Bool.and_eq_true, Bool.or_eq_true, decide_eq_true_eq] at h1
  exact ⟨h1.1.1, h1.1.2, e, h2, rfl, h1.2⟩

theorem selectRow_spec {P : Prob} {pre : Pre} {rows : List Row} {xlp : Nat → ℚ} {types : Nat → RowType} {used : List Nat} :
    ∀ (v : SVec) (best : ℚ × Option (Nat × Nat)) (i c : Nat),
    (∀ i c, best.2 = some (i, c) → usableRow types used (colEntries c 0 rows) = some i ∧ c < pre.nCols) →
    selectRow P pre rows xlp types used v best = some (i, c) →
    usableRow types used (colEntries c 0 rows) = some i ∧ c < pre.nCols
  | [], best, i, c, hb, h => hb i c (by simpa [selectRow] using h)
  | p :: ps, best, i, c, hb, h => by
    unfold selectRow at h
    split at h
    · exact selectRow_spec ps best i c hb h
    · split at h
      · exact selectRow_spec ps best i c hb h
      · simp only at h
        split at h
        · split at h
          · rename_i hlt _ _ k hk
            refine selectRow_spec ps _ i c ?_ h
            intro i' c' e
            simp only [Option.some.injEq, Prod.mk.injEq] at e
            obtain ⟨rfl, rfl⟩ := e
            exact ⟨hk, by omega⟩
          · exact selectRow_spec ps best i c hb h
        · exact selectRow_spec ps best i c hb h

theorem typesAfter_sub {v2 : Bool} {rows : List Row} {types : Nat → RowType} {c i : Nat} {t : RowType}
    (h : typesAfter v2 rows types c i = t) (ht : t ≠ .undefined) : types i = t := by
  unfold typesAfter at h
  split at h
  · beta_reduce at h
    split at h
    · exact absurd h.symm ht
    · exact h
  · exact h

theorem chain_inv {v2 : Bool} {P : Prob} {pre : Pre} {rows : List Row} {x act xlp : Nat → ℚ} (hwf : P.WF)
    (hok : PreOk P pre x) (hsub : SubOf rows P) : ∀ (n : Nat) (types : Nat → RowType) (g : Agg),
    (∀ i t, types i = t → t ≠ .undefined → typeAt pre i = t) → AggInv pre rows x g →
    ∀ g' ∈ chain v2 P pre rows act xlp n types g, AggInv pre rows x g'
  | 0, types, g, _, hg, g', h => by
    simp only [chain, List.mem_singleton] at h; subst h; exact hg
  | n + 1, types, g, hty, hg, g', h => by
    unfold chain at h
    split at h
    · simp only [List.mem_singleton] at h; subst h; exact hg
    · rename_i ic hsel
      split at h
      · simp only [List.mem_singleton] at h; subst h; exact hg
      · rename_i g1 hstep
        rcases List.mem_cons.1 h with rfl | h
        · exact hg
        · have hs := selectRow_spec (c := ic.2) (i := ic.1) _ _ (by simp) hsel
          have hu := usableRow_spec hs.1
          have ht : typeAt pre ic.1 = .mix ∨ typeAt pre ic.1 = .cont ∨ typeAt pre ic.1 = .int := by
            rcases hu.2.1 with e | e
            · left; exact hty _ _ e (by simp)
            · right; left; exact hty _ _ e (by simp)
          exact chain_inv hwf hok hsub n _ g1 (fun i t e hne => hty i t (typesAfter_sub e hne) hne)
            (stepAgg_inv hwf hok hsub ht hg hstep) g' h

theorem ofType_mem {t : RowType} : ∀ (l : List (RowType × Sense × ℚ)) (i k : Nat), k ∈ ofType t i l →
    i ≤ k ∧ ∃ e, l[k - i]? = some e ∧ e.1 = t
  | [], _, _, h => by simp [ofType] at h
  | e :: l, i, k, h => by
    unfold ofType at h
    split at h
    · rename_i he
      rcases List.mem_cons.1 h with rfl | h
      · exact ⟨le_refl _, e, by simp, he⟩
      · obtain ⟨h1, e', h2, h3⟩ := ofType_mem l (i + 1) k h
        refine ⟨by omega, e', ?_, h3⟩
        have : k - i = (k - (i + 1)) + 1 := by omega
        rw [this, List.getElem?_cons_succ]; exact h2
    · obtain ⟨h1, e', h2, h3⟩ := ofType_mem l (i + 1) k h
      refine ⟨by omega, e', ?_, h3⟩
      have : k - i = (k - (i + 1)) + 1 := by omega
      rw [this, List.getElem?_cons_succ]; exact h2

theorem startRows_type {pre : Pre} {rows : List Row} {i : Nat} (h : i ∈ startRows pre rows) :
    typeAt pre i = .mix ∨ typeAt pre i = .cont ∨ typeAt pre i = .int := by
  unfold startRows at h
  rw [List.mem_append, List.mem_append, List.mem_filter] at h
  rcases h with (h | h) | h
  · obtain ⟨_, e, h2, h3⟩ := ofType_mem _ _ _ h
    left; rw [typeAt, show i = i - 0 from rfl, h2]; exact h3
  · obtain ⟨_, e, h2, h3⟩ := ofType_mem _ _ _ h.1
    right; left; rw [typeAt, show i = i - 0 from rfl, h2]; exact h3
  · obtain ⟨_, e, h2, h3⟩ := ofType_mem _ _ _ h
    right; right; rw [typeAt, show i = i - 0 from rfl, h2]; exact h3

/-- Every aggregated row the generator makes is an equation that holds at `x`. -/
theorem aggsFrom_inv {v2 : Bool} {par : Par} {P : Prob} {pre : Pre} {rows : List Row} {x act xlp : Nat → ℚ} {i : Nat}
    (hwf : P.WF) (hok : PreOk P pre x) (hsub : SubOf rows P) (hi : i ∈ startRows pre rows) :
    ∀ g ∈ aggsFrom v2 par P pre rows act xlp i, AggInv pre rows x g := by
  intro g hg
  unfold aggsFrom at hg
  split at hg
  · cases hg
  · rename_i g0 h0
    exact chain_inv hwf hok hsub _ _ g0 (fun _ _ e _ => e) (startAgg_inv hwf hok hsub (startRows_type hi) h0) g hg

end Cgl.MIR
