import Verif.CutRows.Facts
import Verif.CutRows.Spec

/-!
# Clique cuts in place of rows: the problem keeps its points, the loops end
-/

namespace Cgl.CutRows

open TreeInfo DupRow

/-! ### The loop over the cuts -/

theorem keptCuts_sub {nRows : Nat} {dup : List ℤ} {us : Nat → ℤ} {steps : Nat} (cs : List RowCut) {row : Nat} {l : List RowCut}
    (h : keptCuts nRows dup us steps row cs = some l) : ∀ c ∈ l, c ∈ cs := by
  induction cs generalizing row l with
  | nil => obtain rfl := Option.some.inj h; exact fun c hc => hc
  | cons c cs ih =>
    unfold keptCuts at h
    split at h
    · rename_i e l' he hl
      obtain rfl := Option.some.inj h
      intro d hd
      split at hd
      · rcases List.mem_cons.mp hd with rfl | hd
        · exact List.mem_cons_self
        · exact List.mem_cons_of_mem _ (ih hl d hd)
      · exact List.mem_cons_of_mem _ (ih hl d hd)
    · cases h

theorem keptCuts_mem {nRows : Nat} {dup : List ℤ} {us : Nat → ℤ} {steps : Nat} (cs : List RowCut) {row : Nat} {l : List RowCut}
    (h : keptCuts nRows dup us steps row cs = some l) {m : Nat} {c : RowCut} (hm : cs[m]? = some c)
    (hk : ∀ e, chase nRows dup us steps (us (row + m)) = some e → keeps nRows dup (row + m) e = true) : c ∈ l := by
  induction cs generalizing row l m with
  | nil => cases hm
  | cons d cs ih =>
    unfold keptCuts at h
    split at h
    · rename_i e l' he hl
      obtain rfl := Option.some.inj h
      rcases m with _ | m
      · obtain rfl := Option.some.inj hm
        have : keeps nRows dup row e = true := hk e he
        rw [if_pos this]
        exact List.mem_cons_self
      · have := ih hl (m := m) hm (by rw [show row + 1 + m = row + (m + 1) by omega]; exact hk)
        split
        · exact List.mem_cons_of_mem _ this
        · exact this
    · cases h

theorem keptCuts_some {nRows : Nat} {dup : List ℤ} {us : Nat → ℤ} {steps : Nat} (h : ∀ e, chase nRows dup us steps e ≠ none)
    (cs : List RowCut) (row : Nat) : keptCuts nRows dup us steps row cs ≠ none := by
  induction cs generalizing row with
  | nil => simp [keptCuts]
  | cons c cs ih =>
    unfold keptCuts
    rcases h1 : chase nRows dup us steps (us row) with _ | e
    · exact absurd h1 (h _)
    · rcases h2 : keptCuts nRows dup us steps (row + 1) cs with _ | l
      · exact absurd h2 (ih _)
      · simp

theorem left_of_flag {P : Prob} {dup : List ℤ} {m : Nat} {w : Row} {d : ℤ} (hw : P.rows[m]? = some w) (hd : dup[m]? = some d)
    (h : d ≠ -2) : w ∈ leftRows P dup := by
  unfold leftRows
  refine List.mem_map.mpr ⟨(w, d), List.mem_filter.mpr ⟨?_, by simpa using h⟩, rfl⟩
  exact List.mem_iff_getElem?.mpr ⟨m, List.getElem?_zip_eq_some.mpr ⟨hw, hd⟩⟩

theorem left_sub {P : Prob} {dup : List ℤ} {w : Row} (h : w ∈ leftRows P dup) : w ∈ P.rows := by
  obtain ⟨p, hp, rfl⟩ := List.mem_map.mp h
  exact (List.of_mem_zip (List.mem_filter.mp hp).1).1

theorem left_length (P : Prob) (dup : List ℤ) : (leftRows P dup).length ≤ P.rows.length := by
  unfold leftRows
  rw [List.length_map]
  refine le_trans (List.length_filter_le _ _) ?_
  rw [List.length_zip]
  exact min_le_left _ _

/-! ### The clique that stands for one that goes -/

/-- The clique belongs to a row with a low number. -/
def Low (R : Nat) (l : List Clq) (k : Nat) : Prop := ∃ c, l[k]? = some c ∧ c.row < R

theorem low_down {R : Nat} {l : List Clq} (h : l.Pairwise fun c d => c.row < d.row) {a b : Nat} (hab : a ≤ b) (hb : Low R l b) :
    Low R l a := by
  obtain ⟨c, hc, hr⟩ := hb
  have hblt : b < l.length := (List.getElem?_eq_some_iff.mp hc).1
  have ha : l[a]? = some l[a] := List.getElem?_eq_getElem (by omega)
  refine ⟨_, ha, ?_⟩
  rcases Nat.lt_or_ge a b with h1 | h1
  · have := (row_inj h ha hc).1 h1; omega
  · have : a = b := by omega
    subst this
    rw [ha] at hc
    rw [Option.some.inj hc]
    exact hr

theorem stands {Q : Prob} (hwf : Q.WF) (ht : Tame8 Q) {dup : List ℤ} {us : Nat → ℤ} {l : List Clq} {s : Sub8}
    (hf : Facts Q dup us l s) {R : Nat} (heq : ∀ c ∈ l, c.eq = true → c.row < R) {k : Nat} (hk : Low R l k)
    (hv : s.scan.val k = -2) :
    ∃ i < l.length, s.scan.val i ≠ -2 ∧ (∀ c ∈ clAt (sorted8 l) k, c ∈ clAt (sorted8 l) i) ∧
      (isEq l k = true → clAt (sorted8 l) i = clAt (sorted8 l) k ∧ isEq l i = true) ∧ (Low R l i ∨ Low R l (s.used i)) := by
  obtain ⟨k1, k2, k3⟩ := cliques_ok hwf ht hf.cl
  have hlen : (sorted8 l).length = l.length := List.length_map _
  obtain ⟨out0, h1, h2⟩ := run8_spec k1 k2 hf.run
  rw [hlen] at h1 h2
  have hE : ∀ k, isEq l k = true → Low R l k := by
    intro k hk
    unfold isEq at hk
    rcases hlk : l[k]? with _ | c
    · rw [hlk] at hk; cases hk
    · rw [hlk] at hk
      exact ⟨c, hlk, heq c (List.mem_of_getElem? hlk) hk⟩
  have hklt : k < l.length := by
    obtain ⟨c, hc, -⟩ := hk
    exact (List.getElem?_eq_some_iff.mp hc).1
  rcases h2 k hv with ⟨h3, -⟩ | ⟨h3, -, i, hi, h4, h5, h6, -⟩
  · obtain ⟨k', hk', h4, h5, g, h6, h7, -⟩ := h1 k hklt h3
    have hlow : Low R l k' := by
      rw [h6]; exact pickE_low (fun a b hab hb => low_down hf.order hab hb) hE h7 hk
    have hty : isEq l k = isEq l k' := k3 k k' (by omega) (by omega) h5.symm
    by_cases hv' : s.scan.val k' = -2
    · rcases h2 k' hv' with ⟨h8, -⟩ | ⟨h8, -, i, hi, h9, h10, h11, -⟩
      · exact absurd h8 h4
      · refine ⟨i, hi, h9, by rw [← h5]; exact h10, ?_, Or.inr (low_down hf.order h11 hlow)⟩
        intro he; rw [hty, h8] at he; cases he
    · exact ⟨k', hk', hv', by rw [h5]; exact fun c hc => hc, fun he => ⟨h5, by rw [← hty]; exact he⟩, Or.inl hlow⟩
  · exact ⟨i, hi, h4, h5, (fun he => by rw [h3] at he; exact absurd he (by decide)), Or.inr (low_down hf.order h6 hk)⟩

/-! ### The points -/

theorem withCuts_inBox {P : Prob} {cuts : List RowCut} {x : Nat → ℚ}
    (h : ∀ j < P.nCols, lbOk P.inf (P.colLower j) (x j) ∧ ubOk P.inf (P.colUpper j) (x j)) : InBox (withCuts P cuts) x := h

/-- The rows that are left and the cuts that are kept imply the rows that are dropped. -/
theorem exchange_sound {P : Prob} {cuts : List RowCut} (hwf : (withCuts P cuts).WF) (ht : Tame8 (withCuts P cuts))
    (hlow : ∀ c ∈ cuts, c.lb ≤ -P.inf) {dup : List ℤ} {us : Nat → ℤ} {l : List Clq} {s : Sub8}
    (hf : Facts (withCuts P cuts) dup us l s) {steps : Nat} {kc : List RowCut}
    (hk : keptCuts P.rows.length dup us steps P.rows.length cuts = some kc) {x : Nat → ℚ}
    (hx : Prob.Feasible { P with rows := leftRows P dup ++ kc.map cutRow } x) : P.Feasible x := by
  set Q := withCuts P cuts with hQ
  have hb : InBox Q x := withCuts_inBox fun j hj => ⟨hx.lower j hj, hx.upper j hj⟩
  have hrow : ∀ (m : Nat) (w : Row), P.rows[m]? = some w → Q.rows[m]? = some w := by
    intro m w hm
    have hlt := (List.getElem?_eq_some_iff.mp hm).1
    show (P.rows ++ cuts.map cutRow)[m]? = _
    rw [List.getElem?_append_left hlt]; exact hm
  have hmem : ∀ w ∈ P.rows, w ∈ Q.rows := fun w hw => List.mem_append_left _ hw
  have heq : ∀ c ∈ l, c.eq = true → c.row < P.rows.length := by
    intro c hc he
    obtain ⟨m, r, h1, h2, h3, -, h5⟩ := hf.cl.from_ c hc
    by_contra hge
    have h1' : (P.rows ++ cuts.map cutRow)[m]? = some r := h1
    rw [List.getElem?_append_right (by omega), List.getElem?_map] at h1'
    rcases hcm : cuts[m - P.rows.length]? with _ | cu
    · rw [hcm] at h1'; cases h1'
    · rw [hcm] at h1'
      obtain rfl := Option.some.inj h1'
      have h6 := h5.mp he
      have h7 := hlow cu (List.mem_of_getElem? hcm)
      have h8 := abs_le.mp (ht.rows _ (List.mem_of_getElem? h1) h3.1).2.2.2
      have h9 : 10 ^ 20 < P.inf := ht.inf
      have h10 : (cutRow cu).lb = cu.lb := rfl
      rw [h10] at h6
      norm_num at h8 h9
      linarith
  refine ⟨?_, hx.lower, hx.upper, hx.int⟩
  intro w hw
  obtain ⟨m, hm⟩ := List.mem_iff_getElem?.mp hw
  have hmlt : m < P.rows.length := (List.getElem?_eq_some_iff.mp hm).1
  have hdl : m < dup.length := by
    rw [hf.len]; exact (List.getElem?_eq_some_iff.mp (hrow m w hm)).1
  by_cases hd : dup[m] = -2
  · obtain ⟨k, c, hkc, hcr, hv⟩ := hf.other m (by rw [List.getElem?_eq_getElem hdl, hd])
    obtain ⟨i, hi, g1, g2, g3, g4⟩ := stands hwf ht hf heq ⟨c, hkc, by omega⟩ hv
    have hli : l[i]? = some l[i] := List.getElem?_eq_getElem hi
    obtain ⟨m', w', b1, b2, b3, b4, b5⟩ := hf.cl.from_ l[i] (List.getElem_mem hi)
    obtain ⟨m1, w1, a1, a2, a3, a4, a5⟩ := hf.cl.from_ c (List.mem_of_getElem? hkc)
    have : m1 = m := by omega
    subst this
    rw [hrow m1 w hm] at a1
    obtain rfl := Option.some.inj a1
    have hdi := hf.flag i _ hli
    rw [if_neg g1] at hdi
    have hsat : w'.Sat Q.inf x := by
      have b1' : (P.rows ++ cuts.map cutRow)[m']? = some w' := b1
      by_cases hlt : m' < P.rows.length
      · rw [List.getElem?_append_left hlt] at b1'
        exact hx.rows w' (List.mem_append_left _ (left_of_flag b1' (by rw [← b2]; exact hdi) (by norm_num)))
      · rw [List.getElem?_append_right (by omega), List.getElem?_map] at b1'
        rcases hcm : cuts[m' - P.rows.length]? with _ | cu
        · rw [hcm] at b1'; cases b1'
        · rw [hcm] at b1'
          obtain rfl := Option.some.inj b1'
          rcases g4 with ⟨d, hd1, hd2⟩ | ⟨d, hd1, hd2⟩
          · rw [hli] at hd1
            obtain rfl := Option.some.inj hd1
            omega
          · refine hx.rows _ (List.mem_append_right _ (List.mem_map_of_mem (keptCuts_mem cuts hk hcm ?_)))
            intro e he
            have hrw : P.rows.length + (m' - P.rows.length) = l[i].row := by omega
            rw [hrw] at he ⊢
            have hus := hf.used i _ hli
            rw [hd1] at hus
            rw [hus] at he
            rcases steps with _ | f
            · cases he
            · unfold chase at he
              rw [if_neg (by push_cast; omega)] at he
              obtain rfl := Option.some.inj he
              unfold keeps
              rw [hdi]
              simp only [Option.getD_some, Bool.not_eq_true', decide_eq_false_iff_not]
              omega
    have hperm : ∀ c : Clq, (c.cols.insertionSort (· ≤ ·)).Perm c.cols := fun c => List.perm_insertionSort _ _
    have hclAt : ∀ (k : Nat) (c : Clq), l[k]? = some c → (clAt (sorted8 l) k).Perm c.cols := by
      intro k c hk
      rw [clAt_sorted8, hk]; exact hperm c
    obtain ⟨k1, -, -⟩ := cliques_ok hwf ht hf.cl
    have hnodup : ∀ k, (clAt (sorted8 l) k).Nodup := fun k => (clAt_sorted k1 k).imp fun h => Nat.ne_of_lt h
    have si := (cliqueRow_sat hwf ht hb (List.mem_of_getElem? b1) b3).mp hsat
    show w.Sat Q.inf x
    rw [cliqueRow_sat hwf ht hb (hmem w hw) a3]
    rw [← b4, ← colSum_perm (hclAt i _ hli)] at si
    rw [← a4, ← colSum_perm (hclAt k _ hkc)]
    refine ⟨?_, ?_⟩
    · refine le_trans (colSum_subset (hnodup k) g2 ?_) si.1
      intro c hc
      refine openCols_nonneg ht hb (hwf.cols w' (List.mem_of_getElem? b1)) b3.1 c ?_
      rw [← b4]; exact (hclAt i _ hli).mem_iff.mp hc
    · intro he
      have heq : isEq l k = true := by
        unfold isEq; rw [hkc]; exact a5.mpr he
      obtain ⟨e1, e2⟩ := g3 heq
      unfold isEq at e2
      rw [hli] at e2
      rw [← e1]
      exact si.2 (b5.mp e2)
  · exact hx.rows w (List.mem_append_left _ (left_of_flag hm (List.getElem?_eq_getElem hdl) hd))

/-- **C130.**  The exchange of rows for clique cuts keeps the feasible points. -/
theorem treat_points_partial {P : Prob} {cuts : List RowCut} (hwf : (withCuts P cuts).WF) (ht : Tame8 (withCuts P cuts))
    (hdbl : P.inf ≤ dblMax) (hval : Valid P cuts) {special : Bool} {steps : Nat} {P' : Prob}
    (h : treat P cuts special steps = .ok (some P')) (x : Nat → ℚ) : P'.Feasible x ↔ P.Feasible x := by
  unfold treat at h
  split at h
  · obtain rfl := Option.some.inj (Except.ok.inj h); rfl
  split at h
  · cases h
  rename_i o ho
  split at h
  · cases h
  rename_i o' cs' hg
  obtain ⟨l, s, hf⟩ := facts ht hg
  rcases hk : keptCuts P.rows.length o'.dup (used8 (withCuts P cuts)) steps P.rows.length cuts with _ | kc
  · rw [hk] at h; cases Except.ok.inj h
  rw [hk] at h
  obtain rfl := Option.some.inj (Except.ok.inj h)
  unfold exchange
  split
  · refine ⟨exchange_sound hwf ht hval.lower hf hk, ?_⟩
    intro hx
    refine ⟨?_, hx.lower, hx.upper, hx.int⟩
    intro w hw
    rcases List.mem_append.mp hw with hw | hw
    · exact hx.rows w (left_sub hw)
    · obtain ⟨c, hc, rfl⟩ := List.mem_map.mp hw
      have hc := keptCuts_sub cuts hk c hc
      obtain ⟨-, h2⟩ := hval.sat x hx c hc
      refine ⟨?_, ?_⟩
      · intro h3
        have := hval.lower c hc
        have h4 : (cutRow c).lb = c.lb := rfl
        rw [h4] at h3
        exact absurd this (not_le.mpr h3)
      · intro h3
        exact h2 (lt_of_lt_of_le h3 hdbl)
  · rfl

/-- **C131.**  The loops over the cuts end if no clique cut has the same columns as another clique. -/
theorem treat_stops_partial {P : Prob} {cuts : List RowCut} (hwf : (withCuts P cuts).WF) (ht : Tame8 (withCuts P cuts))
    (htw : NoCopies P cuts) {special : Bool} {steps : Nat} (hst : 3 ≤ steps) : treat P cuts special steps ≠ .ok none := by
  unfold treat
  split
  · simp
  split
  · simp
  split
  · simp
  rename_i o' cs' hg
  obtain ⟨l, s, hf⟩ := facts ht hg
  intro h
  have h := Except.ok.inj h
  rw [Option.map_eq_none_iff] at h
  refine absurd h (keptCuts_some ?_ cuts _)
  obtain ⟨k1, k2, k3⟩ := cliques_ok hwf ht hf.cl
  have hlen : (sorted8 l).length = l.length := List.length_map _
  obtain ⟨out0, h1, h2⟩ := run8_spec k1 k2 hf.run
  rw [hlen] at h1 h2
  have hperm : ∀ c : Clq, (c.cols.insertionSort (· ≤ ·)).Perm c.cols := fun c => List.perm_insertionSort _ _
  -- entries of the second half are never -2
  have hus : ∀ m, used8 (withCuts P cuts) m ≠ -2 := by
    intro m
    by_cases hm : ∃ c ∈ l, c.row = m
    · obtain ⟨c, hc, rfl⟩ := hm
      obtain ⟨k, hk⟩ := List.mem_iff_getElem?.mp hc
      rw [hf.used k c hk]
      rcases l[s.used k]? with _ | d
      · exact fun h => by have h : ((s.used k : ℕ) : ℤ) = -2 := h; omega
      · exact fun h => by have h : ((d.row : ℕ) : ℤ) = -2 := h; omega
    · push Not at hm
      rw [hf.unused m hm]
      norm_num
  -- a cut that goes is part of a clique that stays
  have hnext : ∀ e : ℤ, (P.rows.length : ℤ) ≤ e → dupAt o'.dup (used8 (withCuts P cuts)) e.toNat = -2 →
      dupAt o'.dup (used8 (withCuts P cuts)) (used8 (withCuts P cuts) e.toNat).toNat ≠ -2 := by
    intro e he hd
    unfold dupAt at hd
    split at hd
    · rename_i hlt
      rw [List.getElem?_eq_getElem hlt, Option.getD_some] at hd
      obtain ⟨k, c, hkc, hcr, hv⟩ := hf.other e.toNat (by rw [List.getElem?_eq_getElem hlt, hd])
      have hklt := (List.getElem?_eq_some_iff.mp hkc).1
      rcases h2 k hv with ⟨h3, -⟩ | ⟨-, -, i, hi, h4, -, -, h7⟩
      · exfalso
        obtain ⟨k', hk', h4, h5, -⟩ := h1 k hklt h3
        have hkk : k ≠ k' := by rintro rfl; exact h4 h3
        have hlk' : l[k']? = some l[k'] := List.getElem?_eq_getElem hk'
        obtain ⟨m, r, a1, a2, a3, a4, -⟩ := hf.cl.from_ c (List.mem_of_getElem? hkc)
        obtain ⟨m', r', b1, b2, b3, b4, -⟩ := hf.cl.from_ l[k'] (List.getElem_mem hk')
        have hne : m ≠ m' := by
          intro he
          exact hkk ((row_inj hf.order hkc hlk').2 (by omega))
        refine htw m (List.getElem?_eq_some_iff.mp a1).1 m' (List.getElem?_eq_some_iff.mp b1).1 ⟨by omega, hne, ?_, ?_⟩ ?_
        · rw [a1]; exact a3
        · rw [b1]; exact b3
        · rw [a1, b1]
          show (openCols (withCuts P cuts) r.coefs).Perm (openCols (withCuts P cuts) r'.coefs)
          rw [← a4, ← b4]
          have h6 := h5
          rw [clAt_sorted8, clAt_sorted8, hkc, hlk'] at h6
          exact (hperm c).symm.trans ((List.Perm.of_eq h6.symm).trans (hperm _))
      · have hli : l[i]? = some l[i] := List.getElem?_eq_getElem hi
        have hu := hf.used k c hkc
        rw [h7, hli] at hu
        rw [hcr] at hu
        rw [hu]
        have hfl := hf.flag i _ hli
        rw [if_neg h4] at hfl
        have hil := (List.getElem?_eq_some_iff.mp hfl).1
        unfold dupAt
        dsimp only
        rw [Int.toNat_natCast, if_pos hil, hfl]
        norm_num
    · exact absurd hd (hus _)
  intro e
  obtain ⟨f, rfl⟩ : ∃ f, steps = f + 3 := ⟨steps - 3, by omega⟩
  unfold chase
  split
  · rename_i he
    split
    · rename_i hd
      unfold chase
      split
      · rw [if_neg (hnext e he hd)]
        simp
      · simp
    · simp
  · simp

/-- **C132.**  Without the special setting of the clique generator the exchange never gives a problem with more rows. -/
theorem treat_rows {P : Prob} {cuts : List RowCut} {steps : Nat} {P' : Prob} (h : treat P cuts false steps = .ok (some P')) :
    P'.rows.length ≤ P.rows.length := by
  unfold treat at h
  split at h
  · obtain rfl := Option.some.inj (Except.ok.inj h); exact le_refl _
  split at h
  · cases h
  split at h
  · cases h
  rename_i o' cs' hg
  rcases hk : keptCuts P.rows.length o'.dup (used8 (withCuts P cuts)) steps P.rows.length cuts with _ | kc
  · rw [hk] at h; cases Except.ok.inj h
  rw [hk] at h
  obtain rfl := Option.some.inj (Except.ok.inj h)
  unfold exchange
  split
  · rename_i hc
    have hc := hc.resolve_right (by decide)
    have := left_length P o'.dup
    show (leftRows P o'.dup ++ kc.map cutRow).length ≤ _
    rw [List.length_append, List.length_map]
    omega
  · exact le_refl _

end Cgl.CutRows
