import Verif.MIR.Write

/-!
# Validity of the cuts of one call
-/

namespace Cgl.MIR

/-- The mixed knapsack, if there is one, is clean. -/
def CleanResult (P : Prob) (o : Option (Option Mk)) : Prop := ∀ m, o = some (some m) → KnapClean P m.knap

instance (P : Prob) (o : Option (Option Mk)) : Decidable (CleanResult P o) :=
  match o with
  | some (some m) =>
    if h : KnapClean P m.knap then .isTrue (by intro m' e; cases e; exact h)
    else .isFalse (fun hc => h (hc m rfl))
  | some none => .isTrue (by intro m' e; cases e)
  | none => .isTrue (by intro m' e; cases e)

/-- The tolerance treatment does no harm in a run: the aggregated rows and the mixed knapsacks have no coefficients that are
dropped wrongly. -/
def CleanRun (v2 : Bool) (par : Par) (P : Prob) (pre : Pre) (rows : List Row) (act xlp : Nat → ℚ) : Prop :=
  ∀ i ∈ startRows pre rows, ∀ g ∈ aggsFrom v2 par P pre rows act xlp i,
    (∀ p ∈ g.row, EntryClean v2 P pre.nCols p) ∧
    ∀ s ∈ signs par.multiply, CleanResult P
      (boundSubst v2 P pre par.criterion xlp g.extra (g.row.map fun p => (p.1, s * p.2)) (s * g.rhs))

instance (v2 : Bool) (par : Par) (P : Prob) (pre : Pre) (rows : List Row) (act xlp : Nat → ℚ) :
    Decidable (CleanRun v2 par P pre rows act xlp) := by
  unfold CleanRun; infer_instance

theorem keys_scale (s : ℚ) (v : SVec) : keys (v.map fun p => (p.1, s * p.2)) = keys v := by
  simp [keys, List.map_map, Function.comp]

theorem dot_scale (s : ℚ) (v : SVec) (y : Nat → ℚ) : SVec.dot (v.map fun p => (p.1, s * p.2)) y = s * SVec.dot v y := by
  induction v with
  | nil => simp
  | cons p v ih => simp only [List.map_cons, SVec.dot_cons, ih]; ring

theorem entryClean_scale {v2 : Bool} {P : Prob} {n : Nat} {p : Nat × ℚ} {s : ℚ} (hs : s = 1 ∨ s = -1)
    (h : EntryClean v2 P n p) : EntryClean v2 P n (p.1, s * p.2) := by
  rcases hs with rfl | rfl
  · simpa using h
  · unfold EntryClean at *
    simpa using h

theorem signs_mem {m : Bool} {s : ℚ} (h : s ∈ signs m) : s = 1 ∨ s = -1 := by
  unfold signs at h
  split at h <;> simp at h
  · exact h
  · exact Or.inl h

theorem trySign_ok {v2 deep : Bool} {par : Par} {P : Prob} {pre : Pre} {rows : List Row} {x xlp : Nat → ℚ} {g : Agg} {s : ℚ}
    {cs cs' : List RowCut} (hso : SorterOk par) (hwf : P.WF) (hf : P.Feasible x) (hr : Representable P x)
    (hui : UpperIntegral P) (hok : PreOk P pre x) (hsub : SubOf rows P) (hg : AggInv pre rows x g)
    (hcl : ∀ p ∈ g.row, EntryClean v2 P pre.nCols p) (hs : s = 1 ∨ s = -1)
    (hk : CleanResult P
      (boundSubst v2 P pre par.criterion xlp g.extra (g.row.map fun p => (p.1, s * p.2)) (s * g.rhs)))
    (h : trySign v2 deep par P pre rows xlp g s cs = some cs') : ∀ c ∈ cs', c ∈ cs ∨ c.SatIn P.inf x := by
  unfold trySign at h
  simp only at h
  split at h
  · cases h
  · simp only [Option.some.injEq] at h; subst h; exact fun c hc => Or.inl hc
  · rename_i m hm
    replace hk := hk m hm
    split at h
    · cases h
    · simp only [Option.some.injEq] at h; subst h; exact fun c hc => Or.inl hc
    · rename_i cut hcut
      have hknap : KnapOk P m.knap m.rhs x _ :=
        boundSubst_ok (y := ext pre rows g.used x) hf hr hok (by rw [keys_scale]; exact hg.nodup)
        (fun p hp => by
          obtain ⟨q, hq, rfl⟩ := List.mem_map.1 hp
          exact entryClean_scale hs (hcl q hq))
        (fun j hj => by unfold ext; rw [if_pos hj])
        (fun j hj => by unfold ext; rw [if_neg (not_lt.mpr hj)]; exact slackVal_nonneg _ hg.ok)
        (by rw [dot_scale, hg.eq]) hm hk
      have hsat := cMirSeparation_ok hso hwf hf hr hui hok hsub hg.ok hknap hcut
      split at h
      · simp only [Option.some.injEq] at h; subst h; exact fun c hc => Or.inl hc
      · simp only [Option.some.injEq] at h
        subst h
        intro c hc
        rcases mem_insertIfNotDuplicate.1 hc with hc | ⟨rfl, _⟩
        · exact Or.inl hc
        · exact Or.inr hsat

theorem foldOpt_inv {α β : Type} {f : β → α → Option β} {I : β → Prop} : ∀ (l : List α) (b b' : β),
    (∀ a ∈ l, ∀ b b', I b → f b a = some b' → I b') → I b → foldOpt f l b = some b' → I b'
  | [], b, b', _, hb, h => by simp only [foldOpt, Option.some.injEq] at h; exact h ▸ hb
  | a :: l, b, b', hf, hb, h => by
    unfold foldOpt at h
    split at h
    · cases h
    · rename_i b1 h1
      exact foldOpt_inv l b1 b' (fun a' ha => hf a' (List.mem_cons_of_mem _ ha)) (hf a List.mem_cons_self b b1 hb h1) h

theorem subRows_sub {P : Prob} {pre : Pre} {rows : List Row} (h : subRows P pre = some rows) : SubOf rows P := by
  unfold subRows at h
  split at h
  · obtain rfl := Option.some.inj h
    intro i r hi
    rw [List.getElem?_take] at hi
    split at hi
    · exact hi
    · cases hi
  · cases h

/-- Every cut added by `generateMirCuts` holds at every point that agrees with the preprocessed data. -/
theorem generateMirCuts_ok {v2 deep : Bool} {par : Par} {P : Prob} {pre : Pre} {act x xlp : Nat → ℚ} {cs cs' : List RowCut}
    (hso : SorterOk par) (hwf : P.WF) (hf : P.Feasible x) (hr : Representable P x) (hui : UpperIntegral P)
    (hok : PreOk P pre x) (hcl : ∀ rows, subRows P pre = some rows → CleanRun v2 par P pre rows act xlp)
    (h : generateMirCuts v2 deep par P pre act xlp cs = some cs') : ∀ c ∈ cs', c ∈ cs ∨ c.SatIn P.inf x := by
  unfold generateMirCuts at h
  split at h
  · cases h
  · rename_i rows hrows
    have hsub := subRows_sub hrows
    have hcl' := hcl rows hrows
    refine foldOpt_inv (I := fun l => ∀ c ∈ l, c ∈ cs ∨ c.SatIn P.inf x) _ cs cs' ?_ (fun c hc => Or.inl hc) h
    intro i hi l l' hl hl'
    unfold fromRow at hl'
    simp only at hl'
    split at hl'
    · cases hl'
    · refine foldOpt_inv (I := fun l => ∀ c ∈ l, c ∈ cs ∨ c.SatIn P.inf x) _ l l' ?_ hl hl'
      intro g hg k k' hk hk'
      refine foldOpt_inv (I := fun l => ∀ c ∈ l, c ∈ cs ∨ c.SatIn P.inf x) _ k k' ?_ hk hk'
      intro s hs q q' hq hq' c hc
      have hgi := aggsFrom_inv hwf hok hsub hi g hg
      rcases trySign_ok hso hwf hf hr hui hok hsub hgi (hcl' i hi g hg).1 (signs_mem hs) ((hcl' i hi g hg).2 s hs) hq' c hc with h1 | h1
      · exact hq c h1
      · exact Or.inr h1

/-! ### Runs without aggregation -/

theorem copyRow_clean {v2 : Bool} {P : Prob} {n k : Nat} {coefs : SVec} {s : Sense} {b l : ℚ}
    (h : ∀ p ∈ coefs, p.2 = 0 ∨ 1 / 10 ^ 6 < |p.2|) : ∀ p ∈ (copyRow n k coefs s b l).1, EntryClean v2 P n p := by
  have key : ∀ p : Nat × ℚ, (p.2 = 0 ∨ 1 / 10 ^ 6 < |p.2|) → EntryClean v2 P n p := by
    intro p hp
    right
    split
    · rcases hp with hp | hp
      · rw [hp]; norm_num
      · exact ne_of_gt hp
    · exact hp
  intro p hp
  apply key
  unfold copyRow at hp
  split at hp
  · rcases List.mem_append.1 hp with hp | hp
    · exact h p hp
    · simp at hp; subst hp; right; norm_num
  · rcases List.mem_append.1 hp with hp | hp
    · exact h p hp
    · simp at hp; subst hp; right; norm_num
  · exact h p hp

/-- Integer columns cannot take negative values. -/
def IntNonneg (P : Prob) : Prop := ∀ j < P.nCols, P.isInt j = true → -1 < P.colLower j

instance (P : Prob) : Decidable (IntNonneg P) := by unfold IntNonneg; infer_instance

theorem substOne_keys {v2 : Bool} {P : Prob} {pre : Pre} {crit : Nat} {xlp : Nat → ℚ} {extra : List ℚ} {m m' : Mk}
    {p : Nat × ℚ} (hv : ∀ j y v, pre.vub j = some (y, v) ∨ pre.vlb j = some (y, v) → y < pre.nCols ∧ P.isInt y = true)
    (hm : ∀ j ∈ keys m.knap, j < pre.nCols ∧ P.isInt j = true) (h : substOne v2 P pre crit xlp extra m p = .go m') :
    ∀ j ∈ keys m'.knap, j < pre.nCols ∧ P.isInt j = true := by
  have hsub : ∀ (vb : Option (Nat × ℚ)) (a b : ℚ), (∀ y v, vb = some (y, v) → y < pre.nCols ∧ P.isInt y = true) →
      ∀ j ∈ keys (substVB m vb a b).knap, j < pre.nCols ∧ P.isInt j = true := by
    intro vb a b hvb j hj
    cases vb with
    | none => exact hm j hj
    | some yv =>
      rcases mem_keys_addCoef.1 hj with hj | rfl
      · exact hm j hj
      · exact hvb yv.1 yv.2 rfl
  unfold substOne at h
  simp only at h
  split at h
  · cases h; exact hm
  split at h
  · split at h
    · split at h
      · cases h; exact hm
      · cases h
    · cases h; exact hm
  split at h
  · rename_i hint
    cases h
    intro j hj
    rcases mem_keys_addCoef.1 hj with hj | rfl
    · exact hm j hj
    · exact hint
  split at h
  · split at h
    · cases h
    split at h
    · split at h <;> cases h <;> exact hsub _ _ _ (fun y v e => hv _ y v (Or.inr e))
    · split at h <;> cases h <;> exact hsub _ _ _ (fun y v e => hv _ y v (Or.inl e))
  · split at h <;> cases h <;> exact hm

theorem substLoop_keys {v2 : Bool} {P : Prob} {pre : Pre} {crit : Nat} {xlp : Nat → ℚ} {extra : List ℚ}
    (hv : ∀ j y v, pre.vub j = some (y, v) ∨ pre.vlb j = some (y, v) → y < pre.nCols ∧ P.isInt y = true) :
    ∀ (ps : SVec) (m m' : Mk), (∀ j ∈ keys m.knap, j < pre.nCols ∧ P.isInt j = true) →
    substLoop v2 P pre crit xlp extra ps m = .go m' → ∀ j ∈ keys m'.knap, j < pre.nCols ∧ P.isInt j = true
  | [], m, m', hm, h => by simp only [substLoop, Step.go.injEq] at h; exact h ▸ hm
  | p :: ps, m, m', hm, h => by
    unfold substLoop at h
    split at h
    · rename_i m1 h1
      exact substLoop_keys hv ps m1 m' (substOne_keys hv hm h1) h
    · cases h
    · cases h

theorem boundSubst_go {v2 : Bool} {P : Prob} {pre : Pre} {crit : Nat} {xlp : Nat → ℚ} {extra : List ℚ} {row : SVec} {rhs : ℚ}
    {m : Mk} (h : boundSubst v2 P pre crit xlp extra row rhs = some (some m)) :
    substLoop v2 P pre crit xlp extra row ⟨[], rhs, 0, []⟩ = .go m := by
  unfold boundSubst at h
  split at h
  · cases h
  · simp at h
  · rename_i m' hm
    split at h
    · simp at h
    split at h
    · simp at h
    split at h
    · simp at h
    split at h
    · simp at h
    simp only [Option.some.injEq] at h
    exact h ▸ hm

/-- Without negative integer columns every knapsack is clean. -/
theorem knapClean_of_nonneg {v2 : Bool} {P : Prob} {pre : Pre} {crit : Nat} {xlp x : Nat → ℚ} {extra : List ℚ} {row : SVec}
    {rhs : ℚ} (hok : PreOk P pre x) (hn : IntNonneg P) :
    CleanResult P (boundSubst v2 P pre crit xlp extra row rhs) := by
  intro m hm p hp
  have := substLoop_keys (fun j y v h => by
    rcases h with h | h
    · exact ⟨hok.nCols ▸ (hok.vub j y v h).1, (hok.vub j y v h).2.1⟩
    · exact ⟨hok.nCols ▸ (hok.vlb j y v h).1, (hok.vlb j y v h).2.1⟩) row _ m (by simp) (boundSubst_go hm) p.1
      (List.mem_map.2 ⟨p, hp, rfl⟩)
  exact Or.inr (Or.inr (hn p.1 (hok.nCols ▸ this.1) this.2))

/-- With `MAXAGGR_` at most 1, clean data make a clean run. -/
theorem cleanRun_one {v2 : Bool} {par : Par} {P : Prob} {pre : Pre} {rows : List Row} {act xlp x : Nat → ℚ}
    (hok : PreOk P pre x) (hn : IntNonneg P) (hsub : SubOf rows P) (hcl : RowsClean P.rows) (h1 : par.maxAggr ≤ 1) :
    CleanRun v2 par P pre rows act xlp := by
  intro i _ g hg
  refine ⟨?_, fun s _ => knapClean_of_nonneg hok hn⟩
  unfold aggsFrom at hg
  split at hg
  · cases hg
  · rename_i g0 h0
    rw [show par.maxAggr - 1 = 0 by omega] at hg
    simp only [chain, List.mem_singleton] at hg
    subst hg
    unfold startAgg at h0
    split at h0
    · rename_i r t s b h2 h3
      obtain rfl := Option.some.inj h0
      exact copyRow_clean (hcl r (List.mem_of_getElem? (hsub i r h2))).1
    · cases h0

end Cgl.MIR
