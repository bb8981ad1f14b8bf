import Verif.ZeroHalf.Faults

/-!
# Zero-half cuts: the properties
-/

namespace Cgl.ZeroHalf

/-! ### Validity -/

theorem valid_of_found {P0 Q : Prob} {I : Ilp} {x : Nat → ℚ} {L : List (ℤ × ℤ)} {z : ZCut} (hW : P0.WF)
    (hE : ExactCoefs P0) (hinf : (intMax : ℚ) < P0.inf) (hI : Holds P0 I) (hlen : L.length = P0.nCols)
    (hL : ∀ j < P0.nCols, P0.isInt j = true → (bnd I.bnds j).1 ≠ intMax →
      intBounds (Q.colLower j) (Q.colUpper j) = .ok (bnd L j))
    (hB : BoundsFit (atCall P0 Q) x) (hz : Found ⟨L, I.rows⟩ x z) : (toRowCut z).Valid (atCall P0 Q) := by
  intro y hy
  obtain ⟨⟨cyc, hc⟩, -⟩ := hz
  have := getCut_valid (I := ⟨L, I.rows⟩) (fun r hr => by simpa [hlen] using holds_wf hW hI r hr) hc
    (point_ok hW hE hinf hI L hL hB hy)
  refine ⟨fun h => absurd h (lt_irrefl _), fun _ => ?_⟩
  rw [dot_toRowCut]
  exact this

/-- **C29.**  Whatever happened since the last `refreshSolver` with `P0`, a call without the flag for global cuts only
adds cuts that every integer point satisfies that is feasible for the rows of `P0` and the column bounds of the
call.  The coefficients are to be exact integers where they pass for integers, and column bounds that do not fit an
`int` are to be far from the LP value. -/
theorem generate_valid_partial {P0 P : Prob} {o1 o2 o o' : Obj} {post : List Op} {env : Env} {x : Nat → ℚ}
    {cs cs' : List RowCut} (hrows : P0.rows ≠ []) (hW : P0.WF) (hE : ExactCoefs P0)
    (hinf : (intMax : ℚ) < P0.inf) (h1 : refresh P0 o1 = .ok o2) (h2 : run o2 post = .ok o) (hT : Tame P0 post)
    (hB : BoundsFit (atCall P0 P) x) (hg : o.glob = false) (h : generate env o P x cs = .ok (cs', o')) :
    ∀ c ∈ cs', c ∈ cs ∨ c.Valid (atCall P0 P) := by
  have hk := run_kept post o2 o hT (refresh_kept hrows h1) h2
  intro c hc
  rcases generate_ok h with ⟨-, rfl, -⟩ | ⟨I, L, hI, hn, hL, -, h3⟩
  · exact Or.inl hc
  rcases h3 c hc with h4 | ⟨z, hz, rfl, -⟩
  · exact Or.inl h4
  have hH := hk I hI
  unfold callBounds at hL
  rw [hg] at hL
  simp only [Bool.false_eq_true, if_false] at hL
  obtain ⟨h5, h6⟩ := redo_spec hL
  have hnn : P.nCols = P0.nCols := by rw [hn, hH.len]
  exact Or.inr (valid_of_found hW hE hinf hH (by omega) (fun j hj _ hne => h6 j (by omega) hne) hB hz)

/-- **C29, global cuts.**  If every call since the last `refreshSolver` with `P0` was made with the flag for global
cuts, the cuts are valid for `P0`. -/
theorem generate_valid_global_partial {P0 P : Prob} {o1 o2 o o' : Obj} {post : List Op} {env : Env} {x : Nat → ℚ}
    {cs cs' : List RowCut} (hrows : P0.rows ≠ []) (hW : P0.WF) (hE : ExactCoefs P0)
    (hinf : (intMax : ℚ) < P0.inf) (h1 : refresh P0 o1 = .ok o2) (h2 : run o2 post = .ok o) (hT : Tame P0 post)
    (hG : GlobalOnly o2 post) (hB : BoundsFit P0 x) (hg : o.glob = true)
    (h : generate env o P x cs = .ok (cs', o')) : ∀ c ∈ cs', c ∈ cs ∨ c.Valid P0 := by
  have hk := run_kept post o2 o hT (refresh_kept hrows h1) h2
  have hkg := run_keptGlobal post o2 o hT hG (refresh_keptGlobal hrows h1) h2
  intro c hc
  rcases generate_ok h with ⟨-, rfl, -⟩ | ⟨I, L, hI, hn, hL, -, h3⟩
  · exact Or.inl hc
  rcases h3 c hc with h4 | ⟨z, hz, rfl, -⟩
  · exact Or.inl h4
  have hH := hk I hI
  unfold callBounds at hL
  rw [hg] at hL
  simp only [if_true, Except.ok.injEq] at hL
  subst hL
  refine Or.inr (valid_of_found (Q := P0) hW hE hinf hH hH.len ?_ hB hz)
  intro j hj hi _
  have := (mapM_range (hkg I hI)).2 j hj
  unfold colBounds at this
  rwa [if_pos hi] at this

/-! ### The cuts cut off -/

/-- **C62.**  Every cut a call adds is violated by more than 0.0011 at the point of the LP relaxation.  Nothing is
asked of the problem or of the history. -/
theorem generate_cutsOff {P : Prob} {o o' : Obj} {env : Env} {x : Nat → ℚ} {cs cs' : List RowCut}
    (h : generate env o P x cs = .ok (cs', o')) :
    ∀ c ∈ cs', c ∈ cs ∨ c.ub + 11 / 10000 < SVec.dot c.row x := by
  intro c hc
  rcases generate_ok h with ⟨-, rfl, -⟩ | ⟨I, L, hI, hn, hL, -, h3⟩
  · exact Or.inl hc
  rcases h3 c hc with h4 | ⟨z, ⟨-, hz⟩, rfl, -⟩
  · exact Or.inl h4
  right
  rw [dot_toRowCut]
  unfold ZCut.violation at hz
  have : minViol = 11 / 10000 := by norm_num [minViol, epsTol]
  rw [this] at hz
  show ((z.rhs : ℤ) : ℚ) + 11 / 10000 < idot z.coefs x
  linarith

/-! ### Shape -/

theorem define_sorted (mc : Nat) (s : (Nat → ℤ) × ℤ) :
    ((defineCut mc s).coefs.map Prod.fst).Pairwise (· < ·) := by
  have h : ((defineCut mc s).coefs.map Prod.fst).Sublist (List.range mc) := by
    unfold defineCut
    have := (List.filter_sublist (p := fun p : Nat × ℤ => decide (p.2 ≠ 0))
      (l := (List.range mc).map fun j => (j, s.1 j))).map Prod.fst
    rw [List.map_map] at this
    have e : (Prod.fst ∘ fun j => (j, s.1 j)) = id := rfl
    rw [e, List.map_id] at this
    exact this
  exact List.pairwise_lt_range.sublist h

theorem bestCut_supp {I : Ilp} {x : Nat → ℚ} {s s'' : (Nat → ℤ) × ℤ} {v : ℚ}
    (h : bestCut I x s = .ok (some (s'', v))) (j : Nat) (hj : s''.1 j ≠ 0) : s.1 j ≠ 0 := by
  obtain ⟨ts, slack, s', h1, h2, h3⟩ := bestCut_ok h
  obtain ⟨ho, -⟩ := bestWeakening_spec _ _ (offersOf_fits I x _) _ _ _ _ h1
  rw [halve_noExit h1 h2] at h3
  simp only [Except.ok.injEq] at h3
  subst h3
  have hj' : s'.1 j ≠ 0 := by intro h0; simp [h0] at hj
  have hc := applyAll_coef _ _ _ _ (by rw [zip_fst _ _ (offers_length ho)]; exact oddCols_nodup _ _) h2 j
  split at hc
  · rename_i hm
    rw [zip_fst _ _ (offers_length ho)] at hm
    have := (mem_oddCols.mp hm).2
    intro h0; rw [h0] at this; simp [isOdd] at this
  · rw [← hc]; exact hj'

/-- **C63.**  Every cut a call adds has an upper bound only, integer data throughout, no zero coefficient, and its
columns are integer columns of the problem in increasing order. -/
theorem generate_neat {P0 P : Prob} {o1 o2 o o' : Obj} {post : List Op} {env : Env} {x : Nat → ℚ}
    {cs cs' : List RowCut} (hrows : P0.rows ≠ []) (hW : P0.WF) (h1 : refresh P0 o1 = .ok o2)
    (h2 : run o2 post = .ok o) (hT : Tame P0 post) (h : generate env o P x cs = .ok (cs', o')) :
    ∀ c ∈ cs', c ∈ cs ∨ Neat P0 c := by
  have hk := run_kept post o2 o hT (refresh_kept hrows h1) h2
  intro c hc
  rcases generate_ok h with ⟨-, rfl, -⟩ | ⟨I, L, hI, hn, hL, -, h3⟩
  · exact Or.inl hc
  rcases h3 c hc with h4 | ⟨z, ⟨⟨cyc, hcut⟩, -⟩, rfl, -⟩
  · exact Or.inl h4
  right
  obtain ⟨s, s', v, ha, hb, rfl⟩ := getCut_ok hcut
  have hmem : ∀ p ∈ (defineCut L.length s').coefs, p.2 ≠ 0 ∧ s'.1 p.1 ≠ 0 := by
    intro p hp
    unfold defineCut at hp
    simp only [List.mem_filter, List.mem_map, decide_eq_true_eq] at hp
    obtain ⟨⟨j, -, rfl⟩, hp⟩ := hp
    exact ⟨hp, hp⟩
  refine ⟨rfl, ⟨_, rfl⟩, ?_, ?_, ?_⟩
  · intro p hp
    obtain ⟨q, hq, rfl⟩ := List.mem_map.mp hp
    exact ⟨⟨q.2, rfl⟩, by simpa using (hmem q hq).1⟩
  · have := define_sorted L.length s'
    unfold toRowCut
    rw [List.map_map]
    exact this
  · intro p hp
    obtain ⟨q, hq, rfl⟩ := List.mem_map.mp hp
    rcases addRows_supp _ _ _ ha q.1 (bestCut_supp hb _ (hmem q hq).2) with h5 | ⟨r, hr, e, he, heq⟩
    · exact absurd rfl h5
    · have := holds_col hW (hk I hI) (picked_mem (I := ⟨L, I.rows⟩) hr) he
      rw [heq] at this
      exact ⟨this.1, this.2.1⟩

/-! ### Calls return -/

theorem castZ_error {z : ℤ} {e : Fault} (h : castZ z = .error e) : e = .cast := by
  unfold castZ at h
  split at h
  · cases h
  · injection h with h; exact h.symm

/-- **C64.**  A call can go wrong only because a column bound or the arithmetic leaves the range of `int`: it never
divides by zero, never fails an assertion and never runs into the `exit(0)` of the two checks of the cut. -/
theorem generate_fault {P0 P : Prob} {o1 o2 o : Obj} {post : List Op} {env : Env} {x : Nat → ℚ} {cs : List RowCut}
    {e : Fault} (hrows : P0.rows ≠ []) (hW : P0.WF) (h1 : refresh P0 o1 = .ok o2) (h2 : run o2 post = .ok o)
    (hT : Tame P0 post) (hn : P.nCols = P0.nCols) (h : generate env o P x cs = .error e) :
    e = .cast ∨ e = .overflow := by
  have hk := run_kept post o2 o hT (refresh_kept hrows h1) h2
  rcases hI : o.ilp with _ | I
  · unfold generate at h; rw [hI] at h; cases h
  have hH := hk I hI
  rcases generate_error hI (by rw [hn, hH.len]) (fun r hr => by rw [hn]; exact holds_wf hW hH r hr) h with
    ⟨L, h3, -, -⟩ | ⟨L, cyc, -, h3⟩
  · left
    unfold redoBounds at h3
    generalize List.range P.nCols = l at h3
    induction l with
    | nil => simp [pure, Except.pure] at h3
    | cons j t ih =>
      simp only [List.mapM_cons, bind_error] at h3
      rcases h3 with h3 | ⟨b, -, h3 | ⟨L', -, h3⟩⟩
      · split at h3
        · cases h3
        · simp only [intBounds, bind_error] at h3
          rcases h3 with h3 | ⟨b, -, h3 | ⟨c, -, h3⟩⟩
          · exact castZ_error h3
          · exact castZ_error h3
          · exact absurd h3 pure_error
      · exact ih h3
      · exact absurd h3 pure_error
  · exact Or.inr (getCut_error _ _ _ _ h3)

theorem rnd_abs (v : ℚ) : |(rnd v : ℚ)| ≤ |v| + 1 := by
  unfold rnd
  have h1 := Int.floor_le (v + 1 / 2)
  have h2 := Int.lt_floor_add_one (v + 1 / 2)
  rw [abs_le]
  have h3 := neg_abs_le v
  have h4 := le_abs_self v
  constructor <;> linarith

theorem entries_abs (r : Row) : absSum (entries r) ≤ (r.coefs.map fun p => |p.2| + 1).sum := by
  unfold absSum entries
  generalize r.coefs = l
  induction l with
  | nil => simp
  | cons p t ih =>
    simp only [List.map_cons, List.filter_cons, List.sum_cons]
    have := rnd_abs p.2
    have h0 := abs_nonneg p.2
    split
    · simp only [List.map_cons, List.sum_cons]; linarith
    · linarith

theorem sum_two (l : List (Nat × ℚ)) : (l.map fun p => 2 * (|p.2| + 1)).sum = 2 * (l.map fun p => |p.2| + 1).sum := by
  induction l with
  | nil => simp
  | cons p t ih => simp only [List.map_cons, List.sum_cons, ih]; ring

theorem storedRow_coef (r : Row) : coefTotal (storedRows r) ≤ (r.coefs.map fun p => 2 * (|p.2| + 1)).sum := by
  rw [sum_two]
  have h := entries_abs r
  have h0 := absSum_nonneg (entries r)
  unfold storedRows coefTotal
  split
  · simp only [List.map_cons, List.map_nil, List.sum_cons, List.sum_nil]; linarith
  · split <;> simp only [List.map_cons, List.map_nil, List.sum_cons, List.sum_nil] <;> linarith

theorem storedRow_rhs {L : List (ℤ × ℤ)} {r : Row} (hg : rowGood L r = true) :
    rhsTotal (storedRows r) ≤ size r.lb + size r.ub + 2 := by
  have hr := (rowGood_spec hg).2.2
  have n1 : ∀ b : ℚ, 0 ≤ size b := by intro b; unfold size; split <;> [exact abs_nonneg _; exact le_rfl]
  have hl : -(10 ^ 20 : ℚ) < r.lb → |(rnd r.lb : ℚ)| ≤ size r.lb + 1 := by
    intro h
    unfold size
    rw [if_pos (rhsOk_lb hr h).2.le]
    exact rnd_abs _
  have hu : (ranged r = true ∨ ¬-(10 ^ 20 : ℚ) < r.lb) → |(rnd r.ub : ℚ)| ≤ size r.ub + 1 := by
    intro h
    unfold size
    rw [if_pos (rhsOk_ub hr h).2.le]
    exact rnd_abs _
  have m1 := n1 r.lb
  have m2 := n1 r.ub
  unfold storedRows rhsTotal
  split
  · rename_i h
    have hr' : -(10 ^ 20 : ℚ) < r.lb ∧ r.ub < 10 ^ 20 ∧ r.lb ≠ r.ub := by simpa [ranged] using h
    have := hl hr'.1
    have := hu (Or.inl h)
    simp only [List.map_cons, List.map_nil, List.sum_cons, List.sum_nil]; linarith
  · split
    · rename_i h
      have := hl h
      simp only [List.map_cons, List.map_nil, List.sum_cons, List.sum_nil]; linarith
    · rename_i h
      have := hu (Or.inr h)
      simp only [List.map_cons, List.map_nil, List.sum_cons, List.sum_nil]; linarith

theorem flat_le {α β : Type} (l : List α) (g : α → Bool) (s : α → List β) (f : β → ℚ) (b : α → ℚ)
    (hb : ∀ a ∈ l, 0 ≤ b a) (h : ∀ a ∈ l, g a = true → ((s a).map f).sum ≤ b a) :
    (((l.filter g).flatMap s).map f).sum ≤ (l.map b).sum := by
  induction l with
  | nil => simp
  | cons a t ih =>
    have ih := ih (fun c hc => hb c (List.mem_cons_of_mem _ hc)) (fun c hc => h c (List.mem_cons_of_mem _ hc))
    simp only [List.filter_cons, List.map_cons, List.sum_cons]
    split
    · rename_i hg
      have := h a List.mem_cons_self hg
      rw [List.flatMap_cons, List.map_append, List.sum_append]
      linarith
    · have := hb a List.mem_cons_self
      linarith

theorem size_nonneg (b : ℚ) : 0 ≤ size b := by unfold size; split <;> [exact abs_nonneg _; exact le_rfl]

theorem castZ_range {z v : ℤ} (h : castZ z = .ok v) : intMin ≤ z ∧ z ≤ intMax := by
  unfold castZ at h; split at h
  · assumption
  · cases h

theorem intBounds_lo_size {lo up : ℚ} {b : ℤ × ℤ} (h : intBounds lo up = .ok b) {x : ℚ}
    (hx : -(intMax : ℚ) ≤ lo ∨ -(intMax : ℚ) + 1 < x) (hu : x - b.1 ≤ 1) : |(b.1 : ℚ)| ≤ size lo + 1 := by
  have h1 := (intBounds_ok h).1
  have hr : b.1 ≤ intMax := by
    simp only [intBounds, bind_ok, pure_ok] at h
    obtain ⟨u, hu', v, hv, rfl⟩ := h
    have := castZ_range hu'
    rw [castZ_ok hu']; exact this.2
  split at h1
  · rename_i hlt
    rw [ceil_negMax] at h1
    rw [h1] at hu
    push_cast at hu
    rcases hx with hx | hx <;> linarith
  · rename_i hge
    push Not at hge
    have h2 := Int.le_ceil lo
    have h3 := Int.ceil_lt_add_one lo
    have hr' : (b.1 : ℚ) ≤ intMax := by exact_mod_cast hr
    have hab : |lo| ≤ intMax := by
      rw [h1] at hr'
      rw [abs_le]; constructor <;> linarith
    unfold size
    rw [if_pos hab, h1, abs_le]
    have := neg_abs_le lo
    have := le_abs_self lo
    constructor <;> linarith

theorem intBounds_up_size {lo up : ℚ} {b : ℤ × ℤ} (h : intBounds lo up = .ok b) (hup : -(intMax : ℚ) ≤ up) {x : ℚ}
    (hx : up ≤ intMax ∨ x < intMax - 1) (hu : b.2 - x ≤ 1) : |(b.2 : ℚ)| ≤ size up + 1 := by
  have h1 := (intBounds_ok h).2
  split at h1
  · rename_i hlt
    rw [floor_max] at h1
    rw [h1] at hu
    rcases hx with hx | hx <;> linarith
  · rename_i hge
    push Not at hge
    have h2 := Int.floor_le up
    have h3 := Int.lt_floor_add_one up
    have hab : |up| ≤ intMax := by rw [abs_le]; constructor <;> linarith
    unfold size
    rw [if_pos hab, h1, abs_le]
    have := neg_abs_le up
    have := le_abs_self up
    constructor <;> linarith

/-- The bounds of the integer columns fit. -/
def Castable (P0 P : Prob) : Prop :=
  ∀ j < P0.nCols, P0.isInt j = true → P.colLower j ≤ intMax ∧ -(intMax : ℚ) ≤ P.colUpper j

theorem intBounds_casts {lo up : ℚ} (h1 : lo ≤ intMax) (h2 : -(intMax : ℚ) ≤ up) :
    ∃ b, intBounds lo up = .ok b := by
  have e1 : ∃ u, castZ ⌈if lo < -intMax then (-intMax : ℚ) else lo⌉ = .ok u := by
    unfold castZ
    rw [if_pos]
    · exact ⟨_, rfl⟩
    · constructor
      · split
        · rw [ceil_negMax]; decide
        · rename_i h
          push Not at h
          have : -intMax ≤ ⌈lo⌉ := by
            have := h.trans (Int.le_ceil lo)
            exact_mod_cast this
          have : intMin ≤ -intMax := by decide
          omega
      · apply Int.ceil_le.mpr
        split
        · norm_num [intMax]
        · exact h1
  have e2 : ∃ u, castZ ⌊if up > intMax then (intMax : ℚ) else up⌋ = .ok u := by
    unfold castZ
    rw [if_pos]
    · exact ⟨_, rfl⟩
    · constructor
      · have : (-intMax : ℤ) ≤ ⌊if up > intMax then (intMax : ℚ) else up⌋ := by
          apply Int.le_floor.mpr
          split
          · norm_num [intMax]
          · push_cast; exact h2
        have : intMin ≤ -intMax := by decide
        omega
      · split
        · rw [floor_max]
        · rename_i h
          push Not at h
          have := (Int.floor_le up).trans h
          exact_mod_cast this
  obtain ⟨u, hu⟩ := e1
  obtain ⟨v, hv⟩ := e2
  refine ⟨(u, v), ?_⟩
  unfold intBounds
  rw [hu, hv]
  rfl

theorem mapM_total {α β : Type} (f : α → Except Fault β) (l : List α) (h : ∀ a ∈ l, ∃ b, f a = .ok b) :
    ∃ L, l.mapM f = .ok L := by
  induction l with
  | nil => exact ⟨[], rfl⟩
  | cons a t ih =>
    obtain ⟨b, hb⟩ := h a List.mem_cons_self
    obtain ⟨L, hL⟩ := ih (fun c hc => h c (List.mem_cons_of_mem _ hc))
    refine ⟨b :: L, ?_⟩
    simp only [List.mapM_cons, bind_ok, pure_ok]
    exact ⟨b, hb, L, hL, rfl⟩

theorem returns_of {P0 P Q : Prob} {o : Obj} {I : Ilp} {env : Env} {x : Nat → ℚ} {cs : List RowCut} {L : List (ℤ × ℤ)}
    (hW : P0.WF) (hI : o.ilp = some I) (hH : Holds P0 I) (hn : P.nCols = P0.nCols)
    (hL : callBounds P o I.bnds = .ok L) (hlen : L.length = P0.nCols)
    (hLb : ∀ j < P0.nCols, P0.isInt j = true → (bnd I.bnds j).1 ≠ intMax →
      intBounds (Q.colLower j) (Q.colUpper j) = .ok (bnd L j))
    (hC : Castable P0 Q) (hB : BoundsFit (atCall P0 Q) x) (hS : Small P0 Q) :
    ∃ r, generate env o P x cs = .ok r := by
  rcases h : generate env o P x cs with e | r
  swap
  · exact ⟨r, rfl⟩
  exfalso
  have hcost : Cost ⟨L, I.rows⟩ x (fun j => size (Q.colLower j) + size (Q.colUpper j) + 2) := by
    refine ⟨?_, ?_, ?_⟩
    · intro j
      have := size_nonneg (Q.colLower j)
      have := size_nonneg (Q.colUpper j)
      linarith
    · intro q hq p hp hx
      obtain ⟨a, b, c⟩ := holds_col hW hH hq hp
      have := intBounds_lo_size (hLb _ a b c) (hB _ a b).1 hx
      have := size_nonneg (Q.colUpper p.1)
      simp only
      linarith
    · intro q hq p hp hx
      obtain ⟨a, b, c⟩ := holds_col hW hH hq hp
      have := intBounds_up_size (hLb _ a b c) (hC _ a b).2 (hB _ a b).2 hx
      have := size_nonneg (Q.colLower p.1)
      simp only
      linarith
  obtain ⟨L0, -, hrows, -, -⟩ := hH.src
  have hc : coefTotal I.rows ≤ (P0.rows.map fun r => (r.coefs.map fun p => 2 * (|p.2| + 1)).sum).sum := by
    rw [hrows]
    refine flat_le _ _ _ _ _ ?_ ?_
    · intro r _
      exact List.sum_nonneg (by
        intro a ha
        obtain ⟨p, -, rfl⟩ := List.mem_map.mp ha
        have := abs_nonneg p.2
        linarith)
    · intro r _ _; exact storedRow_coef r
  have hr : rhsTotal I.rows ≤ (P0.rows.map fun r => size r.lb + size r.ub + 2).sum := by
    rw [hrows]
    refine flat_le _ _ _ _ _ ?_ ?_
    · intro r _
      have := size_nonneg r.lb
      have := size_nonneg r.ub
      linarith
    · intro r _ hg; exact storedRow_rhs hg
  rcases generate_error hI (by rw [hn, hH.len]) (fun r hr => by rw [hn]; exact holds_wf hW hH r hr) h with
    ⟨L', h3, -, hgl⟩ | ⟨L', cyc, hL', h3⟩
  · unfold callBounds at hL
    rw [hgl] at hL
    simp only [Bool.false_eq_true, if_false] at hL
    rw [hL] at h3; cases h3
  · rw [hL] at hL'
    injection hL' with hL'
    subst hL'
    refine getCut_fits hcost ?_ ?_ cyc e h3
    · have := hS.coefs; show coefTotal I.rows + 1 ≤ intMax; linarith
    · have := hS.rhs
      show rhsTotal I.rows + ((List.range L.length).map _).sum ≤ intMax
      rw [hlen]
      linarith

/-- **C64.**  With numbers small enough for `int` every call without the flag for global cuts returns. -/
theorem generate_returns_partial {P0 P : Prob} {o1 o2 o : Obj} {post : List Op} (env : Env) {x : Nat → ℚ} (cs : List RowCut)
    (hrows : P0.rows ≠ []) (hW : P0.WF) (h1 : refresh P0 o1 = .ok o2) (h2 : run o2 post = .ok o)
    (hT : Tame P0 post) (hn : P.nCols = P0.nCols) (hC : Castable P0 P) (hB : BoundsFit (atCall P0 P) x)
    (hS : Small P0 P) (hg : o.glob = false) : ∃ r, generate env o P x cs = .ok r := by
  have hk := run_kept post o2 o hT (refresh_kept hrows h1) h2
  rcases hI : o.ilp with _ | I
  · exact ⟨_, by unfold generate; rw [hI]⟩
  have hH := hk I hI
  have hL : ∃ L, redoBounds P I.bnds = .ok L := by
    apply mapM_total
    intro j hj
    have hj := List.mem_range.mp hj
    split
    · exact ⟨_, rfl⟩
    · rename_i hne
      have hi : P0.isInt j = true := by
        by_contra hc
        exact hne (hH.cont j (by omega) (by simpa using hc))
      have := hC j (by omega) hi
      exact intBounds_casts this.1 this.2
  obtain ⟨L, hL⟩ := hL
  obtain ⟨h5, h6⟩ := redo_spec hL
  exact returns_of (Q := P) hW hI hH hn (by unfold callBounds; rw [hg]; exact hL) (by omega)
    (fun j hj _ hne => h6 j (by omega) hne) hC hB hS

/-- **C64, global cuts.** -/
theorem generate_returns_global_partial {P0 P : Prob} {o1 o2 o : Obj} {post : List Op} (env : Env) {x : Nat → ℚ}
    (cs : List RowCut) (hrows : P0.rows ≠ []) (hW : P0.WF) (h1 : refresh P0 o1 = .ok o2) (h2 : run o2 post = .ok o)
    (hT : Tame P0 post) (hG : GlobalOnly o2 post) (hn : P.nCols = P0.nCols) (hC : Castable P0 P0)
    (hB : BoundsFit P0 x) (hS : Small P0 P0) (hg : o.glob = true) : ∃ r, generate env o P x cs = .ok r := by
  have hk := run_kept post o2 o hT (refresh_kept hrows h1) h2
  have hkg := run_keptGlobal post o2 o hT hG (refresh_keptGlobal hrows h1) h2
  rcases hI : o.ilp with _ | I
  · exact ⟨_, by unfold generate; rw [hI]⟩
  have hH := hk I hI
  refine returns_of (Q := P0) (L := I.bnds) hW hI hH hn (by unfold callBounds; rw [hg]; rfl) hH.len ?_ hC hB hS
  intro j hj hi _
  have := (mapM_range (hkg I hI)).2 j hj
  unfold colBounds at this
  rwa [if_pos hi] at this

/-- **C64.**  `refreshSolver` returns when the bounds of the integer columns fit and no coefficient is (almost) zero. -/
theorem refresh_returns_partial {P : Prob} (o : Obj) (hC : Castable P P)
    (h0 : ∀ r ∈ P.rows, ∀ p ∈ r.coefs, 1 / 10 ^ 15 < |p.2|) : ∃ o', refresh P o = .ok o' := by
  unfold refresh
  split
  · exact ⟨_, rfl⟩
  obtain ⟨L, hL⟩ := mapM_total (colBounds P) (List.range P.nCols) (by
    intro j hj
    unfold colBounds
    split
    · rename_i hi
      have := hC j (List.mem_range.mp hj) hi
      exact intBounds_casts this.1 this.2
    · exact ⟨_, rfl⟩)
  rw [hL]
  show ∃ o', load P o L = .ok o'
  unfold load
  split
  · exact ⟨_, rfl⟩
  rw [if_neg]
  · exact ⟨_, rfl⟩
  · push Not
    unfold countNz storeAll
    rw [storedNz_all]
    congr 1
    apply List.map_congr_left
    intro r hr
    obtain ⟨hr, hg⟩ := List.mem_filter.mp hr
    congr 1
    unfold entries
    rw [List.filter_eq_self.mpr]
    · simp
    · intro p hp
      obtain ⟨q, hq, rfl⟩ := List.mem_map.mp hp
      have h1 := ((rowGood_spec hg).2.1 q hq).2.1
      have h2 := h0 r hr q hq
      simp only [decide_eq_true_eq]
      intro hz
      rw [hz] at h1
      simp only [Int.cast_zero, sub_zero] at h1
      linarith

/-! ### Copies and histories -/

/-- **C65.**  A copy (or clone) refreshed with a problem is the original refreshed with that problem, whatever the
two did before. -/
theorem copy_refresh {P : Prob} (o : Obj) (h : P.rows ≠ []) : refresh P (copy o) = refresh P o := by
  unfold refresh
  rw [if_neg (by simpa using h), if_neg (by simpa using h)]
  congr 1

/-- **C65.**  What was loaded before does not matter after `refreshSolver` with a problem that has rows. -/
theorem refresh_forgets {P : Prob} (o o' : Obj) (h : P.rows ≠ []) (hf : o.flags = o'.flags) :
    refresh P o = refresh P o' := by
  unfold refresh
  rw [if_neg (by simpa using h), if_neg (by simpa using h)]
  congr 1
  funext L
  unfold load
  rw [hf]

/-- **C65.**  A copy adds no cuts until it is refreshed. -/
theorem copy_silent {P : Prob} {o o' : Obj} {env : Env} {x : Nat → ℚ} {cs cs' : List RowCut}
    (h : generate env (copy o) P x cs = .ok (cs', o')) : cs' = cs := by
  unfold generate at h
  rcases hI : o.ilp with _ | I
  · have : (copy o).ilp = none := hI
    rw [this] at h
    simp only [Except.ok.injEq, Prod.mk.injEq] at h
    exact h.1.symm
  · have : (copy o).ilp = some I := hI
    rw [this] at h
    simp only at h
    split at h
    · cases h
    · simp only [bind_ok, pure_ok] at h
      obtain ⟨L, -, cs2, h2, h3⟩ := h
      have : callCuts env (copy o) ⟨L, I.rows⟩ x cs = .ok cs := rfl
      rw [this] at h2
      injection h2 with h2
      injection h3 with h3 _
      rw [← h3, ← h2]

/-- **C65.**  Assigned to a generator that is not loaded and refreshed, the target is the source refreshed. -/
theorem assign_refresh_partial {P : Prob} {tgt src : Obj} (h : P.rows ≠ []) (ht : tgt.loaded = false) :
    (do let o ← assign tgt src; refresh P o) = refresh P src := by
  unfold assign
  rw [ht]
  exact copy_refresh src h

/-- The columns that were taken as continuous keep their entries. -/
def KeptSame (P0 : Prob) (L0 : List (ℤ × ℤ)) (o : Obj) : Prop :=
  ∀ I, o.ilp = some I → I.rows = storeAll L0 P0 ∧ I.bnds.length = P0.nCols ∧
    (∀ j < P0.nCols, (bnd L0 j).1 = intMax → bnd I.bnds j = bnd L0 j) ∧
    ∀ j < P0.nCols, (bnd L0 j).1 ≠ intMax → (bnd I.bnds j).1 ≠ intMax

theorem run_same {P0 : Prob} {L0 : List (ℤ × ℤ)} (hL0 : (List.range P0.nCols).mapM (colBounds P0) = .ok L0)
    (ops : List Op) (o o' : Obj) (ht : Tame P0 ops) (hk : KeptSame P0 L0 o) (h : run o ops = .ok o') :
    KeptSame P0 L0 o' ∧ (o'.ilp.isSome = o.ilp.isSome) ∧ ((∀ op ∈ ops, op ≠ .copy) → o'.loaded = o.loaded) := by
  induction ops generalizing o with
  | nil => simp only [run, Except.ok.injEq] at h; subst h; exact ⟨hk, rfl, fun _ => rfl⟩
  | cons op t ih =>
    simp only [run, bind_ok] at h
    obtain ⟨o1, h1, h⟩ := h
    have hop := ht op List.mem_cons_self
    have ht' : Tame P0 t := fun op hop => ht op (List.mem_cons_of_mem _ hop)
    have key : KeptSame P0 L0 o1 ∧ o1.ilp.isSome = o.ilp.isSome ∧ (op ≠ .copy → o1.loaded = o.loaded) := by
      cases op with
      | refresh P => exact hop.elim
      | generate env P x cs =>
        simp only [step, bind_ok, pure_ok] at h1
        obtain ⟨⟨cs', o2⟩, hr, rfl⟩ := h1
        rcases generate_ok hr with ⟨-, -, rfl⟩ | ⟨I, L, hI, hn, hL, rfl, -⟩
        · exact ⟨hk, rfl, fun _ => rfl⟩
        refine ⟨?_, by rw [hI]; rfl, fun _ => rfl⟩
        obtain ⟨a1, a2, a3, a4⟩ := hk I hI
        intro I' hI'
        simp only [Option.some.injEq] at hI'
        subst hI'
        unfold callBounds at hL
        split at hL
        · simp only [Except.ok.injEq] at hL; subst hL; exact ⟨a1, a2, a3, a4⟩
        · have hm := mapM_range hL
          obtain ⟨h5, h6⟩ := redo_spec hL
          refine ⟨a1, by simp only; omega, ?_, ?_⟩
          · intro j hj hj0
            have h7 := hm.2 j (by omega)
            have h8 := a3 j hj hj0
            rw [h8, if_pos hj0] at h7
            simp only [Except.ok.injEq] at h7
            exact h7.symm
          · intro j hj hj0
            have hi := (colBounds_int ((mapM_range hL0).2 j hj) hj0).1
            exact lo_lt_max (h6 j (by omega) (a4 j hj hj0)) (hop j hj hi)
      | setFlags f => simp only [step, Except.ok.injEq] at h1; subst h1; exact ⟨hk, rfl, fun _ => rfl⟩
      | copy => simp only [step, Except.ok.injEq] at h1; subst h1; exact ⟨hk, rfl, fun hc => absurd rfl hc⟩
    obtain ⟨b1, b2, b3⟩ := ih o1 ht' key.1 h
    refine ⟨b1, b2.trans key.2.1, ?_⟩
    intro hc
    exact (b3 (fun op hop => hc op (List.mem_cons_of_mem _ hop))).trans (key.2.2 (hc op List.mem_cons_self))

theorem refresh_same {P0 : Prob} {o o' : Obj} (hr : P0.rows ≠ []) (h : refresh P0 o = .ok o') :
    ∃ L0, (List.range P0.nCols).mapM (colBounds P0) = .ok L0 ∧ KeptSame P0 L0 o' := by
  unfold refresh at h
  rw [if_neg (by simpa using hr)] at h
  simp only [bind_ok] at h
  obtain ⟨L, hL, h⟩ := h
  refine ⟨L, hL, ?_⟩
  unfold load at h
  split at h
  · simp only [Except.ok.injEq] at h; subst h; intro I hI; simp at hI
  split at h
  · cases h
  · simp only [Except.ok.injEq] at h; subst h
    intro I hI
    simp only [Option.some.injEq] at hI
    subst hI
    exact ⟨rfl, (mapM_range hL).1, fun _ _ _ => rfl, fun _ _ h => h⟩

theorem redo_same {P0 P : Prob} {L0 A B : List (ℤ × ℤ)} (hn : P.nCols = P0.nCols)
    (ha : ∀ j < P0.nCols, (bnd L0 j).1 = intMax → bnd A j = bnd L0 j)
    (hb : ∀ j < P0.nCols, (bnd L0 j).1 = intMax → bnd B j = bnd L0 j)
    (ha' : ∀ j < P0.nCols, (bnd L0 j).1 ≠ intMax → (bnd A j).1 ≠ intMax)
    (hb' : ∀ j < P0.nCols, (bnd L0 j).1 ≠ intMax → (bnd B j).1 ≠ intMax) : redoBounds P A = redoBounds P B := by
  unfold redoBounds
  have key : ∀ l : List Nat, (∀ j ∈ l, j < P0.nCols) →
      (l.mapM fun j => if (bnd A j).1 = intMax then Except.ok (bnd A j) else intBounds (P.colLower j) (P.colUpper j)) =
      (l.mapM fun j => if (bnd B j).1 = intMax then Except.ok (bnd B j) else intBounds (P.colLower j) (P.colUpper j)) := by
    intro l hl
    induction l with
    | nil => rfl
    | cons j t ih =>
      rw [List.mapM_cons, List.mapM_cons, ih (fun k hk => hl k (List.mem_cons_of_mem _ hk))]
      have hj := hl j List.mem_cons_self
      have e : (if (bnd A j).1 = intMax then Except.ok (bnd A j) else intBounds (P.colLower j) (P.colUpper j)) =
          (if (bnd B j).1 = intMax then Except.ok (bnd B j) else intBounds (P.colLower j) (P.colUpper j)) := by
        by_cases h0 : (bnd L0 j).1 = intMax
        · rw [ha j hj h0, hb j hj h0]
        · rw [if_neg (ha' j hj h0), if_neg (hb' j hj h0)]
      rw [e]
  exact key _ (fun j hj => by have := List.mem_range.mp hj; omega)

/-- **C65.**  Calls do not depend on the calls before: after `refreshSolver` with `P0`, two histories of calls and flag
changes that end with the flag for global cuts off give the same cuts in the next call. -/
theorem generate_history_partial {P0 P : Prob} {o1 oa ob a b : Obj} {post post' : List Op} (env : Env) (x : Nat → ℚ)
    (cs : List RowCut) (hrows : P0.rows ≠ []) (h1 : refresh P0 o1 = .ok oa)
    (h1' : refresh P0 o1 = .ok ob) (h2 : run oa post = .ok a) (h2' : run ob post' = .ok b) (hT : Tame P0 post)
    (hT' : Tame P0 post') (hc : ∀ op ∈ post, op ≠ .copy) (hc' : ∀ op ∈ post', op ≠ .copy) (hg : a.glob = false)
    (hg' : b.glob = false) (hn : P.nCols = P0.nCols) :
    (generate env a P x cs).map Prod.fst = (generate env b P x cs).map Prod.fst := by
  rw [h1] at h1'
  injection h1' with h1'
  subst h1'
  obtain ⟨L0, hL0, hk⟩ := refresh_same hrows h1
  obtain ⟨ka, sa, la⟩ := run_same hL0 post oa a hT hk h2
  obtain ⟨kb, sb, lb⟩ := run_same hL0 post' oa b hT' hk h2'
  have la := la hc
  have lb := lb hc'
  rcases hA : a.ilp with _ | A <;> rcases hB : b.ilp with _ | B
  · unfold generate; rw [hA, hB]; rfl
  · rw [hA] at sa; rw [hB] at sb; rw [← sa] at sb; simp at sb
  · rw [hA] at sa; rw [hB] at sb; rw [← sa] at sb; simp at sb
  · obtain ⟨a1, a2, a3, a4⟩ := ka A hA
    obtain ⟨b1, b2, b3, b4⟩ := kb B hB
    unfold generate
    rw [hA, hB]
    simp only
    rw [if_neg (by simpa using by omega), if_neg (by simpa using by omega)]
    unfold callBounds
    rw [hg, hg']
    simp only [Bool.false_eq_true, if_false]
    rw [redo_same (L0 := L0) hn a3 b3 a4 b4]
    rcases redoBounds P B.bnds with e | L
    · rfl
    · simp only [bind, Except.bind]
      rw [a1, b1]
      unfold callCuts
      rw [la, lb]
      generalize (if oa.loaded = true then _ else _ : Except Fault (List RowCut)) = r
      cases r <;> rfl

end Cgl.ZeroHalf
