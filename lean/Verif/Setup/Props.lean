import Verif.Setup.Slacks

/-! # Properties of the start of `preProcessNonDefault` -/

namespace Cgl.Setup

theorem forall₂_get {l : List Row} {out : List (Row × SVec)} (h : List.Forall₂ Scaled l out) {k : ℕ} {a : Row × SVec}
    (ha : out[k]? = some a) : ∃ r, l[k]? = some r ∧ Scaled r a := by
  induction h generalizing k with
  | nil => simp at ha
  | cons h _ ih =>
    cases k with
    | zero =>
      simp only [List.getElem?_cons_zero, Option.some.injEq] at ha
      subst ha; exact ⟨_, rfl, h⟩
    | succ k => simpa using ih (by simpa using ha)

theorem forall₂_mem {l : List Row} {out : List (Row × SVec)} (h : List.Forall₂ Scaled l out) {a : Row × SVec} (ha : a ∈ out) :
    ∃ r ∈ l, Scaled r a := by
  obtain ⟨k, hk⟩ := List.getElem?_of_mem ha
  obtain ⟨r, hr, hs⟩ := forall₂_get h hk
  exact ⟨r, List.mem_of_getElem? hr, hs⟩

theorem forall₂_mem' {l : List Row} {out : List (Row × SVec)} (h : List.Forall₂ Scaled l out) {r : Row} (hr : r ∈ l) :
    ∃ a ∈ out, Scaled r a := by
  induction h with
  | nil => simp at hr
  | cons h _ ih =>
    rcases List.mem_cons.mp hr with rfl | hr
    · exact ⟨_, List.mem_cons_self, h⟩
    · obtain ⟨a, ha, hs⟩ := ih hr
      exact ⟨a, List.mem_cons_of_mem _ ha, hs⟩

/-- The problem with scaled rows has the same feasible points. -/
theorem withRows_same (P : Prob) (hN : Neat P) (rows : List (Row × SVec)) (h : List.Forall₂ Scaled P.rows rows) (x : Nat → ℚ) :
    (withRows P rows).Feasible x ↔ P.Feasible x := by
  have far := fun r hr => bounded_far (by norm_num) (hN.rowBounds r hr)
  constructor
  · intro hx
    refine ⟨fun r hr => ?_, hx.lower, hx.upper, hx.int⟩
    obtain ⟨a, ha, hs⟩ := forall₂_mem' h hr
    exact (scaled_sat P.inf hN.inf r (far r hr) a hs x).mp (hx.rows a.1 (List.mem_map.mpr ⟨a, ha, rfl⟩))
  · intro hx
    refine ⟨fun q hq => ?_, hx.lower, hx.upper, hx.int⟩
    obtain ⟨a, ha, rfl⟩ := List.mem_map.mp hq
    obtain ⟨r, hr, hs⟩ := forall₂_mem h ha
    exact (scaled_sat P.inf hN.inf r (far r hr) a hs x).mpr (hx.rows r hr)

/-- Scaling keeps the feasible points, and a row is either only multiplied by 1 or -1 or has integer coefficients now. -/
theorem scaled_same (rat : ℚ → ℤ × ℕ) (types : Bool) (P : Prob) (hN : Neat P) (ht : Tidy rat P) (rows : List (Row × SVec))
    (h : scaled rat types P = .ok rows) :
    (∀ x, (withRows P rows).Feasible x ↔ P.Feasible x) ∧
    ∀ (k : ℕ) (q : Row), (withRows P rows).rows[k]? = some q → ∃ r, P.rows[k]? = some r ∧
      (q.coefs = r.coefs ∨ (q.coefs = r.coefs.map fun p => (p.1, -p.2)) ∨ ∀ p ∈ q.coefs, IsInteger p.2) := by
  have hs := scaled_ok rat types P (fun _ => ht) rows h
  refine ⟨withRows_same P hN rows hs, fun k q hq => ?_⟩
  unfold withRows at hq
  dsimp only at hq
  rw [List.getElem?_map] at hq
  obtain ⟨a, ha, rfl⟩ := Option.map_eq_some_iff.mp hq
  obtain ⟨r, hr, -, m, -, -, hc, -, -, hm⟩ := forall₂_get hs ha
  refine ⟨r, hr, ?_⟩
  rcases hm with hm | hm
  · rcases (abs_eq (by norm_num : (0 : ℚ) ≤ 1)).mp hm with rfl | rfl
    · left; rw [hc]; simp
    · right; left; rw [hc]; simp
  · exact Or.inr (Or.inr hm)

theorem size_nonneg (v : SVec) : 0 ≤ size v := by
  induction v with
  | nil => simp [size]
  | cons p v ih => rw [size_cons]; exact add_nonneg (abs_nonneg _) ih

theorem rowFine_of (P : Prob) (hN : Neat P) (rows : List (Row × SVec)) (h : List.Forall₂ Scaled P.rows rows) (Q : Prob)
    (hQ : Q.nCols = P.nCols) : ∀ a ∈ rows, RowFine Q a := by
  intro a ha
  obtain ⟨r, hr, hs⟩ := forall₂_mem h ha
  have hob := (scaled_bounded P.inf hN.inf r (hN.rowBounds r hr) (hN.ordered r hr) a hs).2
  obtain ⟨hcopy, m, -, hm, hc, -, -, -⟩ := hs
  refine ⟨hcopy, fun p hp => ?_, ?_, hob⟩
  · rw [hcopy, hc] at hp
    obtain ⟨q, hq, rfl⟩ := List.mem_map.mp hp
    rw [hQ]; exact hN.wf.cols r hr q hq
  · rw [hcopy, hc, size_smul]
    have h0 : 0 ≤ size r.coefs := size_nonneg r.coefs
    calc |m| * size r.coefs ≤ 1000 * 10 ^ 8 := mul_le_mul hm (hN.sized r hr) h0 (by norm_num)
      _ = 10 ^ 11 := by norm_num

theorem fine_clean (P : Prob) (hN : Neat P) (rows : List (Row × SVec)) : Fine (clean (withRows P rows)) :=
  ⟨hN.inf, hN.fixedCols⟩

/-- The rows with numbers outside `ks` hold if the problem is feasible there. -/
theorem others_rest (P : Prob) (rows : List (Row × SVec)) (ks : List ℕ) (x : Nat → ℚ) :
    Others P.inf rows 0 ks x ↔ Rest (withRows P rows) ks x := by
  constructor
  · intro h k r hr hk
    unfold withRows at hr
    dsimp only at hr
    rw [List.getElem?_map] at hr
    obtain ⟨a, ha, rfl⟩ := Option.map_eq_some_iff.mp hr
    exact h k a ha (by rwa [Nat.zero_add])
  · intro h j a ha hj
    refine h j a.1 ?_ (by rwa [Nat.zero_add] at hj)
    unfold withRows
    dsimp only
    rw [List.getElem?_map, ha]; rfl

/-- The parts of a run that returns. -/
theorem setup_parts {rat : ℚ → ℤ × ℕ} {types : Bool} {makeEquality : ℤ} {P : Prob} {o : Option (Prob × Prob)}
    (h : setup rat types makeEquality P = .ok o) :
    ∃ rows o', scaled rat types P = .ok rows ∧
      cliques (mode (clean (withRows P rows)) rows makeEquality) rows 0 (clean (withRows P rows)) = .ok o' ∧
      o = if cleanOk (withRows P rows) = true then
          o'.map fun q => (q.1, addSlacks (withRows P rows)
            (slackList (mode (clean (withRows P rows)) rows makeEquality) (withRows P rows) q.2))
        else none := by
  unfold setup at h
  cases hs : scaled rat types P with
  | error e => rw [hs] at h; cases h
  | ok rows =>
    rw [hs] at h
    simp only [Except.bind, fromScaled] at h
    cases hc : cliques (mode (clean (withRows P rows)) rows makeEquality) rows 0 (clean (withRows P rows)) with
    | error e => rw [hc] at h; cases h
    | ok o' =>
      rw [hc] at h
      simp only [Except.map, Except.ok.injEq] at h
      exact ⟨rows, o', rfl, hc, h.symm⟩

/-- Scaling and rounding of bounds, then the look for cliques, then `Outcome`. -/
theorem setup_outcome (makeEquality : ℤ) {P : Prob} (hN : Neat P) {rows : List (Row × SVec)}
    (hs : List.Forall₂ Scaled P.rows rows) {o' : Option (Prob × List ℕ)}
    (hc : cliques (mode (clean (withRows P rows)) rows makeEquality) rows 0 (clean (withRows P rows)) = .ok o') :
    Outcome (mode (clean (withRows P rows)) rows makeEquality) (clean (withRows P rows)) rows 0 o' :=
  cliques_ok _ rows 0 _ (fine_clean P hN rows) (rowFine_of P hN rows hs _ rfl) o' hc

/-- `NULL` is returned only if there is no feasible point. -/
theorem setup_infeasible (rat : ℚ → ℤ × ℕ) (types : Bool) (makeEquality : ℤ) (P : Prob) (hN : Neat P) (ht : Tidy rat P)
    (h : setup rat types makeEquality P = .ok none) (x : Nat → ℚ) : ¬ P.Feasible x := by
  intro hx
  obtain ⟨rows, o', h1, h2, h3⟩ := setup_parts h
  have hs := scaled_ok rat types P (fun _ => ht) rows h1
  have hx' := (withRows_same P hN rows hs x).mpr hx
  have hb := (clean_box (withRows P rows) hN.infInt x).mpr (box_of_feasible hx')
  have ho := setup_outcome makeEquality hN hs h2
  by_cases hcl : cleanOk (withRows P rows) = true
  · rw [if_pos hcl] at h3
    cases o' with
    | some q => cases h3
    | none => exact ho x hb fun a ha => hx'.rows a.1 (List.mem_map.mpr ⟨a, ha, rfl⟩)
  · exact clean_infeasible _ (fine_clean P hN rows) (by simpa using hcl) x hb

/-- The user's model keeps its feasible points. -/
theorem setup_model_same (rat : ℚ → ℤ × ℕ) (types : Bool) (makeEquality : ℤ) (P : Prob) (hN : Neat P) (ht : Tidy rat P)
    (M S : Prob) (h : setup rat types makeEquality P = .ok (some (M, S))) (x : Nat → ℚ) : M.Feasible x ↔ P.Feasible x := by
  obtain ⟨rows, o', h1, h2, h3⟩ := setup_parts h
  have hs := scaled_ok rat types P (fun _ => ht) rows h1
  have ho := setup_outcome makeEquality hN hs h2
  by_cases hcl : cleanOk (withRows P rows) = true
  · rw [if_pos hcl] at h3
    cases o' with
    | none => cases h3
    | some q =>
      simp only [Option.map_some, Option.some.injEq, Prod.mk.injEq] at h3
      obtain ⟨⟨g1, g2, -, g4⟩, -, -, g5, g6, -⟩ := ho
      rw [← h3.1] at g1 g2 g4 g5 g6
      rw [← withRows_same P hN rows hs x]
      constructor
      · intro hx
        have hb := (clean_box (withRows P rows) hN.infInt x).mp (g5 x (box_of_feasible hx))
        refine ⟨fun r hr => ?_, hb.lower, hb.upper, hb.int⟩
        have := hx.rows r (by rw [g4]; exact hr)
        rwa [g2] at this
      · intro hx
        have hb := g6 x ((clean_box (withRows P rows) hN.infInt x).mpr (box_of_feasible hx))
          ((others_rest P rows q.2 x).mpr fun k r hr _ => hx.rows r (List.mem_of_getElem? hr))
        refine ⟨fun r hr => ?_, hb.lower, hb.upper, hb.int⟩
        have := hx.rows r (by rw [g4] at hr; exact hr)
        rw [g2]; exact this
  · rw [if_neg hcl] at h3; cases h3

theorem withRows_cols (P : Prob) (hN : Neat P) (rows : List (Row × SVec)) (h : List.Forall₂ Scaled P.rows rows) :
    ∀ r ∈ (withRows P rows).rows, ∀ p ∈ r.coefs, p.1 < (withRows P rows).nCols := by
  intro q hq p hp
  obtain ⟨a, ha, rfl⟩ := List.mem_map.mp hq
  have hR := rowFine_of P hN rows h P rfl a ha
  exact hR.cols p (by rw [hR.copy]; exact hp)

theorem extends_trans_same {S P Q : Prob} (h : Extends S P) (hn : P.nCols = Q.nCols) (hs : ∀ x, P.Feasible x ↔ Q.Feasible x) : Extends S Q :=
  ⟨fun y hy => (hs y).mp (h.1 y hy), fun x hx => by
    obtain ⟨y, h1, h2⟩ := h.2 x ((hs x).mpr hx)
    exact ⟨y, fun j hj => h1 j (by rw [hn]; exact hj), h2⟩⟩

/-- The problem that is preprocessed further has the same feasible points as the one given, up to its slack columns. -/
theorem setup_start_same_partial (rat : ℚ → ℤ × ℕ) (types : Bool) (makeEquality : ℤ) (P : Prob) (hN : Neat P) (ht : Tidy rat P)
    (hcr : makeEquality = 2 → CrispRhs rat types P) (M S : Prob) (h : setup rat types makeEquality P = .ok (some (M, S))) :
    Extends S P := by
  obtain ⟨rows, o', h1, h2, h3⟩ := setup_parts h
  have hs := scaled_ok rat types P (fun _ => ht) rows h1
  have ho := setup_outcome makeEquality hN hs h2
  by_cases hcl : cleanOk (withRows P rows) = true
  swap
  · rw [if_neg hcl] at h3; cases h3
  rw [if_pos hcl] at h3
  cases o' with
  | none => cases h3
  | some q =>
    simp only [Option.map_some, Option.some.injEq, Prod.mk.injEq] at h3
    rw [h3.2]
    refine extends_trans_same (P := withRows P rows) (Q := P) ?_ rfl (withRows_same P hN rows hs)
    have hcols := withRows_cols P hN rows hs
    unfold slackList
    by_cases hm : mode (clean (withRows P rows)) rows makeEquality = -2
    · rw [if_pos hm]
      refine addSlacks_extends _ _ ((allSlacks (withRows P rows) (withRows P rows).rows 0).map Slack.row) hcols
        (allSlacks_nodup _ _ 0) (fun s hs' => List.mem_map.mpr ⟨s, hs', rfl⟩) fun s hs' => ?_
      obtain ⟨j, r, hr, hq, rfl⟩ := allSlacks_rows _ _ _ s hs'
      have hmem := List.mem_of_getElem? hr
      refine ⟨r, by rw [Nat.zero_add]; exact hr, ?_⟩
      obtain ⟨a, ha, rfl⟩ := List.mem_map.mp hmem
      obtain ⟨r0, hr0, hsc⟩ := forall₂_mem hs ha
      exact rowSlack_ok _ _ _ _ hmem (hcols _ hmem) hN.inf hN.infMax
        (scaled_bounded P.inf hN.inf r0 (hN.rowBounds r0 hr0) (hN.ordered r0 hr0) a hsc).1 hq
    · rw [if_neg hm]
      by_cases hm2 : mode (clean (withRows P rows)) rows makeEquality = 2
      · rw [if_pos hm2]
        have hme : makeEquality = 2 := by
          unfold mode at hm2
          by_contra hne
          split at hm2
          · split at hm2
            · norm_num at hm2
            · norm_num at hm2
          · exact hne hm2
        obtain ⟨-, -, hnd, -, -, hfound⟩ := ho
        have hrow : (q.2.map cliqueSlack).map Slack.row = q.2 := by
          rw [List.map_map]
          have : Slack.row ∘ cliqueSlack = id := rfl
          rw [this, List.map_id]
        refine addSlacks_extends _ _ q.2 hcols (by rw [hrow]; exact hnd) (fun s hs' => ?_) fun s hs' => ?_
        · rw [← hrow]; exact List.mem_map.mpr ⟨s, hs', rfl⟩
        · obtain ⟨k, hk, rfl⟩ := List.mem_map.mp hs'
          obtain ⟨j, a, Q, e1, e2, e3, e4, e5, -, e7, e8, e9, e10⟩ := hfound k hk
          have hget : (withRows P rows).rows[k]? = some a.1 := by
            unfold withRows; dsimp only
            rw [List.getElem?_map, show k = j by omega, e2]; rfl
          refine ⟨a.1, hget, cliqueSlack_ok _ q.2 k a (List.mem_of_getElem? hget) Q e3 e4 e5 e7 _ e8
            (e9 ?_) fun x hx hr => e10 x ((clean_box (withRows P rows) hN.infInt x).mpr hx) ((others_rest P rows q.2 x).mpr hr)⟩
          exact hcr hme rows h1
      · rw [if_neg hm2]
        exact ⟨fun y hy => hy, fun x hx => ⟨x, fun _ _ => rfl, hx⟩⟩

/-- With `makeEquality` -2 every row that is not free becomes an equation. -/
theorem setup_equations (rat : ℚ → ℤ × ℕ) (types : Bool) (P : Prob) (hN : Neat P) (ht : Tidy rat P) (M S : Prob)
    (h : setup rat types (-2) P = .ok (some (M, S))) (r : Row) (hr : r ∈ S.rows) :
    Equation r ∨ (r.lb ≤ -10 ^ 30 ∧ 10 ^ 30 ≤ r.ub) := by
  obtain ⟨rows, o', h1, h2, h3⟩ := setup_parts h
  have hs := scaled_ok rat types P (fun _ => ht) rows h1
  have hmode : mode (clean (withRows P rows)) rows (-2) = -2 := by
    unfold mode; rw [if_neg (by norm_num)]
  rw [hmode] at h3
  by_cases hcl : cleanOk (withRows P rows) = true
  swap
  · rw [if_neg hcl] at h3; cases h3
  rw [if_pos hcl] at h3
  cases o' with
  | none => cases h3
  | some q =>
    simp only [Option.map_some, Option.some.injEq, Prod.mk.injEq] at h3
    have hl : slackList (-2) (withRows P rows) q.2 = allSlacks (withRows P rows) (withRows P rows).rows 0 := by
      unfold slackList; rw [if_pos rfl]
    rw [hl] at h3
    rw [h3.2] at hr
    obtain ⟨k, hk⟩ := List.getElem?_of_mem hr
    by_cases hin : k ∈ (allSlacks (withRows P rows) (withRows P rows).rows 0).map Slack.row
    · exact Or.inl (addSlacks_equation _ _ (allSlacks_nodup _ _ 0) k hin r hk)
    · rw [addSlacks_other _ _ _ hin] at hk
      have hq : inequality r ≠ true := fun hq => hin (by
        have := allSlacks_mem (withRows P rows) _ 0 k r hk hq
        rwa [Nat.zero_add] at this)
      obtain ⟨a, ha, rfl⟩ := List.mem_map.mp (List.mem_of_getElem? hk)
      have ho := (rowFine_of P hN rows hs P rfl a ha).ordered
      unfold inequality at hq
      rw [ne_eq, Bool.and_eq_true, Bool.or_eq_true, decide_eq_true_eq, decide_eq_true_eq, decide_eq_true_eq, not_and_or, not_or, not_lt, not_lt,
        not_lt] at hq
      exact hq.imp (fun h => le_antisymm ho h) id

end Cgl.Setup
