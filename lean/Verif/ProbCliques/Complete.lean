import Verif.ProbCliques.Second
import Mathlib.Data.List.Nodup

/-! # Every clique row is found, and the function returns -/

namespace Cgl.ProbCliques

variable {P Q R : Prob}

theorem afterRow_derived {bin : Nat → Bool} {s : First} (hb : ∀ j, bin j = true → s.P.isInt j = true)
    {minSize maxSize : ℤ} {r : Row} (st : ℤ) : Derived s.P (afterRow minSize maxSize r s (scan bin s.P r.coefs (scan0 r)) st).P ∧
      ∀ r' ∈ s.rows, r' ∈ (afterRow minSize maxSize r s (scan bin s.P r.coefs (scan0 r)) st).rows := by
  unfold afterRow
  by_cases hgood : ((scan bin s.P r.coefs (scan0 r)).good && decide (st ≠ 0)) = true
  swap
  · rw [if_neg hgood]; exact ⟨Derived.refl _, fun _ h => h⟩
  rw [if_pos hgood]
  rw [Bool.and_eq_true] at hgood
  obtain ⟨hg, he⟩ := good_of_scan (Q := s.P) hb hgood.1
  obtain ⟨m1, m2⟩ := good_members hg
  rw [he]
  dsimp only
  split
  · exact ⟨Derived.refl _, fun _ h => h⟩
  · split
    · split
      · exact ⟨fixSet_derived _ m1 m2, fun _ h => h⟩
      · exact ⟨fixSet_derived _ m2 m1, fun _ h => h⟩
    · split
      · exact ⟨Derived.refl _, fun _ h => List.mem_append_left _ h⟩
      · exact ⟨Derived.refl _, fun _ h => h⟩

theorem firstLoop_seen {bin : Nat → Bool} (hb : ∀ j, bin j = true → P.isInt j = true) {minSize maxSize : ℤ} :
    ∀ (l : List Row) (s t : First), Derived P s.P → firstLoop bin minSize maxSize l s = .ok t → t.infeasible = false →
      Derived s.P t.P ∧ (∀ r ∈ s.rows, r ∈ t.rows) ∧ ∀ r ∈ l, ∃ R iU iL, Derived P R ∧ Derived R t.P ∧
        intUpper (scan bin R r.coefs (scan0 r)).up = .ok iU ∧ intLower (scan bin R r.coefs (scan0 r)).lo = .ok iL ∧
        ((scan bin R r.coefs (scan0 r)).good = true → |stateOf (scan bin R r.coefs (scan0 r)) iU iL| = 1 →
          minSize ≤ (((scan bin R r.coefs (scan0 r)).p1.length + (scan bin R r.coefs (scan0 r)).m1.length : Nat) : ℤ) →
          (((scan bin R r.coefs (scan0 r)).p1.length + (scan bin R r.coefs (scan0 r)).m1.length : Nat) : ℤ) < maxSize →
          r ∈ t.rows) := by
  intro l
  induction l with
  | nil =>
    intro s t _ ht _
    rw [firstLoop] at ht
    rw [← Except.ok.inj ht]
    exact ⟨Derived.refl _, fun _ h => h, by simp⟩
  | cons r l ih =>
    intro s t hd ht hinf
    rw [firstLoop] at ht
    cases hU : intUpper (scan bin s.P r.coefs (scan0 r)).up with
    | error e => rw [hU] at ht; cases ht
    | ok iU =>
      cases hL : intLower (scan bin s.P r.coefs (scan0 r)).lo with
      | error e => rw [hU, hL] at ht; cases ht
      | ok iL =>
        rw [hU, hL] at ht
        simp only [Except.bind] at ht
        obtain ⟨a1, a2⟩ := afterRow_derived (bin := bin) (s := s) (fun j hj => by rw [hd.isInt]; exact hb j hj)
          (minSize := minSize) (maxSize := maxSize) (r := r) (stateOf (scan bin s.P r.coefs (scan0 r)) iU iL)
        split at ht
        · rename_i hc
          rw [← Except.ok.inj ht] at hinf
          rw [hinf] at hc
          cases hc
        · obtain ⟨b1, b2, b3⟩ := ih _ _ (hd.trans a1) ht hinf
          refine ⟨a1.trans b1, fun r' h => b2 r' (a2 r' h), ?_⟩
          intro r' hr'
          rcases List.mem_cons.1 hr' with rfl | hr'
          · refine ⟨s.P, iU, iL, hd, a1.trans b1, hU, hL, fun g1 g2 g3 g4 => b2 _ ?_⟩
            unfold afterRow
            rw [if_pos (by
              rw [Bool.and_eq_true, decide_eq_true_eq]
              refine ⟨g1, fun h => ?_⟩
              rw [h] at g2
              simp at g2), if_neg (by rw [g2]; decide), if_neg (by rw [g2]; decide), if_pos ⟨g3, g4⟩]
            exact List.mem_append_right _ List.mem_cons_self
          · exact b3 r' hr'

theorem scan_good_of_unit (h : Derived P R) {r : Row} (hs : Same P R r) (hu : UnitRow P r) :
    scan (fun j => decide (colType P j = 1)) R r.coefs (scan0 r) =
      ⟨r.ub - fixedSum P r, r.lb - fixedSum P r, plus P r, minus P r, true⟩ := by
  have hg : (scan (fun j => decide (colType P j = 1)) R r.coefs (scan0 r)).good = true := by
    apply scan_of_members
    · rfl
    · intro p hp
      cases hf : fixedCol R p.1 with
      | true => exact Or.inl rfl
      | false =>
        right
        rw [hs.fixed p hp] at hf
        obtain ⟨a, b, c, d⟩ := hu p hp hf
        unfold member colType
        rw [(hs p hp).1, (hs p hp).2]
        dsimp only
        rw [a, b, c, d]
        simp
  obtain ⟨-, -, h3⟩ := scan_good hg
  rw [h3, rescan_row, hs.plus, hs.minus, hs.fixedSum]

theorem clique_of_row {minSize maxSize : ℤ} {P' : Prob} {T : Tables} (hM : Moderate P) (hW : P.WF)
    (h : createCliques P minSize maxSize = .ok (P', T)) (hn : 0 ≤ T.number) {r : Row} (hr : r ∈ P.rows)
    (hs : Same P P' r) (hu : UnitRow P r)
    (hmin : minSize ≤ (((plus P r).length + (minus P r).length : Nat) : ℤ))
    (hmax : (((plus P r).length + (minus P r).length : Nat) : ℤ) < maxSize)
    (hst : ∀ iU iL, intUpper (r.ub - fixedSum P r) = .ok iU → intLower (r.lb - fixedSum P r) = .ok iL →
      |stateOf ⟨r.ub - fixedSum P r, r.lb - fixedSum P r, plus P r, minus P r, true⟩ iU iL| = 1 ∧
      restate ⟨r.ub - fixedSum P r, r.lb - fixedSum P r, plus P r, minus P r, true⟩ iU ≠ 0) :
    ∃ iU iL c, intUpper (r.ub - fixedSum P r) = .ok iU ∧ intLower (r.lb - fixedSum P r) = .ok iL ∧ c ∈ T.cliques ∧
      cliqueOf ⟨r.ub - fixedSum P r, r.lb - fixedSum P r, plus P r, minus P r, true⟩ iU iL = some c := by
  obtain ⟨s, hf, rfl, h1⟩ := createCliques_run h
  have hinf : s.infeasible = false := by
    rcases h1 with h1 | h1 | h1
    · rw [h1.2] at hn; simp at hn
    · exact h1.1
    · exact h1.1
  obtain ⟨-, -, h3⟩ := firstLoop_seen (bin_int P) P.rows _ s (Derived.refl P) hf hinf
  obtain ⟨R, iU, iL, d1, d2, hU, hL, hin⟩ := h3 r hr
  obtain ⟨m1, m2⟩ := hs.middle d1 d2
  rw [scan_good_of_unit d1 m1 hu] at hU hL hin
  dsimp only at hU hL hin
  obtain ⟨h4, h5⟩ := hst iU iL hU hL
  have hrs := hin rfl h4 hmin hmax
  rcases h1 with h1 | h1 | ⟨-, -, cs, st, h1, -, h2⟩
  · rw [h1.1] at hinf; cases hinf
  · rw [h1.2.1] at hrs; simp at hrs
  · obtain ⟨os, f, rfl⟩ := secondLoop_ok h1
    obtain ⟨o, ho, hso⟩ := forall2_left f r hrs
    obtain ⟨jU, jL, hjU, hjL, rfl⟩ := secondRow_ok hso
    rw [hs.fixedSum] at hjU hjL
    rw [hU] at hjU
    rw [hL] at hjL
    obtain rfl := Except.ok.inj hjU
    obtain rfl := Except.ok.inj hjL
    rw [rescan_row, hs.plus, hs.minus, hs.fixedSum] at ho
    have : ∃ c, cliqueOf ⟨r.ub - fixedSum P r, r.lb - fixedSum P r, plus P r, minus P r, true⟩ iU iL = some c := by
      unfold cliqueOf
      rw [if_neg h5]
      split
      · exact ⟨_, rfl⟩
      · exact ⟨_, rfl⟩
    obtain ⟨c, hc⟩ := this
    refine ⟨iU, iL, c, hU, hL, ?_, hc⟩
    rw [h2]
    exact List.mem_flatMap.2 ⟨_, ho, by rw [hc]; simp⟩

theorem floor_near (z : ℤ) : ⌊(z : ℚ) + 1 / 10 ^ 5⌋ = z := by
  rw [Int.floor_intCast_add]
  have : ⌊(1 / 10 ^ 5 : ℚ)⌋ = 0 := by norm_num
  rw [this, add_zero]

theorem ceil_near (z : ℤ) : ⌈(z : ℚ) - 1 / 10 ^ 5⌉ = z := by
  rw [Int.ceil_eq_iff]
  constructor
  · norm_num
  · norm_num

/-- Every row whose upper bound allows only one column at its strong value gives a clique with exactly its columns, if the
columns of the row are not changed by other rows and the size is allowed. -/
theorem createCliques_complete_upper {minSize maxSize : ℤ} {P' : Prob} {T : Tables} (hM : Moderate P) (hW : P.WF)
    (h : createCliques P minSize maxSize = .ok (P', T)) (hn : 0 ≤ T.number) {r : Row} (hr : r ∈ P.rows)
    (hs : ∀ p ∈ r.coefs, P'.colLower p.1 = P.colLower p.1 ∧ P'.colUpper p.1 = P.colUpper p.1)
    (hu : UpperClique P r) (hmin : minSize ≤ (((plus P r).length + (minus P r).length : Nat) : ℤ))
    (hmax : (((plus P r).length + (minus P r).length : Nat) : ℤ) < maxSize) :
    ∃ c ∈ T.cliques, c.entries = (plus P r).map (fun j => ⟨j, true⟩) ++ (minus P r).map (fun j => ⟨j, false⟩) ∧
      (r.lb = r.ub → c.equality = true) := by
  have hup : r.ub - fixedSum P r < 10 ^ 6 := by
    rw [hu.2]
    have : (0 : ℚ) ≤ (minus P r).length := Nat.cast_nonneg _
    linarith
  have hval : ∀ iU, intUpper (r.ub - fixedSum P r) = .ok iU → iU = 1 - (minus P r).length := by
    intro iU hU
    have e := intUpper_ok hU (le_intMax hup)
    rw [hu.2] at e
    have e2 := floor_near (1 - ((minus P r).length : ℤ))
    push_cast at e2
    rw [e2] at e
    exact e
  have hone : ∀ iU, intUpper (r.ub - fixedSum P r) = .ok iU →
      restate ⟨r.ub - fixedSum P r, r.lb - fixedSum P r, plus P r, minus P r, true⟩ iU = 1 := by
    intro iU hU
    unfold restate
    rw [if_pos ⟨hup, hval iU hU⟩]
  obtain ⟨iU, iL, c, hU, hL, hc, hq⟩ := clique_of_row hM hW h hn hr hs hu.1 hmin hmax (by
    intro iU iL hU hL
    constructor
    · have : upperState (r.ub - fixedSum P r) iU (minus P r).length = 1 := by
        unfold upperState
        rw [if_pos hup, if_pos (hval iU hU)]
      unfold stateOf
      dsimp only
      rw [this, if_pos (by decide)]
      rfl
    · rw [hone iU hU]; decide)
  refine ⟨c, hc, ?_⟩
  unfold cliqueOf at hq
  rw [hone iU hU, if_neg (by decide), if_pos rfl] at hq
  obtain rfl := Option.some.inj hq
  refine ⟨rfl, fun he => ?_⟩
  rw [decide_eq_true_eq]
  have hlo : r.lb - fixedSum P r = ((1 - (minus P r).length : ℤ) : ℚ) := by rw [he, hu.2]; push_cast; rfl
  have hlen := hM.length r hr
  have hm := (size_le P r).2
  have e := intLower_ok hL (by
    rw [hlo]
    have : intMin ≤ (1 - (minus P r).length : ℤ) := by unfold intMin; unfold intMax at hlen; omega
    exact_mod_cast this)
  rw [hlo, ceil_near] at e
  rw [e, hval iU hU]

/-- The same for rows whose lower bound allows only one column away from it; the upper bound leaves room for two. -/
theorem createCliques_complete_lower {minSize maxSize : ℤ} {P' : Prob} {T : Tables} (hM : Moderate P) (hW : P.WF)
    (h : createCliques P minSize maxSize = .ok (P', T)) (hn : 0 ≤ T.number) {r : Row} (hr : r ∈ P.rows)
    (hs : ∀ p ∈ r.coefs, P'.colLower p.1 = P.colLower p.1 ∧ P'.colUpper p.1 = P.colUpper p.1)
    (hu : LowerClique P r) (hroom : 2 - ((minus P r).length : ℚ) ≤ r.ub - fixedSum P r)
    (hmin : minSize ≤ (((plus P r).length + (minus P r).length : Nat) : ℤ))
    (hmax : (((plus P r).length + (minus P r).length : Nat) : ℤ) < maxSize) :
    ∃ c ∈ T.cliques, c.entries = (plus P r).map (fun j => ⟨j, false⟩) ++ (minus P r).map (fun j => ⟨j, true⟩) := by
  have hlo : -10 ^ 6 < r.lb - fixedSum P r := by
    rw [hu.2]
    have : (0 : ℚ) ≤ (plus P r).length := Nat.cast_nonneg _
    linarith
  have hlen := hM.length r hr
  have hp := (size_le P r).1
  have hval : ∀ iL, intLower (r.lb - fixedSum P r) = .ok iL → iL = (plus P r).length - 1 := by
    intro iL hL
    have e := intLower_ok hL (intMin_le hlo)
    rw [hu.2] at e
    have e2 := ceil_near (((plus P r).length : ℤ) - 1)
    push_cast at e2
    rw [e2] at e
    exact e
  have hbig : ∀ iU, intUpper (r.ub - fixedSum P r) = .ok iU → r.ub - fixedSum P r < 10 ^ 6 → 2 - ((minus P r).length : ℤ) ≤ iU := by
    intro iU hU hup
    exact le_intUpper hU (le_intMax hup) (by push_cast; exact hroom)
  have hzero : ∀ iU, intUpper (r.ub - fixedSum P r) = .ok iU → upperState (r.ub - fixedSum P r) iU (minus P r).length = 0 := by
    intro iU hU
    unfold upperState
    by_cases hup : r.ub - fixedSum P r < 10 ^ 6
    · have := hbig iU hU hup
      rw [if_pos hup, if_neg (by omega), if_neg (by omega), if_neg (by omega)]
    · rw [if_neg hup]
  have hone : ∀ iU, intUpper (r.ub - fixedSum P r) = .ok iU →
      restate ⟨r.ub - fixedSum P r, r.lb - fixedSum P r, plus P r, minus P r, true⟩ iU = -1 := by
    intro iU hU
    unfold restate
    rw [if_neg (by
      rintro ⟨h1, h2⟩
      have := hbig iU hU h1
      dsimp only at h2
      omega), if_pos hlo]
  obtain ⟨iU, iL, c, hU, hL, hc, hq⟩ := clique_of_row hM hW h hn hr hs hu.1 hmin hmax (by
    intro iU iL hU hL
    constructor
    · have : lowerState (r.lb - fixedSum P r) iL (plus P r).length = -1 := by
        unfold lowerState
        rw [if_pos hlo, if_pos (by rw [hval iL hL]; ring)]
      unfold stateOf
      dsimp only
      rw [hzero iU hU, this]
      decide
    · rw [hone iU hU]; decide)
  refine ⟨c, hc, ?_⟩
  unfold cliqueOf at hq
  rw [hone iU hU, if_neg (by decide), if_neg (by decide)] at hq
  obtain rfl := Option.some.inj hq
  rfl

/-! ### The shape of the cliques -/

theorem mem_plus {r : Row} {j : Nat} : (j ∈ plus Q r → ∃ p ∈ r.coefs, p.1 = j) ∧ (j ∈ minus Q r → ∃ p ∈ r.coefs, p.1 = j) := by
  constructor
  · intro hj
    obtain ⟨p, hp, rfl⟩ := List.mem_map.1 hj
    exact ⟨p, (List.mem_filter.1 hp).1, rfl⟩
  · intro hj
    obtain ⟨p, hp, rfl⟩ := List.mem_map.1 hj
    exact ⟨p, (List.mem_filter.1 hp).1, rfl⟩

theorem plus_minus_nodup {r : Row} (h : (r.coefs.map Prod.fst).Nodup) : (plus Q r ++ minus Q r).Nodup := by
  unfold plus minus
  rw [List.nodup_append]
  refine ⟨(List.filter_sublist.map _).nodup h, (List.filter_sublist.map _).nodup h, ?_⟩
  intro j h1 j' h2 hjj
  subst hjj
  obtain ⟨p, hp, rfl⟩ := List.mem_map.1 h1
  obtain ⟨q, hq, he⟩ := List.mem_map.1 h2
  obtain ⟨p1, p2⟩ := List.mem_filter.1 hp
  obtain ⟨q1, q2⟩ := List.mem_filter.1 hq
  have : q = p := List.inj_on_of_nodup_map h q1 p1 he
  rw [this] at q2
  rw [Bool.and_eq_true] at p2 q2
  have a := p2.2
  have b := q2.2
  rw [a] at b
  cases b

theorem entries_cols (one : Bool) (p m : List Nat) : (entriesOf one p m).map Entry.col = p ++ m := by
  unfold entriesOf
  rw [List.map_append, List.map_map, List.map_map]
  congr 1
  · exact List.map_id _
  · exact List.map_id _

theorem cliqueOf_entries {iU iL : ℤ} {r : Row} {c : Clique} (h : cliqueOf (rescan Q r.coefs (scan0 r)) iU iL = some c) :
    ∃ one, c.entries = entriesOf one (plus Q r) (minus Q r) := by
  rw [rescan_row] at h
  unfold cliqueOf at h
  split at h
  · cases h
  · split at h
    · rw [← Option.some.inj h]; exact ⟨true, rfl⟩
    · rw [← Option.some.inj h]; exact ⟨false, rfl⟩

theorem clique_shape (hW : P.WF) {minSize maxSize : ℤ} {s : First} (hi : Inv P minSize maxSize s)
    {cs : List Clique} (h : secondLoop s.P s.rows = .ok cs) : ∀ c ∈ cs, (c.entries.map Entry.col).Nodup ∧
      (∀ e ∈ c.entries, e.col < P.nCols ∧ P.isInt e.col = true ∧ P.colLower e.col = 0 ∧ P.colUpper e.col = 1) ∧
      ((c.entries.length : Nat) : ℤ) < maxSize := by
  intro c hc
  obtain ⟨os, f, rfl⟩ := secondLoop_ok h
  obtain ⟨o, ho, hc⟩ := List.mem_flatMap.1 hc
  obtain ⟨r, hr, hs⟩ := forall2_right f o ho
  obtain ⟨iU, iL, hU, hL, rfl⟩ := secondRow_ok hs
  obtain ⟨hrP, R, jU, jL, d1, d2, hg, -, -, -, -, hmax⟩ := hi.rows r hr
  obtain ⟨one, he⟩ := cliqueOf_entries (Option.mem_toList.1 hc)
  obtain ⟨u1, u2⟩ := good_members (hg.later d2)
  have hunit : ∀ j, Unit01 s.P j → P.isInt j = true ∧ P.colLower j = 0 ∧ P.colUpper j = 1 := by
    intro j ⟨a, b, c⟩
    rw [hi.derived.isInt] at a
    rcases hi.derived.cols j with ⟨e, f⟩ | ⟨-, e, f, -⟩
    · exact ⟨a, by rw [← e, b], by rw [← f, c]⟩
    · exact ⟨a, e, f⟩
  rw [he]
  refine ⟨?_, ?_, ?_⟩
  · rw [entries_cols]; exact plus_minus_nodup (hW.nodup r hrP)
  · intro e hmem
    have hc : e.col ∈ plus s.P r ++ minus s.P r := by
      rw [← entries_cols one]; exact List.mem_map.2 ⟨e, hmem, rfl⟩
    rcases List.mem_append.1 hc with hc | hc
    · obtain ⟨p, hp, hpe⟩ := mem_plus.1 hc
      exact ⟨by rw [← hpe]; exact hW.cols r hrP p hp, hunit _ (u1 _ hc)⟩
    · obtain ⟨p, hp, hpe⟩ := mem_plus.2 hc
      exact ⟨by rw [← hpe]; exact hW.cols r hrP p hp, hunit _ (u2 _ hc)⟩
  · have := plus_later d2 r
    have e : (entriesOf one (plus s.P r) (minus s.P r)).length = (plus s.P r).length + (minus s.P r).length := by
      unfold entriesOf; simp
    rw [e]
    omega

/-- The cliques are sets of binary columns of the model, and the upper limit of the size is respected. -/
theorem createCliques_shape (hM : Moderate P) (hW : P.WF) {minSize maxSize : ℤ} {P' : Prob} {T : Tables}
    (h : createCliques P minSize maxSize = .ok (P', T)) : ∀ c ∈ T.cliques, (c.entries.map Entry.col).Nodup ∧
      (∀ e ∈ c.entries, e.col < P.nCols ∧ P.isInt e.col = true ∧ P.colLower e.col = 0 ∧ P.colUpper e.col = 1) ∧
      ((c.entries.length : Nat) : ℤ) < maxSize := by
  obtain ⟨s, hf, rfl, h1 | h1 | ⟨-, -, cs, st, h1, -, h2⟩⟩ := createCliques_run h
  · rw [h1.2]; simp
  · rw [h1.2.2]; simp
  · rw [h2]; exact clique_shape hW (run_inv hM hW hf) h1

/-- The entries fit into the array that was allocated. -/
theorem entries_fit {minSize maxSize : ℤ} {s : First} (hi : Inv P minSize maxSize s) {cs : List Clique}
    (h : secondLoop s.P s.rows = .ok cs) : (cs.flatMap Clique.entries).length ≤ s.entries := by
  refine le_trans ?_ hi.entries
  obtain ⟨os, f, rfl⟩ := secondLoop_ok h
  clear h hi
  generalize s.rows = rows at f ⊢
  induction f with
  | nil => simp
  | cons h1 f ih =>
    rename_i r o l os
    rw [List.flatMap_cons, List.flatMap_append, List.length_append, List.map_cons, List.sum_cons]
    apply Nat.add_le_add _ ih
    obtain ⟨iU, iL, -, -, ho⟩ := secondRow_ok h1
    cases o with
    | none => simp
    | some c =>
      obtain ⟨one, he⟩ := cliqueOf_entries ho.symm
      simp only [Option.toList, List.flatMap_cons, List.flatMap_nil, List.append_nil, he]
      unfold entriesOf
      simp

end Cgl.ProbCliques
