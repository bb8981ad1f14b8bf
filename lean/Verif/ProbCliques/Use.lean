import Verif.ProbCliques.Setup

/-! # What the users of the clique tables get -/

namespace Cgl.ProbCliques

variable {P : Prob} {S : Store} {cs : List Clique}

/-! ### `setupRowCliqueInformation` -/

theorem groups_some : ∀ (fuel : Nat) {row : SVec} {w : Work} {g : Nat} {count : Nat → ℤ} {m : Marks} {m' : Option Marks},
    groups P S cs row w fuel g count (some m) = .ok (some m') → m'.isSome = true := by
  intro fuel
  induction fuel with
  | zero => intro row w g count m m' h; rw [groups] at h; cases Except.ok.inj h
  | succ fuel ih =>
    intro row w g count m m' h
    rw [groups] at h
    cases hl : (largest count w.which).2 with
    | none => rw [hl] at h; rw [← Option.some.inj (Except.ok.inj h)]; rfl
    | some c =>
      rw [hl] at h
      dsimp only at h
      split at h
      · cases hq : cs[c]? with
        | none => rw [hq] at h; cases h
        | some q =>
          rw [hq] at h
          dsimp only at h
          cases ha : assign P S q.entries c g w.back row (count, (some m).getD (List.replicate row.length (P.nCols + 1, false))) with
          | error e => rw [ha] at h; cases h
          | ok s =>
            rw [ha] at h
            exact ih h
      · rw [← Option.some.inj (Except.ok.inj h)]; rfl

theorem groups_none {fuel : Nat} {row : SVec} {w : Work} {g : Nat} {count : Nat → ℤ} {m' : Option Marks}
    (h : groups P S cs row w (fuel + 1) g count none = .ok (some m')) :
    m' = none ↔ (largest count w.which).2 = none ∨ (w.free : ℤ) ≤ (largest count w.which).1 := by
  rw [groups] at h
  cases hl : (largest count w.which).2 with
  | none => rw [hl] at h; rw [← Option.some.inj (Except.ok.inj h)]; simp
  | some c =>
    rw [hl] at h
    dsimp only at h
    by_cases hlt : (largest count w.which).1 < (w.free : ℤ)
    · rw [if_pos hlt] at h
      cases hq : cs[c]? with
      | none => rw [hq] at h; cases h
      | some q =>
        rw [hq] at h
        dsimp only at h
        cases ha : assign P S q.entries c g w.back row (count, (none : Option Marks).getD (List.replicate row.length (P.nCols + 1, false))) with
        | error e => rw [ha] at h; cases h
        | ok s =>
          rw [ha] at h
          have := groups_some fuel h
          constructor
          · intro hm; rw [hm] at this; cases this
          · rintro (h' | h')
            · cases h'
            · omega
    · rw [if_neg hlt] at h
      rw [← Option.some.inj (Except.ok.inj h)]
      simp only [true_iff]
      exact Or.inr (not_lt.1 hlt)

/-- No clique has two free columns of the row, or a clique has all of them. -/
def Trivial (P : Prob) (cs : List Clique) (row : SVec) : Prop :=
  (∀ c ∈ cs, (row.countP fun p => decide (P.colLower p.1 < P.colUpper p.1) && decide (∃ e ∈ c.entries, e.col = p.1)) ≤ 1) ∨
    ∃ c ∈ cs, ∀ p ∈ row, P.colLower p.1 < P.colUpper p.1 → ∃ e ∈ c.entries, e.col = p.1

theorem inClique_eq {c : Nat} {q : Clique} (h : cs[c]? = some q) (row : SVec) : inClique P cs row c =
    row.countP fun p => decide (P.colLower p.1 < P.colUpper p.1) && decide (∃ e ∈ q.entries, e.col = p.1) := by
  unfold inClique fr
  apply List.countP_congr
  intro p _
  simp only [Bool.and_eq_true, decide_eq_true_eq]
  rw [mem_allWith]
  constructor
  · rintro ⟨h1, q', h2, h3⟩
    rw [h] at h2
    obtain rfl := Option.some.inj h2
    exact ⟨h1, h3⟩
  · rintro ⟨h1, h2⟩
    exact ⟨h1, q, h, h2⟩

theorem inClique_none {c : Nat} (h : cs[c]? = none) (row : SVec) : inClique P cs row c = 0 := by
  unfold inClique
  rw [List.countP_eq_zero]
  intro p _ hp
  rw [Bool.and_eq_true, decide_eq_true_eq, mem_allWith] at hp
  obtain ⟨-, q, h2, -⟩ := hp
  rw [h] at h2
  cases h2

theorem inClique_free (row : SVec) (c : Nat) : inClique P cs row c ≤ row.countP (fr P) := by
  unfold inClique
  apply List.countP_mono_left
  intro p _ hp
  rw [Bool.and_eq_true] at hp
  exact hp.1

theorem countP_all {α : Type*} {f g : α → Bool} : ∀ {l : List α}, (∀ a ∈ l, g a = true → f a = true) → l.countP f ≤ l.countP g →
    ∀ a ∈ l, f a = true → g a = true := by
  intro l
  induction l with
  | nil => intro _ _ a ha; simp at ha
  | cons b l ih =>
    intro h hle a ha hf
    have hle' : l.countP g ≤ l.countP f := List.countP_mono_left fun d hd => h d (List.mem_cons_of_mem _ hd)
    rw [List.countP_cons, List.countP_cons] at hle
    have hb := h b List.mem_cons_self
    by_cases hg : g b = true
    · rw [if_pos hg, if_pos (hb hg)] at hle
      rcases List.mem_cons.1 ha with rfl | ha
      · exact hg
      · exact ih (fun d hd => h d (List.mem_cons_of_mem _ hd)) (by omega) a ha hf
    · rw [if_neg hg] at hle
      by_cases hfb : f b = true
      · rw [if_pos hfb] at hle; omega
      · rw [if_neg hfb] at hle
        rcases List.mem_cons.1 ha with rfl | ha
        · exact absurd hf hfb
        · exact ih (fun d hd => h d (List.mem_cons_of_mem _ hd)) (by omega) a ha hf

theorem rowGroups_ok (hS : S.Lists P.nCols cs) (hnd : ∀ c ∈ cs, (c.entries.map Entry.col).Nodup) {row : SVec}
    (hrow : ∀ p ∈ row, p.1 < P.nCols) (hn : (row.map Prod.fst).Nodup) (hcs : cs ≠ []) :
    ∃ m, rowGroups P S cs row = .ok (some m) ∧ (m = none ↔ Trivial P cs row) ∧ ∀ m', m = some m' → RowOk P cs row m' := by
  unfold rowGroups
  obtain ⟨w, h1, h2, h3, h4, h5, h6, -⟩ := gather_ok (P := P) hS hnd row 0 ⟨[], fun _ => 0, fun _ => 0, 0⟩ hrow hn
    (by simp) (by simp)
  rw [h1]
  simp only [Except.bind]
  have h3' : ∀ d, w.count d = inClique P cs row d := by intro d; rw [h3]; simp
  have h2' : w.free = row.countP (fr P) := by rw [h2]; simp
  have hin : ∀ d ∈ w.which, ∃ q, cs[d]? = some q := by
    intro d hd
    rcases h5 d hd with h | ⟨p, -, h⟩
    · simp at h
    · obtain ⟨q, hq, -⟩ := mem_allWith.1 h
      exact ⟨q, hq⟩
  obtain ⟨m, g1, g2, picked, g3, g4⟩ := groups_ok (P := P) hS hnd hrow (w := w) (by
      intro i p hp hf; rw [h6 i p hp hf]; omega) hin (w.which.length + 1) [] w.count none
    (by have := List.countP_le_length (p := fun d => decide (1 < w.count d)) (l := w.which); omega)
    (by
      intro d
      rw [h3']
      unfold inClique fresh
      apply Int.ofNat_le.2
      apply List.countP_mono_left
      intro p _ hp
      rw [hp]
      simp)
    (by simp)
    ⟨by simp, by
      intro k p hk
      refine ⟨_, ?_, Or.inl rfl⟩
      have hkl : k < row.length := by
        by_contra h
        rw [List.getElem?_eq_none (by omega)] at hk
        cases hk
      simp [List.getElem?_replicate, hkl]⟩
  refine ⟨m, g1, ?_, ?_⟩
  · rw [groups_none g1]
    constructor
    · rintro (hl | hl)
      · left
        intro c hc
        obtain ⟨k, hk⟩ := List.getElem?_of_mem hc
        rw [← inClique_eq (P := P) hk]
        by_contra hgt
        have hk2 : 1 < w.count k := by rw [h3']; omega
        have := largest_none hl k (h4 k (by omega))
        omega
      · cases hls : (largest w.count w.which).2 with
        | none =>
          left
          intro c hc
          obtain ⟨k, hk⟩ := List.getElem?_of_mem hc
          rw [← inClique_eq (P := P) hk]
          by_contra hgt
          have hk2 : 1 < w.count k := by rw [h3']; omega
          have := largest_none hls k (h4 k (by omega))
          omega
        | some c =>
          right
          obtain ⟨l1, l2, l3, l4⟩ := largest_some hls
          obtain ⟨q, hq⟩ := hin c l1
          refine ⟨q, List.mem_of_getElem? hq, ?_⟩
          intro p hp hf
          rw [l2, h3', h2'] at hl
          have hall := countP_all (f := fr P) (g := fun p => fr P p && decide (c ∈ allWith cs p.1)) (l := row)
            (by intro a _ ha; rw [Bool.and_eq_true] at ha; exact ha.1) (by unfold inClique at hl; exact_mod_cast hl) p hp
            (decide_eq_true hf)
          rw [Bool.and_eq_true, decide_eq_true_eq, mem_allWith] at hall
          obtain ⟨-, q', h8, h9⟩ := hall
          rw [hq] at h8
          obtain rfl := Option.some.inj h8
          exact h9
    · rintro (ht | ⟨q, hq, ht⟩)
      · left
        cases hls : (largest w.count w.which).2 with
        | none => rfl
        | some c =>
          exfalso
          obtain ⟨l1, l2, l3, l4⟩ := largest_some hls
          obtain ⟨q, hq⟩ := hin c l1
          have := ht q (List.mem_of_getElem? hq)
          rw [← inClique_eq (P := P) hq] at this
          rw [h3'] at l3
          omega
      · obtain ⟨k, hk⟩ := List.getElem?_of_mem hq
        have hfull : w.count k = w.free := by
          rw [h3', h2']
          have : inClique P cs row k = row.countP (fr P) := by
            unfold inClique
            apply List.countP_congr
            intro p hp
            rw [Bool.and_eq_true, decide_eq_true_eq, mem_allWith]
            constructor
            · exact fun h => h.1
            · intro h
              exact ⟨h, q, hk, ht p hp (of_decide_eq_true h)⟩
          exact_mod_cast this
        cases hls : (largest w.count w.which).2 with
        | none => exact Or.inl rfl
        | some c =>
          right
          obtain ⟨l1, l2, l3, l4⟩ := largest_some hls
          rw [l2, ← hfull]
          by_cases h0 : 0 < w.count k
          · exact l4 k (h4 k h0)
          · omega
  · intro m' hm'
    rw [hm'] at g4
    exact marks_rowOk hrow hn g3 g4

/-- `setupRowCliqueInformation` ends and gives for each row of the row copy nothing (if the cliques say nothing about the
row, or one clique is the whole row) or marks as in `RowOk`.  The solver `Q` may have other bounds than the one the cliques
were made from. -/
theorem setupRows_ok (hM : Moderate P) (hW : P.WF) {minSize maxSize : ℤ} {P' Q : Prob} {T : Tables} {rows : List SVec}
    (h : createCliques P minSize maxSize = .ok (P', T)) (hT : 0 < T.number) (hQ : Q.nCols = P.nCols) (hc : 0 < P.nCols)
    (hr : rows ≠ []) (hcol : ∀ row ∈ rows, (∀ p ∈ row, p.1 < P.nCols) ∧ (row.map Prod.fst).Nodup) :
    ∃ ms, setupRows Q T rows = .ok (some ms) ∧
      List.Forall₂ (fun row m => (m = none ↔ Trivial Q T.cliques row) ∧ ∀ m', m = some m' → RowOk Q T.cliques row m') rows ms := by
  have hst : ∃ S, T.store = some S := by
    obtain ⟨s, hf, rfl, h1 | h1 | ⟨-, -, cs, st, -, -, h3⟩⟩ := createCliques_run h
    · rw [h1.2] at hT; simp at hT
    · rw [h1.2.2] at hT; simp at hT
    · rw [h3]; exact ⟨_, rfl⟩
  obtain ⟨S, hS⟩ := hst
  obtain ⟨hn, hl⟩ := createCliques_lists hM hW h hS
  have hsh := createCliques_shape hM hW h
  unfold setupRows
  rw [if_neg (by omega), if_neg (by rintro (h | h); exact hr h; omega), if_neg (by omega), hS]
  dsimp only
  have hcs : T.cliques ≠ [] := by intro h0; rw [h0] at hn; simp at hn; omega
  rw [← hQ] at hl
  clear hr
  induction rows with
  | nil => exact ⟨[], rfl, List.Forall₂.nil⟩
  | cons row rows ih =>
    obtain ⟨ms, i1, i2⟩ := ih fun r hr => hcol r (List.mem_cons_of_mem _ hr)
    obtain ⟨c1, c2⟩ := hcol row List.mem_cons_self
    obtain ⟨m, r1, r2, r3⟩ := rowGroups_ok (P := Q) hl (fun c hc => (hsh c hc).1) (row := row)
      (fun p hp => by rw [hQ]; exact c1 p hp) c2 hcs
    refine ⟨m :: ms, ?_, List.Forall₂.cons ⟨r2, r3⟩ i2⟩
    rw [allGroups, r1]
    simp only [Except.bind]
    rw [i1]
    rfl

/-- Of the columns of a row with the same group at most one is at its strong value, wherever the cliques hold. -/
theorem RowOk.atMost {row : SVec} {m : Marks} (h : RowOk P cs row m) (hn : (row.map Prod.fst).Nodup) {x : Nat → ℚ}
    (hx : ∀ c ∈ cs, c.Holds x) {g : Nat} (hg : g ≠ P.nCols + 1) :
    ((row.zip m).countP fun q => decide (q.2.1 = g ∧ Entry.Strong ⟨q.1.1, q.2.2⟩ x)) ≤ 1 := by
  obtain ⟨f, hf⟩ := h.groups
  generalize hL : (row.zip m).filter (fun q => decide (q.2.1 = g)) = L
  have hmem : ∀ q ∈ L, f g ∈ cs ∧ (⟨q.1.1, q.2.2⟩ : Entry) ∈ (f g).entries := by
    intro q hq
    rw [← hL] at hq
    obtain ⟨h1, h2⟩ := List.mem_filter.1 hq
    rw [decide_eq_true_eq] at h2
    obtain ⟨k, hk⟩ := List.getElem?_of_mem h1
    rw [List.getElem?_zip_eq_some] at hk
    have := hf k q.1 q.2.1 q.2.2 hk.1 hk.2 (by rw [h2]; exact hg)
    rw [h2] at this
    exact ⟨this.2.2.1, this.2.2.2⟩
  have hcount : ((row.zip m).countP fun q => decide (q.2.1 = g ∧ Entry.Strong ⟨q.1.1, q.2.2⟩ x)) =
      (L.map fun q => (⟨q.1.1, q.2.2⟩ : Entry)).countP (fun e => decide (e.Strong x)) := by
    rw [← hL, List.countP_map, List.countP_filter]
    apply List.countP_congr
    intro q _
    simp only [decide_eq_true_eq, Function.comp, Bool.and_eq_true]
    tauto
  rw [hcount]
  have hsub : (L.map fun q => (⟨q.1.1, q.2.2⟩ : Entry)).Nodup := by
    apply List.Nodup.of_map Entry.col
    rw [List.map_map]
    have e : (L.map (Entry.col ∘ fun q => (⟨q.1.1, q.2.2⟩ : Entry))) = (L.map Prod.fst).map Prod.fst := by
      rw [List.map_map]; rfl
    rw [e]
    have hs : (L.map Prod.fst).Sublist row := by
      have h1 : (L.map Prod.fst).Sublist ((row.zip m).map Prod.fst) := by
        rw [← hL]; exact List.filter_sublist.map _
      rw [List.map_fst_zip (by rw [h.length])] at h1
      exact h1
    exact (hs.map Prod.fst).nodup hn
  cases hLe : L with
  | nil => simp
  | cons q L' =>
    rw [← hLe]
    obtain ⟨hc, -⟩ := hmem q (by rw [hLe]; exact List.mem_cons_self)
    have hp := List.subperm_of_subset hsub (l₂ := (f g).entries) (by
      intro e he
      obtain ⟨q, hq, rfl⟩ := List.mem_map.1 he
      exact (hmem q hq).2)
    exact (hp.countP_le _).trans (hx _ hc).atMost

/-! ### `cliqueModel` -/

theorem cliqueRow_dot {x : Nat → ℚ} : ∀ {es : List Entry}, (∀ e ∈ es, x e.col = 0 ∨ x e.col = 1) →
    ((es.countP (fun e => decide (e.Strong x)) : Nat) : ℚ) =
      SVec.dot (es.map fun e => (e.col, if e.one then 1 else -1)) x + (es.countP fun e => !e.one : Nat) := by
  intro es
  induction es with
  | nil => intro _; simp [SVec.dot]
  | cons e es ih =>
    intro h
    have ih' := ih fun a ha => h a (List.mem_cons_of_mem _ ha)
    rw [List.map_cons, SVec.dot_cons, List.countP_cons, List.countP_cons, Nat.cast_add, Nat.cast_add, ih']
    obtain ⟨j, b⟩ := e
    have hj := h _ List.mem_cons_self
    dsimp only at hj
    unfold Entry.Strong
    cases b
    · rcases hj with hj | hj <;> simp [hj] <;> ring
    · rcases hj with hj | hj <;> simp [hj]; ring

/-- The row of a clique says that at most one entry is at its strong value. -/
theorem cliqueRow_sat {inf : ℚ} (hi : 10 ^ 10 ≤ inf) {c : Clique} {x : Nat → ℚ} (hb : ∀ e ∈ c.entries, x e.col = 0 ∨ x e.col = 1) :
    (cliqueRow inf c).Sat inf x ↔ c.entries.countP (fun e => decide (e.Strong x)) ≤ 1 := by
  have hd := cliqueRow_dot hb
  have hn : (0 : ℚ) ≤ (c.entries.countP fun e => !e.one : Nat) := Nat.cast_nonneg _
  constructor
  · intro h
    have := h.2 (by unfold cliqueRow; dsimp only; linarith)
    unfold cliqueRow at this
    dsimp only at this
    have : ((c.entries.countP (fun e => decide (e.Strong x)) : Nat) : ℚ) ≤ 1 := by rw [hd]; linarith
    exact_mod_cast this
  · intro h
    have h' : ((c.entries.countP (fun e => decide (e.Strong x)) : Nat) : ℚ) ≤ 1 := by exact_mod_cast h
    rw [hd] at h'
    refine ⟨fun hl => ?_, fun _ => ?_⟩
    · unfold cliqueRow at hl
      exact absurd hl (lt_irrefl _)
    · unfold cliqueRow
      dsimp only
      linarith

theorem cliques_binary (hM : Moderate P) (hW : P.WF) {minSize maxSize : ℤ} {P' : Prob} {T : Tables}
    (h : createCliques P minSize maxSize = .ok (P', T)) {x : Nat → ℚ}
    (hl : ∀ j < P.nCols, lbOk P.inf (P'.colLower j) (x j)) (hu : ∀ j < P.nCols, ubOk P.inf (P'.colUpper j) (x j))
    (hi : ∀ j < P.nCols, P'.isInt j = true → IsInteger (x j)) : ∀ c ∈ T.cliques, ∀ e ∈ c.entries, x e.col = 0 ∨ x e.col = 1 := by
  intro c hc e he
  obtain ⟨s, hf, rfl, -⟩ := createCliques_run h
  have hd := (run_inv hM hW hf).derived
  obtain ⟨h1, h2, h3, h4⟩ := (createCliques_shape hM hW h c hc).2.1 e he
  have hinf := hM.inf
  have a := hl e.col h1
  have b := hu e.col h1
  obtain ⟨z, hz⟩ := hi e.col h1 (by rw [hd.isInt]; exact h2)
  have a' : 0 ≤ x e.col := by
    rcases hd.cols e.col with ⟨q1, -⟩ | ⟨-, -, -, q1, -, -⟩
    · rw [q1, h3] at a; exact a (by linarith)
    · rcases q1 with q1 | q1
      · rw [q1] at a; exact a (by linarith)
      · rw [q1] at a; have := a (by linarith); linarith
  have b' : x e.col ≤ 1 := by
    rcases hd.cols e.col with ⟨-, q1⟩ | ⟨-, -, -, -, q1, -⟩
    · rw [q1, h4] at b; exact b (by linarith)
    · rcases q1 with q1 | q1
      · rw [q1] at b; have := b (by linarith); linarith
      · rw [q1] at b; exact b (by linarith)
  rw [hz] at a' b' ⊢
  have a2 : 0 ≤ z := by exact_mod_cast a'
  have b2 : z ≤ 1 := by exact_mod_cast b'
  rcases (by omega : z = 0 ∨ z = 1) with rfl | rfl
  · left; norm_num
  · right; norm_num

/-- `cliqueModel` (not type 2): the points of the new model are the points of the old one that satisfy all cliques; with
bit 4 the old rows are left out. -/
theorem cliqueModel_points (hM : Moderate P) (hW : P.WF) {minSize maxSize : ℤ} {P' : Prob} {T : Tables}
    (h : createCliques P minSize maxSize = .ok (P', T)) (hT : 0 < T.number) {type : Nat} (ht : type &&& 3 ≠ 2) :
    ∃ Q, cliqueModel P' T type = .ok Q ∧ ∀ x, Q.Feasible x ↔
      (if type &&& 4 = 0 then P' else { P' with rows := [] }).Feasible x ∧
        ∀ c ∈ T.cliques, c.entries.countP (fun e => decide (e.Strong x)) ≤ 1 := by
  have hst : ∃ S, T.store = some S := by
    obtain ⟨s, hf, rfl, h1 | h1 | ⟨-, -, cs, st, -, -, h3⟩⟩ := createCliques_run h
    · rw [h1.2] at hT; simp at hT
    · rw [h1.2.2] at hT; simp at hT
    · rw [h3]; exact ⟨_, rfl⟩
  obtain ⟨S, hS⟩ := hst
  have hd : P'.nCols = P.nCols ∧ P'.inf = P.inf := by
    obtain ⟨s, hf, rfl, -⟩ := createCliques_run h
    have hd := (run_inv hM hW hf).derived
    exact ⟨hd.nCols, hd.inf⟩
  unfold cliqueModel
  rw [if_pos ht, hS]
  refine ⟨_, rfl, fun x => ?_⟩
  have hbin : (∀ j < P'.nCols, lbOk P'.inf (P'.colLower j) (x j)) → (∀ j < P'.nCols, ubOk P'.inf (P'.colUpper j) (x j)) →
      (∀ j < P'.nCols, P'.isInt j = true → IsInteger (x j)) → ∀ c ∈ T.cliques,
        ((cliqueRow P'.inf c).Sat P'.inf x ↔ c.entries.countP (fun e => decide (e.Strong x)) ≤ 1) := by
    intro a b c q hq
    rw [hd.1, hd.2] at a b
    rw [hd.1] at c
    exact cliqueRow_sat (by rw [hd.2]; exact hM.inf) (cliques_binary hM hW h a b c q hq)
  by_cases h4 : type &&& 4 = 0
  · rw [if_pos h4, if_neg (by rw [h4]; decide)]
    constructor
    · intro hx
      refine ⟨⟨fun r hr => hx.rows r (List.mem_append_left _ hr), hx.lower, hx.upper, hx.int⟩, fun c hc => ?_⟩
      exact (hbin hx.lower hx.upper hx.int c hc).1 (hx.rows _ (List.mem_append_right _ (List.mem_map.2 ⟨c, hc, rfl⟩)))
    · rintro ⟨hx, hc⟩
      refine ⟨fun r hr => ?_, hx.lower, hx.upper, hx.int⟩
      rcases List.mem_append.1 hr with hr | hr
      · exact hx.rows r hr
      · obtain ⟨c, hc', rfl⟩ := List.mem_map.1 hr
        exact (hbin hx.lower hx.upper hx.int c hc').2 (hc c hc')
  · rw [if_neg h4, if_pos h4]
    constructor
    · intro hx
      refine ⟨⟨fun r hr => by simp at hr, hx.lower, hx.upper, hx.int⟩, fun c hc => ?_⟩
      exact (hbin hx.lower hx.upper hx.int c hc).1 (hx.rows _ (List.mem_append_right _ (List.mem_map.2 ⟨c, hc, rfl⟩)))
    · rintro ⟨hx, hc⟩
      refine ⟨fun r hr => ?_, hx.lower, hx.upper, hx.int⟩
      rcases List.mem_append.1 hr with hr | hr
      · simp at hr
      · obtain ⟨c, hc', rfl⟩ := List.mem_map.1 hr
        exact (hbin hx.lower hx.upper hx.int c hc').2 (hc c hc')

/-- The model with the cliques as additional rows has the same points as the model `createCliques` was called with.  As for
`createCliques_sound_partial`, rows with two finite bounds that lose columns are excluded. -/
theorem cliqueModel_same_partial (hM : Moderate P) (hW : P.WF) {minSize maxSize : ℤ} {P' : Prob} {T : Tables}
    (h : createCliques P minSize maxSize = .ok (P', T)) (hT : 0 < T.number)
    (hk : ∀ r ∈ P.rows, r.lb ≤ -P.inf ∨ P.inf ≤ r.ub ∨
      ∀ p ∈ r.coefs, P'.colLower p.1 = P.colLower p.1 ∧ P'.colUpper p.1 = P.colUpper p.1)
    {type : Nat} (ht : type &&& 3 ≠ 2) (h4 : type &&& 4 = 0) :
    ∃ Q, cliqueModel P' T type = .ok Q ∧ ∀ x, Q.Feasible x ↔ P.Feasible x := by
  obtain ⟨Q, h1, h2⟩ := cliqueModel_points hM hW h hT ht
  refine ⟨Q, h1, fun x => ?_⟩
  rw [h2 x, if_pos h4, ← createCliques_points hM hW h x]
  constructor
  · exact fun h => h.1
  · intro hx
    exact ⟨hx, fun c hc => (createCliques_sound_partial hM hW h hk hx c hc).atMost⟩

/-! ### `tightenThese` -/

/-- `tightenThese` marks the columns in the list and no others; numbers that are not columns are ignored. -/
theorem tightenThese_spec (nCols : Nat) (which : List ℤ) : (tightenThese nCols which).length = nCols ∧
    ∀ j < nCols, (tightenThese nCols which)[j]? = some (decide ((j : ℤ) ∈ which)) := by
  have key : ∀ (l : List ℤ) (t : List Bool), t.length = nCols →
      (l.foldl (fun t k => if 0 ≤ k ∧ k < (nCols : ℤ) then t.set k.toNat true else t) t).length = nCols ∧
      ∀ (j : Nat) (b : Bool), j < nCols → t[j]? = some b →
        (l.foldl (fun t k => if 0 ≤ k ∧ k < (nCols : ℤ) then t.set k.toNat true else t) t)[j]? = some (b || decide ((j : ℤ) ∈ l)) := by
    intro l
    induction l with
    | nil => intro t ht; exact ⟨ht, by simp⟩
    | cons k l ih =>
      intro t ht
      rw [List.foldl_cons]
      by_cases hk : 0 ≤ k ∧ k < (nCols : ℤ)
      · rw [if_pos hk]
        obtain ⟨h1, h2⟩ := ih (t.set k.toNat true) (by rw [List.length_set]; exact ht)
        refine ⟨h1, fun j b hj hb => ?_⟩
        by_cases hjk : k.toNat = j
        · have e : (j : ℤ) = k := by omega
          rw [h2 j true hj (by rw [hjk, List.getElem?_set_self (by omega)])]
          simp [e]
        · have e : ¬ (j : ℤ) = k := by omega
          rw [h2 j b hj (by rw [List.getElem?_set_ne hjk]; exact hb)]
          simp [e]
      · rw [if_neg hk]
        obtain ⟨h1, h2⟩ := ih t ht
        refine ⟨h1, fun j b hj hb => ?_⟩
        have e : ¬ (j : ℤ) = k := by omega
        rw [h2 j b hj hb]
        simp [e]
  obtain ⟨h1, h2⟩ := key which (List.replicate nCols false) (by simp)
  refine ⟨h1, fun j hj => ?_⟩
  unfold tightenThese
  rw [h2 j false hj (by simp [List.getElem?_replicate, hj])]
  simp

end Cgl.ProbCliques
