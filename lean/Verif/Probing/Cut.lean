import Verif.Probing.Undo

/-!
# The cuts of one way
-/

namespace Cgl.Probing

variable {g : Cfg} {n : Nat} {x : Nat → ℚ} {live : Nat → Bool} {s s0 t : St}

/-! ### Storing row cuts -/

theorem addCand_sat {dup : List RowCut → RowCut → Bool} {l : List RowCut} {c : RowCut} (hl : ∀ k ∈ l, k.Sat x)
    (hc : c.Sat x) : ∀ k ∈ addCand dup l c, k.Sat x := by
  unfold addCand
  dsimp only
  split
  · exact hl
  · split
    · exact hl
    · intro k hk
      rcases List.mem_append.mp hk with hk | hk
      · exact hl k hk
      · obtain rfl := List.mem_singleton.mp hk
        have hp : SVec.dot (c.row.insertionSort fun p q => p.1 ≤ q.1) x = c.row.dot x :=
          SVec.dot_perm (List.perm_insertionSort _ _) x
        unfold RowCut.Sat
        rw [hp]; exact hc

theorem addCands_sat {dup : List RowCut → RowCut → Bool} : ∀ (cs l : List RowCut), (∀ k ∈ l, k.Sat x) →
    (∀ k ∈ cs, k.Sat x) → ∀ k ∈ addCands dup l cs, k.Sat x
  | [], _, hl, _ => hl
  | c :: cs, _, hl, hc =>
    addCands_sat cs _ (addCand_sat hl (hc c List.mem_cons_self)) fun k hk => hc k (List.mem_cons_of_mem _ hk)

theorem sat_ub {ub : ℚ} {v : SVec} (h : v.dot x ≤ ub) : RowCut.Sat ⟨-dblMax, ub, v⟩ x :=
  ⟨fun hh => absurd hh (lt_irrefl _), fun _ => h⟩
theorem sat_lb {lb : ℚ} {v : SVec} (h : lb ≤ v.dot x) : RowCut.Sat ⟨lb, dblMax, v⟩ x :=
  ⟨fun _ => h, fun hh => absurd hh (lt_irrefl _)⟩

/-! ### Disaggregation -/

theorem le_relaxUb (i : Bool) (b : ℚ) : b ≤ relaxUb i b := by
  unfold relaxUb; split
  · rename_i h; have := h.2; linarith [div_nonneg (a := b) (b := 10 ^ 7) (by linarith) (by norm_num)]
  · exact le_rfl
theorem relaxLb_le (i : Bool) (b : ℚ) : relaxLb i b ≤ b := by
  unfold relaxLb; split
  · linarith [div_nonneg (a := |b|) (b := 10 ^ 7) (abs_nonneg _) (by norm_num)]
  · exact le_rfl

theorem disagg_sat {j : Nat} {mv k sg : ℚ} {v : Save}
    (h : (k - sg * x j = 0 ∧ s.lo v.col ≤ x v.col ∧ x v.col ≤ s.up v.col) ∨
      (k - sg * x j = 1 ∧ v.lo ≤ x v.col ∧ x v.col ≤ v.up)) :
    ∀ c ∈ disagg g j mv k sg s v, c.Sat x := by
  intro c hc
  unfold disagg at hc
  dsimp only at hc
  rcases List.mem_append.mp hc with hc | hc
  · split at hc
    · obtain rfl := List.mem_singleton.mp hc
      refine sat_ub (le_trans ?_ (le_relaxUb _ _))
      simp only [SVec.dot_cons, SVec.dot_nil]
      rcases h with ⟨h1, -, h3⟩ | ⟨h1, -, h3⟩
      · have : k = sg * x j := by linarith
        rw [this]; nlinarith
      · have : k = sg * x j + 1 := by linarith
        rw [this]; nlinarith
    · cases hc
  · split at hc
    · obtain rfl := List.mem_singleton.mp hc
      refine sat_lb (le_trans (relaxLb_le _ _) ?_)
      simp only [SVec.dot_cons, SVec.dot_nil]
      rcases h with ⟨h1, h2, -⟩ | ⟨h1, h2, -⟩
      · have : k = sg * x j := by linarith
        rw [this]; nlinarith
      · have : k = sg * x j + 1 := by linarith
        rw [this]; nlinarith
    · cases hc

/-! ### Strengthened rows -/

/-- The columns of every row are different. -/
def NodupRows (g : Cfg) : Prop := ∀ r ∈ g.rows, (r.els.map Prod.fst).Nodup

theorem addTo_absent {j : Nat} {d : ℚ} {els : SVec} (h : j ∉ els.map Prod.fst) :
    (els.flatMap fun e => if e.1 = j then (if 1 / 10 ^ 12 < |e.2 + d| then [(j, e.2 + d)] else []) else [e]) = els := by
  induction els with
  | nil => rfl
  | cons e els ih =>
    rw [List.map_cons, List.mem_cons, not_or] at h
    rw [List.flatMap_cons, ih h.2, if_neg (fun hh => h.1 hh.symm)]
    rfl

theorem addTo_dot {j : Nat} {d : ℚ} {els : SVec} (hnd : (els.map Prod.fst).Nodup) (hdr : addDrops j d els = false) :
    (addTo j d els).dot x = els.dot x + d * x j := by
  unfold addTo
  rw [SVec.dot_append]
  by_cases hj : j ∈ els.map Prod.fst
  · have hany : (els.any fun e => decide (e.1 = j)) = true := by
      obtain ⟨e, he, hej⟩ := List.mem_map.mp hj
      exact List.any_eq_true.mpr ⟨e, he, by simpa using hej⟩
    rw [hany, if_pos rfl, SVec.dot_nil, add_zero]
    unfold addDrops at hdr
    rw [List.any_eq_false] at hdr
    clear hany
    induction els with
    | nil => cases hj
    | cons e els ih =>
      rw [List.map_cons, List.nodup_cons] at hnd
      rw [List.flatMap_cons, SVec.dot_append, SVec.dot_cons]
      by_cases hej : e.1 = j
      · rw [addTo_absent (hej ▸ hnd.1), if_pos hej]
        have hd := hdr e List.mem_cons_self
        simp only [decide_eq_true_eq, not_and, not_not] at hd
        split
        · rw [SVec.dot_cons, SVec.dot_nil]
          simp only [hej]; ring
        · rename_i hs
          have := hd hej (not_lt.mp hs)
          rw [SVec.dot_nil, hej]
          have e2 : e.2 = -d := by linarith
          rw [e2]; ring
      · rw [if_neg hej, SVec.dot_cons, SVec.dot_nil]
        have hj' : j ∈ els.map Prod.fst := by
          rw [List.map_cons, List.mem_cons] at hj
          exact hj.resolve_left fun hh => hej hh.symm
        rw [ih hnd.2 (fun e he => hdr e (List.mem_cons_of_mem _ he)) hj']
        ring
  · have hany : (els.any fun e => decide (e.1 = j)) = false := by
      rw [List.any_eq_false]
      intro e he
      simp only [decide_eq_true_eq]
      rintro rfl
      exact hj (List.mem_map_of_mem he)
    rw [hany, addTo_absent hj]
    simp

theorem gapOk_pos {a : ℚ} (h : gapOk a = true) : 0 < a := by
  unfold gapOk at h
  simp only [decide_eq_true_eq] at h
  have : 0 < tol := by unfold tol; norm_num
  linarith [h.1]

theorem strength0_sat (he : Env g n x live) (hn : NodupRows g) {i : Nat} {r : PRow} (hr : g.rows[i]? = some r) {j : Nat}
    {mn mx : ℚ} (h : (x j = s.lo j ∧ mn ≤ r.els.dot x ∧ r.els.dot x ≤ mx) ∨ s.lo j + 1 ≤ x j) :
    ∀ c ∈ strength0 g j s i mn mx, c.2 = false → c.1.Sat x := by
  intro c hc hd
  have hm := List.mem_of_getElem? hr
  have hle := he.rowLe r hm
  unfold strength0 at hc
  rw [Cfg.els_eq hr, Cfg.ub_eq hr, Cfg.lb_eq hr] at hc
  dsimp only at hc
  rcases List.mem_append.mp hc with hc | hc
  · split at hc
    · rename_i hgo
      rw [Bool.and_eq_true] at hgo
      have hg := gapOk_pos hgo.1
      split at hc
      · obtain rfl := List.mem_singleton.mp hc
        refine sat_ub ?_
        rw [addTo_dot (hn r hm) hd]
        rcases h with ⟨h1, -, h3⟩ | h1
        · rw [h1]; nlinarith
        · nlinarith
      · cases hc
    · cases hc
  · split at hc
    · rename_i hgo
      rw [Bool.and_eq_true] at hgo
      have hg := gapOk_pos hgo.1
      split at hc
      · obtain rfl := List.mem_singleton.mp hc
        refine sat_lb ?_
        rw [addTo_dot (hn r hm) hd]
        rcases h with ⟨h1, h3, -⟩ | h1
        · rw [h1]; nlinarith
        · nlinarith
      · cases hc
    · cases hc

theorem strength1_sat (he : Env g n x live) (hn : NodupRows g) {i : Nat} {r : PRow} (hr : g.rows[i]? = some r) {j : Nat}
    {mn mx : ℚ} (h : (x j = s.up j ∧ mn ≤ r.els.dot x ∧ r.els.dot x ≤ mx) ∨ x j ≤ s.up j - 1) :
    ∀ c ∈ strength1 g j s i mn mx, c.2 = false → c.1.Sat x := by
  intro c hc hd
  have hm := List.mem_of_getElem? hr
  have hle := he.rowLe r hm
  unfold strength1 at hc
  rw [Cfg.els_eq hr, Cfg.ub_eq hr, Cfg.lb_eq hr] at hc
  dsimp only at hc
  rcases List.mem_append.mp hc with hc | hc
  · split at hc
    · rename_i hgo
      rw [Bool.and_eq_true] at hgo
      have hg := gapOk_pos hgo.1
      split at hc
      · obtain rfl := List.mem_singleton.mp hc
        refine sat_ub ?_
        rw [addTo_dot (hn r hm) hd]
        rcases h with ⟨h1, -, h3⟩ | h1
        · rw [h1]; nlinarith
        · nlinarith
      · cases hc
    · cases hc
  · split at hc
    · rename_i hgo
      rw [Bool.and_eq_true] at hgo
      have hg := gapOk_pos hgo.1
      split at hc
      · obtain rfl := List.mem_singleton.mp hc
        refine sat_lb ?_
        rw [addTo_dot (hn r hm) hd]
        rcases h with ⟨h1, h3, -⟩ | h1
        · rw [h1]; nlinarith
        · nlinarith
      · cases hc
    · cases hc

/-! ### All cuts of a way -/

theorem trueBound_eq {b t lo up : ℚ} (hb : IsInteger b) (ht : IsInteger t) (h : trueBound g b t lo up ≠ 0) : b = t := by
  unfold trueBound at h
  split at h
  · exact absurd rfl h
  · split at h
    · rename_i h1
      have := abs_lt.mp h1
      exact le_antisymm (int_le_of_lt_add_one hb ht (by linarith)) (int_le_of_lt_add_one ht hb (by linarith))
    · exact absurd rfl h

theorem trueBound_two {b t lo up : ℚ} (h : trueBound g b t lo up = 2) : lo = 0 ∧ up ≤ 3 / 2 := by
  unfold trueBound at h
  split at h
  · cases h
  · split at h
    · split at h
      · cases h
      · rename_i h2
        push Not at h2
        exact ⟨h2.2, by rw [h2.2] at h2; linarith [h2.1]⟩
    · cases h

/-- What a way says about the point: the way has the point in it, or the point is beyond. -/
def InWay (g : Cfg) (n : Nat) (x : Nat → ℚ) (live : Nat → Bool) (way : Bool) (j : Nat) (d : ℚ) (s : St) : Prop :=
  ((if way then d ≤ x j else x j ≤ d) ∧ G g n x live s) ∨ (if way then x j ≤ d - 1 else d + 1 ≤ x j)

theorem wayCuts0_sat (he : Env g n x live) (hn : NodupRows g) {j : Nat} {d : ℚ} {gtb : Nat} {any : Bool} {before : St}
    (hw : InWay g n x live false j d s) (hgtb : gtb ≠ 0 → gtb = trueBound g d (before.lo j) (before.lo j) (before.up j))
    (hd : IsInteger d) (hbox : before.lo j ≤ x j ∧ x j ≤ before.up j) (hbi : IsInteger (before.lo j))
    (hji : IsInteger (x j)) (hS : ∀ v ∈ s.sC, v.lo ≤ x v.col ∧ x v.col ≤ v.up ∧ v.col < n)
    (hR : ∀ v ∈ s.sR, ∃ r, g.rows[v.row]? = some r) :
    ∀ c ∈ wayCuts g false j d gtb any s before, c.2 = false → c.1.Sat x := by
  intro c hc hdr
  unfold wayCuts at hc
  rcases List.mem_append.mp hc with hc | hc
  · split at hc
    · rename_i h2
      obtain ⟨c', hc', rfl⟩ := List.mem_map.mp hc
      obtain ⟨v, hv, hcv⟩ := List.mem_flatMap.mp hc'
      have hgt := hgtb (by rw [h2]; decide)
      have hdl : d = before.lo j := trueBound_eq hd hbi (by rw [← hgt, h2]; decide)
      obtain ⟨hz, hup⟩ := trueBound_two (by rw [← hgt]; exact h2)
      rw [hz] at hdl hbox
      have hv' : v ∈ s.sC := List.mem_of_mem_tail (List.mem_reverse.mp hv)
      obtain ⟨h1, h3, h4⟩ := hS v hv'
      refine disagg_sat ?_ c' hcv
      simp only [Bool.false_eq_true, if_false]
      rcases hw with ⟨hxd, hG⟩ | hxd
      · left
        simp only [Bool.false_eq_true, if_false] at hxd
        exact ⟨by linarith [hbox.1], hG.box _ h4⟩
      · right
        simp only [Bool.false_eq_true, if_false] at hxd
        have : x j ≤ 1 := int_le_of_lt_add_one hji ⟨1, by norm_num⟩ (by linarith [hbox.2])
        exact ⟨by linarith, h1, h3⟩
    · cases hc
  · split at hc
    · rename_i h2
      obtain ⟨v, hv, hcv⟩ := List.mem_flatMap.mp hc
      simp only [Bool.false_eq_true, if_false] at hcv
      have hgt := hgtb h2.2.1
      have hdl : d = before.lo j := trueBound_eq hd hbi (by rw [← hgt]; exact h2.2.1)
      obtain ⟨r, hr⟩ := hR v hv
      refine strength0_sat he hn hr ?_ c hcv hdr
      rcases hw with ⟨hxd, hG⟩ | hxd
      · left
        simp only [Bool.false_eq_true, if_false] at hxd
        exact ⟨by linarith [hbox.1], hG.minR_le he hr, hG.le_maxR he hr⟩
      · right
        simp only [Bool.false_eq_true, if_false] at hxd
        linarith
    · cases hc

theorem wayCuts1_sat (he : Env g n x live) (hn : NodupRows g) {j : Nat} {u : ℚ} {any : Bool} {before : St}
    (hw : InWay g n x live true j u s)
    (hu : IsInteger u) (hbox : before.lo j ≤ x j ∧ x j ≤ before.up j) (hbi : IsInteger (before.up j))
    (hlt : before.lo j < before.up j) (hS : ∀ v ∈ s.sC, v.lo ≤ x v.col ∧ x v.col ≤ v.up ∧ v.col < n)
    (hR : ∀ v ∈ s.sR, ∃ r, g.rows[v.row]? = some r) :
    ∀ c ∈ wayCuts g true j u (trueBound g u (before.up j) (before.lo j) (before.up j)) any s before,
      c.2 = false → c.1.Sat x := by
  intro c hc hdr
  unfold wayCuts at hc
  rcases List.mem_append.mp hc with hc | hc
  · split at hc
    · rename_i h2
      obtain ⟨c', hc', rfl⟩ := List.mem_map.mp hc
      obtain ⟨v, hv, hcv⟩ := List.mem_flatMap.mp hc'
      have hdl : u = before.up j := trueBound_eq hu hbi (by rw [h2]; decide)
      obtain ⟨hz, hup⟩ := trueBound_two h2
      rw [hz] at hbox hlt
      have h1u : before.up j = 1 := le_antisymm (int_le_of_lt_add_one hbi ⟨1, by norm_num⟩ (by linarith))
        (by have := int_le_of_lt_add_one (a := 1) (b := before.up j) ⟨1, by norm_num⟩ hbi (by linarith); exact this)
      have hv' : v ∈ s.sC := List.mem_of_mem_tail (List.mem_reverse.mp hv)
      obtain ⟨h1, h3, h4⟩ := hS v hv'
      refine disagg_sat ?_ c' hcv
      simp only [if_true]
      rcases hw with ⟨hxd, hG⟩ | hxd
      · left
        simp only [if_true] at hxd
        exact ⟨by linarith [hbox.2], hG.box _ h4⟩
      · right
        simp only [if_true] at hxd
        exact ⟨by linarith, h1, h3⟩
    · cases hc
  · split at hc
    · rename_i h2
      obtain ⟨v, hv, hcv⟩ := List.mem_flatMap.mp hc
      simp only [if_true] at hcv
      have hdl : u = before.up j := trueBound_eq hu hbi h2.2.1
      obtain ⟨r, hr⟩ := hR v hv
      refine strength1_sat he hn hr ?_ c hcv hdr
      rcases hw with ⟨hxd, hG⟩ | hxd
      · left
        simp only [if_true] at hxd
        exact ⟨by linarith [hbox.2], hG.minR_le he hr, hG.le_maxR he hr⟩
      · right
        simp only [if_true] at hxd
        linarith
    · cases hc

/-! ### Column cuts -/

theorem sortBounds_mem {v : SVec} {p : Nat × ℚ} : p ∈ sortBounds v ↔ p ∈ v :=
  (List.perm_insertionSort _ v).mem_iff

theorem addCol_sat {l : List ColCut} {c : ColCut} (hl : ∀ k ∈ l, k.Sat x) (hc : c.Sat x) : ∀ k ∈ addCol l c, k.Sat x := by
  unfold addCol
  split
  · exact hl
  · intro k hk
    rcases List.mem_append.mp hk with hk | hk
    · exact hl k hk
    · obtain rfl := List.mem_singleton.mp hk; exact hc

theorem keepCut_sat (hG : G g n x live s) (hS : ∀ v ∈ s.sC, v.col < n) : (keepCut g s).Sat x := by
  unfold keepCut
  constructor
  · intro p hp
    rw [sortBounds_mem] at hp
    obtain ⟨v, hv, rfl⟩ := List.mem_map.mp hp
    exact (hG.box _ (hS v (List.mem_of_mem_filter hv))).1
  · intro p hp
    rw [sortBounds_mem] at hp
    obtain ⟨v, hv, rfl⟩ := List.mem_map.mp hp
    exact (hG.box _ (hS v (List.mem_of_mem_filter hv))).2

/-! ### Lower bounds both ways agree on -/

/-- What an entry of `stackC0` says about the point if it does not come from the objective. -/
def LowOk (g : Cfg) (x : Nat → ℚ) (j : Nat) (d : ℚ) (w : Low) : Prop :=
  w.sure = true → (x j ≤ d → w.lo ≤ x w.col) ∧ (g.isInt w.col = true → IsInteger w.lo)

theorem moveSingles_mem {j : Nat} {sg : ℚ} : ∀ (es : List (Nat × ℚ)) (l : List Low) (w : Low),
    w ∈ moveSingles g j s sg es l → w ∈ l ∨ w.sure = false
  | [], _, _, h => Or.inl h
  | e :: es, l, w, h => by
    unfold moveSingles at h
    rcases moveSingles_mem es _ w h with h | h
    · split at h
      · rcases List.mem_append.mp h with h | h
        · exact Or.inl h
        · obtain rfl := List.mem_singleton.mp h; exact Or.inr rfl
      · exact Or.inl h
    · exact Or.inr h

theorem singles0_mem {j : Nat} {v : SaveR} {mn mx : ℚ} {l : List Low} {w : Low} (h : w ∈ singles0 g j s v mn mx l) :
    w ∈ l ∨ w.sure = false := by
  unfold singles0 at h
  dsimp only at h
  split at h
  · split at h
    · rcases moveSingles_mem _ _ _ h with h | h
      · split at h
        · exact moveSingles_mem _ _ _ h
        · exact Or.inl h
      · exact Or.inr h
    · split at h
      · exact moveSingles_mem _ _ _ h
      · exact Or.inl h
  · exact Or.inl h

theorem lows_mem {j gtb : Nat} {any : Bool} {before : St} {w : Low} (h : w ∈ lows g j gtb any s before) :
    (∃ v ∈ s.sC, w.col = v.col ∧ w.lo = s.lo v.col) ∨ w.sure = false := by
  have h0 : ∀ w ∈ (s.sC.take maxStack).map fun v => (⟨v.col, s.lo v.col, true⟩ : Low),
      (∃ v ∈ s.sC, w.col = v.col ∧ w.lo = s.lo v.col) ∨ w.sure = false := by
    intro w hw
    obtain ⟨v, hv, rfl⟩ := List.mem_map.mp hw
    exact Or.inl ⟨v, List.mem_of_mem_take hv, rfl, rfl⟩
  unfold lows at h
  dsimp only at h
  split at h
  · generalize ((s.sC.take maxStack).map fun v => (⟨v.col, s.lo v.col, true⟩ : Low)) = l at h h0
    have key : ∀ (rs : List SaveR) (l : List Low),
        (∀ w ∈ l, (∃ v ∈ s.sC, w.col = v.col ∧ w.lo = s.lo v.col) ∨ w.sure = false) →
        w ∈ rs.foldl (fun l v => singles0 g j before v (s.minR v.row) (s.maxR v.row) l) l →
        (∃ v ∈ s.sC, w.col = v.col ∧ w.lo = s.lo v.col) ∨ w.sure = false := by
      intro rs
      induction rs with
      | nil => intro l hl hw; exact hl w hw
      | cons r rs ih =>
        intro l hl hw
        refine ih _ ?_ hw
        intro w hw
        rcases singles0_mem hw with hw | hw
        · exact hl w hw
        · exact Or.inr hw
    exact key _ _ h0 h
  · exact h0 w h

theorem lows_ok {j gtb : Nat} {any : Bool} {before : St} {d : ℚ} (hS : ∀ v ∈ s.sC, v.col < n)
    (hi : ∀ c < n, g.isInt c = true → IsInteger (s.lo c)) (hG : x j ≤ d → G g n x live s) :
    ∀ w ∈ lows g j gtb any s before, LowOk g x j d w := by
  intro w hw hs
  rcases lows_mem hw with ⟨v, hv, h1, h2⟩ | h
  · rw [h1, h2]
    exact ⟨fun hd => ((hG hd).box _ (hS v hv)).1, hi _ (hS v hv)⟩
  · rw [h] at hs; cases hs

/-- Nothing in the cut comes from the objective. -/
def BothSure (l : List Low) (s : St) : Prop := ∀ v ∈ s.sC.tail, ∀ w, bothLo l s v = some w → w.sure = true

theorem bothLo_spec {l : List Low} {v : Save} {w : Low} (h : bothLo l s v = some w) :
    ∃ w0 ∈ l, w0.col = v.col ∧ w0.sure = w.sure ∧ w.lo = min w0.lo (s.lo v.col) ∧ v.lo < w.lo := by
  unfold bothLo at h
  split at h
  · cases h
  · rename_i w0 hw0
    split at h
    · rename_i hlt
      cases h
      have hm := List.mem_of_find?_eq_some hw0
      have hc := List.find?_some hw0
      refine ⟨w0, List.mem_of_mem_tail hm, by simpa using hc, rfl, rfl, ?_⟩
      have : (0 : ℚ) < 1 / 10 ^ 4 := by norm_num
      dsimp only
      linarith
    · cases h

theorem bothLo_ok {l : List Low} {j : Nat} {d u : ℚ} (hl : ∀ w ∈ l, LowOk g x j d w) (hsure : BothSure l s)
    (hS : ∀ v ∈ s.sC, v.col < n) (hcase : x j ≤ d ∨ u ≤ x j) (hG : u ≤ x j → G g n x live s)
    (hi : ∀ c < n, g.isInt c = true → IsInteger (s.lo c)) {v : Save} (hv : v ∈ s.sC.tail) {w : Low}
    (h : bothLo l s v = some w) : v.lo ≤ w.lo ∧ w.lo ≤ x v.col ∧ (g.isInt v.col = true → IsInteger w.lo) := by
  obtain ⟨w0, hw0, h1, h2, h3, h4⟩ := bothLo_spec h
  have hv' := List.mem_of_mem_tail hv
  obtain ⟨k1, k2⟩ := hl w0 hw0 (by rw [h2]; exact hsure v hv w h)
  rw [h1] at k1 k2
  refine ⟨h4.le, ?_, ?_⟩
  · rw [h3]
    rcases hcase with hc | hc
    · exact le_trans (min_le_left _ _) (k1 hc)
    · exact le_trans (min_le_right _ _) ((hG hc).box _ (hS v hv')).1
  · intro hint
    rw [h3]
    rcases min_choice w0.lo (s.lo v.col) with h | h <;> rw [h]
    · exact k2 hint
    · exact hi _ (hS v hv') hint

theorem bothSave_col (l : List Low) (s : St) (v : Save) : (bothSave l s v).col = v.col ∧ (bothSave l s v).up = v.up := by
  unfold bothSave; split <;> exact ⟨rfl, rfl⟩

theorem bothCut_sat {l : List Low} {j : Nat} {d u : ℚ} (hl : ∀ w ∈ l, LowOk g x j d w) (hsure : BothSure l s)
    (hS : ∀ v ∈ s.sC, v.col < n) (hcase : x j ≤ d ∨ u ≤ x j) (hG : u ≤ x j → G g n x live s)
    (hi : ∀ c < n, g.isInt c = true → IsInteger (s.lo c)) : (bothCut g l s).Sat x := by
  unfold bothCut
  constructor
  · intro p hp
    rw [sortBounds_mem] at hp
    obtain ⟨v, hv, rfl⟩ := List.mem_map.mp hp
    obtain ⟨hv, hq⟩ := List.mem_filter.mp hv
    rw [Bool.and_eq_true, Option.isSome_iff_exists] at hq
    obtain ⟨w, hw⟩ := hq.2
    have := bothLo_ok hl hsure hS hcase hG hi hv hw
    unfold bothSave
    rw [hw]
    exact this.2.1
  · intro p hp; cases hp

/-- The saved bounds with those lower bounds are good for the point. -/
theorem bothSave_ok {l : List Low} {j : Nat} {d u : ℚ} (hl : ∀ w ∈ l, LowOk g x j d w) (hsure : BothSure l s)
    (hS : SavesOk g n x s0 s.sC) (hcase : x j ≤ d ∨ u ≤ x j) (hG : u ≤ x j → G g n x live s)
    (hi : ∀ c < n, g.isInt c = true → IsInteger (s.lo c)) {v : Save} {vs : List Save} (h : s.sC = v :: vs) :
    SavesOk g n x s0 (v :: vs.map (bothSave l s)) := by
  intro w hw
  rcases List.mem_cons.mp hw with rfl | hw
  · exact hS w (by rw [h]; exact List.mem_cons_self)
  · obtain ⟨v', hv', rfl⟩ := List.mem_map.mp hw
    have hm : v' ∈ s.sC := by rw [h]; exact List.mem_cons_of_mem _ hv'
    have ht : v' ∈ s.sC.tail := by rw [h]; exact hv'
    obtain ⟨h1, h2, h3, h4, h5, h6⟩ := hS v' hm
    obtain ⟨e1, e2⟩ := bothSave_col l s v'
    rw [e1, e2]
    unfold bothSave
    split
    · exact ⟨h1, h2, h3, h4, h5, h6⟩
    · rename_i w hw
      obtain ⟨k1, k2, k3⟩ := bothLo_ok hl hsure (fun v hv => (hS v hv).2.2.2.2.1) hcase hG hi ht hw
      exact ⟨le_trans h1 k1, k2, h3, h4, h5, k3⟩

/-! ### Implications -/

/-- What a recorded implication says about the point. -/
def FixOk (g : Cfg) (x : Nat → ℚ) (f : Fix) : Prop :=
  g.isInt f.col = true →
    (f.up = false → g.curLo f.j = 0 → x f.j = 0 → x f.col = if f.toLower then 0 else 1) ∧
    (f.up = true → g.curUp f.j = 1 → x f.j = 1 → x f.col = if f.toLower then 0 else 1)

theorem fixes_ok {way : Bool} {j : Nat} {d : ℚ} (hj : if way then d ≤ g.curUp j else g.curLo j ≤ d)
    (hG : (if way then d ≤ x j else x j ≤ d) → G g n x live s)
    (hi : ∀ c < n, g.isInt c = true → IsInteger (s.lo c) ∧ IsInteger (s.up c))
    (hx : ∀ c < n, g.isInt c = true → IsInteger (x c))
    (hS : ∀ v ∈ s.sC, v.lo ≤ x v.col ∧ x v.col ≤ v.up ∧ v.col < n) : ∀ f ∈ fixes way j s, FixOk g x f := by
  intro f hf
  unfold fixes at hf
  obtain ⟨v, hv, rfl⟩ := List.mem_map.mp hf
  obtain ⟨hv, hq⟩ := List.mem_filter.mp hv
  simp only [Bool.and_eq_true, decide_eq_true_eq] at hq
  obtain ⟨⟨hq1, hq2⟩, hq3⟩ := hq
  obtain ⟨h1, h2, h3⟩ := hS v (List.mem_of_mem_tail hv)
  rw [hq2] at h1
  rw [hq3] at h2
  intro hint
  dsimp only at hint ⊢
  have key : G g n x live s → x v.col = if decide (s.lo v.col = v.lo) = true then 0 else 1 := by
    intro hG
    obtain ⟨b1, b2⟩ := hG.box _ h3
    obtain ⟨i1, i2⟩ := hi _ h3 hint
    have e1 : x v.col ≤ s.lo v.col := int_le_of_lt_add_one (hx _ h3 hint) i1 (by linarith)
    have e : x v.col = s.lo v.col := le_antisymm e1 b1
    rw [hq2]
    split
    · rename_i hd; rw [e]; simpa using hd
    · rename_i hd
      have hne : x v.col ≠ 0 := by rw [e]; simpa using hd
      have hpos : 0 < x v.col := lt_of_le_of_ne h1 (Ne.symm hne)
      exact le_antisymm h2 (int_le_of_lt_add_one ⟨1, by norm_num⟩ (hx _ h3 hint) (by linarith))
  refine ⟨?_, ?_⟩
  · rintro rfl hc hx0
    simp only [Bool.false_eq_true, if_false] at hj hG
    exact key (hG (by linarith))
  · rintro rfl hc hx0
    simp only [if_true] at hj hG
    exact key (hG (by linarith))

/-! ### Big-M coefficients -/

theorem bigCol_mem : ∀ (es : List (Nat × ℚ)) (b : Option (Nat × ℚ)) {e : Nat × ℚ}, bigCol g s es b = some e →
    b = some e ∨ (e ∈ es ∧ g.isInt e.1 = true ∧ s.lo e.1 < s.up e.1 ∧ s.lo e.1 = 0 ∧ e.2 ≠ 0)
  | [], _, _, h => Or.inl h
  | a :: es, b, e, h => by
    unfold bigCol at h
    rcases bigCol_mem es _ h with h | ⟨h1, h2⟩
    · split at h
      · rename_i hc
        simp only [Bool.and_eq_true, decide_eq_true_eq] at hc
        obtain ⟨⟨⟨c1, c2⟩, c3⟩, c4⟩ := hc
        cases h
        right
        refine ⟨List.mem_cons_self, c1, c2, c3, ?_⟩
        intro h0
        rw [h0, abs_zero] at c4
        cases b with
        | none => simp at c4
        | some b => simp only [Option.map_some, Option.getD_some] at c4; exact absurd c4 (not_lt.mpr (abs_nonneg _))
      · exact Or.inl h
    · exact Or.inr ⟨List.mem_cons_of_mem _ h1, h2⟩

/-- Activity of the other columns. -/
theorem other_split {els : SVec} {k : Nat} {v : ℚ} (hnd : (els.map Prod.fst).Nodup) (hm : (k, v) ∈ els) (x : Nat → ℚ) :
    els.dot x = (els.map fun e => if e.1 = k then 0 else e.2 * x e.1).sum + v * x k := by
  induction els with
  | nil => cases hm
  | cons e els ih =>
    rw [List.map_cons, List.nodup_cons] at hnd
    rw [SVec.dot_cons, List.map_cons, List.sum_cons]
    rcases List.mem_cons.mp hm with rfl | hm
    · rw [if_pos rfl]
      have : SVec.dot els x = (els.map fun e => if e.1 = k then 0 else e.2 * x e.1).sum := by
        have h0 : k ∉ els.map Prod.fst := hnd.1
        clear ih hnd
        induction els with
        | nil => rfl
        | cons a els ih =>
          rw [List.map_cons, List.mem_cons, not_or] at h0
          rw [SVec.dot_cons, List.map_cons, List.sum_cons, if_neg (fun hh => h0.1 hh.symm),
            ih (by simp) h0.2]
      rw [this]; ring
    · have : e.1 ≠ k := by
        rintro rfl
        exact hnd.1 (List.mem_map.mpr ⟨_, hm, rfl⟩)
      rw [if_neg this, ih hnd.2 hm]; ring

theorem replaceIn_dot {els : SVec} {k : Nat} {v w : ℚ} (hnd : (els.map Prod.fst).Nodup) (hm : (k, v) ∈ els)
    (hw : 1 / 10 ^ 12 < |w|) (x : Nat → ℚ) :
    (replaceIn k w els).dot x = (els.map fun e => if e.1 = k then 0 else e.2 * x e.1).sum + w * x k := by
  unfold replaceIn
  simp only [if_pos hw]
  induction els with
  | nil => cases hm
  | cons e els ih =>
    rw [List.map_cons, List.nodup_cons] at hnd
    rw [List.flatMap_cons, SVec.dot_append, List.map_cons, List.sum_cons]
    rcases List.mem_cons.mp hm with rfl | hm
    · rw [if_pos rfl, if_pos rfl, SVec.dot_cons, SVec.dot_nil]
      have : SVec.dot (els.flatMap fun e : Nat × ℚ => if e.1 = k then [(k, w)] else [e]) x =
          (els.map fun e => if e.1 = k then 0 else e.2 * x e.1).sum := by
        have h0 : k ∉ els.map Prod.fst := hnd.1
        clear ih hnd
        induction els with
        | nil => rfl
        | cons a els ih =>
          rw [List.map_cons, List.mem_cons, not_or] at h0
          rw [List.flatMap_cons, SVec.dot_append, List.map_cons, List.sum_cons, if_neg (fun hh => h0.1 hh.symm),
            if_neg (fun hh => h0.1 hh.symm), ih (by simp) h0.2, SVec.dot_cons, SVec.dot_nil, add_zero]
      rw [this]; ring
    · have : e.1 ≠ k := by
        rintro rfl
        exact hnd.1 (List.mem_map.mpr ⟨_, hm, rfl⟩)
      rw [if_neg this, if_neg this, ih hnd.2 hm, SVec.dot_cons, SVec.dot_nil]; ring

theorem other_abs (els : SVec) (k : Nat) (x : Nat → ℚ) :
    |(els.map fun e => if e.1 = k then 0 else e.2 * x e.1).sum| ≤ (els.map fun p => |p.2| * (|x p.1| + 10 ^ 10)).sum := by
  induction els with
  | nil => simp
  | cons e els ih =>
    rw [List.map_cons, List.map_cons, List.sum_cons, List.sum_cons]
    refine le_trans (abs_add_le _ _) (add_le_add ?_ ih)
    split
    · rw [abs_zero]; exact mul_nonneg (abs_nonneg _) (by have := abs_nonneg (x e.1); positivity)
    · rw [abs_mul]; exact mul_le_mul_of_nonneg_left (by norm_num) (abs_nonneg _)

theorem other_le {els : SVec} {k : Nat} (hk : s.lo k < s.up k) (hb : ∀ e ∈ els, s.lo e.1 ≤ x e.1 ∧ x e.1 ≤ s.up e.1)
    (hsm : (els.map fun p => |p.2| * (|x p.1| + 10 ^ 10)).sum ≤ 10 ^ 20) :
    otherMin s k els ≤ (els.map fun e => if e.1 = k then 0 else e.2 * x e.1).sum ∧
    (els.map fun e => if e.1 = k then 0 else e.2 * x e.1).sum ≤ otherMax s k els := by
  have habs := abs_le.mp (le_trans (other_abs els k x) hsm)
  have hbig : (10 : ℚ) ^ 20 ≤ 10 ^ 31 := by norm_num
  constructor
  · unfold otherMin
    split
    · linarith [habs.1]
    · refine List.sum_le_sum fun e he => ?_
      obtain ⟨b1, b2⟩ := hb e he
      split
      · rename_i h
        have hx : x e.1 = s.up e.1 := le_antisymm b2 (by rw [h]; exact b1)
        rw [if_neg (by rintro rfl; rw [h] at hk; exact lt_irrefl _ hk), hx]
        exact le_of_eq (by ring)
      · split
        · exact le_rfl
        · split
          · rename_i h; nlinarith
          · split
            · rename_i h; nlinarith
            · rename_i h1 h2
              have : e.2 = 0 := le_antisymm (not_lt.mp h1) (not_lt.mp h2)
              rw [this, zero_mul]
  · unfold otherMax
    split
    · linarith [habs.2]
    · refine List.sum_le_sum fun e he => ?_
      obtain ⟨b1, b2⟩ := hb e he
      split
      · rename_i h
        split
        · rename_i h2; rw [h] at h2; exact absurd h2 (ne_of_gt hk)
        · exact le_rfl
      · split
        · rename_i h
          have hx : x e.1 = s.up e.1 := le_antisymm b2 (by rw [h]; exact b1)
          rw [hx]
          exact le_of_eq (by ring)
        · split
          · rename_i h; nlinarith
          · split
            · rename_i h; nlinarith
            · rename_i h1 h2
              have : e.2 = 0 := le_antisymm (not_lt.mp h1) (not_lt.mp h2)
              rw [this, zero_mul]

theorem bigNew_ok {lb ub : ℚ} {els : SVec} {k : Nat} {v w : ℚ} (h : bigNew s lb ub els k v = some w) (hv : v ≠ 0) :
    (0 < v ∧ tol < w ∧ w < v ∧ w = lb - otherMin s k els) ∨ (v < 0 ∧ w < -tol ∧ v < w ∧ w = ub - otherMax s k els) := by
  have ht : 0 < tol := by unfold tol; norm_num
  unfold bigNew at h
  dsimp only at h
  split at h
  · cases h
  · split at h
    · rename_i h1
      obtain ⟨-, -, h2, h3, h4⟩ := h1
      generalize hw : (if 0 < v then lb - otherMin s k els else ub - otherMax s k els) = w' at h
      split at h
      · cases h
        rw [← hw]
        split
        · rename_i hp
          left
          rcases h4 with h4 | h4
          · exact ⟨hp, by linarith, by linarith, rfl⟩
          · linarith
        · rename_i hp
          have hneg : v < 0 := lt_of_le_of_ne (not_lt.mp hp) hv
          right
          rcases h4 with h4 | h4
          · linarith
          · exact ⟨hneg, by linarith, by linarith, rfl⟩
      · cases h
    · cases h

theorem bigM_sat (he : Env g n x live) (hn : NodupRows g) (hG : G g n x live s) (i : Nat) : ∀ c ∈ bigM g s i, c.Sat x := by
  intro c hc
  unfold bigM at hc
  dsimp only at hc
  split at hc
  · rcases hr : g.rows[i]? with _ | r
    · have : g.els i = [] := by unfold Cfg.els; rw [hr]; rfl
      rw [this] at hc
      simp [bigCol] at hc
    · rw [Cfg.els_eq hr, Cfg.lb_eq hr, Cfg.ub_eq hr] at hc
      have hm := List.mem_of_getElem? hr
      split at hc
      · cases hc
      · rename_i k v hk
        split at hc
        · cases hc
        · rename_i w hw
          split at hc
          · obtain rfl := List.mem_singleton.mp hc
            rcases bigCol_mem _ _ hk with h | ⟨h1, h2, h3, h4, h5⟩
            · cases h
            · dsimp only at h2 h3 h4 h5
              have hkn : k < n := he.cols r hm _ h1
              have hbox := hG.box k hkn
              have hxi := he.int k hkn h2
              obtain ⟨o1, o2⟩ := other_le h3 (hG.inBox he hm) (he.modest r hm)
              have hrow := he.rowLe r hm
              rw [other_split (hn r hm) h1] at hrow
              have ht : 0 < tol ∧ 1 / 10 ^ 12 < tol := by unfold tol; norm_num
              have hwbig : 1 / 10 ^ 12 < |w| := by
                rcases bigNew_ok hw h5 with ⟨-, hh, -⟩ | ⟨-, hh, -⟩
                · rw [abs_of_pos (by linarith)]; linarith
                · rw [abs_of_neg (by linarith)]; linarith
              have hd := replaceIn_dot (hn r hm) h1 hwbig x
              have hx0 : 0 ≤ x k := by linarith
              have hcase : x k = 0 ∨ 1 ≤ x k := by
                rcases eq_or_lt_of_le hx0 with h | h
                · exact Or.inl h.symm
                · exact Or.inr (int_le_of_lt_add_one ⟨1, by norm_num⟩ hxi (by linarith))
              have hgoal : r.lb ≤ (replaceIn k w r.els).dot x ∧ (replaceIn k w r.els).dot x ≤ r.ub := by
                rw [hd]
                rcases hcase with h0 | h0
                · rw [h0] at hrow ⊢
                  constructor <;> linarith [hrow.1, hrow.2]
                · rcases bigNew_ok hw h5 with ⟨p1, p2, p3, p4⟩ | ⟨p1, p2, p3, p4⟩
                  · constructor
                    · nlinarith
                    · nlinarith [hrow.2]
                  · constructor
                    · nlinarith [hrow.1]
                    · nlinarith
              exact ⟨fun _ => hgoal.1, fun _ => hgoal.2⟩
          · cases hc
  · cases hc

theorem bigMs_sat {dup : List RowCut → RowCut → Bool} {k : Nat} {r : St × Acc} (he : Env g n x live) (hn : NodupRows g)
    (hG : G g n x live r.1) (hc : ∀ c ∈ r.2.cand, c.Sat x) : ∀ c ∈ bigMs g dup k r, c.Sat x := by
  unfold bigMs
  split
  · refine addCands_sat _ _ (by simp) ?_
    intro c hc
    obtain ⟨i, -, hi⟩ := List.mem_flatMap.mp hc
    exact bigM_sat he hn hG i c hi
  · exact hc

theorem addCuts_mem {lim pass : Nat} {l : List RowCut} {c : RowCut} (h : c ∈ addCuts lim pass l) : c ∈ l := by
  unfold addCuts at h
  split at h
  · split at h
    · exact h
    · exact List.mem_reverse.mp h
  · split at h
    · cases h
    · exact h

end Cgl.Probing
