import Verif.FlowCover.Model

/-!
# The cover found by the search

`findCover_spec`: the columns are those of the row, and `lambda` is the excess of the cover, at least 1e-6.
`promote_fuel`, `cover_fuel`: the loops end.
-/

namespace Cgl.FlowCover

/-- Contribution of a column to the left-hand side of the knapsack. -/
def balOne (p : Item × Bool) : ℚ := if p.1.pos then (if p.2 then p.1.up else 0) else (if p.2 then -p.1.up else 0)

/-- The same for the labels during the search, where the flags of the negative columns are the other way round. -/
def balC (c : Cand) : ℚ := balOne (flipNeg c)

/-- The sum over all the columns. -/
def bal (cs : List Cand) : ℚ := (cs.map balC).sum

/-- Only candidates outside the cover are promoted. -/
def CandOk (cs : List Cand) : Prop := ∀ c ∈ cs, c.cnd ≠ .out → c.inc = false

theorem balC_cnd (c : Cand) (d : Cnd) : balC { c with cnd := d } = balC c := rfl

theorem balC_inc {c : Cand} (h : c.inc = false) : balC { c with inc := true } = balC c + c.it.up := by
  unfold balC balOne flipNeg
  cases hp : c.it.pos <;> simp [h]

theorem balC_exc {c : Cand} (h : c.inc = true) : balC { c with inc := false } = balC c - c.it.up := by
  unfold balC balOne flipNeg
  cases hp : c.it.pos <;> simp [h]

theorem sum_set (f : Cand → ℚ) : ∀ (cs : List Cand) (k : Nat) (c d : Cand), cs[k]? = some c →
    ((cs.set k d).map f).sum = (cs.map f).sum - f c + f d
  | [], k, c, d, h => by simp at h
  | a :: cs, 0, c, d, h => by simp at h; subst h; simp; ring
  | a :: cs, k + 1, c, d, h => by
    simp only [List.getElem?_cons_succ] at h
    simp only [List.set_cons_succ, List.map_cons, List.sum_cons, sum_set f cs k c d h]; ring

theorem map_it_set : ∀ (cs : List Cand) (k : Nat) (c d : Cand), cs[k]? = some c → d.it = c.it →
    (cs.set k d).map Cand.it = cs.map Cand.it
  | [], k, c, d, h, _ => by simp at h
  | a :: cs, 0, c, d, h, e => by simp at h; subst h; simp [e]
  | a :: cs, k + 1, c, d, h, e => by
    simp only [List.getElem?_cons_succ] at h
    simp only [List.set_cons_succ, List.map_cons, map_it_set cs k c d h e]

theorem mem_set {cs : List Cand} {k : Nat} {d a : Cand} (h : a ∈ cs.set k d) : a = d ∨ a ∈ cs := by
  rcases List.mem_or_eq_of_mem_set h with h | h
  · exact Or.inr h
  · exact Or.inl h

theorem scanSec_spec : ∀ (cs : List Cand) (k : Nat) (b : ℚ × Nat),
    scanSec cs k b = b ∨ ∃ i c, cs[i]? = some c ∧ c.cnd = .secondary ∧ (scanSec cs k b).2 = k + i
  | [], k, b => Or.inl rfl
  | c :: cs, k, b => by
    unfold scanSec
    by_cases h : c.cnd = .secondary ∧ c.it.up * c.it.x - c.it.y < b.1 - eps
    · simp only [h, and_self, if_true]
      rcases scanSec_spec cs (k + 1) (c.it.up * c.it.x - c.it.y, k) with e | ⟨i, d, h1, h2, h3⟩
      · exact Or.inr ⟨0, c, rfl, h.1, by rw [e]; rfl⟩
      · exact Or.inr ⟨i + 1, d, by simpa using h1, h2, by rw [h3]; omega⟩
    · simp only [if_neg h]
      rcases scanSec_spec cs (k + 1) b with e | ⟨i, d, h1, h2, h3⟩
      · exact Or.inl e
      · exact Or.inr ⟨i + 1, d, by simpa using h1, h2, by rw [h3]; omega⟩

theorem scanRatio_spec : ∀ (cs : List Cand) (k : Nat) (b : ℚ × Option Nat),
    scanRatio cs k b = b ∨
      ∃ i c, cs[i]? = some c ∧ c.cnd = .prime ∧ c.inc = false ∧ (scanRatio cs k b).2 = some (k + i)
  | [], k, b => Or.inl rfl
  | c :: cs, k, b => by
    unfold scanRatio
    by_cases h : c.cnd = .prime ∧ c.inc = false ∧ c.ratio < b.1
    · simp only [h, and_self, if_true]
      rcases scanRatio_spec cs (k + 1) (c.ratio, some k) with e | ⟨i, d, h1, h2, h2', h3⟩
      · exact Or.inr ⟨0, c, rfl, h.1, h.2.1, by rw [e]; rfl⟩
      · exact Or.inr ⟨i + 1, d, by simpa using h1, h2, h2', by rw [h3]; congr 1; omega⟩
    · simp only [if_neg h]
      rcases scanRatio_spec cs (k + 1) b with e | ⟨i, d, h1, h2, h2', h3⟩
      · exact Or.inl e
      · exact Or.inr ⟨i + 1, d, by simpa using h1, h2, h2', by rw [h3]; congr 1; omega⟩

theorem eps_infty : (1 - eps) * infty < infty := by unfold eps infty; norm_num

/-- The candidate that `promote` promotes is a secondary one. -/
theorem scanSec_mem {cs : List Cand} (h : ¬ (1 - eps) * infty < (scanSec cs 0 (infty, 0)).1) :
    ∃ c, cs[(scanSec cs 0 (infty, 0)).2]? = some c ∧ c.cnd = .secondary := by
  rcases scanSec_spec cs 0 (infty, 0) with e | ⟨i, c, h1, h2, h3⟩
  · rw [e] at h; exact absurd eps_infty h
  · rw [h3, Nat.zero_add]; exact ⟨c, h1, h2⟩

theorem promote_spec {knap : ℚ} : ∀ (f : Nat) (cs : List Cand) (s : ℚ) (cs' : List Cand), CandOk cs →
    promote knap f cs s = some cs' → cs'.map Cand.it = cs.map Cand.it ∧ bal cs' = bal cs ∧ CandOk cs'
  | 0, cs, s, cs', _, h => by simp [promote] at h
  | f + 1, cs, s, cs', ok, h => by
    unfold promote at h
    by_cases h1 : s < knap + eps
    · simp only [if_pos h1] at h
      by_cases h2 : (1 - eps) * infty < (scanSec cs 0 (infty, 0)).1
      · simp [h2] at h
      · simp only [if_neg h2] at h
        obtain ⟨c, hc, hs⟩ := scanSec_mem h2
        rw [hc] at h
        simp only at h
        have hcm := List.mem_of_getElem? hc
        have ok' : CandOk (cs.set (scanSec cs 0 (infty, 0)).2 { c with cnd := .prime }) := by
          intro a ha hcnd
          rcases mem_set ha with rfl | ha
          · exact ok c hcm (by rw [hs]; decide)
          · exact ok a ha hcnd
        obtain ⟨e1, e2, e3⟩ := promote_spec f _ _ _ ok' h
        refine ⟨e1.trans (map_it_set _ _ c _ hc rfl), ?_, e3⟩
        rw [e2]; unfold bal
        rw [sum_set _ _ _ c _ hc, balC_cnd c .prime]; ring
    · simp only [if_neg h1, Option.some.injEq] at h
      subst h; exact ⟨rfl, rfl, ok⟩

theorem zeroRatio_it (cs : List Cand) : (cs.map zeroRatio).map Cand.it = cs.map Cand.it := by
  rw [List.map_map]; apply List.map_congr_left
  intro c _; unfold zeroRatio; simp only [Function.comp]; split <;> rfl

theorem zeroRatio_bal {cs : List Cand} (ok : CandOk cs) : bal (cs.map zeroRatio) = bal cs + zeroSum cs := by
  induction cs with
  | nil => simp [bal, zeroSum]
  | cons c cs ih =>
    have ih := ih fun a ha => ok a (by simp [ha])
    unfold bal zeroSum at ih ⊢
    simp only [List.map_cons, List.sum_cons, ih]
    by_cases h : c.cnd = .prime ∧ c.ratio < eps
    · rw [List.filter_cons_of_pos (by simp [h]), List.map_cons, List.sum_cons]
      have : zeroRatio c = { c with inc := true } := by unfold zeroRatio; rw [if_pos h]
      rw [this, balC_inc (ok c (by simp) (by rw [h.1]; decide))]; ring
    · rw [List.filter_cons_of_neg (by simpa using h)]
      have : zeroRatio c = c := by unfold zeroRatio; rw [if_neg h]
      rw [this]; ring

theorem cover_spec {knap : ℚ} : ∀ (f : Nat) (cs : List Cand) (s : ℚ) (r : List Cand × ℚ),
    cover knap f cs s = some r →
    r.1.map Cand.it = cs.map Cand.it ∧ bal r.1 - r.2 = bal cs - s ∧ knap + eps ≤ r.2
  | 0, cs, s, r, h => by simp [cover] at h
  | f + 1, cs, s, r, h => by
    unfold cover at h
    by_cases h1 : s < knap + eps
    · simp only [if_pos h1] at h
      rcases scanRatio_spec cs 0 (infty, none) with e | ⟨i, c, hc, hp, hi, e⟩
      · rw [e] at h; simp at h
      · rw [e, Nat.zero_add] at h
        simp only [hc] at h
        obtain ⟨e1, e2, e3⟩ := cover_spec f _ _ _ h
        refine ⟨e1.trans (map_it_set _ _ c _ hc rfl), ?_, e3⟩
        rw [e2]; unfold bal
        rw [sum_set _ _ _ c _ hc, balC_inc hi]; ring
    · simp only [if_neg h1, Option.some.injEq] at h
      subst h; exact ⟨rfl, rfl, not_lt.1 h1⟩

theorem reduce_spec {knap : ℚ} {sel : Cand → Bool} : ∀ (cs : List Cand) (s : ℚ), knap + eps ≤ s →
    (reduce knap sel cs s).1.map Cand.it = cs.map Cand.it ∧
      bal (reduce knap sel cs s).1 - (reduce knap sel cs s).2 = bal cs - s ∧ knap + eps ≤ (reduce knap sel cs s).2
  | [], s, h => ⟨rfl, rfl, h⟩
  | c :: cs, s, h => by
    unfold reduce
    by_cases hc : c.inc ∧ sel c ∧ knap + eps < s - c.it.up
    · simp only [if_pos hc]
      obtain ⟨e1, e2, e3⟩ := reduce_spec (sel := sel) cs (s - c.it.up) hc.2.2.le
      refine ⟨by simp [e1], ?_, e3⟩
      unfold bal at e2 ⊢
      simp only [List.map_cons, List.sum_cons, balC_exc hc.1]
      linarith
    · simp only [if_neg hc]
      obtain ⟨e1, e2, e3⟩ := reduce_spec (sel := sel) cs s h
      refine ⟨by simp [e1], ?_, e3⟩
      unfold bal at e2 ⊢
      simp only [List.map_cons, List.sum_cons]
      linarith

theorem mkCand_it (i : Item) : (mkCand i).it = i := by unfold mkCand; split_ifs <;> rfl

theorem mkCand_map (is : List Item) : (is.map mkCand).map Cand.it = is := by
  rw [List.map_map]; conv_rhs => rw [← List.map_id is]
  exact List.map_congr_left fun i _ => mkCand_it i

theorem mkCand_ok (is : List Item) : CandOk (is.map mkCand) := by
  intro c hc hn
  obtain ⟨i, _, rfl⟩ := List.mem_map.1 hc
  unfold mkCand at hn ⊢
  split_ifs at hn ⊢ <;> first | rfl | exact absurd rfl hn

theorem mkCand_bal (rhs : ℚ) (is : List Item) : bal (is.map mkCand) = rhs - knapRHS rhs is := by
  induction is with
  | nil => simp [bal, knapRHS]
  | cons i is ih =>
    have hb : balC (mkCand i) = if !i.pos && !i.inf then -i.up else 0 := by
      unfold balC balOne flipNeg
      rw [mkCand_it]
      cases hp : i.pos
      · cases hi : i.inf
        · simp [mkCand, hp, hi]; split <;> simp
        · simp [mkCand, hp, hi]
      · simp [mkCand, hp]; split <;> simp
    unfold bal knapRHS at ih ⊢
    simp only [List.map_cons, List.sum_cons, ih, hb]
    by_cases h : (!i.pos && !i.inf) = true
    · rw [List.filter_cons_of_pos (by simpa using h)]; simp only [h, if_true, List.map_cons, List.sum_cons]; ring
    · rw [List.filter_cons_of_neg (by simpa using h)]; simp only [h]; simp

/-- What the search for a cover delivers. -/
theorem findCover_spec {rhs lam : ℚ} {is : List Item} {ps : List (Item × Bool)} (h : findCover rhs is = some (ps, lam)) :
    ps.map Prod.fst = is ∧ lam = (ps.map balOne).sum - rhs ∧ eps ≤ lam := by
  unfold findCover at h
  simp only at h
  split at h
  · cases h
  · rcases h1 : promote (knapRHS rhs is) (is.length + 1) (is.map mkCand) (primeSum (is.map mkCand)) with _ | cs1
    · rw [h1] at h; cases h
    · rw [h1] at h; simp only at h
      rcases h2 : cover (knapRHS rhs is) (is.length + 1) (cs1.map zeroRatio) (zeroSum cs1) with _ | ⟨cs2, s2⟩
      · rw [h2] at h; cases h
      · rw [h2] at h; simp only at h
        split at h
        swap
        · cases h
        simp only [Option.some.injEq, Prod.mk.injEq] at h
        obtain ⟨hps, hlam⟩ := h
        obtain ⟨a1, a2, a3⟩ := promote_spec _ _ _ _ (mkCand_ok is) h1
        obtain ⟨b1, b2, b3⟩ := cover_spec _ _ _ _ h2
        obtain ⟨c1, c2, c3⟩ := reduce_spec (sel := fun c => eps < c.ratio) cs2 s2 b3
        obtain ⟨d1, d2, d3⟩ := reduce_spec (sel := fun c => c.ratio < eps)
          (reduce (knapRHS rhs is) (fun c => eps < c.ratio) cs2 s2).1 _ c3
        simp only at b1 b2 b3 c1 c2 c3
        have hz := zeroRatio_bal a3
        have hm := mkCand_bal rhs is
        subst hps
        refine ⟨?_, ?_, by rw [← hlam]; linarith⟩
        · rw [List.map_map]
          have : (Prod.fst ∘ flipNeg) = Cand.it := rfl
          rw [this, d1, c1, b1, zeroRatio_it, a1, mkCand_map]
        · rw [List.map_map]
          change lam = bal _ - rhs
          rw [← hlam]; linarith

/-! ### The loops end -/

/-- Number of secondary candidates. -/
def numSec (cs : List Cand) : Nat := cs.countP fun c => c.cnd = .secondary

/-- Number of prime candidates outside the cover. -/
def numOut (cs : List Cand) : Nat := cs.countP fun c => c.cnd = .prime ∧ c.inc = false

theorem countP_set_lt (p : Cand → Bool) : ∀ (cs : List Cand) (k : Nat) (c d : Cand), cs[k]? = some c → p c = true →
    p d = false → (cs.set k d).countP p + 1 = cs.countP p
  | [], k, c, d, h, _, _ => by simp at h
  | a :: cs, 0, c, d, h, hc, hd => by
    simp at h; subst h
    simp [hc, hd]
  | a :: cs, k + 1, c, d, h, hc, hd => by
    simp only [List.getElem?_cons_succ] at h
    have := countP_set_lt p cs k c d h hc hd
    simp only [List.set_cons_succ, List.countP_cons]
    omega

/-- More fuel does not change the promotion: with the fuel `findCover` gives, it ends by itself. -/
theorem promote_fuel {knap : ℚ} : ∀ (f : Nat) (cs : List Cand) (s : ℚ) (n : Nat), numSec cs < f →
    promote knap (f + n) cs s = promote knap f cs s
  | 0, cs, s, n, h => by omega
  | f + 1, cs, s, n, h => by
    have e : f + 1 + n = (f + n) + 1 := by omega
    rw [e]
    unfold promote
    by_cases h1 : s < knap + eps
    · simp only [if_pos h1]
      by_cases h2 : (1 - eps) * infty < (scanSec cs 0 (infty, 0)).1
      · simp only [if_pos h2]
      · simp only [if_neg h2]
        obtain ⟨c, hc, hs⟩ := scanSec_mem h2
        rw [hc]
        simp only
        refine promote_fuel f _ _ n ?_
        have := countP_set_lt (fun c => c.cnd = .secondary) cs _ c { c with cnd := .prime } hc (by simpa using hs) (by simp)
        unfold numSec at h ⊢; omega
    · simp only [if_neg h1]

/-- More fuel does not change the greedy cover. -/
theorem cover_fuel {knap : ℚ} : ∀ (f : Nat) (cs : List Cand) (s : ℚ) (n : Nat), numOut cs < f →
    cover knap (f + n) cs s = cover knap f cs s
  | 0, cs, s, n, h => by omega
  | f + 1, cs, s, n, h => by
    have e : f + 1 + n = (f + n) + 1 := by omega
    rw [e]
    unfold cover
    by_cases h1 : s < knap + eps
    · simp only [if_pos h1]
      rcases scanRatio_spec cs 0 (infty, none) with e | ⟨i, c, hc, hp, hi, e⟩
      · rw [e]
      · rw [e, Nat.zero_add]
        simp only [hc]
        refine cover_fuel f _ _ n ?_
        have := countP_set_lt (fun c => c.cnd = .prime ∧ c.inc = false) cs _ c { c with inc := true } hc (by simp [hp, hi])
          (by simp)
        unfold numOut at h ⊢; omega
    · simp only [if_neg h1]

theorem numSec_le (is : List Item) : numSec (is.map mkCand) < is.length + 1 := by
  have := List.countP_le_length (p := fun c : Cand => decide (c.cnd = .secondary)) (l := is.map mkCand)
  unfold numSec; simp at this ⊢; omega

theorem numOut_le {is : List Item} {cs : List Cand} (h : cs.map Cand.it = is) :
    numOut (cs.map zeroRatio) < is.length + 1 := by
  have h1 := List.countP_le_length (p := fun c : Cand => decide (c.cnd = .prime ∧ c.inc = false)) (l := cs.map zeroRatio)
  have h2 : cs.length = is.length := by rw [← h]; simp
  unfold numOut; simp at h1 ⊢; omega

end Cgl.FlowCover
