import Verif.MIR.Subst
import Verif.MirIneq

/-!
# The c-MIR inequalities are valid for the mixed knapsack
-/

namespace Cgl.MIR

theorem functionG_spec (d f : ℚ) (hf : f < 1) :
    ∃ (k : ℤ) (w : ℚ), 0 ≤ w ∧ (k : ℚ) - w ≤ d ∧ functionG d f ≤ k - w / (1 - f) := by
  have h1 : 0 < 1 - f := by linarith
  unfold functionG
  simp only
  split
  · refine ⟨⌊d⌋ + 1, ⌊d⌋ + 1 - d, ?_, ?_, ?_⟩
    · have := Int.lt_floor_add_one d; linarith
    · push_cast; linarith
    · push_cast
      apply le_of_eq
      field_simp
      ring
  · exact ⟨⌊d⌋, 0, le_refl _, by have := Int.floor_le d; linarith, by simp⟩

theorem functionG_zero {f : ℚ} (hf : 0 ≤ f) : functionG 0 f = 0 := by
  unfold functionG
  have : ¬ eps < (0 : ℚ) - ((⌊(0 : ℚ)⌋ : ℤ) : ℚ) - f := by
    simp only [Int.floor_zero, Int.cast_zero, sub_zero, zero_sub]
    have := eps_pos; intro h; linarith
  simp only [this, if_false]; simp

/-- Integer columns have no upper bound or an integer upper bound. -/
def UpperIntegral (P : Prob) : Prop := ∀ j < P.nCols, P.isInt j = true → P.colUpper j = P.inf ∨ IsInteger (P.colUpper j)

instance (P : Prob) : Decidable (UpperIntegral P) := by unfold UpperIntegral; infer_instance

/-- The set C and `numeratorBeta` fit together. -/
structure CInv (P : Prob) (knap : SVec) (rhs numBeta : ℚ) (inC : List Bool) : Prop where
  len : inC.length = knap.length
  fin : ∀ e ∈ knap.zip inC, e.2 = true → P.colUpper e.1.1 ≠ P.inf
  num : numBeta = rhs - ((knap.zip inC).map fun e => if e.2 then e.1.2 * P.colUpper e.1.1 else 0).sum

/-- The inequality is on the columns of the knapsack and holds at `x` with multiplier `sCoef` on the continuous part. -/
def CmirOk (knap : SVec) (c : Cmir) (x : Nat → ℚ) (S : ℚ) : Prop :=
  keys c.cut = keys knap ∧ SVec.dot c.cut x ≤ c.rhs + c.sCoef * S

theorem keys_cmir (delta f : ℚ) : ∀ (knap : SVec) (inC : List Bool), inC.length = knap.length →
    keys ((knap.zip inC).map (cmirCoef delta f)) = keys knap
  | [], _, _ => by simp
  | p :: ps, [], h => by simp at h
  | p :: ps, b :: bs, h => by
    have := keys_cmir delta f ps bs (by simpa using h)
    simp only [keys] at this ⊢
    simp only [List.zip_cons_cons, List.map_cons, this]
    cases b <;> simp [cmirCoef]

theorem zip_dot (x : Nat → ℚ) : ∀ (knap : SVec) (inC : List Bool), inC.length = knap.length →
    ((knap.zip inC).map fun e => e.1.2 * x e.1.1).sum = SVec.dot knap x
  | [], _, _ => by simp
  | p :: ps, [], h => by simp at h
  | p :: ps, b :: bs, h => by
    simp only [List.zip_cons_cons, List.map_cons, List.sum_cons, SVec.dot_cons]
    rw [zip_dot x ps bs (by simpa using h)]

theorem cMirInequality_ok {sq : ℚ → ℚ} {P : Prob} {knap : SVec} {rhs S sStar delta numBeta : ℚ} {xlp x : Nat → ℚ}
    {inC : List Bool} (hf : P.Feasible x) (hr : Representable P x) (hui : UpperIntegral P) (hk : KnapOk P knap rhs x S)
    (hc : CInv P knap rhs numBeta inC) (hd : 0 < delta) :
    CmirOk knap (cMirInequality sq P knap xlp sStar delta numBeta inC) x S := by
  refine ⟨keys_cmir _ _ _ _ hc.len, ?_⟩
  unfold cMirInequality
  simp only
  have hf1 := frac_lt_one (numBeta / delta)
  have hf0 := frac_nonneg (numBeta / delta)
  -- the complemented variables
  let yv : (Nat × ℚ) × Bool → ℚ := fun e =>
    if e.1.2 = 0 then 0 else if e.2 then P.colUpper e.1.1 - x e.1.1 else x e.1.1
  let av : (Nat × ℚ) × Bool → ℚ := fun e => (if e.2 then -e.1.2 else e.1.2) / delta
  have hex : ∀ e, ∃ (k : ℤ) (w : ℚ), 0 ≤ w ∧ (k : ℚ) - w ≤ av e ∧
      functionG (av e) (numBeta / delta - ⌊numBeta / delta⌋) ≤ k - w / (1 - (numBeta / delta - ⌊numBeta / delta⌋)) :=
    fun e => functionG_spec (av e) _ hf1
  choose kk ww hw0 hwa hwg using hex
  have hmem : ∀ e ∈ knap.zip inC, e.1 ∈ knap := fun e he => (List.of_mem_zip (show (e.1, e.2) ∈ knap.zip inC from he)).1
  have hint : ∀ e ∈ knap.zip inC, IsInteger (yv e) := by
    intro e he
    have hj := hk.ints e.1.1 (List.mem_map.2 ⟨e.1, hmem e he, rfl⟩)
    have hx := hf.int _ hj.1 hj.2
    simp only [yv]
    split
    · exact ⟨0, by simp⟩
    · split
      · rename_i hb
        have := (hui _ hj.1 hj.2).resolve_left (hc.fin e he hb)
        obtain ⟨z, hz⟩ := this
        obtain ⟨w, hw⟩ := hx
        exact ⟨z - w, by rw [hz, hw]; push_cast; ring⟩
      · exact hx
  have hnn : ∀ e ∈ knap.zip inC, 0 ≤ yv e := by
    intro e he
    have hj := hk.ints e.1.1 (List.mem_map.2 ⟨e.1, hmem e he, rfl⟩)
    simp only [yv]
    split
    · exact le_refl _
    · rename_i h0
      split
      · have := le_upper hf hr hj.1; linarith
      · exact (hk.nonneg e.1 (hmem e he)).resolve_left h0
  have hsum : ((knap.zip inC).map fun e => av e * yv e).sum ≤ numBeta / delta + S / delta := by
    have e1 : ((knap.zip inC).map fun e => av e * yv e).sum =
        (((knap.zip inC).map fun e => e.1.2 * x e.1.1).sum -
          ((knap.zip inC).map fun e => if e.2 then e.1.2 * P.colUpper e.1.1 else 0).sum) / delta := by
      clear hint hnn hmem hc hwa hw0 hwg
      induction knap.zip inC with
      | nil => simp
      | cons e es ih =>
        simp only [List.map_cons, List.sum_cons, ih]
        simp only [av, yv]
        by_cases h0 : e.1.2 = 0
        · simp [h0]
        · by_cases hb : e.2 = true <;> simp [h0, hb] <;> field_simp <;> ring
    rw [e1, zip_dot x knap inC hc.len, ← add_div, hc.num]
    apply div_le_div_of_nonneg_right _ hd.le
    have := hk.le
    linarith
  have hmain := mir_list (knap.zip inC) av
    (fun e => functionG (av e) (numBeta / delta - ⌊numBeta / delta⌋)) yv ww kk (numBeta / delta) (S / delta)
    (div_nonneg hk.sNonneg hd.le) hint hnn (fun e _ => hw0 e) (fun e _ => hwa e) (fun e _ => hwg e) hsum
  have e2 : SVec.dot ((knap.zip inC).map (cmirCoef delta (numBeta / delta - ⌊numBeta / delta⌋))) x +
      ((knap.zip inC).map fun e => if e.2 then functionG (-e.1.2 / delta) (numBeta / delta - ⌊numBeta / delta⌋) *
        P.colUpper e.1.1 else 0).sum =
      ((knap.zip inC).map fun e => functionG (av e) (numBeta / delta - ⌊numBeta / delta⌋) * yv e).sum := by
    clear hint hnn hmem hc hwa hw0 hwg hsum hmain
    generalize numBeta / delta - ⌊numBeta / delta⌋ = f at *
    have hg0 := functionG_zero hf0
    induction knap.zip inC with
    | nil => simp
    | cons e es ih =>
      simp only [List.map_cons, List.sum_cons, SVec.dot_cons, ← ih]
      simp only [av, yv, cmirCoef]
      by_cases h0 : e.1.2 = 0
      · by_cases hb : e.2 = true <;> simp [h0, hb, hg0]
      · by_cases hb : e.2 = true <;> simp [h0, hb] <;> ring
  have e3 : 1 / (delta * (1 - (numBeta / delta - ⌊numBeta / delta⌋))) * S =
      S / delta / (1 - (numBeta / delta - ⌊numBeta / delta⌋)) := by
    rw [div_div, one_div, inv_mul_eq_div]
  rw [e3]
  linarith

/-! ### The search -/

/-- The best inequality so far, if there is one, is valid and its delta is positive. -/
def BestOk (knap : SVec) (b : Best) (x : Nat → ℚ) (S : ℚ) : Prop := CmirOk knap b.c x S ∧ 0 < b.delta

section
variable {sq : ℚ → ℚ} {P : Prob} {knap : SVec} {rhs S sStar numBeta : ℚ} {xlp x : Nat → ℚ} {inC : List Bool}

theorem deltaLoop_ok (hf : P.Feasible x) (hr : Representable P x) (hui : UpperIntegral P) (hk : KnapOk P knap rhs x S)
    (hc : CInv P knap rhs numBeta inC) : ∀ (ps : SVec) (b : Best), (b.c.viol ≠ 0 → BestOk knap b x S) →
    (deltaLoop sq P knap xlp sStar numBeta inC ps b).c.viol ≠ 0 →
    BestOk knap (deltaLoop sq P knap xlp sStar numBeta inC ps b) x S
  | [], b, hb, h => hb h
  | p :: ps, b, hb, h => by
    unfold deltaLoop at h ⊢
    split
    · rename_i h1; rw [if_pos h1] at h; exact deltaLoop_ok hf hr hui hk hc ps b hb h
    · rename_i h1
      rw [if_neg h1] at h
      split
      · rename_i h2; rw [if_pos h2] at h; exact deltaLoop_ok hf hr hui hk hc ps b hb h
      · rename_i h2
        rw [if_neg h2] at h
        refine deltaLoop_ok hf hr hui hk hc ps _ ?_ h
        unfold better
        split
        · intro _
          have hp : 0 < p.2 := by have := eps_pos; linarith [not_le.mp h2]
          exact ⟨cMirInequality_ok hf hr hui hk hc hp, hp⟩
        · exact hb

theorem better_ok {b : Best} {c : Cmir} {d : ℚ} (hb : BestOk knap b x S) (hc : CmirOk knap c x S) (hd : 0 < d) :
    BestOk knap (better b c d) x S := by
  unfold better; split
  · exact ⟨hc, hd⟩
  · exact hb

theorem divideLoop_ok (hf : P.Feasible x) (hr : Representable P x) (hui : UpperIntegral P) (hk : KnapOk P knap rhs x S)
    (hc : CInv P knap rhs numBeta inC) {b : Best} (hb : BestOk knap b x S) :
    BestOk knap (divideLoop sq P knap xlp sStar numBeta inC b) x S := by
  unfold divideLoop
  simp only [List.foldl_cons, List.foldl_nil]
  have hd := hb.2
  have h2 : 0 < b.delta / 2 := by positivity
  have h4 : 0 < b.delta / 4 := by positivity
  have h8 : 0 < b.delta / 8 := by positivity
  exact better_ok (better_ok (better_ok hb (cMirInequality_ok hf hr hui hk hc h2) h2)
    (cMirInequality_ok hf hr hui hk hc h4) h4) (cMirInequality_ok hf hr hui hk hc h8) h8

/-- The sum over C when a new position enters C. -/
theorem sum_set (w : Nat × ℚ → ℚ) : ∀ (knap : SVec) (inC : List Bool) (i : Nat) (p : Nat × ℚ),
    inC.length = knap.length → knap[i]? = some p → inC[i]? = some false →
    ((knap.zip (inC.set i true)).map fun e => if e.2 then w e.1 else 0).sum =
      ((knap.zip inC).map fun e => if e.2 then w e.1 else 0).sum + w p
  | [], _, i, p, _, h, _ => by simp at h
  | q :: knap, [], i, p, hl, _, _ => by simp at hl
  | q :: knap, b :: inC, 0, p, hl, h, hb => by
    simp only [List.getElem?_cons_zero, Option.some.injEq] at h hb
    subst h; subst hb
    simp; ring
  | q :: knap, b :: inC, i + 1, p, hl, h, hb => by
    simp only [List.getElem?_cons_succ] at h hb
    simp only [List.set_cons_succ, List.zip_cons_cons, List.map_cons, List.sum_cons]
    rw [sum_set w knap inC i p (by simpa using hl) h hb]; ring

theorem mem_zip_set {knap : SVec} {inC : List Bool} {i : Nat} {p : Nat × ℚ} (h : knap[i]? = some p)
    {e : (Nat × ℚ) × Bool} (he : e ∈ knap.zip (inC.set i true)) :
    e ∈ knap.zip inC ∨ e.1 = p := by
  obtain ⟨n, hn⟩ := List.mem_iff_getElem?.1 he
  rw [List.getElem?_zip_eq_some] at hn
  obtain ⟨h1, h2⟩ := hn
  by_cases hni : i = n
  · subst hni
    rw [h] at h1
    exact Or.inr (Option.some.inj h1).symm
  · rw [List.getElem?_set_ne hni] at h2
    exact Or.inl (List.mem_iff_getElem?.2 ⟨n, List.getElem?_zip_eq_some.2 ⟨h1, h2⟩⟩)

theorem complLoop_ok (hf : P.Feasible x) (hr : Representable P x) (hui : UpperIntegral P) (hk : KnapOk P knap rhs x S) :
    ∀ (ts : List (Nat × ℚ)) (numBeta : ℚ) (inC : List Bool) (b : Best), CInv P knap rhs numBeta inC →
    (ts.map Prod.fst).Nodup → (∀ t ∈ ts, inC[t.1]? = some false) → BestOk knap b x S →
    BestOk knap (complLoop sq P knap xlp sStar ts numBeta inC b) x S
  | [], _, _, b, _, _, _, hb => by simpa [complLoop] using hb
  | t :: ts, numBeta, inC, b, hc, hnd, hF, hb => by
    have hnd' : (ts.map Prod.fst).Nodup := (List.nodup_cons.1 hnd).2
    have hF' : ∀ u ∈ ts, inC[u.1]? = some false := fun u hu => hF u (List.mem_cons_of_mem _ hu)
    unfold complLoop
    split
    · exact complLoop_ok hf hr hui hk ts _ _ b hc hnd' hF' hb
    · rename_i p hp
      split
      · exact complLoop_ok hf hr hui hk ts _ _ b hc hnd' hF' hb
      · rename_i hub
        simp only
        have hc' : CInv P knap rhs (numBeta - p.2 * P.colUpper p.1) (inC.set t.1 true) := by
          refine ⟨by rw [List.length_set]; exact hc.len, ?_, ?_⟩
          · intro e he heb
            rcases mem_zip_set hp he with h | h
            · exact hc.fin e h heb
            · rw [h]; intro h'; exact hub (le_of_eq h'.symm)
          · rw [sum_set (fun q => q.2 * P.colUpper q.1) knap inC t.1 p hc.len hp (hF t List.mem_cons_self), hc.num]; ring
        split
        · refine complLoop_ok hf hr hui hk ts _ _ _ hc' hnd' ?_ ⟨cMirInequality_ok hf hr hui hk hc' hb.2, hb.2⟩
          intro u hu
          have hne : t.1 ≠ u.1 := by
            intro e
            exact (List.nodup_cons.1 hnd).1 (List.mem_map.2 ⟨u, hu, e.symm⟩)
          rw [List.getElem?_set_ne hne]; exact hF' u hu
        · exact complLoop_ok hf hr hui hk ts _ _ b hc hnd' hF' hb

end

theorem complT_spec (P : Prob) (xlp : Nat → ℚ) : ∀ (ps : SVec) (i : Nat),
    ((complT P xlp i ps).map Prod.fst).Nodup ∧
    ∀ t ∈ complT P xlp i ps, i ≤ t.1 ∧ (ps.map (initC P xlp))[t.1 - i]? = some false
  | [], i => by simp [complT]
  | p :: ps, i => by
    obtain ⟨h1, h2⟩ := complT_spec P xlp ps (i + 1)
    have h2' : ∀ t ∈ complT P xlp (i + 1) ps, i ≤ t.1 ∧ ((p :: ps).map (initC P xlp))[t.1 - i]? = some false := by
      intro t ht
      obtain ⟨h3, h4⟩ := h2 t ht
      refine ⟨by omega, ?_⟩
      have : t.1 - i = (t.1 - (i + 1)) + 1 := by omega
      rw [this, List.map_cons, List.getElem?_cons_succ]; exact h4
    unfold complT
    split
    · rename_i hcond
      constructor
      · rw [List.map_cons, List.nodup_cons]
        refine ⟨?_, h1⟩
        intro hm
        obtain ⟨t, ht, e⟩ := List.mem_map.1 hm
        have := (h2 t ht).1
        omega
      · intro t ht
        rcases List.mem_cons.1 ht with rfl | ht
        · simp [hcond.2.1]
        · exact h2' t ht
    · exact ⟨h1, h2'⟩

/-- `sortIncrElement` only reorders. -/
def SorterOk (par : Par) : Prop := ∀ l, (par.sorter l).Perm l

theorem initC_inv {P : Prob} {xlp : Nat → ℚ} (rhs : ℚ) (knap : SVec) :
    CInv P knap rhs (rhs - (knap.map fun p => if initC P xlp p then p.2 * P.colUpper p.1 else 0).sum)
      (knap.map (initC P xlp)) := by
  refine ⟨by simp, ?_, ?_⟩
  · intro e he hb
    obtain ⟨n, hn⟩ := List.mem_iff_getElem?.1 he
    rw [List.getElem?_zip_eq_some] at hn
    obtain ⟨h1, h2⟩ := hn
    rw [List.getElem?_map, h1] at h2
    have h3 : initC P xlp e.1 = e.2 := by simpa using h2
    rw [← h3] at hb
    simp only [initC, Bool.and_eq_true, decide_eq_true_eq] at hb
    exact hb.1
  · congr 2
    rw [List.zip_map_right, List.map_map]
    induction knap with
    | nil => rfl
    | cons p ps ih => simp [ih]

theorem bestCmir_ok {par : Par} {P : Prob} {xlp x : Nat → ℚ} {m : Mk} {S : ℚ} {c : Cmir} (hs : SorterOk par) (hf : P.Feasible x)
    (hr : Representable P x) (hui : UpperIntegral P) (hk : KnapOk P m.knap m.rhs x S) (h : bestCmir par P xlp m = some c) :
    CmirOk m.knap c x S := by
  unfold bestCmir at h
  simp only at h
  have hc := initC_inv (P := P) (xlp := xlp) m.rhs m.knap
  split at h
  · cases h
  · rename_i hv
    have hb := deltaLoop_ok hf hr hui hk hc m.knap ⟨⟨[], 0, 0, 0⟩, 0⟩ (by simp) hv
    have hd := divideLoop_ok (sq := par.sq) (xlp := xlp) (sStar := m.sStar) hf hr hui hk hc hb
    have hperm := hs (complT P xlp 0 m.knap)
    obtain ⟨t1, t2⟩ := complT_spec P xlp m.knap 0
    have := complLoop_ok (sq := par.sq) (xlp := xlp) (sStar := m.sStar) hf hr hui hk
      (par.sorter (complT P xlp 0 m.knap)) _ _ _ hc ((hperm.map Prod.fst).nodup_iff.2 t1)
      (fun t ht => by have := (t2 t (hperm.mem_iff.1 ht)).2; simpa using this) hd
    rw [← Option.some.inj h]
    exact this.1

end Cgl.MIR
