import Verif.SimpleRounding.Lemmas

/-!
# What one row contributes
-/

namespace Cgl.SimpleRounding

/-- Every surviving integer coefficient of the row is above the code's zero tolerance. -/
def NoTiny (P : Prob) (r : Row) : Prop := ∀ p ∈ r.coefs, isFree P p.1 = true → epsilon < |p.2|

/-- Sign restored by the code. -/
def sgn (a : ℚ) : ℤ := if a < -epsilon then -1 else 1

/-- The decimal the code replaces `a` by. -/
def psi (p : Nat) (a : ℚ) : ℚ := sgn a * scaleInt p (mag a) / 10 ^ p

theorem mag_eq_abs {a : ℚ} (h : epsilon < |a|) : mag a = |a| ∧ (sgn a : ℚ) * |a| = a := by
  have he : (0:ℚ) < epsilon := by norm_num [epsilon]
  unfold mag sgn
  by_cases h1 : a < -epsilon
  · have : |a| = -a := abs_of_neg (by linarith)
    rw [if_pos h1, if_pos h1, this]; push_cast; constructor <;> ring
  · have h2 : 0 ≤ a := by
      by_contra hc
      rw [abs_of_neg (by linarith)] at h
      linarith
    rw [if_neg h1, if_neg h1, abs_of_nonneg h2]; push_cast; constructor <;> ring

theorem sgn_sq (a : ℚ) : sgn a = 1 ∨ sgn a = -1 := by unfold sgn; split <;> simp

/-- Everything known about the cut derived from row `r`. -/
structure CutOf (P : Prob) (r : Row) (c : RowCut) where
  sign : ℚ
  hsign : sign = 1 ∨ sign = -1
  fr : SVec
  hfr : fr = (r.coefs.filter fun p => isFree P p.1).map (fun p => (p.1, sign * p.2))
  hne : fr ≠ []
  p : Nat
  hp : p < 16
  hpow : ∀ q ∈ fr, findPower |mag q.2| (epsilon * (1/10^4)) 0 < 16 ∧
    findPower |mag q.2| (epsilon * (1/10^4)) 0 ≤ p
  hmax : power10 (epsilon * (1/10^4)) (fr.map fun q => mag q.2) 0 = some p
  g : ℤ
  hg : 0 < g
  hdvd : ∀ q ∈ fr, g ∣ scaleInt p (mag q.2)
  hgreatest : ∀ d : ℤ, (∀ q ∈ fr, d ∣ scaleInt p (mag q.2)) → d ∣ g
  b : ℚ
  hb : ∀ (ψ : ℚ → ℚ) (x : Nat → ℚ), (∀ p ∈ r.coefs, FixedOk P p.1) →
        (∀ p ∈ r.coefs, lbOk P.inf (P.colLower p.1) (x p.1) ∧ ubOk P.inf (P.colUpper p.1) (x p.1) ∧
          (P.isInt p.1 = true → IsInteger (x p.1))) →
        (pertRow P sign ψ r).Sat P.inf x →
        SVec.dot (fr.map (fun p => (p.1, ψ p.2))) x ≤ b
  hc : c = { lb := -dblMax, ub := ⌊b * 10 ^ p / g⌋,
             row := fr.map fun q => (q.1, ((sgn q.2 * (scaleInt p (mag q.2)).tdiv g : ℤ) : ℚ)) }

theorem fr_tiny {P : Prob} {r : Row} (ht : NoTiny P r) {sign : ℚ} (hs : sign = 1 ∨ sign = -1) :
    ∀ q ∈ (r.coefs.filter fun p => isFree P p.1).map (fun p => (p.1, sign * p.2)), epsilon < |q.2| := by
  intro q hq
  simp only [List.mem_map, List.mem_filter] at hq
  obtain ⟨p, ⟨hp1, hp2⟩, rfl⟩ := hq
  have : |sign * p.2| = |p.2| := by rcases hs with h | h <;> rw [h] <;> simp
  simp only; rw [this]; exact ht p hp1 hp2

theorem processRow_spec (P : Prob) (r : Row) (hnd : (r.coefs.map Prod.fst).Nodup) (ht : NoTiny P r)
    (cs cs' : List RowCut) (neg' : Nat → Bool)
    (h : processRow P (cs, fun _ => false) r = some (cs', neg')) :
    neg' = (fun _ => false) ∧
      (cs' = cs ∨ ∃ c, Nonempty (CutOf P r c) ∧ cs' = insertIfNotDuplicate cs c) := by
  unfold processRow at h
  simp only at h
  cases hd : deriveAnIntegerRow P r (fun _ => false) with
  | none =>
    rw [hd] at h
    simp only [Option.some.injEq, Prod.mk.injEq] at h
    exact ⟨h.2.symm, Or.inl h.1.symm⟩
  | some t =>
    obtain ⟨irow, b, neg⟩ := t
    rw [hd] at h
    simp only at h
    obtain ⟨sign, hs, fr, hfr, hne, hir, hneg, hneg0, hineq⟩ := derive_spec P r hnd irow b neg hd
    have htf : ∀ q ∈ fr, epsilon < |q.2| := by rw [hfr]; exact fr_tiny ht hs
    have hreset : resetFlags irow neg = fun _ => false := by
      funext j
      rw [resetFlags_spec]
      split
      · rfl
      · rename_i hj
        apply hneg0
        intro hc; apply hj
        rw [hir]; simpa [List.map_map, Function.comp_def] using hc
    rw [hreset] at h
    cases hpw : power10 (epsilon * (1 / 10 ^ 4)) (irow.map Prod.snd) 0 with
    | none =>
      rw [hpw] at h
      simp only [Option.some.injEq, Prod.mk.injEq] at h
      exact ⟨h.2.symm, Or.inl h.1.symm⟩
    | some pw =>
      rw [hpw] at h
      simp only at h
      cases hti : toInts pw irow with
      | none => rw [hti] at h; cases h
      | some xInt =>
        rw [hti] at h
        simp only at h
        have hmagpos : ∀ q ∈ irow, epsilon < q.2 := by
          intro q hq
          rw [hir] at hq
          simp only [List.mem_map] at hq
          obtain ⟨q', hq', rfl⟩ := hq
          simp only
          rw [(mag_eq_abs (htf q' hq')).1]; exact htf q' hq'
        have hnn : ∀ q ∈ irow, 0 ≤ q.2 := fun q hq => by
          have : (0:ℚ) < epsilon := by norm_num [epsilon]
          linarith [hmagpos q hq]
        have hx := toInts_spec pw irow hnn xInt hti
        obtain ⟨p1, p2, p3⟩ := power10_spec _ _ _ _ hpw
        have hp16 : pw < 16 := by
          rcases p2 with h | h
          · exact h
          · rw [h]; exact Nat.zero_lt_succ _
        have hpow : ∀ q ∈ fr, findPower |mag q.2| (epsilon * (1/10^4)) 0 < 16 ∧
            findPower |mag q.2| (epsilon * (1/10^4)) 0 ≤ pw := by
          intro q hq
          apply p3
          rw [hir]
          simp only [List.map_map, List.mem_map, Function.comp]
          exact ⟨q, hq, rfl⟩
        have hxs : xInt.map Prod.snd = fr.map fun q => scaleInt pw (mag q.2) := by
          rw [hx, hir]; simp [List.map_map, Function.comp_def]
        have hpos : ∀ v ∈ xInt.map Prod.snd, 0 < v := by
          rw [hxs]
          intro v hv
          simp only [List.mem_map] at hv
          obtain ⟨q, hq, rfl⟩ := hv
          have := hpow q hq
          apply scaleInt_pos _ _ _ this.1 this.2
          rw [(mag_eq_abs (htf q hq)).1]; exact htf q hq
        obtain ⟨g, hg1, hg2, hg3, hg4⟩ := gcdv_spec (xInt.map Prod.snd)
          (by rw [hxs]; simpa using hne) hpos
        rw [hg1] at h
        simp only at h
        rw [if_neg (by omega)] at h
        simp only [Option.some.injEq, Prod.mk.injEq] at h
        refine ⟨h.2.symm, ?_⟩
        have h1 := h.1
        split at h1
        · right
          refine ⟨_, ⟨?_⟩, h1.symm⟩
          refine { sign := sign, hsign := hs, fr := fr, hfr := hfr, hne := hne, p := pw,
                   hp := hp16, hpow := ?_, g := g, hg := hg2, b := b, hb := ?_,
                   hdvd := ?_, hgreatest := ?_, hc := ?_, hmax := ?_ }
          · exact hpow
          · rw [hir] at hpw; simpa [List.map_map, Function.comp_def] using hpw
          · intro q hq
            apply hg3; rw [hxs]; exact List.mem_map.mpr ⟨q, hq, rfl⟩
          · intro d hdd
            apply hg4; rw [hxs]
            intro v hv
            simp only [List.mem_map] at hv
            obtain ⟨q, hq, rfl⟩ := hv
            exact hdd q hq
          · exact hineq
          · congr 1
            unfold cutRow
            rw [hx, hir]
            simp only [List.map_map]
            apply List.map_congr_left
            intro q hq
            simp only [Function.comp, hneg q hq, sgn]
            by_cases hq2 : q.2 < -epsilon <;> simp [hq2]
        · left; exact h1.symm

/-- The cut is satisfied by every integer point of the (perturbed) row. -/
theorem CutOf.sat {P : Prob} {r : Row} {c : RowCut} (h : CutOf P r c) (x : Nat → ℚ)
    (hok : ∀ p ∈ r.coefs, FixedOk P p.1)
    (hx : ∀ p ∈ r.coefs, lbOk P.inf (P.colLower p.1) (x p.1) ∧ ubOk P.inf (P.colUpper p.1) (x p.1) ∧
          (P.isInt p.1 = true → IsInteger (x p.1)))
    (hsat : (pertRow P h.sign (psi h.p) r).Sat P.inf x) : c.Sat x := by
  have hle := h.hb (psi h.p) x hok hx hsat
  have hgq : (0:ℚ) < h.g := by exact_mod_cast h.hg
  have h10 : (0:ℚ) < 10 ^ h.p := by positivity
  have hintx : ∀ q ∈ h.fr, IsInteger (x q.1) := by
    intro q hq
    rw [h.hfr] at hq
    simp only [List.mem_map, List.mem_filter] at hq
    obtain ⟨p, ⟨hp1, hp2⟩, rfl⟩ := hq
    apply (hx p hp1).2.2
    simp only [isFree, Bool.and_eq_true] at hp2
    exact hp2.1
  have hrow : c.row = h.fr.map fun q => (q.1, ((sgn q.2 * (scaleInt h.p (mag q.2)).tdiv h.g : ℤ) : ℚ)) :=
    congrArg RowCut.row h.hc
  have hdot : ∀ fr : SVec, (∀ q ∈ fr, h.g ∣ scaleInt h.p (mag q.2)) → (∀ q ∈ fr, IsInteger (x q.1)) →
      SVec.dot (fr.map fun q => (q.1, ((sgn q.2 * (scaleInt h.p (mag q.2)).tdiv h.g : ℤ) : ℚ))) x
        = SVec.dot (fr.map (fun q => (q.1, psi h.p q.2))) x * 10 ^ h.p / h.g ∧
      IsInteger (SVec.dot (fr.map fun q => (q.1, ((sgn q.2 * (scaleInt h.p (mag q.2)).tdiv h.g : ℤ) : ℚ))) x) := by
    intro fr
    induction fr with
    | nil => intro _ _; simp; exact ⟨0, by simp⟩
    | cons q qs ih =>
      intro hdv hxi
      obtain ⟨i1, i2⟩ := ih (fun a ha => hdv a (List.mem_cons_of_mem _ ha))
        (fun a ha => hxi a (List.mem_cons_of_mem _ ha))
      simp only [List.map_cons, SVec.dot_cons]
      obtain ⟨k, hk⟩ := hdv q (List.mem_cons_self ..)
      have htd : (scaleInt h.p (mag q.2)).tdiv h.g = k := by
        rw [hk]; exact Int.mul_tdiv_cancel_left _ (by have := h.hg; omega)
      constructor
      · rw [i1, htd]
        unfold psi
        rw [hk]; push_cast
        field_simp
      · obtain ⟨z, hz⟩ := i2
        obtain ⟨y, hy⟩ := hxi q (List.mem_cons_self ..)
        rw [hz, hy]
        exact ⟨(sgn q.2 * (scaleInt h.p (mag q.2)).tdiv h.g) * y + z, by push_cast; ring⟩
  obtain ⟨d1, z, d2⟩ := hdot h.fr h.hdvd hintx
  constructor
  · intro hlb; rw [congrArg RowCut.lb h.hc] at hlb; simp at hlb
  · intro _
    rw [hrow, d2]
    have : c.ub = ((⌊h.b * 10 ^ h.p / h.g⌋ : ℤ) : ℚ) := congrArg RowCut.ub h.hc
    rw [this]
    have : z ≤ ⌊h.b * 10 ^ h.p / h.g⌋ := by
      rw [Int.le_floor, ← d2, d1]
      apply div_le_div_of_nonneg_right _ hgq.le
      exact mul_le_mul_of_nonneg_right hle h10.le
    exact_mod_cast this

theorem psi_close {P : Prob} {r : Row} {c : RowCut} (h : CutOf P r c) (ht : NoTiny P r) :
    ∀ q ∈ h.fr, |psi h.p q.2 - q.2| < 1 / 10 ^ 12 := by
  intro q hq
  have hte : epsilon < |q.2| := by
    have := fr_tiny ht h.hsign q; rw [← h.hfr] at this; exact this hq
  obtain ⟨m1, m2⟩ := mag_eq_abs hte
  have hp := h.hpow q hq
  have hc := scaleInt_close (mag q.2) (by rw [m1]; exact abs_nonneg _) h.p hp.1 hp.2
  have : psi h.p q.2 - q.2 = (sgn q.2 : ℚ) * -(mag q.2 - scaleInt h.p (mag q.2) / 10 ^ h.p) := by
    unfold psi
    have : (sgn q.2 : ℚ) * mag q.2 = q.2 := by rw [m1]; exact m2
    linear_combination this
  rw [this, abs_mul, abs_neg]
  have : |(sgn q.2 : ℚ)| = 1 := by rcases sgn_sq q.2 with h | h <;> rw [h] <;> simp
  rw [this, one_mul]; exact hc

theorem power10_le (k : Nat) (hk : k < 16) (vs : List ℚ) (p0 p : Nat) (h0 : p0 ≤ k)
    (hv : ∀ v ∈ vs, IsInteger (|v| * 10 ^ k))
    (h : power10 (epsilon * (1/10^4)) vs p0 = some p) : p ≤ k := by
  induction vs generalizing p0 with
  | nil => simp only [power10, Option.some.injEq] at h; omega
  | cons v vs ih =>
    unfold power10 at h
    simp only at h
    split at h
    · cases h
    · refine ih _ ?_ (fun w hw => hv w (List.mem_cons_of_mem _ hw)) h
      have := findPower_le |v| (epsilon * (1/10^4)) 0 k (by omega) hk (by norm_num [epsilon])
        (hv v (List.mem_cons_self ..))
      split <;> omega

theorem psi_exact {P : Prob} {r : Row} {c : RowCut} (h : CutOf P r c) (ht : NoTiny P r)
    (hd : ∀ p ∈ r.coefs, isFree P p.1 = true → IsInteger (p.2 * 10 ^ 12)) :
    ∀ q ∈ h.fr, psi h.p q.2 = q.2 := by
  have hte : ∀ q ∈ h.fr, epsilon < |q.2| := by
    have := fr_tiny ht h.hsign; rw [← h.hfr] at this; exact this
  have hdec : ∀ q ∈ h.fr, IsInteger (mag q.2 * 10 ^ 12) := by
    intro q hq
    have hq' := hq
    rw [h.hfr] at hq
    simp only [List.mem_map, List.mem_filter] at hq
    obtain ⟨p, ⟨hp1, hp2⟩, rfl⟩ := hq
    obtain ⟨z, hz⟩ := hd p hp1 hp2
    rw [(mag_eq_abs (hte _ hq')).1]
    simp only
    have : |h.sign * p.2| = |p.2| := by rcases h.hsign with h | h <;> rw [h] <;> simp
    rw [this]
    rcases abs_choice p.2 with h | h <;> rw [h]
    · exact ⟨z, hz⟩
    · exact ⟨-z, by push_cast; linarith⟩
  have hp12 : h.p ≤ 12 := by
    apply power10_le 12 (by norm_num) _ 0 h.p (by omega) _ h.hmax
    intro v hv
    simp only [List.mem_map] at hv
    obtain ⟨q, hq, rfl⟩ := hv
    have : |mag q.2| = mag q.2 := by
      rw [(mag_eq_abs (hte q hq)).1, abs_abs]
    rw [this]; exact hdec q hq
  intro q hq
  obtain ⟨m1, m2⟩ := mag_eq_abs (hte q hq)
  have hp := h.hpow q hq
  have := scaleInt_exact (mag q.2) (by rw [m1]; exact abs_nonneg _) h.p hp12 hp.1 hp.2 (hdec q hq)
  unfold psi
  rw [mul_div_assoc, this, m1, m2]

theorem processRows_spec (P : Prob) (rs : List Row) (cs cs' : List RowCut) (neg' : Nat → Bool)
    (hnd : ∀ r ∈ rs, (r.coefs.map Prod.fst).Nodup) (ht : ∀ r ∈ rs, NoTiny P r)
    (h : processRows P rs (cs, fun _ => false) = some (cs', neg')) :
    cs <+: cs' ∧ ∀ c ∈ cs', c ∈ cs ∨ ∃ r ∈ rs, Nonempty (CutOf P r c) := by
  induction rs generalizing cs with
  | nil =>
    simp only [processRows, Option.some.injEq, Prod.mk.injEq] at h
    rw [h.1]; exact ⟨List.prefix_refl _, fun c hc => Or.inl hc⟩
  | cons r rs ih =>
    unfold processRows at h
    cases hr : processRow P (cs, fun _ => false) r with
    | none => rw [hr] at h; cases h
    | some st =>
      obtain ⟨cs1, neg1⟩ := st
      rw [hr] at h
      simp only at h
      obtain ⟨e1, e2⟩ := processRow_spec P r (hnd r (by simp)) (ht r (by simp)) cs cs1 neg1 hr
      rw [e1] at h
      obtain ⟨i1, i2⟩ := ih cs1 (fun a ha => hnd a (List.mem_cons_of_mem _ ha))
        (fun a ha => ht a (List.mem_cons_of_mem _ ha)) h
      rcases e2 with rfl | ⟨c, hc, rfl⟩
      · refine ⟨i1, fun c hc => ?_⟩
        rcases i2 c hc with h | ⟨r', hr', h⟩
        · exact Or.inl h
        · exact Or.inr ⟨r', List.mem_cons_of_mem _ hr', h⟩
      · refine ⟨List.IsPrefix.trans ?_ i1, fun d hd => ?_⟩
        · unfold insertIfNotDuplicate; split
          · exact List.prefix_refl _
          · exact List.prefix_append _ _
        · rcases i2 d hd with h | ⟨r', hr', h⟩
          · rw [mem_insertIfNotDuplicate] at h
            rcases h with h | rfl
            · exact Or.inl h
            · exact Or.inr ⟨r, by simp, hc⟩
          · exact Or.inr ⟨r', List.mem_cons_of_mem _ hr', h⟩

end Cgl.SimpleRounding
