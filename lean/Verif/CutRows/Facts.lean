import Verif.CutRows.Model
import Verif.CutRows.Used

/-!
# What the treatment of clique cuts learns from the duplicate-row generator
-/

namespace Cgl.CutRows

open TreeInfo DupRow

theorem rows8_order {P : Prob} (rs : List Row) {i : Nat} {l : List Clq} {b : Bool} (h : rows8 P i rs = .ok (l, b)) :
    l.Pairwise (fun c d => c.row < d.row) ∧ ∀ c ∈ l, i ≤ c.row := by
  induction rs generalizing i l b with
  | nil =>
    unfold rows8 at h
    obtain ⟨rfl, rfl⟩ := Prod.mk.inj (Except.ok.inj h)
    exact ⟨List.Pairwise.nil, fun c hc => by cases hc⟩
  | cons r rs ih =>
    unfold rows8 at h
    split at h
    · cases h
    · obtain ⟨rfl, rfl⟩ := Prod.mk.inj (Except.ok.inj h)
      exact ⟨List.Pairwise.nil, fun c hc => by cases hc⟩
    · obtain ⟨h1, h2⟩ := ih h
      exact ⟨h1, fun c hc => by have := h2 c hc; omega⟩
    · split at h
      · cases h
      · rename_i l' b' hr
        obtain ⟨rfl, rfl⟩ := Prod.mk.inj (Except.ok.inj h)
        obtain ⟨h1, h2⟩ := ih hr
        refine ⟨List.pairwise_cons.mpr ⟨fun c hc => ?_, h1⟩, ?_⟩
        · have := h2 c hc; show i < c.row; omega
        · intro c hc
          rcases List.mem_cons.mp hc with rfl | hc
          · exact le_refl i
          · have := h2 c hc; omega

/-- The types of the cliques. -/
def isEq (l : List Clq) (k : Nat) : Bool := (l[k]?.map Clq.eq).getD false

/-- What the generator leaves, in terms of the cliques `l` and the last state `s`. -/
structure Facts (Q : Prob) (dup : List ℤ) (us : Nat → ℤ) (l : List Clq) (s : Sub8) : Prop where
  cl : Cliques Q l
  order : l.Pairwise fun c d => c.row < d.row
  run : run8 Q.nCols (sorted8 l) (isEq l) = some s
  len : dup.length = Q.rows.length
  flag : ∀ k c, l[k]? = some c → dup[c.row]? = some (if s.scan.val k = -2 then -2 else -1)
  other : ∀ m, dup[m]? = some (-2) → ∃ k c, l[k]? = some c ∧ c.row = m ∧ s.scan.val k = -2
  used : ∀ k c, l[k]? = some c → us c.row = match l[s.used k]? with | some d => (d.row : ℤ) | none => (s.used k : ℤ)
  unused : ∀ m, (∀ c ∈ l, c.row ≠ m) → us m = -1

theorem row_inj {l : List Clq} (h : l.Pairwise fun c d => c.row < d.row) {k i : Nat} {c d : Clq} (hk : l[k]? = some c)
    (hi : l[i]? = some d) : (k < i → c.row < d.row) ∧ (c.row = d.row → k = i) := by
  obtain ⟨h1, rfl⟩ := List.getElem?_eq_some_iff.mp hk
  obtain ⟨h2, rfl⟩ := List.getElem?_eq_some_iff.mp hi
  have hp := List.pairwise_iff_getElem.mp h
  refine ⟨fun hlt => hp k i h1 h2 hlt, fun he => ?_⟩
  rcases lt_trichotomy k i with hlt | rfl | hlt
  · have := hp k i h1 h2 hlt; omega
  · rfl
  · have := hp i k h2 h1 hlt; omega

theorem findRow {l : List Clq} (h : l.Pairwise fun c d => c.row < d.row) {k : Nat} {c : Clq} (hk : l[k]? = some c) :
    l.findIdx? (fun d => d.row = c.row) = some k := by
  rw [List.findIdx?_eq_some_iff_getElem]
  obtain ⟨h1, rfl⟩ := List.getElem?_eq_some_iff.mp hk
  refine ⟨h1, by simp, ?_⟩
  intro j hj
  have := List.pairwise_iff_getElem.mp h j k (by omega) h1 hj
  simp; omega

theorem facts {Q : Prob} {o o' : Obj} {cs cs' : Cuts} (ht : Tame8 Q)
    (h : generate (o.setMode 8) Q false cs = .ok (o', cs')) : ∃ l s, Facts Q o'.dup (used8 Q) l s := by
  have hm : (o.setMode 8).mode = 8 := rfl
  unfold generate at h
  rw [if_neg (by decide), hm, if_neg (by decide), if_neg (by decide), if_pos (by decide)] at h
  generalize o.setMode 8 = o8 at h
  split at h
  · cases h
  rename_i u hc
  obtain ⟨rfl, -⟩ := Prod.mk.inj (Except.ok.inj h)
  unfold cuts8 at hc
  split at hc
  · cases hc
  split at hc
  · cases hc
  split at hc
  · cases hc
  rename_i l feas hrows
  split at hc
  · cases hc
  rename_i gone fixed hout
  obtain rfl := Except.ok.inj hc
  obtain ⟨r1, r2, r3⟩ := rows8_spec Q.rows hrows
  obtain ⟨o1, -⟩ := rows8_order Q.rows hrows
  have hcl : Cliques Q l := by
    refine ⟨?_, r2⟩
    intro c hc
    obtain ⟨m, r, h1, h2, h3⟩ := r1 c hc
    obtain ⟨h4, -⟩ := row8_spec ht (List.mem_of_getElem? h1) h3
    obtain ⟨a, b, d⟩ := h4 _ _ rfl
    exact ⟨m, r, h1, by omega, a, b, d⟩
  unfold outDups8 at hout
  split at hout
  · cases hout
  rename_i s hs
  obtain ⟨rfl, rfl⟩ := Prod.mk.inj (Option.some.inj hout)
  have hused : used8 Q = usedRow l s.used := by
    unfold used8
    rw [hrows]
    dsimp only
    rw [hs]
  have hlen : (l.map fun c => c.cols.insertionSort (· ≤ ·)).length = l.length := List.length_map _
  have hgone : ∀ (k : Nat), k < l.length → ((List.range (l.map fun c => c.cols.insertionSort (· ≤ ·)).length).map
      fun k => decide (s.scan.val k = -2))[k]? = some (decide (s.scan.val k = -2)) := by
    intro k hk
    rw [List.getElem?_map, hlen, List.getElem?_range hk]
    rfl
  rw [hused]
  generalize hgd : ((List.range (l.map fun c => c.cols.insertionSort (· ≤ ·)).length).map
      fun k => decide (s.scan.val k = -2)) = gone at hgone
  refine ⟨l, s, ⟨hcl, o1, hs, ?_, ?_, ?_, ?_, ?_⟩⟩
  · show (flags8 _ _ _).length = _
    unfold flags8
    rw [foldl_set_length, List.length_replicate]
  · intro k c hk
    obtain ⟨m, r, h1, h2, -⟩ := hcl.from_ c (List.mem_of_getElem? hk)
    have hklt : k < l.length := (List.getElem?_eq_some_iff.mp hk).1
    obtain ⟨p', hp', f1, f2⟩ := foldl_set_mem (fun p : Clq × Bool => p.1.row) (fun p => if p.2 then (-2 : ℤ) else -1)
      (l.zip gone) (List.replicate Q.rows.length (-3)) c.row
      (by rw [List.length_replicate, h2]; exact (List.getElem?_eq_some_iff.mp h1).1)
      (p := (c, decide (s.scan.val k = -2))) (List.mem_iff_getElem?.mpr ⟨k, List.getElem?_zip_eq_some.mpr ⟨hk, hgone k hklt⟩⟩) rfl
    obtain ⟨k', hk2⟩ := List.mem_iff_getElem?.mp hp'
    rw [List.getElem?_zip_eq_some] at hk2
    have hkk : k' = k := (row_inj o1 hk2.1 hk).2 f1
    subst hkk
    have hp2 := hgone k' hklt
    rw [hk2.2] at hp2
    show (flags8 _ _ _)[c.row]? = _
    unfold flags8
    rw [f2, Option.some.inj hp2]
    by_cases hv : s.scan.val k' = -2
    · rw [if_pos (decide_eq_true hv), if_pos hv]
    · rw [if_neg (by rw [decide_eq_false hv]; decide), if_neg hv]
  · intro m hm
    rcases foldl_set_get _ _ _ _ _ _ (hm : (flags8 Q.rows.length l gone)[m]? = _) with h | ⟨p, hp, h1, h2⟩
    · have := List.eq_of_mem_replicate (List.mem_of_getElem? h)
      norm_num at this
    · obtain ⟨k, hk'⟩ := List.mem_iff_getElem?.mp hp
      rw [List.getElem?_zip_eq_some] at hk'
      refine ⟨k, p.1, hk'.1, h1, ?_⟩
      have hp2 := hgone k (List.getElem?_eq_some_iff.mp hk'.1).1
      rw [hk'.2] at hp2
      have hp2 := Option.some.inj hp2
      by_contra hv
      rw [hp2, decide_eq_false hv] at h2
      norm_num at h2
  · intro k c hk
    unfold usedRow
    rw [findRow o1 hk]
    dsimp only
    split <;> simp_all
  · intro m hm
    unfold usedRow
    have : l.findIdx? (fun c => c.row = m) = none := by
      rw [List.findIdx?_eq_none_iff]
      intro c hc
      simpa using hm c hc
    rw [this]

end Cgl.CutRows
