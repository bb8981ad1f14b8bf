import Verif.TreeInfo.AnalyzeProps

/-!
# The clean-up of cliques: duplicates
-/

namespace Cgl.TreeInfo

/-- Order of the cliques still to be sorted. -/
def Before (cl : Nat → List Nat) (d : Scan) (a b : Nat) : Prop :=
  d.pos b < d.pos a ∨ (d.pos a = d.pos b ∧ (cl a).take (d.pos a) = (cl b).take (d.pos a) ∧ d.val a ≤ d.val b)

/-- State of the search for duplicates. -/
structure DupInv (N n : Nat) (pick : List Nat → Nat) (cl : Nat → List Nat) (done seg : List Nat) (d : Scan) : Prop where
  perm : (done ++ seg).Perm (List.range n)
  pos : ∀ k ∈ seg, d.pos k ≤ (cl k).length
  val : ∀ k ∈ seg, d.val k = colAt N (cl k) (d.pos k)
  sorted : seg.Pairwise (Before cl d)
  dup : ∀ k ∈ done, d.val k = -2 → ∃ k' ∈ done, d.val k' ≠ -2 ∧ cl k' = cl k ∧
    ∃ g, k' = pick g ∧ k ∈ g ∧ ∀ a ∈ g, a < n

theorem colAt_le {N : Nat} {l : List Nat} (hl : ∀ c ∈ l, c < N) (p : Nat) : 0 ≤ colAt N l p ∧ colAt N l p ≤ N := by
  unfold colAt
  split
  · exact ⟨by positivity, le_refl _⟩
  · refine ⟨by positivity, ?_⟩
    rcases h : l[p]? with _ | c
    · simp
    · have := hl c (List.mem_of_getElem? h)
      simp only [Option.getD_some]
      exact_mod_cast this.le

theorem colAt_eq {N : Nat} {l : List Nat} (hl : ∀ c ∈ l, c < N) {p : Nat} (hp : p ≤ l.length) :
    (colAt N l p < N ↔ p < l.length) := by
  unfold colAt
  split
  · rename_i h
    constructor
    · intro h'; exact absurd h' (lt_irrefl _)
    · intro h'; omega
  · rename_i h
    have hlt : p < l.length := lt_of_le_of_ne hp h
    rw [List.getElem?_eq_getElem hlt, Option.getD_some]
    have := hl _ (List.getElem_mem hlt)
    constructor
    · exact fun _ => hlt
    · intro _; exact_mod_cast this

theorem min_foldl (l : List Nat) (n : Nat) : (l.foldl min n = n ∨ l.foldl min n ∈ l) ∧ l.foldl min n ≤ n ∧
    ∀ k ∈ l, l.foldl min n ≤ k := by
  induction l generalizing n with
  | nil => exact ⟨Or.inl rfl, le_refl _, fun k hk => (by cases hk)⟩
  | cons a l ih =>
    rw [List.foldl_cons]
    obtain ⟨h1, h2, h3⟩ := ih (min n a)
    refine ⟨?_, le_trans h2 (min_le_left _ _), ?_⟩
    · rcases h1 with h | h
      · rcases min_choice n a with h' | h'
        · exact Or.inl (by rw [h, h'])
        · exact Or.inr (by rw [h, h']; exact List.mem_cons_self)
      · exact Or.inr (List.mem_cons_of_mem _ h)
    · intro k hk
      rcases List.mem_cons.mp hk with rfl | hk
      · exact le_trans h2 (min_le_right _ _)
      · exact h3 k hk

theorem takeWhile_all {α : Type} {p : α → Bool} {l : List α} (h : ∀ a ∈ l, p a = true) : l.takeWhile p = l := by
  induction l with
  | nil => rfl
  | cons a l ih =>
    rw [List.takeWhile_cons, if_pos (h a List.mem_cons_self), ih fun b hb => h b (List.mem_cons_of_mem _ hb)]

theorem of_mem_takeWhile {α : Type} {p : α → Bool} {l : List α} {a : α} (h : a ∈ l.takeWhile p) : p a = true := by
  induction l with
  | nil => cases h
  | cons b l ih =>
    rw [List.takeWhile_cons] at h
    split at h
    · rename_i hb
      rcases List.mem_cons.mp h with rfl | h
      · exact hb
      · exact ih h
    · cases h

/-- The group consists of cliques that agree with the first one up to and including the current column. -/
theorem group_spec {N n : Nat} {pick : List Nat → Nat} {cl : Nat → List Nat} {done : List Nat} {k : Nat} {rest : List Nat} {d : Scan}
    (h : DupInv N n pick cl done (k :: rest) d) : ∀ j ∈ k :: group d k rest, j ∈ k :: rest ∧ d.pos j = d.pos k ∧
      (cl j).take (d.pos k) = (cl k).take (d.pos k) ∧ d.val j = d.val k := by
  intro j hj
  rcases List.mem_cons.mp hj with rfl | hj
  · exact ⟨List.mem_cons_self, rfl, rfl, rfl⟩
  · have hmem : j ∈ rest := (List.takeWhile_sublist _).subset hj
    have hp := of_mem_takeWhile hj
    simp only [Bool.not_eq_true', Bool.or_eq_false_iff, decide_eq_false_iff_not, not_lt] at hp
    refine ⟨List.mem_cons_of_mem _ hmem, ?_⟩
    rcases List.rel_of_pairwise_cons h.sorted hmem with h1 | ⟨h1, h2, h3⟩
    · omega
    · exact ⟨h1.symm, h2.symm, le_antisymm hp.1 h3⟩

theorem rest_split (d : Scan) (k : Nat) (rest : List Nat) :
    rest = group d k rest ++ rest.drop (group d k rest).length := by
  exact (List.prefix_iff_eq_append.mp (List.takeWhile_prefix _)).symm

theorem prefix_succ {l l' : List Nat} {p : Nat} (h : l.take p = l'.take p) (hl : p < l.length) (hl' : p < l'.length)
    (he : l[p]?.getD 0 = l'[p]?.getD 0) : l.take (p + 1) = l'.take (p + 1) := by
  rw [List.take_add_one, List.take_add_one, h, List.getElem?_eq_getElem hl, List.getElem?_eq_getElem hl'] at *
  rw [Option.getD_some, Option.getD_some] at he
  rw [he]

/-- What is left to do. -/
def left (cl : Nat → List Nat) (d : Scan) (seg : List Nat) : Nat := (seg.map fun k => 1 + ((cl k).length - d.pos k)).sum

theorem left_append (cl : Nat → List Nat) (d : Scan) (a b : List Nat) : left cl d (a ++ b) = left cl d a + left cl d b := by
  simp [left]

theorem left_perm {cl : Nat → List Nat} {d : Scan} {a b : List Nat} (h : a.Perm b) : left cl d a = left cl d b :=
  (h.map _).sum_eq

theorem left_congr {cl : Nat → List Nat} {d d' : Scan} {a : List Nat} (h : ∀ k ∈ a, d'.pos k = d.pos k) :
    left cl d' a = left cl d a := by
  unfold left
  congr 1
  apply List.map_congr_left
  intro k hk
  rw [h k hk]

theorem left_lt {cl : Nat → List Nat} {d d' : Scan} {a : List Nat} (hne : a ≠ [])
    (h : ∀ k ∈ a, (cl k).length - d'.pos k < (cl k).length - d.pos k) : left cl d' a < left cl d a := by
  induction a with
  | nil => exact absurd rfl hne
  | cons k a ih =>
    have hk := h k List.mem_cons_self
    simp only [left, List.map_cons, List.sum_cons]
    by_cases ha : a = []
    · subst ha; simp only [List.map_nil, List.sum_nil]; omega
    · have := ih ha fun j hj => h j (List.mem_cons_of_mem _ hj)
      unfold left at this
      omega

/-- A choice among equal cliques that chooses one of them. -/
def Picks (n : Nat) (pick : List Nat → Nat) : Prop := ∀ l : List Nat, l ≠ [] → (∀ j ∈ l, j < n) → pick l ∈ l

theorem lowest_picks (n : Nat) : Picks n (lowest n) := by
  intro l hne hlt
  unfold lowest
  rcases (min_foldl l n).1 with h0 | h0
  · obtain ⟨a, ha⟩ := List.exists_mem_of_ne_nil _ hne
    have h1 := (min_foldl l n).2.2 a ha
    have h2 := hlt a ha
    omega
  · exact h0

theorem dupStep_inv {N n : Nat} {pick : List Nat → Nat} (hpick : Picks n pick) {cl : Nat → List Nat}
    (hcl : ∀ k, ∀ c ∈ cl k, c < N) {done : List Nat} {k : Nat}
    {rest : List Nat} {d : Scan} (h : DupInv N n pick cl done (k :: rest) d) :
    DupInv N n pick cl (dupStep N pick cl done k rest d).1 (dupStep N pick cl done k rest d).2.1 (dupStep N pick cl done k rest d).2.2 ∧
    left cl (dupStep N pick cl done k rest d).2.2 (dupStep N pick cl done k rest d).2.1 < left cl d (k :: rest) := by
  have hnd : (done ++ k :: rest).Nodup := h.perm.nodup_iff.mpr List.nodup_range
  have hsegnd := (List.nodup_append.mp hnd).2.1
  have hdisj := (List.nodup_append.mp hnd).2.2
  have hlt : ∀ j ∈ k :: rest, j < n := fun j hj =>
    List.mem_range.mp (h.perm.mem_iff.mp (List.mem_append_right _ hj))
  unfold dupStep
  split
  · refine ⟨⟨?_, fun j hj => h.pos j (List.mem_cons_of_mem _ hj), fun j hj => h.val j (List.mem_cons_of_mem _ hj),
      h.sorted.of_cons, ?_⟩, by simp only [left, List.map_cons, List.sum_cons]; omega⟩
    · rw [List.append_assoc]; exact h.perm
    · intro j hj hv
      rcases List.mem_append.mp hj with hj | hj
      · obtain ⟨k', h1, h2⟩ := h.dup j hj hv
        exact ⟨k', List.mem_append_left _ h1, h2⟩
      · rw [List.mem_singleton] at hj
        subst hj
        have := (colAt_le (hcl j) (d.pos j)).1
        rw [h.val j List.mem_cons_self] at hv
        omega
  · dsimp only
    have hg := group_spec h
    have hsplit := rest_split d k rest
    set tl := rest.drop (group d k rest).length with htl
    set g := k :: group d k rest with hgdef
    set d' := advance N cl g d with hd'
    set g' := g.insertionSort (fun a b => d'.val a ≤ d'.val b) with hg'
    have hgp : g'.Perm g := List.perm_insertionSort _ _
    have hgs : g'.Pairwise (fun a b => d'.val a ≤ d'.val b) := by
      have : Std.Total (fun a b => d'.val a ≤ d'.val b) := ⟨fun a b => le_total _ _⟩
      have : IsTrans Nat (fun a b => d'.val a ≤ d'.val b) := ⟨fun a b c => le_trans⟩
      exact List.pairwise_insertionSort _ _
    have hmemg : ∀ j ∈ g', j ∈ k :: rest := fun j hj => (hg j (hgp.mem_iff.mp hj)).1
    have htlmem : ∀ j ∈ tl, j ∈ k :: rest := fun j hj => List.mem_cons_of_mem _ (List.mem_of_mem_drop hj)
    have hall : (g ++ tl) = k :: rest := by rw [hgdef, List.cons_append, ← hsplit]
    have htlg : ∀ j ∈ tl, j ∉ g := by
      intro j hj hjg
      have := hall ▸ hsegnd
      exact (List.nodup_append.mp this).2.2 j hjg j hj rfl
    have hdone : ∀ j ∈ done, j ∉ g := by
      intro j hj hjg
      exact hdisj j hj j (hg j hjg).1 rfl
    -- values after the step
    have hpos' : ∀ j ∈ g, d'.pos j ≤ (cl j).length ∧ d'.val j = colAt N (cl j) (d'.pos j) := by
      intro j hj
      have hm := (hg j hj).1
      have hv := h.val j hm
      have hp := h.pos j hm
      rw [hd']
      simp only [advance, hj, true_and]
      by_cases hlt' : d.val j < N
      · rw [if_pos hlt', if_pos hlt']
        rw [hv, colAt_eq (hcl j) hp] at hlt'
        exact ⟨hlt', rfl⟩
      · rw [if_neg hlt', if_neg hlt']
        exact ⟨hp, hv⟩
    have hsame : ∀ j, j ∉ g → d'.pos j = d.pos j ∧ d'.val j = d.val j := by
      intro j hj
      rw [hd']
      simp only [advance, hj, false_and, if_false, and_self]
    -- all of the group are at the same place with the same columns so far
    have hpre : ∀ a ∈ g, ∀ b ∈ g, d'.pos a = d'.pos b ∧ (cl a).take (d'.pos a) = (cl b).take (d'.pos a) := by
      have hone : ∀ a ∈ g, d'.pos a = (if d.val k < N then d.pos k + 1 else d.pos k) ∧
          (cl a).take (if d.val k < N then d.pos k + 1 else d.pos k) =
          (cl k).take (if d.val k < N then d.pos k + 1 else d.pos k) := by
        intro a ha
        obtain ⟨hm, h1, h2, h3⟩ := hg a ha
        have hva := h.val a hm
        have hvk := h.val k List.mem_cons_self
        refine ⟨?_, ?_⟩
        · rw [hd']
          simp only [advance, ha, true_and, h1, h3]
        · by_cases hlt' : d.val k < N
          · rw [if_pos hlt']
            have hka := (colAt_eq (hcl k) (h.pos k List.mem_cons_self)).mp (hvk ▸ hlt')
            have haa : d.pos k < (cl a).length := by
              have := (colAt_eq (hcl a) (h.pos a hm)).mp (by rw [← hva, h3]; exact hlt')
              omega
            apply prefix_succ h2 haa hka
            have e1 : colAt N (cl a) (d.pos k) = colAt N (cl k) (d.pos k) := by rw [← h1, ← hva, h1, ← hvk, h3]
            unfold colAt at e1
            rw [if_neg (by omega), if_neg (by omega)] at e1
            exact_mod_cast e1
          · rw [if_neg hlt']
            exact h2
      intro a ha b hb
      obtain ⟨a1, a2⟩ := hone a ha
      obtain ⟨b1, b2⟩ := hone b hb
      refine ⟨by rw [a1, b1], ?_⟩
      rw [a1, a2, b2]
    -- `tl` is before the group in position
    have hposk : ∀ a ∈ g, d.pos k ≤ d'.pos a := by
      intro a ha
      obtain ⟨hm, h1, h2, h3⟩ := hg a ha
      rw [hd']
      simp only [advance, ha, true_and]
      split <;> omega
    have hgt : d.val k < N → ∀ a ∈ g, d.pos k < d'.pos a := by
      intro hk a ha
      obtain ⟨hm, h1, h2, h3⟩ := hg a ha
      rw [hd']
      simp only [advance, ha, true_and]
      rw [if_pos (by rw [h3]; exact hk)]
      omega
    have htlpos : ∀ b ∈ tl, d.pos b ≤ d.pos k := by
      intro b hb
      have hb' : b ∈ rest := List.mem_of_mem_drop hb
      rcases List.rel_of_pairwise_cons h.sorted hb' with h1 | ⟨h1, _, _⟩
      · exact h1.le
      · exact h1.symm.le
    have htlsort : tl.Pairwise (Before cl d') := by
      have h0 : tl.Pairwise (Before cl d) := (h.sorted.of_cons).sublist (List.drop_sublist _ _)
      refine h0.imp_of_mem ?_
      intro a b ha hb hab
      unfold Before at hab ⊢
      rw [(hsame a (htlg a ha)).1, (hsame b (htlg b hb)).1, (hsame a (htlg a ha)).2, (hsame b (htlg b hb)).2]
      exact hab
    split
    · -- nobody has finished first
      rename_i hfin
      have hk : d.val k < N := by
        by_contra hk
        apply absurd hfin
        have hall' : ∀ j ∈ g', decide ((N : ℤ) ≤ d'.val j) = true := by
          intro j hj
          have hj := hgp.mem_iff.mp hj
          have h3 := (hg j hj).2.2.2
          rw [decide_eq_true_eq, hd']
          simp only [advance, hj, true_and]
          rw [if_neg (by rw [h3]; exact hk), h3]
          exact not_lt.mp hk
        rw [takeWhile_all hall']
        intro h0
        rw [h0] at hgp
        exact absurd (hgp.symm.eq_nil) (by rw [hgdef]; exact List.cons_ne_nil _ _)
      refine ⟨⟨?_, ?_, ?_, ?_, ?_⟩, ?_⟩
      · refine List.Perm.trans ?_ h.perm
        rw [← hall]
        exact (hgp.append_right tl).append_left done
      · intro j hj
        rcases List.mem_append.mp hj with hj | hj
        · exact (hpos' j (hgp.mem_iff.mp hj)).1
        · rw [(hsame j (htlg j hj)).1]; exact h.pos j (htlmem j hj)
      · intro j hj
        rcases List.mem_append.mp hj with hj | hj
        · exact (hpos' j (hgp.mem_iff.mp hj)).2
        · rw [(hsame j (htlg j hj)).1, (hsame j (htlg j hj)).2]; exact h.val j (htlmem j hj)
      · rw [List.pairwise_append]
        refine ⟨?_, htlsort, ?_⟩
        · refine hgs.imp_of_mem ?_
          intro a b ha hb hab
          obtain ⟨h1, h2⟩ := hpre a (hgp.mem_iff.mp ha) b (hgp.mem_iff.mp hb)
          exact Or.inr ⟨h1, h2, hab⟩
        · intro a ha b hb
          left
          rw [(hsame b (htlg b hb)).1]
          exact lt_of_le_of_lt (htlpos b hb) (hgt hk a (hgp.mem_iff.mp ha))
      · intro j hj hv
        rw [(hsame j (hdone j hj)).2] at hv
        obtain ⟨k', h1, h2, h3⟩ := h.dup j hj hv
        exact ⟨k', h1, by rw [(hsame k' (hdone k' h1)).2]; exact h2, h3⟩
      · rw [← hall, left_append, left_append, left_perm hgp, left_congr (a := tl) fun j hj => (hsame j (htlg j hj)).1]
        apply Nat.add_lt_add_right
        apply left_lt (by rw [hgdef]; exact List.cons_ne_nil _ _)
        intro j hj
        have h1 := (hpos' j hj).1
        have h2 := hgt hk j hj
        have h3 := (hg j hj).2.1
        show (cl j).length - d'.pos j < _
        omega
    · -- all have finished
      rename_i hfin
      have hallN : ∀ j ∈ g', (N : ℤ) ≤ d'.val j := by
        rcases hgl : g' with _ | ⟨a, t⟩
        · intro j hj; cases hj
        · rw [hgl] at hfin hgs
          have ha : (N : ℤ) ≤ d'.val a := by
            by_contra hc
            apply hfin
            rw [List.takeWhile_cons, if_neg (by simpa using hc)]
          intro j hj
          rcases List.mem_cons.mp hj with rfl | hj
          · exact ha
          · exact le_trans ha (List.rel_of_pairwise_cons hgs hj)
      have hfinall : g'.takeWhile (fun j => decide ((N : ℤ) ≤ d'.val j)) = g' :=
        takeWhile_all fun j hj => decide_eq_true (hallN j hj)
      rw [hfinall] at hfin ⊢
      rw [List.drop_length, List.nil_append]
      have hfull : ∀ a ∈ g, ∀ b ∈ g, cl a = cl b := by
        intro a ha b hb
        have hend : ∀ j ∈ g, d'.pos j = (cl j).length := by
          intro j hj
          obtain ⟨h1, h2⟩ := hpos' j hj
          by_contra hc
          have := (colAt_eq (hcl j) h1).mpr (lt_of_le_of_ne h1 hc)
          rw [← h2] at this
          have := hallN j (hgp.mem_iff.mpr hj)
          omega
        obtain ⟨h1, h2⟩ := hpre a ha b hb
        rw [hend a ha] at h2 h1
        rw [List.take_length] at h2
        rw [h2, h1, hend b hb, List.take_length]
      have hlow : pick g' ∈ g' := hpick g' hfin fun a ha => hlt a (hmemg a ha)
      refine ⟨⟨?_, ?_, ?_, ?_, ?_⟩, ?_⟩
      · refine List.Perm.trans ?_ h.perm
        rw [← hall, List.append_assoc]
        exact (hgp.append_right tl).append_left done
      · intro j hj
        show d'.pos j ≤ _
        rw [(hsame j (htlg j hj)).1]; exact h.pos j (htlmem j hj)
      · intro j hj
        have : j ∉ g' := fun hc => htlg j hj (hgp.mem_iff.mp hc)
        show (if j ∈ g' ∧ _ then (-2 : ℤ) else d'.val j) = colAt N (cl j) (d'.pos j)
        rw [if_neg (fun hc => this hc.1), (hsame j (htlg j hj)).1, (hsame j (htlg j hj)).2]
        exact h.val j (htlmem j hj)
      · refine htlsort.imp_of_mem ?_
        intro a b ha hb hab
        have h1 : a ∉ g' := fun hc => htlg a ha (hgp.mem_iff.mp hc)
        have h2 : b ∉ g' := fun hc => htlg b hb (hgp.mem_iff.mp hc)
        unfold Before at hab ⊢
        dsimp only
        rw [if_neg (fun hc => h1 hc.1), if_neg (fun hc => h2 hc.1)]
        exact hab
      · intro j hj hv
        rcases List.mem_append.mp hj with hj | hj
        · have hjg : ∀ i ∈ done, i ∉ g' := fun i hi hc => hdone i hi (hgp.mem_iff.mp hc)
          dsimp only at hv
          rw [if_neg (fun hc => hjg j hj hc.1), (hsame j (hdone j hj)).2] at hv
          obtain ⟨k', h1, h2, h3⟩ := h.dup j hj hv
          refine ⟨k', List.mem_append_left _ h1, ?_, h3⟩
          dsimp only
          rw [if_neg (fun hc => hjg k' h1 hc.1), (hsame k' (hdone k' h1)).2]
          exact h2
        · refine ⟨pick g', List.mem_append_right _ hlow, ?_,
            hfull _ (hgp.mem_iff.mp hlow) _ (hgp.mem_iff.mp hj), g', rfl, hj, fun a ha => hlt a (hmemg a ha)⟩
          dsimp only
          rw [if_neg (fun hc => hc.2 rfl)]
          have := hallN _ hlow
          have h0 : (0 : ℤ) ≤ N := by positivity
          omega
      · rw [← hall, left_append]
        have h1 : left cl { d' with val := fun j => if j ∈ g' ∧ j ≠ pick g' then -2 else d'.val j } tl = left cl d tl :=
          left_congr fun j hj => (hsame j (htlg j hj)).1
        show left cl { d' with val := fun j => if j ∈ g' ∧ j ≠ pick g' then -2 else d'.val j } tl < _
        rw [h1]
        have : 0 < left cl d g := by
          rw [hgdef]
          simp only [left, List.map_cons, List.sum_cons]
          omega
        omega

/-- The sort ends, and each clique that is marked has an equal one that is not. -/
theorem dupLoop_spec {N n : Nat} {pick : List Nat → Nat} (hpick : Picks n pick) {cl : Nat → List Nat}
    (hcl : ∀ k, ∀ c ∈ cl k, c < N) (f : Nat) {done seg : List Nat}
    {d : Scan} (h : DupInv N n pick cl done seg d) (hf : left cl d seg ≤ f) :
    ∃ w d', dupLoop N pick cl f done seg d = some (w, d') ∧ DupInv N n pick cl w [] d' := by
  induction f generalizing done seg d with
  | zero =>
    rcases seg with _ | ⟨k, rest⟩
    · exact ⟨done, d, rfl, h⟩
    · simp only [left, List.map_cons, List.sum_cons] at hf
      omega
  | succ f ih =>
    rcases seg with _ | ⟨k, rest⟩
    · exact ⟨done, d, rfl, h⟩
    · obtain ⟨h1, h2⟩ := dupStep_inv hpick hcl h
      exact ih h1 (by omega)

/-! ### Subsets -/

theorem catchUp_ge (N : Nat) (l : List Nat) (kVal : ℤ) (f : Nat) (p : Nat × ℤ) (hp : p.2 ≠ -2) :
    (catchUp N l kVal f p).2 ≠ -2 := by
  induction f generalizing p with
  | zero => exact hp
  | succ f ih =>
    unfold catchUp
    split
    · apply ih
      show colAt N l (p.1 + 1) ≠ -2
      unfold colAt
      split <;> omega
    · exact hp

theorem setAt_val {v : Nat → ℤ} {i : Nat} {a : ℤ} (ha : a ≠ -2) (hv : v i ≠ -2) (j : Nat) :
    setAt v i a j = -2 ↔ v j = -2 := by
  unfold setAt
  split
  · rename_i h
    subst h
    exact ⟨fun h => absurd h ha, fun h => absurd h hv⟩
  · rfl

/-- The inner loop finds nothing if no clique is longer than another. -/
theorem subInner_equal {N L : Nat} {cl : Nat → List Nat} {flat : List Nat} {start : Nat → Nat} {k : Nat} {kVal : ℤ}
    (hk : (cl k).length = L) (l : List (Nat × Nat)) (hl : ∀ p ∈ l, (cl p.2).length = L) (hL : 0 < L) (s : Sub) :
    ∃ s', subInner N cl flat start k kVal l s = some s' ∧ s'.nOut = s.nOut ∧
      ∀ j, s'.scan.val j = -2 ↔ s.scan.val j = -2 := by
  induction l generalizing s with
  | nil => exact ⟨s, rfl, rfl, fun _ => Iff.rfl⟩
  | cons p l ih =>
    obtain ⟨ii, i⟩ := p
    have ih := ih fun p hp => hl p (List.mem_cons_of_mem _ hp)
    have hi : (cl i).length = L := hl (ii, i) List.mem_cons_self
    unfold subInner
    split
    · obtain ⟨s', h1, h2, h3⟩ := ih (if ii = s.startLooking then { s with startLooking := s.startLooking + 1 } else s)
      refine ⟨s', h1, ?_, fun j => ?_⟩
      · rw [h2]; split <;> rfl
      · rw [h3]; split <;> rfl
    · rename_i hne
      have hne2 : s.scan.val i ≠ -2 := fun h => hne (Or.inl h)
      have hN : (N : ℤ) ≠ -2 := by omega
      rcases hlast : (cl i).getLast? with _ | last
      · rw [List.getLast?_eq_none_iff] at hlast
        rw [hlast] at hi
        simp only [List.length_nil] at hi
        omega
      · dsimp only
        split
        · obtain ⟨s', h1, h2, h3⟩ := ih { s with scan := { s.scan with val := setAt s.scan.val i N } }
          exact ⟨s', h1, h2, fun j => (h3 j).trans (setAt_val hN hne2 j)⟩
        · have hc := catchUp_ge N (cl i) kVal ((cl i).length + 1) (s.scan.pos i, s.scan.val i) hne2
          generalize catchUp N (cl i) kVal ((cl i).length + 1) (s.scan.pos i, s.scan.val i) = q at hc ⊢
          obtain ⟨s', h1, h2, h3⟩ := ih { s with scan := ⟨setAt s.scan.pos i q.1, setAt s.scan.val i q.2⟩ }
          split
          · exact ⟨s', h1, h2, fun j => (h3 j).trans (setAt_val hc hne2 j)⟩
          · rw [if_neg (by omega)]
            exact ⟨s', h1, h2, fun j => (h3 j).trans (setAt_val hc hne2 j)⟩

theorem subOuter_equal {N L : Nat} {cl : Nat → List Nat} {flat : List Nat} {start : Nat → Nat}
    (hL : 0 < L) (l before : List (Nat × Nat)) (hl : ∀ p ∈ l, (cl p.2).length = L)
    (hb : ∀ p ∈ before, (cl p.2).length = L) (s : Sub) :
    ∃ s', subOuter N cl flat start before l s = some s' ∧
      s'.nOut = s.nOut + (l.filter fun p => decide (s.scan.val p.2 = -2)).length ∧
      ∀ j, s'.scan.val j = -2 ↔ s.scan.val j = -2 := by
  induction l generalizing before s with
  | nil => exact ⟨s, rfl, rfl, fun _ => Iff.rfl⟩
  | cons p l ih =>
    obtain ⟨jj, k⟩ := p
    have hk : (cl k).length = L := hl (jj, k) List.mem_cons_self
    have hl' := fun p hp => hl p (List.mem_cons_of_mem _ hp)
    have hb' : ∀ p ∈ before ++ [(jj, k)], (cl p.2).length = L := by
      intro p hp
      rcases List.mem_append.mp hp with hp | hp
      · exact hb p hp
      · rw [List.mem_singleton] at hp; subst hp; exact hk
    unfold subOuter
    split
    · rename_i hv
      obtain ⟨s', h1, h2, h3⟩ := ih (before ++ [(jj, k)]) hl' hb' { s with nOut := s.nOut + 1, startLooking :=
        if jj = s.startLooking then s.startLooking + 1 else s.startLooking }
      refine ⟨s', h1, ?_, h3⟩
      rw [h2, List.filter_cons_of_pos (by simpa using hv), List.length_cons]
      dsimp only
      omega
    · rename_i hv
      obtain ⟨s1, g1, g2, g3⟩ := subInner_equal (N := N) (flat := flat) (start := start) (kVal := s.scan.val k) hk
        (before.drop s.startLooking) (fun p hp => hb p (List.mem_of_mem_drop hp)) hL s
      rw [g1]
      obtain ⟨s', h1, h2, h3⟩ := ih (before ++ [(jj, k)]) hl' hb' s1
      refine ⟨s', h1, ?_, fun j => (h3 j).trans (g3 j)⟩
      rw [h2, g2, List.filter_cons_of_neg (by simpa using hv)]
      congr 2
      apply List.filter_congr
      intro p _
      simp only [g3]

/-! ## C12 -/

/-- **C12, partial.** If there are at most 10000 cliques besides those of the matrix and all cliques have the same number of
columns (at least one), the clean-up returns, and for every clique it is given it keeps one with the same columns.  What is
missing: cliques of different lengths (`cleanup_loses` shows that the property is false there), the direction of the
entries and the type (`cleanup_ignores_direction`, `cleanup_prefers_first`), and more than 10000 cliques, where short ones
are dropped on purpose. -/
theorem cleanup_keeps_partial (N L : Nat) (hL : 0 < L) (cs : List Clique) (nM : Nat) (t : ℤ)
    (hfew : cs.length - nM ≤ 10000) (hlen : ∀ c ∈ cs, c.lits.length = L) (hcol : ∀ c ∈ cs, ∀ e ∈ c.lits, e.1 < N) :
    ∃ r, outDupsEtc N cs nM t = some r ∧ (∀ c ∈ r.cliques, ∃ c0 ∈ cs, c = c0.sorted) ∧
      ∀ c ∈ cs, ∃ c' ∈ r.cliques, c'.cols = c.sorted.cols := by
  have hkeep : keepLong nM cs = cs := by
    unfold keepLong
    rw [if_neg (by unfold keepCliques; omega)]
  -- the sorted cliques
  have hmem : ∀ c ∈ cs.map Clique.sorted, c.lits.length = L ∧ ∀ q ∈ c.cols, q < N := by
    intro c hc
    obtain ⟨c0, h0, rfl⟩ := List.mem_map.mp hc
    refine ⟨by rw [(sorted_perm c0).length_eq]; exact hlen c0 h0, ?_⟩
    intro q hq
    obtain ⟨e, he, rfl⟩ := List.mem_map.mp hq
    exact hcol c0 h0 e ((sorted_perm c0).mem_iff.mp he)
  have hcolsN : ∀ k, ∀ c ∈ colsOf (cs.map Clique.sorted) k, c < N := by
    intro k c hc
    unfold colsOf at hc
    rcases hk : (cs.map Clique.sorted)[k]? with _ | q
    · rw [hk] at hc; cases hc
    · rw [hk, Option.getD_some] at hc
      exact (hmem q (List.mem_of_getElem? hk)).2 c hc
  have hcolsL : ∀ k < (cs.map Clique.sorted).length, (colsOf (cs.map Clique.sorted) k).length = L := by
    intro k hk
    unfold colsOf
    rw [List.getElem?_eq_getElem hk, Option.getD_some, Clique.cols, List.length_map]
    exact (hmem _ (List.getElem_mem hk)).1
  have hempty : ((cs.map Clique.sorted).any fun c => c.lits.isEmpty) = false := by
    rw [List.any_eq_false]
    intro c hc
    rw [List.isEmpty_iff]
    intro h
    have := (hmem c hc).1
    rw [h] at this
    simp only [List.length_nil] at this
    omega
  have hex : ∃ r, outDupsEtc N cs nM t = some r ∧ ∀ c ∈ cs.map Clique.sorted, ∃ c' ∈ r.cliques, c'.cols = c.cols := by
    unfold outDupsEtc
    rw [hkeep]
    dsimp only
    rw [hempty, if_neg (by decide)]
    generalize hS : cs.map Clique.sorted = S at *
    -- duplicates
    have hstart : startOf S S.length = S.length * L := by
      unfold startOf
      rw [List.take_length]
      have : S.map (fun c => c.lits.length) = S.map fun _ => L := List.map_congr_left fun c hc => (hmem c hc).1
      rw [this, List.map_const', List.sum_replicate, smul_eq_mul]
    set w0 := (List.range S.length).insertionSort fun a b => colAt N (colsOf S a) 0 ≤ colAt N (colsOf S b) 0 with hw0
    have hw0p : w0.Perm (List.range S.length) := List.perm_insertionSort _ _
    have hinit : DupInv N S.length (lowest S.length) (colsOf S) [] w0 ⟨fun _ => 0, fun k => colAt N (colsOf S k) 0⟩ := by
      refine ⟨hw0p, fun k _ => Nat.zero_le _, fun k _ => rfl, ?_, fun k hk => (by cases hk)⟩
      have : Std.Total (fun a b => colAt N (colsOf S a) 0 ≤ colAt N (colsOf S b) 0) := ⟨fun a b => le_total _ _⟩
      have : IsTrans Nat (fun a b => colAt N (colsOf S a) 0 ≤ colAt N (colsOf S b) 0) := ⟨fun a b c => le_trans⟩
      refine (List.pairwise_insertionSort (fun a b => colAt N (colsOf S a) 0 ≤ colAt N (colsOf S b) 0) _).imp ?_
      intro a b hab
      exact Or.inr ⟨rfl, rfl, hab⟩
    have hleft : left (colsOf S) ⟨fun _ => 0, fun k => colAt N (colsOf S k) 0⟩ w0 ≤ S.length + startOf S S.length + 1 := by
      rw [left_perm hw0p, hstart]
      unfold left
      have : ((List.range S.length).map fun k => 1 + ((colsOf S k).length - 0)) = (List.range S.length).map fun _ => 1 + L := by
        apply List.map_congr_left
        intro k hk
        rw [hcolsL k (List.mem_range.mp hk), Nat.sub_zero]
      dsimp only
      rw [this, List.map_const', List.sum_replicate, List.length_range, smul_eq_mul, Nat.mul_add, Nat.mul_one]
      omega
    obtain ⟨w, d, hd, hinv⟩ := dupLoop_spec (lowest_picks S.length) hcolsN _ hinit hleft
    rw [hd]
    dsimp only
    have hwp : w.Perm (List.range S.length) := by simpa using hinv.perm
    have hwlt : ∀ k ∈ w, k < S.length := fun k hk => List.mem_range.mp (hwp.mem_iff.mp hk)
    have hzip : ∀ p ∈ (List.range S.length).zip w, (colsOf S p.2).length = L := fun p hp =>
      hcolsL _ (hwlt _ (List.of_mem_zip hp).2)
    obtain ⟨s', h1, h2, h3⟩ := subOuter_equal (N := N) (flat := S.flatMap Clique.cols) (start := startOf S) hL
      ((List.range S.length).zip w) [] hzip (fun p hp => (by cases hp))
      ⟨⟨fun _ => 0, fun k => if d.val k = -2 then -2 else colAt N (colsOf S k) 0⟩, 0, 0⟩
    rw [h1]
    dsimp only
    have hval : ∀ k, s'.scan.val k = -2 ↔ d.val k = -2 := by
      intro k
      rw [h3 k]
      dsimp only
      constructor
      · intro h
        by_contra hc
        rw [if_neg hc] at h
        unfold colAt at h
        split at h <;> omega
      · intro h; rw [if_pos h]
    split
    · refine ⟨_, rfl, ?_⟩
      intro c hc
      exact ⟨c, hc, rfl⟩
    · refine ⟨_, rfl, ?_⟩
      intro c hc
      obtain ⟨k, hk, hkc⟩ := List.getElem_of_mem hc
      have hkw : k ∈ w := hwp.mem_iff.mpr (List.mem_range.mpr hk)
      -- the one that is kept
      obtain ⟨k', hk', hv', hcl'⟩ : ∃ k' ∈ w, d.val k' ≠ -2 ∧ colsOf S k' = colsOf S k := by
        by_cases hv : d.val k = -2
        · exact (hinv.dup k hkw hv).imp fun _ h => ⟨h.1, h.2.1, h.2.2.1⟩
        · exact ⟨k, hkw, hv, rfl⟩
      have hlt' := hwlt k' hk'
      refine ⟨S[k'], ?_, ?_⟩
      · rw [List.mem_filterMap]
        refine ⟨k', ?_, List.getElem?_eq_getElem hlt'⟩
        have hin : k' ∈ w.filter fun k => decide (s'.scan.val k ≠ -2) :=
          List.mem_filter.mpr ⟨hk', decide_eq_true (fun h => hv' ((hval k').mp h))⟩
        by_cases hm : k' < nM
        · exact List.mem_append_left _ (List.mem_filter.mpr ⟨hin, decide_eq_true hm⟩)
        · exact List.mem_append_right _ (List.mem_filter.mpr ⟨hin, decide_eq_true (not_lt.mp hm)⟩)
      · unfold colsOf at hcl'
        rw [List.getElem?_eq_getElem hlt', List.getElem?_eq_getElem hk, Option.getD_some, Option.getD_some, hkc] at hcl'
        exact hcl'
  obtain ⟨r, hr, hall⟩ := hex
  exact ⟨r, hr, outDupsEtc_sub hr, fun c hc => hall c.sorted (List.mem_map_of_mem hc)⟩

end Cgl.TreeInfo
