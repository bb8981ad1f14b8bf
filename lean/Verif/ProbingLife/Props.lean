import Verif.ProbingLife.Spec

/-!
# Theorems about the life of a `CglProbing` object
-/

namespace Cgl.ProbingLife

variable {n : Nat} {o o' : Obj} {c : Call}

/-- An object that has only been used for problems with `n` columns, without snapshots. -/
structure Inv (n : Nat) (o : Obj) : Prop where
  copy : o.copy = none
  look : o.look = none
  cols : o.numCols = 0 ∨ o.numCols = n
  looked : o.lookedAt = none ∨ o.lookedAt = some n

/-- And whose list can be read and copied. -/
structure ListInv (n : Nat) (o : Obj) : Prop where
  cols : o.numCols = n
  list : o.thisTime ≤ o.lookedAt.getD 0

theorem access_ok {a : Option Nat} {k : Nat} (h : k ≤ a.getD 0) : access a k = .ok () := by
  unfold access
  cases a with
  | none =>
    have : k = 0 := by simpa using h
    simp [this]
  | some z =>
    have : ¬ z < k := by simpa using h
    simp [this]

theorem access_le {a : Option Nat} {k : Nat} (h : access a k = .ok ()) : k ≤ a.getD 0 := by
  unfold access at h
  by_cases hk : k = 0
  · omega
  · rw [if_neg hk] at h
    cases a with
    | none => cases h
    | some z =>
      dsimp only at h
      by_cases hz : z < k
      · rw [if_pos hz] at h; cases h
      · simpa using hz

theorem guts_ok (hi : Inv n o) (hc : c.Ok) (hn : c.n = n) :
    ∃ o', guts c o = .ok o' ∧ Inv n o' ∧ o'.numCols = o.numCols ∧
      (o' = o ∨ o'.thisTime = c.k ∧ o'.lookedAt = some n) := by
  obtain ⟨h1, h2, h3, h4⟩ := hi
  have hk : c.k ≤ n := hn ▸ hc
  unfold guts useCopy
  rw [h1]
  by_cases hl : c.left = 0
  · exact ⟨o, by simp [hl, bind, Except.bind, pure, Except.pure], ⟨h1, h2, h3, h4⟩, rfl, .inl rfl⟩
  · have hla : o.lookedAt.getD c.n = n := by rcases h4 with h4 | h4 <;> simp [h4, hn]
    have ha := access_ok (a := some n) (k := c.k) (by simpa using hk)
    refine ⟨{ o with
      lookedAt := some n
      thisTime := c.k
      look := none }, ?_, ⟨h1, rfl, h3, .inr rfl⟩, rfl, .inr ⟨rfl, rfl⟩⟩
    simp [hl, bind, Except.bind, pure, Except.pure, tightenStart, h1, h2, hla, ha]

theorem clone_ok (hi : Inv n o) : ∃ o', clone o = .ok o' ∧ Inv n o' ∧ o'.numCols = o.numCols ∧
    o'.thisTime = o.thisTime ∧ (o.numCols ≠ 0 → o'.lookedAt = o.lookedAt) := by
  obtain ⟨h1, h2, h3, h4⟩ := hi
  have ha : (if o.lookedAt.isSome then access o.lookedAt o.numCols else .ok ()) = .ok () := by
    rcases h4 with h4 | h4
    · simp [h4]
    · rw [h4]
      simp only [Option.isSome_some, if_true]
      apply access_ok
      rcases h3 with h3 | h3 <;> simp [h3]
  refine ⟨{ o with
    lookedAt := if o.numCols = 0 then none else o.lookedAt.map fun _ => o.numCols
    copy := none
    rowB := none
    colB := none
    look := none }, ?_, ⟨rfl, rfl, h3, ?_⟩, rfl, rfl, ?_⟩
  · unfold clone
    rcases h4 with h4 | h4
    · simp [h1, h4, pure, Except.pure]
    · rw [h4] at ha
      simp only [Option.isSome_some, if_true] at ha
      simp [h1, h4, ha, bind, Except.bind, pure, Except.pure]
  · dsimp only
    rcases h4 with h4 | h4
    · simp [h4]
    · by_cases h0 : o.numCols = 0
      · simp [h0]
      · right
        rcases h3 with h3 | h3
        · exact absurd h3 h0
        · rw [if_neg h0, h4]; simp [h3]
  · intro h0
    dsimp only
    rw [if_neg h0]
    rcases h4 with h4 | h4
    · simp [h4]
    · rcases h3 with h3 | h3
      · exact absurd h3 h0
      · rw [h4]; simp [h3]

theorem destroy_ok (hi : Inv n o) : destroy o = .ok () := by unfold destroy; rw [hi.look]; rfl

theorem step_ok (hi : Inv n o) {a : Op} (ha : Plain n a) : ∃ o', step o a = .ok o' ∧ Inv n o' ∧
    (ListInv n o → ListInv n o') ∧ ((∃ c, a = .generate c) → ListInv n o ∨ o.thisTime = 0 → ListInv n o') := by
  cases a with
  | generate c =>
    have hi' : Inv n { o with numRows := c.m, numCols := c.n } := ⟨hi.copy, hi.look, .inr ha.2, hi.looked⟩
    obtain ⟨o', h1, h2, h3, h4⟩ := guts_ok hi' ha.1 ha.2
    have key : (ListInv n o ∨ o.thisTime = 0) → ListInv n { o' with colB := none } := by
      intro hl
      refine ⟨?_, ?_⟩
      · show o'.numCols = n
        rw [h3]; exact ha.2
      · show o'.thisTime ≤ o'.lookedAt.getD 0
        rcases h4 with h4 | ⟨h4, h5⟩
        · rw [h4]
          show o.thisTime ≤ o.lookedAt.getD 0
          rcases hl with hl | hl
          · exact hl.list
          · omega
        · rw [h4, h5]
          have hk : c.k ≤ c.n := ha.1
          have := ha.2
          show c.k ≤ n
          omega
    refine ⟨{ o' with colB := none }, ?_, ⟨h2.copy, h2.look, h2.cols, h2.looked⟩, fun hl => key (.inl hl), fun _ hl => key hl⟩
    show generate c o = _
    unfold generate
    rw [hi.copy]
    simp only [Option.isSome_none, Bool.false_eq_true, if_false]
    rw [hi.copy] at h1
    rw [h1]
    rfl
  | modify c b =>
    obtain ⟨o', h1, h2, h3, h4⟩ := guts_ok hi ha.1 ha.2
    refine ⟨{ o' with rowB := if b then some (c.m + 1) else o'.rowB, colB := some c.n }, ?_,
      ⟨h2.copy, h2.look, h2.cols, h2.looked⟩, ?_, ?_⟩
    · show modify c b o = _
      unfold modify
      rw [h1]
      rfl
    · intro hl
      refine ⟨?_, ?_⟩
      · show o'.numCols = n
        rw [h3]; exact hl.cols
      · show o'.thisTime ≤ o'.lookedAt.getD 0
        rcases h4 with h4 | ⟨h4, h5⟩
        · rw [h4]; exact hl.list
        · rw [h4, h5]
          have hk : c.k ≤ c.n := ha.1
          have := ha.2
          show c.k ≤ n
          omega
    · rintro ⟨c', hc'⟩; cases hc'
  | snapshot m n' w => exact ha.elim
  | deleteSnapshot =>
    exact ⟨deleteSnapshot o, rfl, ⟨rfl, hi.look, hi.cols, hi.looked⟩, fun hl => ⟨hl.cols, hl.list⟩, by rintro ⟨c', hc'⟩; cases hc'⟩
  | peek =>
    obtain ⟨o', h1, h2, -⟩ := clone_ok hi
    refine ⟨o, ?_, hi, id, by rintro ⟨c', hc'⟩; cases hc'⟩
    show (do
      let o' ← clone o
      destroy o'
      return o) = _
    rw [h1]
    show (do
      destroy o'
      return o) = _
    rw [destroy_ok h2]
    rfl
  | replace =>
    obtain ⟨o', h1, h2, h3, h4, h5⟩ := clone_ok hi
    refine ⟨o', ?_, h2, ?_, by rintro ⟨c', hc'⟩; cases hc'⟩
    · show (do
        let o' ← clone o
        destroy o
        return o') = _
      rw [h1]
      show (do
        destroy o
        return o') = _
      rw [destroy_ok hi]
      rfl
    · intro hl
      refine ⟨by rw [h3]; exact hl.cols, ?_⟩
      rw [h4]
      by_cases h0 : o.numCols = 0
      · have hn : n = 0 := by rw [← hl.cols]; exact h0
        have := hl.list
        rcases hi.looked with hh | hh
        · rw [hh] at this
          have h00 : o.thisTime = 0 := by simpa using this
          omega
        · rw [hh, hn] at this
          have h00 : o.thisTime = 0 := by simpa using this
          omega
      · rw [h5 h0]; exact hl.list

theorem run_ok : ∀ (l : List Op) (o : Obj), Inv n o → (∀ a ∈ l, Plain n a) →
    ∃ o', run l o = .ok o' ∧ Inv n o' ∧ (ListInv n o → ListInv n o')
  | [], o, hi, _ => ⟨o, rfl, hi, id⟩
  | a :: l, o, hi, h => by
    obtain ⟨o1, h1, h2, h3, -⟩ := step_ok hi (h a List.mem_cons_self)
    obtain ⟨o2, h4, h5, h6⟩ := run_ok l o1 h2 fun b hb => h b (List.mem_cons_of_mem _ hb)
    refine ⟨o2, ?_, h5, fun hl => h6 (h3 hl)⟩
    unfold run
    rw [h1]
    exact h4

theorem fresh_inv (n : Nat) : Inv n fresh := ⟨rfl, rfl, .inl rfl, .inl rfl⟩

/-- **C136** in part: every history of calls on problems with one number of columns, without snapshots, is safe.
(Missing: problems with different numbers of columns, and snapshots.  For both the claim is false of the code:
`Verif/ProbingLife/Witness.lean`.) -/
theorem life_partial {l : List Op} (h : ∀ a ∈ l, Plain n a) : Safe l := by
  obtain ⟨o, h1, h2, -⟩ := run_ok l fresh (fresh_inv n) h
  exact ⟨o, h1, destroy_ok h2⟩

/-- **C137** in part: after such a history that begins with a call of `generateCuts` the list of columns looked at can be
read.  (Missing: histories that begin with `generateCutsAndModify`, for which it is false: `not_list`.) -/
theorem list_partial {c : Call} {l : List Op} (h : ∀ a ∈ Op.generate c :: l, Plain n a) :
    ListReadable (.generate c :: l) := by
  intro o ho
  obtain ⟨o1, h1, h2, -, h3⟩ := step_ok (fresh_inv n) (h _ List.mem_cons_self)
  obtain ⟨o2, h4, -, h6⟩ := run_ok l o1 h2 fun b hb => h b (List.mem_cons_of_mem _ hb)
  have : o = o2 := by
    unfold run at ho
    rw [h1] at ho
    have ho' : run l o1 = .ok o := ho
    rw [h4] at ho'
    cases ho'
    rfl
  subst this
  exact access_ok (h6 (h3 ⟨c, rfl⟩ (.inr rfl))).list

/-- An object that has only been used by `generateCuts`, for problems with at least `b` columns. -/
structure Inv2 (b : Nat) (o : Obj) : Prop where
  copy : o.copy = none
  look : o.look = none
  cols : o.numCols = 0 ∨ b ≤ o.numCols
  looked : ∀ z, o.lookedAt = some z → b ≤ z ∧ o.numCols ≤ z

theorem generate_ok2 {b : Nat} (hi : Inv2 b o) (hc : c.Ok) (hn : c.n ≤ b) :
    ∃ o', generate c o = .ok o' ∧ Inv2 c.n o' := by
  obtain ⟨h1, h2, h3, h4⟩ := hi
  have hk : c.k ≤ c.n := hc
  have hle : c.n ≤ o.lookedAt.getD c.n := by
    cases hl : o.lookedAt with
    | none => exact le_rfl
    | some z => exact hn.trans (h4 z hl).1
  have ha := access_ok (a := some (o.lookedAt.getD c.n)) (k := c.k) (hk.trans hle)
  unfold generate guts useCopy
  by_cases hl : c.left = 0
  · refine ⟨{ o with
      numRows := c.m
      numCols := c.n
      colB := none }, by simp [hl, h1, bind, Except.bind, pure, Except.pure], h1, h2, .inr le_rfl, ?_⟩
    intro z hz
    have := (h4 z hz).1
    exact ⟨hn.trans this, hn.trans this⟩
  · refine ⟨{ o with
      lookedAt := some (o.lookedAt.getD c.n)
      thisTime := c.k
      numRows := c.m
      numCols := c.n
      colB := none
      look := none }, by simp [hl, h1, h2, bind, Except.bind, pure, Except.pure, tightenStart, ha], h1, rfl, .inr le_rfl, ?_⟩
    intro z hz
    have : o.lookedAt.getD c.n = z := by simpa using hz
    exact ⟨this ▸ hle, this ▸ hle⟩

theorem clone_ok2 {b : Nat} (hi : Inv2 b o) : ∃ o', clone o = .ok o' ∧ Inv2 b o' := by
  obtain ⟨h1, h2, h3, h4⟩ := hi
  refine ⟨{ o with
    lookedAt := if o.numCols = 0 then none else o.lookedAt.map fun _ => o.numCols
    copy := none
    rowB := none
    colB := none
    look := none }, ?_, rfl, rfl, h3, ?_⟩
  · unfold clone
    cases hl : o.lookedAt with
    | none => simp [h1, pure, Except.pure]
    | some z =>
      have ha := access_ok (a := some z) (k := o.numCols) (h4 z hl).2
      simp [h1, ha, bind, Except.bind, pure, Except.pure]
  · intro z hz
    dsimp only at hz
    by_cases h0 : o.numCols = 0
    · rw [if_pos h0] at hz; cases hz
    · rw [if_neg h0] at hz
      cases hl : o.lookedAt with
      | none => rw [hl] at hz; cases hz
      | some y =>
        rw [hl] at hz
        have hz' : o.numCols = z := by simpa using hz
        rcases h3 with h3 | h3
        · exact absurd h3 h0
        · exact ⟨hz' ▸ h3, hz'.le⟩

theorem destroy_ok2 {b : Nat} (hi : Inv2 b o) : destroy o = .ok () := by unfold destroy; rw [hi.look]; rfl

theorem run_ok2 : ∀ (l : List Op) (b : Nat) (o : Obj), Inv2 b o → Shrinking b l →
    ∃ o', run l o = .ok o' ∧ destroy o' = .ok ()
  | [], _, o, hi, _ => ⟨o, rfl, destroy_ok2 hi⟩
  | .generate c :: l, b, o, hi, h => by
    obtain ⟨o1, h1, h2⟩ := generate_ok2 hi h.1 h.2.1
    obtain ⟨o2, h3, h4⟩ := run_ok2 l c.n o1 h2 h.2.2
    exact ⟨o2, by simp only [run, step, h1, bind, Except.bind, h3], h4⟩
  | .modify .. :: _, _, _, _, h => h.elim
  | .snapshot .. :: _, _, _, _, h => h.elim
  | .deleteSnapshot :: l, b, o, hi, h => by
    obtain ⟨o2, h3, h4⟩ := run_ok2 l b (deleteSnapshot o) ⟨rfl, hi.look, hi.cols, hi.looked⟩ h
    exact ⟨o2, by simp only [run, step, bind, Except.bind, h3], h4⟩
  | .peek :: l, b, o, hi, h => by
    obtain ⟨o1, h1, h2⟩ := clone_ok2 hi
    obtain ⟨o2, h3, h4⟩ := run_ok2 l b o hi h
    exact ⟨o2, by simp only [run, step, h1, destroy_ok2 h2, bind, Except.bind, pure, Except.pure, h3], h4⟩
  | .replace :: l, b, o, hi, h => by
    obtain ⟨o1, h1, h2⟩ := clone_ok2 hi
    obtain ⟨o2, h3, h4⟩ := run_ok2 l b o1 h2 h
    exact ⟨o2, by simp only [run, step, h1, destroy_ok2 hi, bind, Except.bind, pure, Except.pure, h3], h4⟩

/-- **C136** in part: every history of `generateCuts` and copies for problems whose number of columns never grows is
safe. -/
theorem shrinking_partial {b : Nat} {l : List Op} (h : Shrinking b l) : Safe l :=
  run_ok2 l b fresh ⟨rfl, rfl, .inl rfl, fun _ h => by cases h⟩ h

/-- The object after the first snapshot. -/
def snapped (m n : Nat) (w : Bool) : Obj :=
  ⟨none, 0, m + (if w then 1 else 0), n, some (m + if w then 1 else 0), some (m + 1), some n, some m⟩

theorem snapshot_fresh (m n : Nat) (w : Bool) : snapshot m n w fresh = .ok (snapped m n w) := by
  simp [snapshot, deleteSnapshot, fresh, tightenStart, snapped, bind, Except.bind]

theorem guts_snapped {m : Nat} {w : Bool} (hp : 0 < m) (hn : c.n = n) (hc : c.Ok) :
    ∃ o, guts c (snapped m n w) = .ok o ∧ (c.left ≠ 0 → o.look = none) := by
  have hk : c.k ≤ n := hn ▸ hc
  have ha := access_ok (a := some n) (k := c.k) (by simpa using hk)
  have hr : access (some (m + 1)) (m + if w then 1 else 0) = .ok () := access_ok (by cases w <;> simp)
  have hu : useCopy c (snapped m n w) = .ok () := by
    unfold useCopy snapped
    simp [hn, hr]
  have hz : ¬ 2 * m < m + if w then 1 else 0 := by cases w <;> simp <;> omega
  unfold guts
  rw [hu]
  by_cases hl : c.left = 0
  · exact ⟨snapped m n w, by simp [hl, bind, Except.bind, pure, Except.pure], fun h => absurd hl h⟩
  · cases c.mode0
    · exact ⟨{ snapped m n w with lookedAt := some n, thisTime := c.k, numRows := 0, look := none },
        by simp [hl, bind, Except.bind, pure, Except.pure, snapped, tightenStart, hz, hn, ha], fun _ => rfl⟩
    · exact ⟨{ snapped m n w with lookedAt := some n, thisTime := c.k, look := none },
        by simp [hl, bind, Except.bind, pure, Except.pure, snapped, hn, ha], fun _ => rfl⟩

/-- **C136**, a snapshot: one call after it is safe if the problem has as many columns and not all rows are removed. -/
theorem snapshot_once {m : Nat} {w b : Bool} (hp : 0 < m) (hn : c.n = n) (hc : c.Ok) (hl : c.left ≠ 0) :
    Safe [.snapshot m n w, .generate c] ∧ Safe [.snapshot m n w, .modify c b] := by
  obtain ⟨o, h1, h2⟩ := guts_snapped (w := w) hp hn hc
  have h3 := h2 hl
  have hs : (snapped m n w).copy.isSome = true := rfl
  refine ⟨⟨{ o with colB := none }, ?_, by unfold destroy; rw [h3]; rfl⟩,
    ⟨{ o with rowB := if b then some (c.m + 1) else o.rowB, colB := some c.n }, ?_, by unfold destroy; rw [h3]; rfl⟩⟩
  · simp only [run, step, snapshot_fresh, bind, Except.bind, generate, hs, if_true, h1, pure, Except.pure]
  · simp only [run, step, snapshot_fresh, bind, Except.bind, modify, h1, pure, Except.pure]

end Cgl.ProbingLife
