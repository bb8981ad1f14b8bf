import Verif.UniqueCuts.Erase
import Verif.UniqueCuts.Rest

/-! # The two classes meet the hypotheses; concrete histories -/

namespace Cgl.UniqueCuts

theorem badRow_fam (n : Nat) : badRow (fam n) = false := by
  unfold badRow fam
  norm_num

theorem unique_hashSize {mult : Nat} (h : 0 < mult) (hash : RowCut → Nat → Nat) (same : RowCut → RowCut → Bool) :
    ∀ s, 0 < s → 0 < (unique mult hash same).hashSize s := fun _ hs => Nat.mul_pos h hs

theorem probing_hashSize (hash : RowCut → Nat → Nat) (same : RowCut → RowCut → Bool) :
    ∀ s, 0 < s → 0 < (probingCuts hash same).hashSize s := by
  intro s hs
  show 0 < if s < 1000 then 4 * s else 2 * s
  split <;> omega

theorem unique_fam (mult : Nat) (hash : RowCut → Nat → Nat) (same : RowCut → RowCut → Bool) (n : Nat) :
    (unique mult hash same).bad (fam n) = false := badRow_fam n

theorem probing_fam (hash : RowCut → Nat → Nat) (same : RowCut → RowCut → Bool) (n : Nat) :
    (probingCuts hash same).bad (fam n) = false := by
  show (badRow (fam n) || decide _ || decide _) = false
  rw [badRow_fam, Bool.or_eq_false_iff, Bool.or_eq_false_iff]
  refine ⟨⟨rfl, decide_eq_false ?_⟩, decide_eq_false ?_⟩
  · rintro ⟨h, -⟩
    have h1 : (fam n).lb = 0 := rfl
    rw [h1] at h
    norm_num at h
  · rintro ⟨h, -⟩
    have h1 : (fam n).ub ≤ 1 := by
      show 1 / ((n : ℚ) + 1) ≤ 1
      rw [div_le_one (by positivity)]
      have : (0 : ℚ) ≤ n := Nat.cast_nonneg n
      linarith
    have h2 := lt_of_lt_of_le h h1
    norm_num at h2

/-- **`CglUniqueRowCuts` holds duplicates** for every hash function and every multiplier. -/
theorem unique_duplicates {mult : Nat} (hm : 0 < mult) {hash : RowCut → Nat → Nat} (hf : ∀ c m, 0 < m → hash c m < m)
    (size : Nat) (cs : List RowCut) {rs : List ℤ} {t : Table}
    (hreach : inserts (unique mult hash fun a b => decide (a = b)) (new (unique mult hash fun a b => decide (a = b)) size) cs =
      .ok (rs, t)) (hroom : t.number + 3 ≤ t.slots.length) :
    ∃ a b, a ≠ b ∧ ∃ rs' t',
      inserts (unique mult hash fun a b => decide (a = b)) (new (unique mult hash fun a b => decide (a = b)) size)
        (cs ++ [a, b, a]) = .ok (rs', t') ∧ t'.held = t.held ++ [a, b, a] :=
  duplicates_held (K := unique mult hash fun a b => decide (a = b)) hf (unique_hashSize hm _ _) (fun _ _ => decide_eq_true_iff) (unique_fam _ _ _) size cs hreach hroom

/-- **The cuts of one pass of `CglProbing` are held with duplicates** for every hash function. -/
theorem probing_duplicates {hash : RowCut → Nat → Nat} (hf : ∀ c m, 0 < m → hash c m < m) (initialPass : Bool) :
    ∃ a b, a ≠ b ∧ ∃ rs t,
      inserts (probingCuts hash fun a b => decide (a = b))
        (new (probingCuts hash fun a b => decide (a = b)) (probingSize initialPass)) [a, b, a] = .ok (rs, t) ∧
      t.held = [a, b, a] := by
  have := duplicates_held (K := probingCuts hash fun a b => decide (a = b)) hf (probing_hashSize _ _)
    (fun _ _ => decide_eq_true_iff) (probing_fam _ _) (probingSize initialPass) [] rfl
    (by cases initialPass <;> simp [new, probingSize])
  exact this

/-- **The answers and the cuts of the two classes**, for every hash function. -/
theorem unique_accounted {mult : Nat} (hm : 0 < mult) {hash : RowCut → Nat → Nat} (hf : ∀ c m, 0 < m → hash c m < m)
    (same : RowCut → RowCut → Bool) (size : Nat) (cs : List RowCut) :
    ∃ rs t, inserts (unique mult hash same) (new (unique mult hash same) size) cs = .ok (rs, t) ∧
      Account badRow same [] cs rs t.held :=
  insertions_accounted (K := unique mult hash same) hf (unique_hashSize hm _ _) size cs

theorem probing_accounted {hash : RowCut → Nat → Nat} (hf : ∀ c m, 0 < m → hash c m < m)
    (same : RowCut → RowCut → Bool) (initialPass : Bool) (cs : List RowCut) :
    ∃ rs t, inserts (probingCuts hash same) (new (probingCuts hash same) (probingSize initialPass)) cs = .ok (rs, t) ∧
      Account (probingCuts hash same).bad same [] cs rs t.held :=
  insertions_accounted (K := probingCuts hash same) hf (probing_hashSize _ _) _ cs

/-- With `hashMultiplier` 0 every insertion of an acceptable cut into a new collector reads outside the hash table. -/
theorem multiplier_zero (hash : RowCut → Nat → Nat) (same : RowCut → RowCut → Bool) {size : Nat} (hs : 0 < size)
    {c : RowCut} (hb : badRow (sortCut c) = false) :
    insert (unique 0 hash same) (new (unique 0 hash same) size) c = .error .outside := by
  have h1 : (new (unique 0 hash same) size).slots.length = size := by simp [new]
  have h2 : (new (unique 0 hash same) size).links = [] := by simp [new, noLinks, unique]
  have h3 : (new (unique 0 hash same) size).number = 0 := rfl
  have hb' : ¬ (unique 0 hash same).bad (sortCut c) = true := by
    show ¬ badRow (sortCut c) = true
    simp [hb]
  unfold insert
  rw [h1, h3, if_neg (by omega)]
  unfold add
  rw [h1, h3, if_pos hs, if_neg hb', h2]
  unfold walk get
  simp [Except.bind]

/-! ### Concrete histories -/

/-- The cut `0 ≤ x_j ≤ 1`. -/
def box (j : Nat) : RowCut := ⟨0, 1, [(j, 1)]⟩

/-- A position that depends on the first column of the cut. -/
def byColumn (c : RowCut) (m : Nat) : Nat := (match c.row with | [] => 0 | p :: _ => p.1) % m

/-- `CglUniqueRowCuts` with the multiplier 4 and this hash function. -/
def demo : Kind := unique 4 byColumn fun a b => decide (a = b)

theorem demo_fits : Fits demo := fun _ _ h => Nat.mod_lt _ h

theorem demo_hashSize : ∀ s, 0 < s → 0 < demo.hashSize s := unique_hashSize (by decide) _ _

/-- The cuts and the return values, or the failure. -/
def result (r : Except Fault (List ℤ × Table)) : Except Fault (List ℤ × List RowCut) :=
  r.bind fun q => .ok (q.1, q.2.held)

def okAnswers (r : Except Fault (List ℤ × Table)) (rs : List ℤ) (l : List RowCut) : Bool :=
  match r with
  | .ok q => decide (q.1 = rs) && decide (q.2.held = l)
  | .error _ => false

def okHeld (r : Except Fault Table) (l : List RowCut) : Bool :=
  match r with
  | .ok t => decide (t.held = l)
  | .error _ => false

def failsWith {α : Type} (r : Except Fault α) (f : Fault) : Bool :=
  match r with
  | .ok _ => false
  | .error g => decide (g = f)

/-- Unsorted, too small and repeated cuts; the array grows from 1 to 102. -/
theorem demo_result :
    okAnswers (inserts demo (new demo 1) [⟨0, 1, [(2, 1), (1, 1)]⟩, ⟨0, 1, [(1, 1), (2, 1)]⟩, ⟨0, 1, [(3, 1 / 10 ^ 13)]⟩,
      box 5]) [0, 1, 1, 0] [⟨0, 1, [(1, 1), (2, 1)]⟩, box 5] = true := by decide +kernel

/-- A collision: the first cut is held twice. -/
theorem collision_result :
    okAnswers (inserts demo (new demo 5) [box 1, box 21, box 1, box 1]) [0, 0, 0, 1] [box 1, box 21, box 1] = true := by
  decide +kernel

/-- Erasing a cut that is not the last. -/
theorem erase_result :
    okHeld (run demo (new demo 5) [.insert (box 1), .insert (box 2), .insert (box 3), .erase 0, .insert (box 1)])
      [box 3, box 2, box 1] = true := by decide +kernel

/-- After a collision the cut whose place was taken cannot be erased. -/
theorem erase_collision_result :
    failsWith (run demo (new demo 2) [.insert (box 1), .insert (box 9), .erase 0]) .assertion = true := by decide +kernel

/-- After a collision and two erasures the last cut has lost its place: the search for the last cut leaves the hash table. -/
theorem erase_outside_result :
    failsWith (run demo (new demo 5) [.insert (box 0), .insert (box 1), .insert (box 2), .insert (box 21), .erase 0,
      .erase 0, .erase 0]) .outside = true := by decide +kernel

/-- Erasing twice and offering an erased cut again uses a null pointer, although there are no collisions and the last cut
is never erased. -/
theorem stale_result :
    failsWith (run demo (new demo 5) [.insert (box 0), .insert (box 1), .insert (box 2), .erase 1, .erase 0,
      .insert (box 1)]) .nullPointer = true := by decide +kernel

/-- The history of `erase_result` is careful, ... -/
theorem careful_result :
    Careful demo [] [] [.insert (box 1), .insert (box 2), .insert (box 3), .erase 0, .insert (box 1)] = true := by
  decide +kernel

theorem sizeAfter_le (size k : Nat) : size ≤ sizeAfter size k := by
  induction k with
  | zero => exact le_rfl
  | succ k ih => show size ≤ larger _; unfold larger; omega

/-- ... and has no collisions. -/
theorem noCollision_result :
    NoCollision demo 5 (offered [.insert (box 1), .insert (box 2), .insert (box 3), .erase 0, .insert (box 1)]) := by
  intro k _
  have h5 := sizeAfter_le 5 k
  have hm : 20 ≤ demo.hashSize (sizeAfter 5 k) := by
    show 20 ≤ 4 * sizeAfter 5 k
    omega
  generalize demo.hashSize (sizeAfter 5 k) = m at hm
  have hS : offered [.insert (box 1), .insert (box 2), .insert (box 3), .erase 0, .insert (box 1)] =
      [box 1, box 2, box 3, box 1] := rfl
  rw [hS]
  have hb : ∀ i j : Nat, i < 20 → j < 20 → (demo.hash (box i) m = demo.hash (box j) m ↔ demo.same (box i) (box j) = true) := by
    intro i j hi hj
    have e1 : demo.hash (box i) m = i := Nat.mod_eq_of_lt (show i < m by omega)
    have e2 : demo.hash (box j) m = j := Nat.mod_eq_of_lt (show j < m by omega)
    rw [e1, e2]
    show i = j ↔ decide (box i = box j) = true
    rw [decide_eq_true_iff]
    constructor
    · rintro rfl; rfl
    · intro h
      have h1 : ([(i, 1)] : SVec) = [(j, 1)] := congrArg RowCut.row h
      simpa using h1
  intro a ha b hb'
  simp only [List.mem_cons, List.not_mem_nil, or_false] at ha hb'
  rcases ha with rfl | rfl | rfl | rfl <;> rcases hb' with rfl | rfl | rfl | rfl <;> exact hb _ _ (by omega) (by omega)

/-- A full collector: it can be copied. -/
theorem full_result : (match inserts demo (new demo 2) [box 1, box 2] with
    | .ok q => decide (q.2.number = q.2.slots.length) && decide (copy q.2 = .ok q.2)
    | .error _ => false) = true := by decide +kernel

end Cgl.UniqueCuts
