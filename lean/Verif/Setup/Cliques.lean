import Verif.Setup.Look

/-! # The look for clique rows -/

namespace Cgl.Setup

/-- The rows that get no slack column hold. -/
def Others (inf : ℚ) (l : List (Row × SVec)) (i : ℕ) (ks : List ℕ) (x : Nat → ℚ) : Prop :=
  ∀ (j : ℕ) (a : Row × SVec), l[j]? = some a → i + j ∉ ks → a.1.Sat inf x

/-- Row `k` was found to be a clique, with bounds that follow from the rows without slack columns. -/
def Found (m : ℤ) (P : Prob) (l : List (Row × SVec)) (i : ℕ) (ks : List ℕ) (k : ℕ) : Prop :=
  ∃ (j : ℕ) (a : Row × SVec) (Q : Prob), k = i + j ∧ l[j]? = some a ∧ Fine Q ∧ RowFine Q a ∧ Q.inf = P.inf ∧
    ¬ (10 ^ 6 ≤ (look Q a).up ∨ (look Q a).lo ≤ -10 ^ 6) ∧ kind (look Q a) = .clique ∧ wanted m (look Q a) = true ∧
    (CrispRun l P → Crisp (look Q a).up ∧ Crisp (look Q a).lo) ∧
    ∀ x, Box P x → Others P.inf l i ks x → Box Q x

/-- The same problem up to bounds of columns. -/
def SameShape (P Q : Prob) : Prop := Q.nCols = P.nCols ∧ Q.inf = P.inf ∧ Q.isInt = P.isInt ∧ Q.rows = P.rows

/-- What the look for cliques returns. -/
def Outcome (m : ℤ) (P : Prob) (l : List (Row × SVec)) (i : ℕ) : Option (Prob × List ℕ) → Prop
  | none => ∀ x, Box P x → (∀ a ∈ l, a.1.Sat P.inf x) → False
  | some q => SameShape P q.1 ∧ (∀ k ∈ q.2, i ≤ k) ∧ q.2.Nodup ∧ (∀ x, Box q.1 x → Box P x) ∧
      (∀ x, Box P x → Others P.inf l i q.2 x → Box q.1 x) ∧ ∀ k ∈ q.2, Found m P l i q.2 k

theorem others_tail {inf : ℚ} {a : Row × SVec} {l : List (Row × SVec)} {i : ℕ} {ks : List ℕ} {x : Nat → ℚ}
    (h : Others inf (a :: l) i ks x) : Others inf l (i + 1) ks x := by
  intro j b hb hn
  exact h (j + 1) b (by simpa using hb) (by rwa [show i + (j + 1) = i + 1 + j by omega])

theorem others_tail_cons {inf : ℚ} {a : Row × SVec} {l : List (Row × SVec)} {i : ℕ} {ks : List ℕ} {x : Nat → ℚ}
    (h : Others inf (a :: l) i (i :: ks) x) : Others inf l (i + 1) ks x := by
  intro j b hb hn
  refine h (j + 1) b (by simpa using hb) ?_
  rw [show i + (j + 1) = i + 1 + j by omega, List.mem_cons, not_or]
  exact ⟨by omega, hn⟩

/-- A row that changes nothing. -/
theorem outcome_same (m : ℤ) (P : Prob) (a : Row × SVec) (l : List (Row × SVec)) (i : ℕ) (o : Option (Prob × List ℕ))
    (hn : next P a = P) (h : Outcome m P l (i + 1) o) : Outcome m P (a :: l) i o := by
  cases o with
  | none => exact fun x hx hr => h x hx fun b hb => hr b (List.mem_cons_of_mem _ hb)
  | some q =>
    obtain ⟨h1, h2, h3, h4, h5, h6⟩ := h
    refine ⟨h1, fun k hk => by have := h2 k hk; omega, h3, h4, fun x hx ho => h5 x hx (others_tail ho), fun k hk => ?_⟩
    obtain ⟨j, b, Q, e1, e2, e3, e4, e5, e6, e7, e8, e9, e10⟩ := h6 k hk
    exact ⟨j + 1, b, Q, by omega, by simpa using e2, e3, e4, e5, e6, e7, e8, fun hc => e9 (by rw [← hn]; exact hc.2.2),
      fun x hx ho => e10 x hx (others_tail ho)⟩

theorem cliques_ok (m : ℤ) (l : List (Row × SVec)) (i : ℕ) (P : Prob) (hF : Fine P) (hR : ∀ a ∈ l, RowFine P a)
    (o : Option (Prob × List ℕ)) (h : cliques m l i P = .ok o) : Outcome m P l i o := by
  induction l generalizing i P o with
  | nil =>
    rw [← Except.ok.inj h]
    exact ⟨⟨rfl, rfl, rfl, rfl⟩, by simp, by simp, fun x hx => hx, fun x hx _ => hx, by simp⟩
  | cons a l ih =>
    have hRa := hR a List.mem_cons_self
    have hRl := fun b hb => hR b (List.mem_cons_of_mem _ hb)
    unfold cliques at h
    by_cases hsk : 10 ^ 6 ≤ (look P a).up ∨ (look P a).lo ≤ -10 ^ 6
    · rw [if_pos hsk] at h
      exact outcome_same m P a l i o (by unfold next; rw [if_pos hsk]) (ih (i + 1) P hF hRl o h)
    rw [if_neg hsk] at h
    by_cases hf : fits (look P a) = false
    · rw [if_pos hf] at h; cases h
    rw [if_neg hf] at h
    have hnext : kind (look P a) ≠ .fix → next P a = P := by
      intro hk; unfold next; rw [if_neg hsk, if_neg hk]
    cases hk : kind (look P a) with
    | nothing =>
      rw [hk] at h
      exact outcome_same m P a l i o (hnext (by rw [hk]; simp)) (ih (i + 1) P hF hRl o h)
    | infeasible =>
      rw [hk] at h
      rw [← Except.ok.inj h]
      exact fun x hx hr => row_infeasible P hF a hRa hsk hk x hx (hr a List.mem_cons_self)
    | fix =>
      rw [hk] at h
      obtain ⟨hg, -⟩ := kind_near (k := look P a) (by rw [hk]; simp)
      obtain ⟨A, -, -, -, hlook⟩ := look_ok P hF a hRa.copy hRa.cols hRa.sized
      obtain ⟨hp, hm, -⟩ := hlook hg
      have hF' := fixAll_fine P hF (look P a) hm hp
      have hnx : next P a = fixAll P (look P a) := by unfold next; rw [if_neg hsk, if_pos hk]
      have step : ∀ x, Box P x → a.1.Sat P.inf x → Box (fixAll P (look P a)) x := by
        intro x hx hs
        obtain ⟨f1, f2⟩ := row_fix P hF a hRa hsk hk x hx hs
        exact fixAll_box P _ x hx f1 f2
      have := ih (i + 1) (fixAll P (look P a)) hF' (fun b hb => ⟨(hRl b hb).copy, (hRl b hb).cols, (hRl b hb).sized, (hRl b hb).ordered⟩) o h
      cases o with
      | none =>
        exact fun x hx hr => this x (step x hx (hr a List.mem_cons_self)) fun b hb => hr b (List.mem_cons_of_mem _ hb)
      | some q =>
        obtain ⟨h1, h2, h3, h4, h5, h6⟩ := this
        have hni : i ∉ q.2 := fun hi => by have := h2 i hi; omega
        have hhead : ∀ x, Others P.inf (a :: l) i q.2 x → a.1.Sat P.inf x := fun x ho => ho 0 a (by simp) (by simpa using hni)
        refine ⟨h1, fun k hk => by have := h2 k hk; omega, h3,
          fun x hx => box_fixAll P hF.inf (look P a) hm hp x (h4 x hx),
          fun x hx ho => h5 x (step x hx (hhead x ho)) (others_tail ho), fun k hkm => ?_⟩
        obtain ⟨j, b, Q, e1, e2, e3, e4, e5, e6, e7, e8, e9, e10⟩ := h6 k hkm
        exact ⟨j + 1, b, Q, by omega, by simpa using e2, e3, e4, e5, e6, e7, e8, fun hc => e9 (by rw [← hnx]; exact hc.2.2),
          fun x hx ho => e10 x (step x hx (hhead x ho)) (others_tail ho)⟩
    | clique =>
      rw [hk] at h
      dsimp only at h
      have hnx := hnext (by rw [hk]; simp)
      cases hr : cliques m l (i + 1) P with
      | error e => rw [hr] at h; cases h
      | ok o' =>
        rw [hr] at h
        simp only [Except.map, Except.ok.injEq] at h
        have hi := ih (i + 1) P hF hRl o' hr
        cases o' with
        | none =>
          rw [← h]
          exact outcome_same m P a l i none hnx hi
        | some q =>
          simp only [Option.map_some] at h
          by_cases hw : wanted m (look P a) = true
          · rw [if_pos hw] at h
            rw [← h]
            obtain ⟨h1, h2, h3, h4, h5, h6⟩ := hi
            have hni : i ∉ q.2 := fun hi => by have := h2 i hi; omega
            refine ⟨h1, fun k hk => ?_, List.nodup_cons.mpr ⟨hni, h3⟩, h4, fun x hx ho => h5 x hx (others_tail_cons ho),
              fun k hkm => ?_⟩
            · rcases List.mem_cons.mp hk with rfl | hk
              · exact le_refl _
              · have := h2 k hk; omega
            · rcases List.mem_cons.mp hkm with rfl | hkm
              · exact ⟨0, a, P, by omega, by simp, hF, hRa, rfl, hsk, hk, hw, fun hc => ⟨hc.1, hc.2.1⟩, fun x hx _ => hx⟩
              · obtain ⟨j, b, Q, e1, e2, e3, e4, e5, e6, e7, e8, e9, e10⟩ := h6 k hkm
                exact ⟨j + 1, b, Q, by omega, by simpa using e2, e3, e4, e5, e6, e7, e8, fun hc => e9 (by rw [← hnx]; exact hc.2.2),
                  fun x hx ho => e10 x hx (others_tail_cons ho)⟩
          · rw [if_neg hw] at h
            rw [← h]
            exact outcome_same m P a l i (some q) hnx hi

end Cgl.Setup
