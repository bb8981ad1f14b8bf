import Verif.ProcLife.Spec

/-! # Careful histories have no fault -/

namespace Cgl.ProcLife

/-- An array with at least `k` entries. -/
def Sized (a : Arr) (k : Nat) : Prop := ∃ l, a = .live l ∧ k ≤ l.length

/-- The number of entries that the destructor uses. -/
def cnt (n : Nat) : Nat := if n = 99 then 1 else n

/-- What holds for every object in a careful history. -/
structure Good (o : Obj) : Prop where
  model : o.model ≠ .wild
  modified : o.modified ≠ .wild
  presolve : o.presolve ≠ .wild
  size : o.n = 0 ∨ o.model = .null ∨ (Sized o.model (cnt o.n) ∧ Sized o.modified (cnt o.n) ∧ Sized o.presolve (cnt o.n))
  odd : o.n = 99 → o.start = .same

/-- What holds for the world. -/
structure Inv (w : World) : Prop where
  good : ∀ i o, w.objs i = some o → Good o
  alive : ∀ i o a, w.objs i = some o → o.app = some a → a ∈ w.live
  below : ∀ a ∈ w.live, a < w.block
  one : ∀ i j o p a, w.objs i = some o → w.objs j = some p → o.app = some a → p.app = some a → i = j

theorem freeArr_ok {a : Arr} (h : a ≠ .wild) : freeArr a = .ok () := by cases a <;> simp_all [freeArr]

theorem readAll_zero (a : Arr) : readAll a 0 = .ok () := by simp [readAll]

theorem readAll_sized {a : Arr} {k : Nat} (h : Sized a k) : readAll a k = .ok () := by
  obtain ⟨l, rfl, hl⟩ := h
  unfold readAll; split
  · rfl
  · simp [hl]

theorem freeAll_ok {o : Obj} (h : Good o) (k : Nat)
    (hk : k = 0 ∨ (Sized o.model k ∧ Sized o.modified k ∧ Sized o.presolve k)) : freeAll o k = .ok () := by
  have e : readAll o.model k = .ok () ∧ readAll o.modified k = .ok () ∧ readAll o.presolve k = .ok () := by
    rcases hk with rfl | ⟨a, b, c⟩
    · exact ⟨readAll_zero _, readAll_zero _, readAll_zero _⟩
    · exact ⟨readAll_sized a, readAll_sized b, readAll_sized c⟩
  unfold freeAll
  rw [e.1, e.2.1, e.2.2, freeArr_ok h.model, freeArr_ok h.modified, freeArr_ok h.presolve]
  rfl

theorem Good.use {o : Obj} (h : Good o) (hc : ¬ Cleaned o) :
    o.n = 0 ∨ (Sized o.model (cnt o.n) ∧ Sized o.modified (cnt o.n) ∧ Sized o.presolve (cnt o.n)) := by
  rcases h.size with a | a | a
  · exact Or.inl a
  · by_cases hn : o.n = 0
    · exact Or.inl hn
    · exact absurd ⟨hn, a⟩ hc
  · exact Or.inr a

theorem freeApp_ok {live : List Nat} {a : Option Nat} (h : ∀ b, a = some b → b ∈ live) :
    ∃ l, freeApp live a = .ok l ∧ ∀ b, b ∈ l ↔ b ∈ live ∧ a ≠ some b := by
  cases a with
  | none => exact ⟨live, rfl, by simp⟩
  | some c =>
    refine ⟨live.filter fun b => !decide (b = c), ?_, fun b => ?_⟩
    · unfold freeApp; dsimp only; rw [if_pos (h c rfl)]
    · simp only [List.mem_filter, Bool.not_eq_true', decide_eq_false_iff_not, ne_eq, Option.some.injEq]
      exact ⟨fun ⟨x, y⟩ => ⟨x, fun z => y z.symm⟩, fun ⟨x, y⟩ => ⟨x, fun z => y z.symm⟩⟩

theorem guts_ok {live : List Nat} {o : Obj} (h : Good o) (hc : ¬ Cleaned o) (ha : ∀ b, o.app = some b → b ∈ live) :
    ∃ g, guts live o = .ok g ∧ ∀ b, b ∈ g.2 ↔ b ∈ live ∧ o.app ≠ some b := by
  obtain ⟨l, hl, hb⟩ := freeApp_ok ha
  have hk : (if o.n = 99 then 1 else o.n) = 0 ∨ (Sized o.model (cnt o.n) ∧ Sized o.modified (cnt o.n) ∧ Sized o.presolve (cnt o.n)) := by
    rcases h.use hc with a | a
    · left; simp [a]
    · exact Or.inr a
  have hf := freeAll_ok h (cnt o.n) hk
  unfold cnt at hf
  refine ⟨(⟨if o.n = 99 then 1 else o.n, .null, dangling o.modified, .null, false, .null, none⟩, l), ?_, hb⟩
  unfold guts
  dsimp only
  rw [hf, hl]
  rfl

theorem copyArr_ok {a : Arr} {n : Nat} (h : Full a n) : copyArr a n = .ok (.live (List.replicate n true)) := by
  unfold Full at h
  cases a with
  | null => exact absurd h (by simp)
  | wild => exact absurd h (by simp)
  | live l =>
    unfold copyArr
    rw [readAll_sized ⟨l, rfl, h.1⟩]
    have : (l.take n).all (fun b => b) = true := List.all_eq_true.mpr h.2
    change (if (l.take n).all (fun b => b) = true then _ else _) = _
    rw [if_pos this]

theorem copyStart_ok {r : Obj} (h : r.start ≠ .null) : ∃ s, copyStart r = .ok s := by
  unfold copyStart
  split
  · cases hs : r.start with
    | null => exact absurd hs h
    | same => exact ⟨_, rfl⟩
    | own => exact ⟨_, rfl⟩
  · exact ⟨_, rfl⟩

theorem fill_ok {r : Obj} (h : Copyable r) (left : Arr) : ∃ o, fill left r = .ok o ∧ Good o ∧ o.app = none := by
  obtain ⟨h0, h99, ha, hb, hc, hs, happ⟩ := h
  obtain ⟨s, hs⟩ := copyStart_ok hs
  have hz : ∀ k, Sized (.live (List.replicate k true)) k := fun k => ⟨_, rfl, by simp⟩
  have hcnt : cnt r.n = r.n := by unfold cnt; rw [if_neg h99]
  refine ⟨⟨r.n, .live (List.replicate r.n true), .live (List.replicate r.n true), .live (List.replicate r.n true), r.orig, s, r.app⟩,
    ?_, ⟨by simp, by simp, by simp, Or.inr (Or.inr ?_), fun h => absurd h h99⟩, happ⟩
  · unfold fill
    rw [hs, copyArr_ok ha, copyArr_ok hb, copyArr_ok hc]
    change (if r.n = 0 then _ else _) = _
    rw [if_neg h0]
    rfl
  · dsimp only
    rw [hcnt]
    exact ⟨hz _, hz _, hz _⟩

theorem clean_ok {o : Obj} (h : Good o) (hc : ¬ Cleaned o) (hs : o.start ≠ .same) :
    ∃ o', clean o = .ok o' ∧ Good o' ∧ o'.app = o.app := by
  have h99 : o.n ≠ 99 := fun e => hs (h.odd e)
  have hk := h.use hc
  have hcnt : cnt o.n = o.n := by unfold cnt; rw [if_neg h99]
  rw [hcnt] at hk
  refine ⟨{ o with model := .null, modified := .null, presolve := .null, start := .null }, ?_,
    ⟨by simp, by simp, by simp, Or.inr (Or.inl rfl), fun e => absurd e h99⟩, rfl⟩
  unfold clean
  rw [freeAll_ok h _ hk]
  cases hst : o.start with
  | same => exact absurd hst hs
  | null => rfl
  | own => rfl

theorem prep_ok {o : Obj} {c : Call} (hs : o.start ≠ .same) (hc : c.Ok) :
    ∃ o', prep o c = .ok o' ∧ Good o' ∧ o'.app = o.app := by
  obtain ⟨h99, a, b, d⟩ := hc
  have hcnt : cnt c.n = c.n := by unfold cnt; rw [if_neg h99]
  refine ⟨{ o with n := c.n, model := .live c.model, modified := .live c.modified, presolve := .live c.presolve, orig := true, start := if c.started = true then .own else .null }, ?_,
    ⟨by simp, by simp, by simp, Or.inr (Or.inr ?_), fun e => absurd e h99⟩, rfl⟩
  · unfold prep
    cases hst : o.start with
    | same => exact absurd hst hs
    | null => rfl
    | own => rfl
  · dsimp only
    rw [hcnt]
    exact ⟨⟨_, rfl, a⟩, ⟨_, rfl, b⟩, ⟨_, rfl, d⟩⟩

theorem prep99_good (o : Obj) (s : Bool) : Good (prep99 o s) := by
  refine ⟨by simp [prep99], by simp [prep99], by simp [prep99], Or.inr (Or.inr ?_), fun _ => rfl⟩
  have : cnt (prep99 o s).n = 1 := by cases s <;> rfl
  rw [this]
  exact ⟨⟨_, rfl, by simp⟩, ⟨_, rfl, by simp⟩, ⟨_, rfl, by simp⟩⟩

/-- An object is put in place; its data are none or those of the object before. -/
theorem Inv.put {w : World} (h : Inv w) (i : Nat) (o : Obj) (hg : Good o) (n : Nat)
    (ha : ∀ a, o.app = some a → ∃ p, w.objs i = some p ∧ p.app = some a) :
    Inv { w with objs := Function.update w.objs i (some o), next := n } := by
  have look : ∀ j p a, Function.update w.objs i (some o) j = some p → p.app = some a → ∃ q, w.objs j = some q ∧ q.app = some a := by
    intro j p a hp hpa
    by_cases hj : j = i
    · subst hj
      rw [Function.update_self] at hp
      obtain rfl := Option.some.inj hp
      exact ha a hpa
    · rw [Function.update_of_ne hj] at hp
      exact ⟨p, hp, hpa⟩
  refine ⟨fun j p hp => ?_, fun j p a hp hpa => ?_, h.below, fun j k p q a hp hq hpa hqa => ?_⟩
  · by_cases hj : j = i
    · subst hj
      dsimp only at hp
      rw [Function.update_self] at hp
      obtain rfl := Option.some.inj hp
      exact hg
    · dsimp only at hp
      rw [Function.update_of_ne hj] at hp
      exact h.good j p hp
  · obtain ⟨q, hq, hqa⟩ := look j p a hp hpa
    exact h.alive j q a hq hqa
  · obtain ⟨p', hp', hpa'⟩ := look j p a hp hpa
    obtain ⟨q', hq', hqa'⟩ := look k q a hq hqa
    exact h.one j k p' q' a hp' hq' hpa' hqa'

/-- The data of an object are freed and the object is replaced by one without data, or by none. -/
theorem Inv.drop {w : World} (h : Inv w) {i : Nat} {o : Obj} (hi : w.objs i = some o) (p : Option Obj)
    (hp : ∀ q, p = some q → Good q ∧ q.app = none) {l : List Nat} (hl : ∀ b, b ∈ l ↔ b ∈ w.live ∧ o.app ≠ some b) :
    Inv { w with objs := Function.update w.objs i p, live := l } := by
  have look : ∀ j q, Function.update w.objs i p j = some q → (j ≠ i ∧ w.objs j = some q) ∨ (Good q ∧ q.app = none) := by
    intro j q hq
    by_cases hj : j = i
    · subst hj
      rw [Function.update_self] at hq
      exact Or.inr (hp q hq)
    · rw [Function.update_of_ne hj] at hq
      exact Or.inl ⟨hj, hq⟩
  refine ⟨fun j q hq => ?_, fun j q a hq ha => ?_, fun a ha => h.below a ((hl a).mp ha).1, fun j k q r a hq hr hqa hra => ?_⟩
  · rcases look j q hq with ⟨_, e⟩ | e
    · exact h.good j q e
    · exact e.1
  · rcases look j q hq with ⟨hj, e⟩ | e
    · exact (hl a).mpr ⟨h.alive j q a e ha, fun hoa => hj (h.one j i q o a e hi ha hoa)⟩
    · rw [e.2] at ha; exact absurd ha (by simp)
  · rcases look j q hq with ⟨_, e⟩ | e
    · rcases look k r hr with ⟨_, f⟩ | f
      · exact h.one j k q r a e f hqa hra
      · rw [f.2] at hra; exact absurd hra (by simp)
    · rw [e.2] at hqa; exact absurd hqa (by simp)

theorem at_some {w : World} {i : Nat} {o : Obj} {p : Obj → Prop} (hi : w.objs i = some o) (h : At w i p) : p o := by
  unfold At at h; rw [hi] at h; exact h

theorem Good.app {o : Obj} (h : Good o) (a : Option Nat) : Good { o with app := a } :=
  ⟨h.model, h.modified, h.presolve, h.size, h.odd⟩

theorem fresh_good : Good fresh := ⟨by simp [fresh], by simp [fresh], by simp [fresh], Or.inl rfl, by simp [fresh]⟩

theorem step_ok {w : World} (h : Inv w) {op : Op} (hc : Careful w op) : ∃ w', step w op = .ok w' ∧ Inv w' := by
  cases op with
  | new => exact ⟨_, rfl, h.put w.next fresh fresh_good _ (by simp [fresh])⟩
  | copy i =>
    cases hi : w.objs i with
    | none => exact ⟨w, by simp only [step, hi], h⟩
    | some r =>
      obtain ⟨o, ho, hg, ha⟩ := fill_ok (at_some hi hc) .wild
      refine ⟨{ w with objs := Function.update w.objs w.next (some o), next := w.next + 1 }, ?_,
        h.put w.next o hg _ (by rw [ha]; simp)⟩
      simp only [step, hi, ho]; rfl
  | assign i j =>
    cases hi : w.objs i with
    | none => exact ⟨w, by simp only [step, hi], h⟩
    | some t =>
      cases hj : w.objs j with
      | none => exact ⟨w, by simp only [step, hi, hj], h⟩
      | some r =>
        by_cases hij : i = j
        · exact ⟨w, by simp only [step, hi, hj, if_pos hij], h⟩
        · obtain ⟨g, hg, hl⟩ := guts_ok (h.good i t hi) (at_some hi hc.1) (fun b hb => h.alive i t b hi hb)
          obtain ⟨o, ho, hgo, ha⟩ := fill_ok (at_some hj hc.2) g.1.modified
          refine ⟨{ w with objs := Function.update w.objs i (some o), live := g.2 }, ?_,
            h.drop hi (some o) (fun q hq => by obtain rfl := Option.some.inj hq; exact ⟨hgo, ha⟩) hl⟩
          simp only [step, hi, hj, if_neg hij, hg]
          change (do let o ← fill g.1.modified r; _) = _
          rw [ho]; rfl
  | clean i =>
    cases hi : w.objs i with
    | none => exact ⟨w, by simp only [step, hi], h⟩
    | some o =>
      obtain ⟨hc1, hc2⟩ := at_some hi hc
      obtain ⟨o', ho, hg, ha⟩ := clean_ok (h.good i o hi) hc1 hc2
      refine ⟨{ w with objs := Function.update w.objs i (some o') }, ?_, h.put i o' hg w.next fun a e => ⟨o, hi, by rw [← ha]; exact e⟩⟩
      simp only [step, hi, ho]; rfl
  | prep i c =>
    cases hi : w.objs i with
    | none => exact ⟨w, by simp only [step, hi], h⟩
    | some o =>
      obtain ⟨o', ho, hg, ha⟩ := prep_ok (at_some hi hc.1) hc.2
      refine ⟨{ w with objs := Function.update w.objs i (some o') }, ?_, h.put i o' hg w.next fun a e => ⟨o, hi, by rw [← ha]; exact e⟩⟩
      simp only [step, hi, ho]; rfl
  | prep99 i s =>
    cases hi : w.objs i with
    | none => exact ⟨w, by simp only [step, hi], h⟩
    | some o =>
      refine ⟨{ w with objs := Function.update w.objs i (some (prep99 o s)) }, by simp only [step, hi],
        h.put i _ (prep99_good o s) w.next fun a e => ⟨o, hi, e⟩⟩
  | setApp i =>
    cases hi : w.objs i with
    | none => exact ⟨w, by simp only [step, hi], h⟩
    | some o =>
      refine ⟨_, by simp only [step, hi]; rfl, ?_⟩
      have look : ∀ j q a, Function.update w.objs i (some { o with app := some w.block }) j = some q → q.app = some a →
          (j = i ∧ a = w.block) ∨ (w.objs j = some q ∧ a < w.block) := by
        intro j q a hq ha
        by_cases hj : j = i
        · subst hj
          rw [Function.update_self] at hq
          obtain rfl := Option.some.inj hq
          exact Or.inl ⟨rfl, (Option.some.inj ha).symm⟩
        · rw [Function.update_of_ne hj] at hq
          exact Or.inr ⟨hq, h.below a (h.alive j q a hq ha)⟩
      refine ⟨fun j q hq => ?_, fun j q a hq ha => ?_, fun a ha => ?_, fun j k q r a hq hr hqa hra => ?_⟩
      · by_cases hj : j = i
        · subst hj
          dsimp only at hq
          rw [Function.update_self] at hq
          obtain rfl := Option.some.inj hq
          exact (h.good j o hi).app _
        · dsimp only at hq
          rw [Function.update_of_ne hj] at hq
          exact h.good j q hq
      · rcases look j q a hq ha with ⟨_, e⟩ | ⟨e, _⟩
        · rw [e]; exact List.mem_cons_self
        · exact List.mem_cons_of_mem _ (h.alive j q a e ha)
      · rcases List.mem_cons.mp ha with e | e
        · rw [e]; exact Nat.lt_succ_self _
        · exact Nat.lt_succ_of_lt (h.below a e)
      · rcases look j q a hq hqa with ⟨e, f⟩ | ⟨e, f⟩ <;> rcases look k r a hr hra with ⟨e', f'⟩ | ⟨e', f'⟩
        · rw [e, e']
        · omega
        · omega
        · exact h.one j k q r a e e' hqa hra
  | clearApp i =>
    cases hi : w.objs i with
    | none => exact ⟨w, by simp only [step, hi], h⟩
    | some o =>
      obtain ⟨l, hl, hb⟩ := freeApp_ok (fun b hb => h.alive i o b hi hb)
      refine ⟨{ w with objs := Function.update w.objs i (some { o with app := none }), live := l }, ?_,
        h.drop hi _ (fun q hq => by obtain rfl := Option.some.inj hq; exact ⟨(h.good i o hi).app _, rfl⟩) hb⟩
      simp only [step, hi, hl]; rfl
  | destroy i =>
    cases hi : w.objs i with
    | none => exact ⟨w, by simp only [step, hi], h⟩
    | some o =>
      obtain ⟨g, hg, hl⟩ := guts_ok (h.good i o hi) (at_some hi hc) (fun b hb => h.alive i o b hi hb)
      refine ⟨{ w with objs := Function.update w.objs i none, live := g.2 }, ?_, h.drop hi none (by simp) hl⟩
      simp only [step, hi, hg]; rfl

theorem run_ok : ∀ (l : List Op) (w : World), Inv w → AllCareful l w → ∃ w', run l w = .ok w' ∧ Inv w' := by
  intro l
  induction l with
  | nil => intro w h _; exact ⟨w, rfl, h⟩
  | cons op l ih =>
    intro w h hc
    obtain ⟨w1, h1, hi1⟩ := step_ok h hc.1
    obtain ⟨w2, h2, hi2⟩ := ih w1 hi1 (hc.2 w1 h1)
    refine ⟨w2, ?_, hi2⟩
    unfold run
    rw [h1]
    exact h2

/-- **C147** for careful histories.  The full property, that no history of calls has a fault, is false of the code: see `Witness.lean`. -/
theorem life_partial (l : List Op) (hc : AllCareful l empty) : fault l = none := by
  obtain ⟨w, hw, _⟩ := run_ok l empty ⟨by simp [empty], by simp [empty], by simp [empty], by simp [empty]⟩ hc
  unfold fault; rw [hw]

/-- **C147.** In a careful history application data belong to one object only, and are alive. -/
theorem app_partial (l : List Op) (hc : AllCareful l empty) (w : World) (hw : run l empty = .ok w) (i j : Nat) (o p : Obj) (a : Nat)
    (hi : w.objs i = some o) (hj : w.objs j = some p) (ho : o.app = some a) (hp : p.app = some a) : i = j ∧ a ∈ w.live := by
  obtain ⟨w', hw', h⟩ := run_ok l empty ⟨by simp [empty], by simp [empty], by simp [empty], by simp [empty]⟩ hc
  rw [hw] at hw'
  obtain rfl := Except.ok.inj hw'
  exact ⟨h.one i j o p a hi hj ho hp, h.alive i o a hi ho⟩

end Cgl.ProcLife
