import Verif.Vec
import Verif.Callable

/-!
# C28, C29, C30: slot equality and `signal::disconnect(f)` matching

The specification side: what a slot is made of (`kind`, `parts`), when two slots have the same dynamic
type (`SameType`), when two comparable values are equal.
-/

namespace Verif

/-- Which slot implementation template: 0 function object, 1 member function, 2 tracked. -/
def Callable.kind : Callable → Nat
  | .func .. => 0
  | .pmf .. => 1
  | .tracked .. => 2

/-- The comparable members of a slot, in the order in which the code compares them. -/
def Callable.parts : Callable → List (CTy × Nat)
  | .func ty f => [(ty, f)]
  | .pmf fty pty f p => [(pty, p), (fty, f)]
  | .tracked fty wty f o => [(wty, o), (fty, f)]

/-- Same slot template, same template arguments. -/
def SameType (a b : Callable) : Prop :=
  a.kind = b.kind ∧ a.parts.map Prod.fst = b.parts.map Prod.fst

/-- Every member type has `==`. -/
def Comparable (a : Callable) : Prop := ∀ p ∈ a.parts, p.1.cmp = true

/-- Members pairwise equal according to the user's `==`. -/
def PartsEq (E : Env) (a b : Callable) : Prop :=
  ∀ (i : Nat) (p q : CTy × Nat), a.parts[i]? = some p → b.parts[i]? = some q → E.eq p.1.base p.2 q.2 = some true

/-- User `==` is an equivalence on every type. (Between different values it may throw.) -/
structure EqLaws (E : Env) : Prop where
  refl : ∀ ty x, E.eq ty x x = some true
  symm : ∀ ty x y, E.eq ty x y = E.eq ty y x
  trans : ∀ ty x y z, E.eq ty x y = some true → E.eq ty y z = some true → E.eq ty x z = some true

section helpers

theorem partsEq_func (E : Env) (ty : CTy) (x y : Nat) :
    PartsEq E (.func ty x) (.func ty y) ↔ E.eq ty.base x y = some true := by
  constructor
  · intro h; exact h 0 (ty, x) (ty, y) rfl rfl
  · intro h i p q hp hq
    match i with
    | 0 => simp [Callable.parts] at hp hq; subst hp; subst hq; exact h
    | i + 1 => simp [Callable.parts] at hp

theorem partsEq_pmf (E : Env) (fty pty : CTy) (f f' p p' : Nat) :
    PartsEq E (.pmf fty pty f p) (.pmf fty pty f' p') ↔
      E.eq pty.base p p' = some true ∧ E.eq fty.base f f' = some true := by
  constructor
  · intro h; exact ⟨h 0 (pty, p) (pty, p') rfl rfl, h 1 (fty, f) (fty, f') rfl rfl⟩
  · intro h i a b ha hb
    match i with
    | 0 => simp [Callable.parts] at ha hb; subst ha; subst hb; exact h.1
    | 1 => simp [Callable.parts] at ha hb; subst ha; subst hb; exact h.2
    | i + 2 => simp [Callable.parts] at ha

theorem partsEq_tracked (E : Env) (fty pty : CTy) (f f' p p' : Nat) :
    PartsEq E (.tracked fty pty f p) (.tracked fty pty f' p') ↔
      E.eq pty.base p p' = some true ∧ E.eq fty.base f f' = some true := by
  constructor
  · intro h; exact ⟨h 0 (pty, p) (pty, p') rfl rfl, h 1 (fty, f) (fty, f') rfl rfl⟩
  · intro h i a b ha hb
    match i with
    | 0 => simp [Callable.parts] at ha hb; subst ha; subst hb; exact h.1
    | 1 => simp [Callable.parts] at ha hb; subst ha; subst hb; exact h.2
    | i + 2 => simp [Callable.parts] at ha

end helpers

/-! ### C28 -/

/-- C28: an empty slot equals exactly the empty slots, and comparing with one never throws. -/
theorem C28_empty (E : Env) (a : Option Callable) :
    slotEq E a none = some a.isNone ∧ slotEq E none a = some a.isNone := by
  cases a <;> simp [slotEq]

/-- C28: slots of different kind or different callable types are unequal, without throwing. -/
theorem C28_different_types (E : Env) (a b : Callable) (h : ¬ SameType a b) :
    slotEq E (some a) (some b) = some false := by
  unfold SameType at h
  cases a <;> cases b <;> simp [Callable.kind, Callable.parts] at h <;>
    simp [slotEq, Callable.equals] <;> intros <;> simp_all

/-- C28: on slots of the same type whose members are comparable, `==` is true exactly when the
members are pairwise equal, and throws only if the `==` of some member does. -/
theorem C28_same_type (E : Env) (a b : Callable) (h : SameType a b) (hc : Comparable a) :
    (slotEq E (some a) (some b) = some true ↔ PartsEq E a b) ∧
    ((∀ ty x y, E.eq ty x y ≠ none) → slotEq E (some a) (some b) ≠ none) := by
  obtain ⟨hk, hp⟩ := h
  have two : ∀ x y : Option Bool, (andAlso x y = some true ↔ x = some true ∧ y = some true) ∧
      (x ≠ none → y ≠ none → andAlso x y ≠ none) := by
    intro x y
    match x, y with
    | none, _ | some false, _ | some true, none | some true, some true | some true, some false => simp [andAlso]
  cases a <;> cases b <;> simp [Callable.kind] at hk <;>
    simp [Callable.parts, Comparable] at hp hc
  · subst hp
    simp only [slotEq, Callable.equals, tryEquals, hc, if_true]
    exact ⟨(partsEq_func ..).symm, fun h => h _ _ _⟩
  · obtain ⟨rfl, rfl⟩ := hp
    simp only [slotEq, Callable.equals, tryEquals, hc.1, hc.2, and_self, if_true]
    exact ⟨(two _ _).1.trans (partsEq_pmf ..).symm, fun h => (two _ _).2 (h _ _ _) (h _ _ _)⟩
  · obtain ⟨rfl, rfl⟩ := hp
    simp only [slotEq, Callable.equals, tryEquals, hc.1, hc.2, and_self, if_true]
    exact ⟨(two _ _).1.trans (partsEq_tracked ..).symm, fun h => (two _ _).2 (h _ _ _) (h _ _ _)⟩

/-- C28: comparison throws exactly when the slots have the same dynamic type and some member is not
comparable, or its `==` throws, while all members compared before it are comparable and equal. -/
theorem C28_throws_iff (E : Env) (a b : Callable) :
    slotEq E (some a) (some b) = none ↔
      SameType a b ∧ ∃ (k : Nat) (p q : CTy × Nat), a.parts[k]? = some p ∧ b.parts[k]? = some q ∧
        (p.1.cmp = false ∨ E.eq p.1.base p.2 q.2 = none) ∧
        ∀ j : Nat, j < k → ∃ x y : CTy × Nat, a.parts[j]? = some x ∧ b.parts[j]? = some y ∧
          x.1.cmp = true ∧ E.eq x.1.base x.2 y.2 = some true := by
  by_cases hs : SameType a b
  · simp only [hs, true_and]
    obtain ⟨hk, hp⟩ := hs
    have one : ∀ (ty : CTy) (x y : Nat), tryEquals E ty x y = none ↔ ty.cmp = false ∨ E.eq ty.base x y = none := by
      intro ty x y
      cases h : ty.cmp <;> simp [tryEquals, h]
    have yes : ∀ {ty : CTy} {x y : Nat}, tryEquals E ty x y = some true ↔ ty.cmp = true ∧ E.eq ty.base x y = some true := by
      intro ty x y
      cases h : ty.cmp <;> simp [tryEquals, h]
    have two : ∀ (fty pty : CTy) (f p f' p' : Nat),
        ((andAlso (tryEquals E pty p p') (tryEquals E fty f f')) = none) ↔
        ∃ (k : Nat) (q r : CTy × Nat), [(pty, p), (fty, f)][k]? = some q ∧ [(pty, p'), (fty, f')][k]? = some r ∧
          (q.1.cmp = false ∨ E.eq q.1.base q.2 r.2 = none) ∧
          ∀ j : Nat, j < k → ∃ x y : CTy × Nat, [(pty, p), (fty, f)][j]? = some x ∧ [(pty, p'), (fty, f')][j]? = some y ∧
            x.1.cmp = true ∧ E.eq x.1.base x.2 y.2 = some true := by
      intro fty pty f p f' p'
      constructor
      · intro h
        match h1 : tryEquals E pty p p', h with
        | none, _ => exact ⟨0, _, _, rfl, rfl, (one ..).1 h1, by intro j hj; omega⟩
        | some true, h =>
          refine ⟨1, _, _, rfl, rfl, (one ..).1 h, ?_⟩
          intro j hj
          have : j = 0 := by omega
          subst this
          exact ⟨_, _, rfl, rfl, yes.1 h1⟩
      · rintro ⟨k, q, r, hq, hr, hqc, hpre⟩
        match k with
        | 0 => simp at hq hr; subst hq; subst hr; rw [(one ..).2 hqc]; rfl
        | 1 =>
          simp at hq hr; subst hq; subst hr
          obtain ⟨x, y, hx, hy, h1⟩ := hpre 0 (by omega)
          simp at hx hy; subst hx; subst hy
          rw [yes.2 h1, (one ..).2 hqc]; rfl
        | k + 2 => simp at hq
    cases a <;> cases b <;> simp [Callable.kind] at hk <;> simp [Callable.parts] at hp
    · subst hp
      simp only [slotEq, Callable.equals, Callable.parts, if_true]
      constructor
      · intro h
        exact ⟨0, _, _, rfl, rfl, (one ..).1 h, by intro j hj; omega⟩
      · rintro ⟨k, q, r, hq, hr, hqc, -⟩
        match k with
        | 0 => simp at hq hr; subst hq; subst hr; exact (one ..).2 hqc
        | k + 1 => simp at hq
    · obtain ⟨rfl, rfl⟩ := hp
      simpa [slotEq, Callable.equals, Callable.parts] using two _ _ _ _ _ _
    · obtain ⟨rfl, rfl⟩ := hp
      simpa [slotEq, Callable.equals, Callable.parts] using two _ _ _ _ _ _
  · simp [hs, C28_different_types E a b hs]

/-- C28: on comparable slots `==` is reflexive. -/
theorem C28_refl (E : Env) (L : EqLaws E) (a : Callable) (hc : Comparable a) :
    slotEq E (some a) (some a) = some true := by
  refine (C28_same_type E a a ⟨rfl, rfl⟩ hc).1.2 ?_
  intro i p q hp hq; rw [hp] at hq; injection hq with hq; subst hq; exact L.refl _ _

/-- C28: `==` is symmetric, exceptions included (for all slots, comparable or not). -/
theorem C28_symm (E : Env) (L : EqLaws E) (a b : Option Callable) :
    slotEq E a b = slotEq E b a := by
  have te : ∀ ty x y, tryEquals E ty x y = tryEquals E ty y x := by
    intro ty x y; simp [tryEquals, L.symm ty.base x y]
  cases a <;> cases b <;> try rfl
  rename_i a b
  cases a <;> cases b <;> simp only [slotEq, Callable.equals]
  · rename_i ty x ty' y
    by_cases h : ty = ty'
    · subst h; simp [te ty x y]
    · have h' : ¬ ty' = ty := fun e => h e.symm
      simp [h, h']
  · rename_i fty pty f p fty' pty' f' p'
    by_cases h : fty = fty' ∧ pty = pty'
    · obtain ⟨rfl, rfl⟩ := h; simp [te pty p p', te fty f f']
    · have h' : ¬ (fty' = fty ∧ pty' = pty) := fun e => h ⟨e.1.symm, e.2.symm⟩
      simp [h, h']
  · rename_i fty pty f p fty' pty' f' p'
    by_cases h : fty = fty' ∧ pty = pty'
    · obtain ⟨rfl, rfl⟩ := h; simp [te pty p p', te fty f f']
    · have h' : ¬ (fty' = fty ∧ pty' = pty) := fun e => h ⟨e.1.symm, e.2.symm⟩
      simp [h, h']

/-- C28: `==` is transitive (whenever both comparisons return true, no comparability assumption needed). -/
theorem C28_trans (E : Env) (L : EqLaws E) (a b c : Option Callable)
    (h1 : slotEq E a b = some true) (h2 : slotEq E b c = some true) :
    slotEq E a c = some true := by
  have tt : ∀ {ty x y z}, tryEquals E ty x y = some true → tryEquals E ty y z = some true →
      tryEquals E ty x z = some true := by
    intro ty x y z h1 h2
    by_cases hc : ty.cmp = true
    · simp [tryEquals, hc] at *; exact L.trans _ _ _ _ h1 h2
    · simp [tryEquals, hc] at h1
  have two : ∀ {fty pty : CTy} {f f' f'' p p' p'' : Nat},
      (andAlso (tryEquals E pty p p') (tryEquals E fty f f')) = some true →
      (andAlso (tryEquals E pty p' p'') (tryEquals E fty f' f'')) = some true →
      (andAlso (tryEquals E pty p p'') (tryEquals E fty f f'')) = some true := by
    intro fty pty f f' f'' p p' p'' h1 h2
    have aa : ∀ {a b : Option Bool}, andAlso a b = some true → a = some true ∧ b = some true := by
      intro a b h
      match a, h with
      | some true, h => exact ⟨rfl, h⟩
    rw [tt (aa h1).1 (aa h2).1]; exact tt (aa h1).2 (aa h2).2
  have ifeq : ∀ {c : Prop} [Decidable c] {x : Option Bool},
      (if c then x else some false) = some true → c ∧ x = some true := by
    intro c _ x h; split at h
    · exact ⟨by assumption, h⟩
    · simp at h
  cases a <;> cases b <;> cases c <;> simp only [slotEq] at h1 h2 ⊢ <;>
    try (simp at h1; done)
  all_goals try (simp at h2; done)
  rename_i a b c
  cases a <;> cases b <;> simp only [Callable.equals] at h1 <;> try (simp at h1; done)
  all_goals cases c <;> simp only [Callable.equals] at h2 ⊢ <;> try (simp at h2; done)
  · obtain ⟨rfl, k1⟩ := ifeq h1; obtain ⟨rfl, k2⟩ := ifeq h2
    rw [if_pos rfl]; exact tt k1 k2
  · obtain ⟨⟨rfl, rfl⟩, k1⟩ := ifeq h1; obtain ⟨⟨rfl, rfl⟩, k2⟩ := ifeq h2
    rw [if_pos ⟨rfl, rfl⟩]; exact two k1 k2
  · obtain ⟨⟨rfl, rfl⟩, k1⟩ := ifeq h1; obtain ⟨⟨rfl, rfl⟩, k2⟩ := ifeq h2
    rw [if_pos ⟨rfl, rfl⟩]; exact two k1 k2

/-- An environment in which `==` is structural equality (used in the examples). -/
def structEnv : Env := ⟨fun _ a b => some (a == b)⟩

theorem structEnv_laws : EqLaws structEnv :=
  ⟨by simp [structEnv], by simp [structEnv, BEq.comm], by simp [structEnv]⟩

/-- Non-vacuity for C28: two different comparable member-function slots of the same type. -/
example : SameType (.pmf ⟨1, true, .rvalue⟩ ⟨2, true, .lref⟩ 7 8) (.pmf ⟨1, true, .rvalue⟩ ⟨2, true, .lref⟩ 9 8) ∧
    Comparable (.pmf ⟨1, true, .rvalue⟩ ⟨2, true, .lref⟩ 7 8) ∧
    slotEq structEnv (some (.pmf ⟨1, true, .rvalue⟩ ⟨2, true, .lref⟩ 7 8))
      (some (.pmf ⟨1, true, .rvalue⟩ ⟨2, true, .lref⟩ 9 8)) = some false := by
  refine ⟨⟨rfl, rfl⟩, by simp [Comparable, Callable.parts], rfl⟩

/-- Non-vacuity for the throwing cases: the type has no `==`, or its `==` throws for different values (the laws allow it). -/
example : EqLaws ⟨fun _ a b => if a = b then some true else none⟩ ∧
    slotEq ⟨fun _ a b => if a = b then some true else none⟩ (some (.func ⟨1, true, .rvalue⟩ 7)) (some (.func ⟨1, true, .rvalue⟩ 8)) = none :=
  ⟨⟨by simp, by intro _ x y; simp [eq_comm], by intro _ x y z; simp; omega⟩, rfl⟩
example : slotEq structEnv (some (.func ⟨1, false, .rvalue⟩ 7)) (some (.func ⟨1, false, .rvalue⟩ 7)) = none := rfl

/-! ### C29 -/

/-- What `connect(f)` stores and what `disconnect(f)` compares with: the value, its decayed type and
the spelling of the argument expression (signals.hpp:1264, 1703, 1764). -/
def funcSlot (base : Nat) (cmp : Bool) (q : Qual) (f : Nat) : Callable := .func ⟨base, cmp, q⟩ f

/-- C29, the part that holds: if both calls spell the callable in the same way, a listener holding an
equal value matches. Missing for the full claim: independence of the spelling, which is false. -/
theorem C29_same_spelling_partial (E : Env) (base : Nat) (q : Qual) (f f' : Nat)
    (h : E.eq base f f' = some true) :
    slotEq E (some (funcSlot base true q f)) (some (funcSlot base true q f')) = some true := by
  simp [slotEq, funcSlot, Callable.equals, tryEquals, h]

/-- C29 is false: with two different spellings (e.g. `connect(f)` for a named object, `disconnect(F(..))`
for a temporary) the two slots are unequal, whatever the values and whatever `==` says. -/
theorem C29_false_different_spelling (E : Env) (base : Nat) (cmp : Bool) (q q' : Qual) (f f' : Nat)
    (h : q ≠ q') :
    slotEq E (some (funcSlot base cmp q f)) (some (funcSlot base cmp q' f')) = some false := by
  simp [slotEq, funcSlot, Callable.equals, h]

/-- Consequence for the list: a `disconnect` spelled differently from the `connect` of every listener of
that type removes nothing and returns 0, for every list of listeners. -/
theorem C29_false_removes_nothing (E : Env) (base : Nat) (cmp : Bool) (q' : Qual) (f' : Nat)
    (l : List Callable) (h : ∀ c ∈ l, ∀ ty f, c = .func ty f → ty.qual ≠ q') :
    Vec.eraseScan (fun c => slotEq E (some c) (some (funcSlot base cmp q' f'))) l 0 0 = (l, some 0) := by
  have key : ∀ c ∈ l, slotEq E (some c) (some (funcSlot base cmp q' f')) = some false := by
    intro c hc
    cases c with
    | func ty f =>
      have := h _ hc ty f rfl
      simp only [slotEq, funcSlot, Callable.equals]
      rw [if_neg]; rintro rfl; exact this rfl
    | _ => rfl
  have gen : ∀ i, Vec.eraseScan (fun c => slotEq E (some c) (some (funcSlot base cmp q' f'))) l i 0 = (l, some 0) := by
    intro i
    induction hn : l.length - i generalizing i with
    | zero => rw [Vec.eraseScan]; simp; omega
    | succ n ih =>
      rw [Vec.eraseScan]
      have hi : i < l.length := by omega
      simp only [hi, dite_true, key _ (List.getElem_mem hi)]
      exact ih (i + 1) (by omega)
  exact gen 0

/-- Non-vacuity: connected as an lvalue, disconnected as a temporary of equal value. -/
example : Vec.eraseScan (fun c => slotEq structEnv (some c) (some (funcSlot 1 true .rvalue 72)))
    [funcSlot 1 true .lref 72] 0 0 = ([funcSlot 1 true .lref 72], some 0) := by
  apply C29_false_removes_nothing
  intro c hc ty f h
  simp at hc; subst hc; simp [funcSlot] at h; simp [← h.1]

/-! ### C30 -/

/-- A slot tracking object `o`, made from a `std::shared_ptr`/`std::weak_ptr` to a class with number `cls`
(signals.hpp:1279). The stored type is `std::weak_ptr<T>`, returned by value from `to_weak` (42-52), which has no
`operator==`. -/
def stdTracked (fty : CTy) (cls f o : Nat) : Callable := .tracked fty ⟨cls, false, .rvalue⟩ f o

open Classical in
/-- C30 is false: `disconnect(pmf, shared_ptr)` never removes anything, and it throws as soon as the
list contains any listener with the same member-function type and class, the exact one included. -/
theorem C30_false (E : Env) (fty : CTy) (cls f o : Nat) (l : List Callable) :
    Vec.eraseScan (fun c => slotEq E (some c) (some (stdTracked fty cls f o))) l 0 0 =
      (l, if ∃ f' o', stdTracked fty cls f' o' ∈ l then none else some 0) := by
  have val : ∀ c, slotEq E (some c) (some (stdTracked fty cls f o)) =
      if ∃ f' o', c = stdTracked fty cls f' o' then none else some false := by
    intro c
    cases c with
    | tracked ft wt f' o' =>
      by_cases h : ft = fty ∧ wt = ⟨cls, false, .rvalue⟩
      · obtain ⟨rfl, rfl⟩ := h
        simp [slotEq, stdTracked, Callable.equals, andAlso, tryEquals]
      · have h' : ¬ ∃ f'' o'', Callable.tracked ft wt f' o' = stdTracked fty cls f'' o'' := by
          rintro ⟨_, _, h2⟩; simp [stdTracked] at h2; exact h ⟨h2.1, h2.2.1⟩
        rw [if_neg h']
        simp only [slotEq, stdTracked, Callable.equals]; rw [if_neg h]
    | func ty f' =>
      rw [if_neg (by rintro ⟨_, _, h⟩; simp [stdTracked] at h)]; rfl
    | pmf ty ty' f' p =>
      rw [if_neg (by rintro ⟨_, _, h⟩; simp [stdTracked] at h)]; rfl
  have gen : ∀ i, (∀ j (hj : j < l.length), j < i → ¬ ∃ f' o', l[j] = stdTracked fty cls f' o') →
      Vec.eraseScan (fun c => slotEq E (some c) (some (stdTracked fty cls f o))) l i 0 =
        (l, if ∃ f' o', stdTracked fty cls f' o' ∈ l then none else some 0) := by
    intro i
    induction hn : l.length - i generalizing i with
    | zero =>
      intro hpre
      rw [Vec.eraseScan]
      have hi : ¬ i < l.length := by omega
      have : ¬ ∃ f' o', stdTracked fty cls f' o' ∈ l := by
        rintro ⟨f', o', hm⟩
        obtain ⟨j, hj, e⟩ := List.getElem_of_mem hm
        exact hpre j hj (by omega) ⟨f', o', e⟩
      simp [hi, this]
    | succ n ih =>
      intro hpre
      have hi : i < l.length := by omega
      rw [Vec.eraseScan]
      simp only [hi, dite_true]
      rw [val]
      by_cases hx : ∃ f' o', l[i] = stdTracked fty cls f' o'
      · obtain ⟨f', o', e⟩ := hx
        have : ∃ f' o', stdTracked fty cls f' o' ∈ l := ⟨f', o', e ▸ List.getElem_mem hi⟩
        rw [if_pos ⟨f', o', e⟩, if_pos this]
      · rw [if_neg hx]
        simp only
        apply ih (i + 1) (by omega)
        intro j hj hji
        by_cases hji' : j < i
        · exact hpre j hj hji'
        · have : j = i := by omega
          subst this; exact hx
  exact gen 0 (by intro j hj h; omega)

/-- C30 holds for tracked pointers of user-defined types whose weak pointer is comparable (`to_weak` is found by
ADL, signals.hpp:37-40). Missing: `std::shared_ptr`/`std::weak_ptr`, for which it is false. -/
theorem C30_comparable_weak_partial (E : Env) (L : EqLaws E) (fty wty : CTy) (f o : Nat)
    (hf : fty.cmp = true) (hw : wty.cmp = true) :
    slotEq E (some (.tracked fty wty f o)) (some (.tracked fty wty f o)) = some true :=
  C28_refl E L _ (by simp [Comparable, Callable.parts, hf, hw])

/-- Non-vacuity: one tracked listener, disconnected by the same function and object: throws, nothing removed. -/
example : Vec.eraseScan (fun c => slotEq structEnv (some c) (some (stdTracked ⟨1, true, .rvalue⟩ 5 2 3)))
    [stdTracked ⟨1, true, .rvalue⟩ 5 2 3] 0 0 = ([stdTracked ⟨1, true, .rvalue⟩ 5 2 3], none) := by
  rw [C30_false, if_pos ⟨2, 3, List.mem_singleton.2 rfl⟩]

end Verif
