import Verif.Data.OptRef

/-!
# `slot_iterator` and property C59

signals.hpp:1084-1212 and the end of `signal::operator()` (1784-1791). A user-written combiner gets two of these iterators and may do
with them what it likes: the programs here make emissions, copy, increment, compare and dereference iterators, and keep copies for as
long as they like.

Simplifications: a dereference is one operation (what a listener does to the argument tuple and to the rest of the program is an
arbitrary function; nested emissions and other threads are the business of `Machine`). The snapshot cannot change while the emission
runs (C19). `slot_iterator` has no assignment operator (`m_Args` is a reference, and the declared move constructor deletes the copy
assignment), so there is no such operation; its move constructor moves a `vector::const_iterator`, which is a copy. The specialization
for `void` (1146-1212) is the same code with a result without information.
-/

namespace Verif.Iter

open Verif.OptRef (join_append join_set)

-- `S`: listeners; `A`: the tuple of arguments; `W`: everything else in the program; `R`: what a dereference gives: an engaged or
-- disengaged `opt::optional<T>`, or an exception
variable {S A W R : Type}

/-- `slot_iterator`: `m_Iter` (1145) points into the vector of emission `iter.1` at index `iter.2`; `m_Args` (1146) refers to the tuple of
emission `args`. -/
structure It where
  iter : Nat × Nat
  args : Nat
deriving DecidableEq, Repr

/-- Per emission its local `slots_copy` (1787) and `t` (1784), `none` once `operator()` has returned; the iterators in the order of
their creation, `none` if destroyed. -/
structure St (S A W : Type) where
  vec : List (Option (List S)) := []
  tup : List (Option A) := []
  var : List (Option It) := []
  user : W

/-- Operations of a program. -/
inductive Op (S A W : Type) where
  /-- `operator()` on a signal with listeners `l` up to the call of the combiner (1784-1791), which makes two iterators -/
  | emit (l : List S) (a : A)
  /-- `operator()` returns -/
  | ret (e : Nat)
  /-- the program does something else -/
  | user (w : W)
  /-- the copy and the move constructor (1103, 1104) -/
  | copy (i : Nat)
  /-- the destructor -/
  | dtor (i : Nat)
  /-- `++i` (1107-1111) -/
  | inc (i : Nat)
  /-- `i++` (1114-1119); the result is a new iterator -/
  | postInc (i : Nat)
  /-- `i == j` (1121-1124) -/
  | eq (i j : Nat)
  /-- `i != j` (1126-1129) -/
  | ne (i j : Nat)
  /-- `*i` (1132-1135, 1138-1143) -/
  | deref (i : Nat)

/-- What an operation gives back. -/
inductive Res (R : Type) where
  | unit | bool (b : Bool) | val (r : R)
  /-- an iterator past the last listener is incremented or dereferenced, iterators into different vectors are compared, or an iterator
  is used after its emission -/
  | ub
deriving DecidableEq, Repr

/-- Variable `i`; `none`: there is no such variable. -/
def St.it (m : St S A W) (i : Nat) : Option It := m.var[i]?.join

/-- What a listener does when it is called with these arguments: its result, what it leaves of the arguments (1142: they are forwarded,
so parameters taken by value or by rvalue reference can be moved from, and references written through), and the rest of the program. -/
abbrev Beh (S A W R : Type) := S → A → W → R × A × W

/-- `vector::const_iterator::operator++`. -/
def advance (m : St S A W) (p : Nat × Nat) : Option (Nat × Nat) :=
  match m.vec[p.1]?.join with
  | some l => if p.2 < l.length then some (p.1, p.2 + 1) else none
  | none => none

/-- `operator==` of `vector::const_iterator`. -/
def same (m : St S A W) (p q : Nat × Nat) : Option Bool :=
  match m.vec[p.1]?.join with
  | some _ => if p.1 = q.1 then some (p.2 == q.2) else none
  | none => none

/-- One operation; `none`: it names a variable or an emission that does not exist, which no program can. -/
def next (beh : Beh S A W R) (m : St S A W) : Op S A W → Option (Res R × St S A W)
  | .emit l a =>
      let e := m.vec.length
      some (.unit, { m with vec := m.vec ++ [some l], tup := m.tup ++ [some a]
                            var := m.var ++ [some ⟨(e, 0), m.tup.length⟩] ++ [some ⟨(e, l.length), m.tup.length⟩] })
  | .ret e => m.vec[e]?.join.map fun _ => (.unit, { m with vec := m.vec.set e none, tup := m.tup.set e none })
  | .user w => some (.unit, { m with user := w })
  | .copy i => (m.it i).map fun x => (.unit, { m with var := m.var ++ [some x] })
  | .dtor i => (m.it i).map fun _ => (.unit, { m with var := m.var.set i none })
  | .inc i => (m.it i).map fun x =>
      match advance m x.iter with                                                          -- ++m_Iter;
      | some p => (.unit, { m with var := m.var.set i (some { x with iter := p }) })
      | none => (.ub, m)
  | .postInc i => (m.it i).map fun x =>
      match advance m x.iter with                                                          -- slot_iterator tmp(*this); ++m_Iter; return tmp;
      | some p => (.unit, { m with var := (m.var ++ [some x]).set i (some { x with iter := p }) })
      | none => (.ub, m)
  | .eq i j => (m.it i).bind fun x => (m.it j).map fun y =>
      match same m x.iter y.iter with                                                      -- m_Iter == other.m_Iter
      | some b => (.bool b, m)
      | none => (.ub, m)
  | .ne i j => (m.it i).bind fun x => (m.it j).map fun y =>
      match same m x.iter y.iter with                                                      -- m_Iter != other.m_Iter
      | some b => (.bool !b, m)
      | none => (.ub, m)
  | .deref i => (m.it i).map fun x =>
      match m.vec[x.iter.1]?.join.bind (·[x.iter.2]?), m.tup[x.args]?.join with            -- (**m_Iter)(std::forward<Args>(std::get<Is>(m_Args))...)
      | some s, some a =>
          match beh s a m.user with
          | (r, a', w') => (.val r, { m with tup := m.tup.set x.args (some a'), user := w' })
      | _, _ => (.ub, m)

/-- The state after the operations `h` (the last one first), from a program in state `w`. Undefined behaviour ends a program. -/
def after (beh : Beh S A W R) (w : W) : List (Op S A W) → Option (St S A W)
  | [] => some { user := w }
  | op :: h =>
      match after beh w h with
      | none => none
      | some m =>
          match next beh m op with
          | none | some (.ub, _) => none
          | some (_, m') => some m'

/-! ### Specification

An iterator is a place in an emission: which emission, and how many listeners are behind it. Dereferencing calls the listener at that
place. There is one set of arguments per emission. All this is written over the history of the program. -/

/-- The lists of the emissions so far, the first emission first. -/
def lists : List (Op S A W) → List (List S)
  | [] => []
  | .emit l _ :: h => lists h ++ [l]
  | _ :: h => lists h

/-- Emission `e` has returned. -/
def over (h : List (Op S A W)) (e : Nat) : Bool := h.any fun | .ret e' => e' == e | _ => false

/-- The number of iterators made. -/
def made : List (Op S A W) → Nat
  | [] => 0
  | .emit _ _ :: h => made h + 2
  | .copy _ :: h | .postInc _ :: h => made h + 1
  | _ :: h => made h

/-- The place of iterator `i`: its emission and the number of listeners behind it. -/
def place : List (Op S A W) → Nat → Nat × Nat
  | [], _ => (0, 0)
  | .emit l _ :: h, i =>
      if i = made h then ((lists h).length, 0) else if i = made h + 1 then ((lists h).length, l.length) else place h i
  | .copy j :: h, i => if i = made h then place h j else place h i
  | .inc j :: h, i => if i = j then ((place h j).1, (place h j).2 + 1) else place h i
  | .postInc j :: h, i =>
      if i = j then ((place h j).1, (place h j).2 + 1) else if i = made h then place h j else place h i
  | _ :: h, i => place h i

/-- The listener at a place, if the emission is running and this is not the end. -/
def here (h : List (Op S A W)) (p : Nat × Nat) : Option S :=
  if over h p.1 then none else (lists h)[p.1]?.bind (·[p.2]?)

/-- The arguments of every emission, and the rest of the program. -/
def now (beh : Beh S A W R) (w : W) : List (Op S A W) → List A × W
  | [] => ([], w)
  | .emit _ a :: h => ((now beh w h).1 ++ [a], (now beh w h).2)
  | .user w' :: h => ((now beh w h).1, w')
  | .deref i :: h =>
      match here h (place h i), (now beh w h).1[(place h i).1]? with
      | some s, some a =>
          ((now beh w h).1.set (place h i).1 (beh s a (now beh w h).2).2.1, (beh s a (now beh w h).2).2.2)
      | _, _ => now beh w h
  | _ :: h => now beh w h

/-- The result of an operation after the operations `h`. -/
def result (beh : Beh S A W R) (w : W) (h : List (Op S A W)) : Op S A W → Res R
  | .inc i | .postInc i => if (here h (place h i)).isSome then .unit else .ub
  | .eq i j => if (place h i).1 = (place h j).1 ∧ over h (place h i).1 = false then .bool (place h i == place h j) else .ub
  | .ne i j => if (place h i).1 = (place h j).1 ∧ over h (place h i).1 = false then .bool (place h i != place h j) else .ub
  | .deref i =>
      match here h (place h i), (now beh w h).1[(place h i).1]? with
      | some s, some a => .val (beh s a (now beh w h).2).1
      | _, _ => .ub
  | _ => .unit

/-! ### C59 -/

variable {beh : Beh S A W R} {w0 : W}

/-- The state is what the specification says. -/
structure Ok (beh : Beh S A W R) (w0 : W) (h : List (Op S A W)) (m : St S A W) : Prop where
  nv : m.var.length = made h
  ne : m.vec.length = (lists h).length
  nt : m.tup.length = (lists h).length
  na : (now beh w0 h).1.length = (lists h).length
  ov : ∀ e, over h e = true → e < (lists h).length
  it : ∀ i x, m.it i = some x → x.iter = place h i ∧ x.args = (place h i).1 ∧ (place h i).1 < (lists h).length
  vec : ∀ e, m.vec[e]?.join = if over h e then none else (lists h)[e]?
  tup : ∀ e, m.tup[e]?.join = if over h e then none else (now beh w0 h).1[e]?
  user : m.user = (now beh w0 h).2

theorem Ok.here {h : List (Op S A W)} {m : St S A W} (k : Ok beh w0 h m) (p : Nat × Nat) :
    m.vec[p.1]?.join.bind (·[p.2]?) = here h p := by
  rw [k.vec, Iter.here]; split <;> rfl

theorem Ok.advance {h : List (Op S A W)} {m : St S A W} (k : Ok beh w0 h m) (p : Nat × Nat) :
    advance m p = if (Iter.here h p).isSome then some (p.1, p.2 + 1) else none := by
  rw [← k.here, Iter.advance]
  cases m.vec[p.1]?.join with
  | none => rfl
  | some l =>
    simp only [Option.bind_some]
    by_cases hp : p.2 < l.length
    · rw [if_pos hp, if_pos (by rw [List.getElem?_eq_getElem hp]; rfl)]
    · rw [if_neg hp, if_neg (by rw [List.getElem?_eq_none (by omega)]; simp)]

theorem Ok.same {h : List (Op S A W)} {m : St S A W} (k : Ok beh w0 h m) {p q : Nat × Nat} (hp : p.1 < (lists h).length) :
    same m p q = if p.1 = q.1 ∧ over h p.1 = false then some (p == q) else none := by
  rw [Iter.same, k.vec]
  cases ho : over h p.1 with
  | true => simp
  | false =>
    simp only [Bool.false_eq_true, if_false, List.getElem?_eq_getElem hp]
    obtain ⟨a, b⟩ := p
    obtain ⟨c, d⟩ := q
    by_cases e : a = c
    · subst e
      have : (b == d) = ((a, b) == (a, d)) := by rw [Bool.eq_iff_iff]; simp
      simpa using this
    · simp [e]

theorem it_append (m : St S A W) (x : Option It) (i : Nat) :
    (m.var ++ [x])[i]?.join = if i = m.var.length then x else m.it i := join_append ..

theorem it_set {m : St S A W} {j : Nat} {y : It} (h : m.it j = some y) (x : Option It) (i : Nat) :
    (m.var.set j x)[i]?.join = if i = j then x else m.it i :=
  join_set _ _ _ _ (by rw [show m.var[j]?.join = some y from h]; rfl)

theorem it_lt {m : St S A W} {j : Nat} {y : It} (h : m.it j = some y) : j < m.var.length := by
  apply Nat.lt_of_not_le; intro hle
  rw [St.it, List.getElem?_eq_none hle] at h; cases h

theorem over_cons {op : Op S A W} {h : List (Op S A W)} (ho : ∀ e, op ≠ .ret e) (e : Nat) : over (op :: h) e = over h e := by
  cases op <;> first | rfl | exact absurd rfl (ho _)

theorem ok_step {h : List (Op S A W)} {m m' : St S A W} {op : Op S A W} {r : Res R} (k : Ok beh w0 h m)
    (hn : next beh m op = some (r, m')) : r = result beh w0 h op ∧ (r ≠ .ub → Ok beh w0 (op :: h) m') := by
  cases op with
  | emit l a =>
    cases hn
    refine ⟨rfl, fun _ => ⟨?_, ?_, ?_, ?_, ?_, ?_, ?_, ?_, k.user⟩⟩
    · simp [made, k.nv]
    · simp [lists, k.ne]
    · simp [lists, k.nt]
    · simp [lists, now, k.na]
    · intro e he; rw [over_cons (by simp)] at he; have := k.ov e he; simp [lists]; omega
    · intro i x hx
      simp only [St.it] at hx
      rw [join_append, join_append, k.ne, k.nt, List.length_append, k.nv] at hx
      simp only [place, lists, List.length_append, List.length_cons, List.length_nil] at hx ⊢
      by_cases h1 : i = made h
      · rw [if_neg (by omega), if_pos h1] at hx
        rw [if_pos h1]; cases hx; exact ⟨rfl, rfl, by simp⟩
      · by_cases h2 : i = made h + 1
        · rw [if_pos (by omega)] at hx
          rw [if_neg h1, if_pos h2]; cases hx; exact ⟨rfl, rfl, by simp⟩
        · rw [if_neg (by omega), if_neg h1] at hx
          rw [if_neg h1, if_neg h2]
          have := k.it i x hx
          exact ⟨this.1, this.2.1, by omega⟩
    · intro e
      rw [join_append, over_cons (by simp), k.vec, k.ne, lists]
      by_cases he : e = (lists h).length
      · subst he
        have : over h (lists h).length = false := by
          cases ho : over h (lists h).length with
          | false => rfl
          | true => have := k.ov _ ho; omega
        simp [this]
      · rw [if_neg he]
        rcases Nat.lt_or_ge e (lists h).length with hl | hl
        · rw [List.getElem?_append_left hl]
        · rw [List.getElem?_eq_none hl, List.getElem?_eq_none (by simp; omega)]
    · intro e
      rw [join_append, over_cons (by simp), k.tup, k.nt]
      simp only [now]
      by_cases he : e = (lists h).length
      · subst he
        have : over h (lists h).length = false := by
          cases ho : over h (lists h).length with
          | false => rfl
          | true => have := k.ov _ ho; omega
        rw [if_pos rfl, this, ← k.na]; simp
      · rw [if_neg he]
        rcases Nat.lt_or_ge e (lists h).length with hl | hl
        · rw [List.getElem?_append_left (by rw [k.na]; exact hl)]
        · rw [List.getElem?_eq_none (by rw [k.na]; exact hl), List.getElem?_eq_none (by simp [k.na]; omega)]
  | ret e =>
    simp only [next, Option.map_eq_some_iff, Prod.mk.injEq] at hn
    obtain ⟨l, hl, rfl, rfl⟩ := hn
    have hlt : e < (lists h).length := by
      rw [← k.ne]; apply Nat.lt_of_not_le; intro hle
      rw [List.getElem?_eq_none hle] at hl; cases hl
    have hc : ∀ e', over (.ret e :: h) e' = (e == e' || over h e') := fun _ => rfl
    have hov : over h e = false := by
      rw [k.vec] at hl
      cases ho : over h e with
      | false => rfl
      | true => rw [ho] at hl; cases hl
    refine ⟨rfl, fun _ => ⟨k.nv, by rw [List.length_set]; exact k.ne, by rw [List.length_set]; exact k.nt, k.na, ?_, k.it, ?_, ?_, k.user⟩⟩
    · intro e' he'
      rw [hc] at he'
      by_cases h1 : e = e'
      · subst h1; exact hlt
      · have : (e == e') = false := by simpa using h1
        rw [this] at he'; exact k.ov e' he'
    · intro e'
      rw [join_set _ _ _ _ (by rw [hl]; rfl), k.vec, hc]
      by_cases h1 : e' = e
      · subst h1; simp
      · have : (e == e') = false := by simpa using Ne.symm h1
        rw [if_neg h1, this]; rfl
    · intro e'
      rw [join_set _ _ _ _ (by
        rw [k.tup, hov]; simp only [Bool.false_eq_true, if_false]
        rw [List.getElem?_eq_getElem (by rw [k.na]; exact hlt)]; rfl), k.tup, hc]
      by_cases h1 : e' = e
      · subst h1; simp
      · have : (e == e') = false := by simpa using Ne.symm h1
        rw [if_neg h1, this]; rfl
  | user w => cases hn; exact ⟨rfl, fun _ => ⟨k.nv, k.ne, k.nt, k.na, k.ov, k.it, k.vec, k.tup, rfl⟩⟩
  | copy j =>
    simp only [next, Option.map_eq_some_iff, Prod.mk.injEq] at hn
    obtain ⟨y, hy, rfl, rfl⟩ := hn
    refine ⟨rfl, fun _ => ⟨by simp [made, k.nv], k.ne, k.nt, k.na, k.ov, fun i x hx => ?_, k.vec, k.tup, k.user⟩⟩
    simp only [St.it] at hx
    rw [it_append, k.nv] at hx
    simp only [place, lists]
    split at hx
    · cases hx; rename_i e; rw [if_pos e]; exact k.it j _ hy
    · rename_i e; rw [if_neg e]; exact k.it i x hx
  | dtor j =>
    simp only [next, Option.map_eq_some_iff, Prod.mk.injEq] at hn
    obtain ⟨y, hy, rfl, rfl⟩ := hn
    refine ⟨rfl, fun _ => ⟨by rw [List.length_set]; exact k.nv, k.ne, k.nt, k.na, k.ov, fun i x hx => ?_, k.vec, k.tup, k.user⟩⟩
    simp only [St.it] at hx
    rw [it_set hy] at hx
    split at hx
    · cases hx
    · exact k.it i x hx
  | inc j =>
    simp only [next, Option.map_eq_some_iff] at hn
    obtain ⟨y, hy, hn⟩ := hn
    obtain ⟨h1, h2, h3⟩ := k.it j y hy
    rw [h1, k.advance] at hn
    simp only [result]
    by_cases hh : (here h (place h j)).isSome = true
    · rw [if_pos hh] at hn ⊢
      cases hn
      refine ⟨rfl, fun _ => ⟨by rw [List.length_set]; exact k.nv, k.ne, k.nt, k.na, k.ov, fun i x hx => ?_, k.vec, k.tup, k.user⟩⟩
      simp only [St.it] at hx
      rw [it_set hy] at hx
      simp only [place, lists]
      split at hx
      · cases hx; rename_i e; rw [if_pos e]; exact ⟨rfl, h2, h3⟩
      · rename_i e; rw [if_neg e]; exact k.it i x hx
    · rw [if_neg hh] at hn ⊢
      cases hn; exact ⟨rfl, fun h => (h rfl).elim⟩
  | postInc j =>
    simp only [next, Option.map_eq_some_iff] at hn
    obtain ⟨y, hy, hn⟩ := hn
    obtain ⟨h1, h2, h3⟩ := k.it j y hy
    have hjl := it_lt hy
    rw [h1, k.advance] at hn
    simp only [result]
    by_cases hh : (here h (place h j)).isSome = true
    · rw [if_pos hh] at hn ⊢
      cases hn
      refine ⟨rfl, fun _ => ⟨by simp [made, k.nv], k.ne, k.nt, k.na, k.ov, fun i x hx => ?_, k.vec, k.tup, k.user⟩⟩
      simp only [St.it] at hx
      rw [join_set _ _ _ _ (by rw [it_append, if_neg (by omega), hy]; rfl), it_append, k.nv] at hx
      simp only [place, lists]
      split at hx
      · cases hx; rename_i e; rw [if_pos e]; exact ⟨rfl, h2, h3⟩
      · rename_i e; rw [if_neg e]
        split at hx
        · cases hx; rename_i e; rw [if_pos e]; exact ⟨h1, h2, h3⟩
        · rename_i e; rw [if_neg e]; exact k.it i x hx
    · rw [if_neg hh] at hn ⊢
      cases hn; exact ⟨rfl, fun h => (h rfl).elim⟩
  | eq i j =>
    simp only [next, Option.bind_eq_some_iff, Option.map_eq_some_iff] at hn
    obtain ⟨x, hx, y, hy, hn⟩ := hn
    obtain ⟨h1, h2, h3⟩ := k.it i x hx
    rw [h1, (k.it j y hy).1, k.same h3] at hn
    simp only [result]
    by_cases hc : (place h i).1 = (place h j).1 ∧ over h (place h i).1 = false
    · rw [if_pos hc] at hn ⊢; cases hn
      exact ⟨rfl, fun _ => ⟨k.nv, k.ne, k.nt, k.na, k.ov, k.it, k.vec, k.tup, k.user⟩⟩
    · rw [if_neg hc] at hn ⊢; cases hn; exact ⟨rfl, fun h => (h rfl).elim⟩
  | ne i j =>
    simp only [next, Option.bind_eq_some_iff, Option.map_eq_some_iff] at hn
    obtain ⟨x, hx, y, hy, hn⟩ := hn
    obtain ⟨h1, h2, h3⟩ := k.it i x hx
    rw [h1, (k.it j y hy).1, k.same h3] at hn
    simp only [result]
    by_cases hc : (place h i).1 = (place h j).1 ∧ over h (place h i).1 = false
    · rw [if_pos hc] at hn ⊢; cases hn
      exact ⟨rfl, fun _ => ⟨k.nv, k.ne, k.nt, k.na, k.ov, k.it, k.vec, k.tup, k.user⟩⟩
    · rw [if_neg hc] at hn ⊢; cases hn; exact ⟨rfl, fun h => (h rfl).elim⟩
  | deref i =>
    simp only [next, Option.map_eq_some_iff] at hn
    obtain ⟨x, hx, hn⟩ := hn
    obtain ⟨h1, h2, h3⟩ := k.it i x hx
    rw [h1, h2, k.here, k.user] at hn
    simp only [result]
    cases hh : here h (place h i) with
    | none => rw [hh] at hn; cases hn; exact ⟨rfl, fun h => (h rfl).elim⟩
    | some s =>
      have hov : over h (place h i).1 = false := by
        unfold here at hh; split at hh
        · cases hh
        · rename_i ho; simpa using ho
      have ht := k.tup (place h i).1
      rw [hov] at ht
      simp only [Bool.false_eq_true, if_false] at ht
      rw [hh, ht] at hn
      cases ha : (now beh w0 h).1[(place h i).1]? with
      | none => rw [ha] at hn; cases hn; exact ⟨rfl, fun h => (h rfl).elim⟩
      | some a =>
        rw [ha] at hn ht
        simp only [Prod.mk.injEq] at hn
        obtain ⟨rfl, rfl⟩ := hn
        have hnow : now beh w0 (.deref i :: h) = ((now beh w0 h).1.set (place h i).1 (beh s a (now beh w0 h).2).2.1,
            (beh s a (now beh w0 h).2).2.2) := by
          simp only [now, hh, ha]
        refine ⟨rfl, fun _ => ⟨k.nv, k.ne, by rw [List.length_set]; exact k.nt, ?_, k.ov, k.it, k.vec, fun e => ?_, ?_⟩⟩
        · rw [hnow, List.length_set]; exact k.na
        · rw [hnow, join_set _ _ _ _ (by rw [ht]; rfl), k.tup, over_cons (by simp)]
          by_cases he : e = (place h i).1
          · subst he
            rw [if_pos rfl, hov]
            simp only [Bool.false_eq_true, if_false]
            rw [List.getElem?_set_self (by rw [k.na]; exact h3)]
          · rw [if_neg he, List.getElem?_set_ne (Ne.symm he)]
        · rw [hnow]

theorem ok_after {h : List (Op S A W)} {m : St S A W} (ha : after beh w0 h = some m) : Ok beh w0 h m := by
  induction h generalizing m with
  | nil => cases ha; exact ⟨rfl, rfl, rfl, rfl, by simp [over], by simp [St.it], by simp [over, lists], by simp [over, now], rfl⟩
  | cons op h ih =>
    unfold after at ha
    split at ha
    · cases ha
    · rename_i m0 h0
      split at ha
      · cases ha
      · cases ha
      · rename_i r m1 hnu hn
        cases ha
        exact (ok_step (ih h0) hn).2 fun hr => (hnu hr).elim

/-- C59: every operation of every program on iterators does what the specification says: comparison compares places, dereferencing calls
the listener at the iterator's place with the arguments as the calls before left them, and undefined behaviour is exactly use after the
emission, incrementing or dereferencing at the end, and comparing across emissions. -/
theorem C59 {h : List (Op S A W)} {m m' : St S A W} {op : Op S A W} {r : Res R} (ha : after beh w0 h = some m)
    (hn : next beh m op = some (r, m')) : r = result beh w0 h op := (ok_step (ok_after ha) hn).1

/-- C59: the arguments and the program's own state change by the calls of listeners that were asked for, and by nothing else. -/
theorem C59_state {h : List (Op S A W)} {m : St S A W} (ha : after beh w0 h = some m) :
    m.user = (now beh w0 h).2 ∧ ∀ e, over h e = false → m.tup[e]?.join = (now beh w0 h).1[e]? := by
  have k := ok_after ha
  exact ⟨k.user, fun e he => by rw [k.tup, he]; rfl⟩

/-- The variables and emissions an operation names exist (what the language guarantees). -/
def Op.ok (m : St S A W) : Op S A W → Prop
  | .copy i | .dtor i | .inc i | .postInc i | .deref i => (m.it i).isSome = true
  | .eq i j | .ne i j => (m.it i).isSome = true ∧ (m.it j).isSome = true
  | .ret e => (m.vec[e]?.join).isSome = true
  | _ => True

/-- The model gives every operation a result. -/
theorem C59_total {m : St S A W} {op : Op S A W} (h : op.ok m) : (next beh m op).isSome = true := by
  cases op <;> simp_all [Op.ok, next, Option.isSome_iff_exists, Option.bind_eq_some_iff] <;>
    (try obtain ⟨⟨p, hp⟩, q, hq⟩ := h) <;> simp_all <;> exact ⟨_, _, rfl⟩

/-- The operation increments iterator `i`. -/
def Op.incs (i : Nat) : Op S A W → Bool
  | .inc j | .postInc j => i == j
  | _ => false

theorem place_append (h h' : List (Op S A W)) {i : Nat} (hi : i < made h) :
    place (h' ++ h) i = ((place h i).1, (place h i).2 + h'.countP (Op.incs i)) := by
  have mono : ∀ h' : List (Op S A W), made h ≤ made (h' ++ h) := by
    intro h'
    induction h' with
    | nil => exact Nat.le_refl _
    | cons op h' ih => rw [List.cons_append]; cases op <;> simp only [made] <;> omega
  induction h' with
  | nil => rfl
  | cons op h' ih =>
    have hm := mono h'
    rw [List.cons_append, List.countP_cons]
    cases op with
    | emit l a => simp only [place]; rw [if_neg (by omega), if_neg (by omega), ih]; rfl
    | copy j => simp only [place]; rw [if_neg (by omega), ih]; rfl
    | inc j =>
      simp only [place, Op.incs, beq_iff_eq]
      by_cases e : i = j
      · subst e; rw [if_pos rfl, if_pos rfl, ih]; rfl
      · rw [if_neg e, if_neg e, ih]; rfl
    | postInc j =>
      simp only [place, Op.incs, beq_iff_eq]
      by_cases e : i = j
      · subst e; rw [if_pos rfl, if_pos rfl, ih]; rfl
      · rw [if_neg e, if_neg e, if_neg (by omega), ih]; rfl
    | _ => simp only [place]; rw [ih]; rfl

/-- C59: an iterator is moved by its own increments only, by one each, not by what is done to its copies; and it keeps referring to the
arguments of its emission. -/
theorem C59_count {h h' : List (Op S A W)} {m m' : St S A W} {i : Nat} {x x' : It} (ha : after beh w0 h = some m)
    (hx : m.it i = some x) (ha' : after beh w0 (h' ++ h) = some m') (hx' : m'.it i = some x') :
    x' = ⟨(x.iter.1, x.iter.2 + h'.countP (Op.incs i)), x.args⟩ := by
  have k := ok_after ha
  have k' := ok_after ha'
  obtain ⟨a1, a2, -⟩ := k.it i x hx
  obtain ⟨b1, b2, -⟩ := k'.it i x' hx'
  rw [place_append h h' (k.nv ▸ it_lt hx)] at b1 b2
  rw [← a1] at b1 b2
  rw [← a1] at a2
  cases x'; simp_all

/-- The listeners that the program has called, the last one first: those at the places it dereferenced. -/
def called : List (Op S A W) → List S
  | [] => []
  | .deref i :: h => (here h (place h i)).toList ++ called h
  | _ :: h => called h

/-- C59: a listener runs once per dereference at its place and at no other time, whatever else is done with iterators. (The state of the
program is a record that listeners write.) -/
theorem C59_called {beh : Beh S A (List S) R} {h : List (Op S A (List S))} {m : St S A (List S)}
    (hb : ∀ s a w, (beh s a w).2.2 = s :: w) (hu : ∀ w, .user w ∉ h) (ha : after beh [] h = some m) : m.user = called h := by
  induction h generalizing m with
  | nil => cases ha; rfl
  | cons op h ih =>
    have k := ok_after ha
    unfold after at ha
    split at ha
    · cases ha
    · rename_i m0 h0
      have e0 := ih (fun w hw => hu w (List.mem_cons_of_mem _ hw)) h0
      have k0 := ok_after h0
      rw [k.user]
      cases op with
      | user w => exact absurd List.mem_cons_self (hu w)
      | deref i =>
        simp only [now, called]
        split
        · rename_i s a hs hA
          rw [hs, hb, ← k0.user, e0]; rfl
        · rename_i hno
          exfalso
          split at ha
          · cases ha
          · cases ha
          · rename_i r m1 hnu hn
            have hr := (ok_step k0 hn).1
            simp only [result] at hr
            exact hnu hr
      | _ => simp only [now, called]; rw [← k0.user, e0]

/-! ### Loops over iterators -/

/-- `for (; i != j; ++i) out.push_back(*i);` with at most `f - 1` rounds; `none`: undefined behaviour, or not finished. -/
def loop (beh : Beh S A W R) (i j : Nat) : Nat → St S A W → Option (List R × St S A W)
  | 0, _ => none
  | f + 1, m =>
      match next beh m (.ne i j) with
      | some (.bool false, m1) => some ([], m1)
      | some (.bool true, m1) =>
          match next beh m1 (.deref i) with
          | some (.val r, m2) =>
              match next beh m2 (.inc i) with
              | some (.unit, m3) => (loop beh i j f m3).map fun x => (r :: x.1, x.2)
              | _ => none
          | _ => none
      | _ => none

/-- Every listener of the list is called once, in order, each with the arguments that the one before left: the results, the arguments and
the state of the program after that. -/
def pass (beh : Beh S A W R) : List S → A → W → List R × A × W
  | [], a, w => ([], a, w)
  | s :: l, a, w =>
      let (r, a', w') := beh s a w
      let (rs, a'', w'') := pass beh l a' w'
      (r :: rs, a'', w'')

/-- C59: a loop from an iterator to the end of its emission calls every listener from there on once and in order, without undefined
behaviour, in as many rounds as there are listeners left; no other iterator moves. -/
theorem C59_loop {m : St S A W} {i j e p t f : Nat} {l : List S} {a : A} (hi : m.it i = some ⟨(e, p), t⟩)
    (hj : (m.it j).map (·.iter) = some (e, l.length)) (hij : i ≠ j) (hv : m.vec[e]?.join = some l) (ht : m.tup[t]?.join = some a)
    (hp : p ≤ l.length) (hf : l.length - p < f) :
    ∃ m', loop beh i j f m = some ((pass beh (l.drop p) a m.user).1, m') ∧
      m'.tup[t]?.join = some (pass beh (l.drop p) a m.user).2.1 ∧ m'.user = (pass beh (l.drop p) a m.user).2.2 ∧
      m'.vec = m.vec ∧ m'.it i = some ⟨(e, l.length), t⟩ ∧ (∀ k, k ≠ i → m'.it k = m.it k) ∧
      ∀ t', t' ≠ t → m'.tup[t']?.join = m.tup[t']?.join := by
  induction f generalizing m p a with
  | zero => omega
  | succ f ih =>
    obtain ⟨y, hy, hye⟩ := Option.map_eq_some_iff.1 hj
    by_cases hpl : p = l.length
    · subst hpl
      refine ⟨m, ?_, ?_, ?_, rfl, hi, fun _ _ => rfl, fun _ _ => rfl⟩
      · simp [loop, next, hi, hy, hye, same, hv, pass]
      · simpa [pass] using ht
      · simp [pass]
    · have hlt : p < l.length := by omega
      have hd : l.drop p = l[p] :: l.drop (p + 1) := List.drop_eq_getElem_cons hlt
      have hq : l[p]? = some l[p] := List.getElem?_eq_getElem hlt
      rcases hb : beh l[p] a m.user with ⟨r, a', w'⟩
      have hi3 := fun k => it_set (m := { m with tup := m.tup.set t (some a'), user := w' }) (j := i) hi (some ⟨(e, p + 1), t⟩) k
      have ht3 := fun k => join_set m.tup (some a') k t (by rw [ht]; rfl)
      obtain ⟨m', h1, h2, h3, h4, h5, h6, h7⟩ := ih
        (m := { m with tup := m.tup.set t (some a'), user := w', var := m.var.set i (some ⟨(e, p + 1), t⟩) }) (p := p + 1) (a := a')
        (by refine (hi3 i).trans ?_; rw [if_pos rfl])
        (by refine (congrArg (Option.map _) ((hi3 j).trans (if_neg (Ne.symm hij)))).trans ?_; exact hj)
        hv (by refine (ht3 t).trans ?_; rw [if_pos rfl]) (by omega) (by omega)
      have hP : pass beh (l.drop p) a m.user = (r :: (pass beh (l.drop (p + 1)) a' w').1, (pass beh (l.drop (p + 1)) a' w').2.1,
          (pass beh (l.drop (p + 1)) a' w').2.2) := by
        rw [hd]; simp only [pass, hb]
      rw [hP]
      refine ⟨m', ?_, h2, h3, h4, h5, fun k hk => ?_, fun t' ht' => ?_⟩
      · have e1 : next beh m (.ne i j) = some (.bool true, m) := by
          simp [next, hi, hy, hye, same, hv, hpl]
        have e2 : next beh m (.deref i) = some (.val r, { m with tup := m.tup.set t (some a'), user := w' }) := by
          simp [next, hi, hv, ht, hq, hb]
        have e3 : next beh { m with tup := m.tup.set t (some a'), user := w' } (.inc i) = some (.unit,
            { m with tup := m.tup.set t (some a'), user := w', var := m.var.set i (some ⟨(e, p + 1), t⟩) }) := by
          have : St.it { m with tup := m.tup.set t (some a'), user := w' } i = some ⟨(e, p), t⟩ := hi
          simp [next, this, advance, hv, hlt]
        simp only [loop, e1, e2, e3, h1, Option.map_some]
      · rw [h6 k hk]; refine (hi3 k).trans ?_; rw [if_neg hk]; rfl
      · rw [h7 t' ht']; refine (ht3 t').trans ?_; rw [if_neg ht']

/-- C59: the combiner of an emission can go through the listeners twice, with a copy of the first iterator: the second time every
listener is called again, with the arguments that the first pass left. -/
theorem C59_twice {h : List (Op S A W)} {m : St S A W} (ha : after beh w0 h = some m) (l : List S) (a : A) :
    ∃ m1 m2 m3, after beh w0 (.copy (made h) :: .emit l a :: h) = some m1 ∧
      loop beh (made h) (made h + 1) (l.length + 1) m1 = some ((pass beh l a m.user).1, m2) ∧
      loop beh (made h + 2) (made h + 1) (l.length + 1) m2 =
        some ((pass beh l (pass beh l a m.user).2.1 (pass beh l a m.user).2.2).1, m3) := by
  have k := ok_after ha
  have hv1 := k.nv
  have hl := k.nt.trans k.ne.symm
  have e1 : after beh w0 (.emit l a :: h) = some { m with
      vec := m.vec ++ [some l], tup := m.tup ++ [some a]
      var := m.var ++ [some ⟨(m.vec.length, 0), m.tup.length⟩] ++ [some ⟨(m.vec.length, l.length), m.tup.length⟩] } := by
    simp only [after, ha, next]
  have g0 : (m.var ++ [some ⟨(m.vec.length, 0), m.tup.length⟩] ++ [some ⟨(m.vec.length, l.length), m.tup.length⟩])[made h]?.join =
      some ⟨(m.vec.length, 0), m.tup.length⟩ := by
    rw [join_append, if_neg (by simp; omega), join_append, if_pos hv1.symm]
  have e2 : after beh w0 (.copy (made h) :: .emit l a :: h) = some { m with
      vec := m.vec ++ [some l], tup := m.tup ++ [some a]
      var := m.var ++ [some ⟨(m.vec.length, 0), m.tup.length⟩] ++ [some ⟨(m.vec.length, l.length), m.tup.length⟩] ++
        [some ⟨(m.vec.length, 0), m.tup.length⟩] } := by
    rw [after, e1]
    simp only [next, St.it, g0, Option.map_some]
  obtain ⟨m2, h1, h2, h3, h4, h5, h6, -⟩ := C59_loop (beh := beh) (m := { m with
      vec := m.vec ++ [some l], tup := m.tup ++ [some a]
      var := m.var ++ [some ⟨(m.vec.length, 0), m.tup.length⟩] ++ [some ⟨(m.vec.length, l.length), m.tup.length⟩] ++
        [some ⟨(m.vec.length, 0), m.tup.length⟩] })
    (i := made h) (j := made h + 1) (e := m.vec.length) (p := 0) (t := m.tup.length) (f := l.length + 1) (l := l) (a := a)
    (by simp only [St.it]; rw [join_append, if_neg (by simp; omega), g0])
    (by simp only [St.it]; rw [join_append, if_neg (by simp; omega), join_append, if_pos (by simp; omega)]; rfl)
    (by omega) (by simp) (by simp) (by omega) (by omega)
  rw [List.drop_zero] at h1 h2 h3
  obtain ⟨m3, g1, -⟩ := C59_loop (beh := beh) (m := m2) (i := made h + 2) (j := made h + 1) (e := m.vec.length) (p := 0)
    (t := m.tup.length) (f := l.length + 1) (l := l) (a := (pass beh l a m.user).2.1)
    (by rw [h6 _ (by omega)]; simp only [St.it]; rw [join_append, if_pos (by simp; omega)])
    (by rw [h6 _ (by omega)]; simp only [St.it]; rw [join_append, if_neg (by simp; omega), join_append, if_pos (by simp; omega)]; rfl)
    (by omega) (by rw [h4]; simp) h2 (by omega) (by omega)
  rw [List.drop_zero, h3] at g1
  exact ⟨_, m2, m3, e2, h1, g1⟩

/-- C59: `*i++` calls the listener that `*i` would have called, with the same arguments, and leaves `i` at the next one. -/
theorem C59_postInc {m n1 n2 : St S A W} {i : Nat} {r : R} (h1 : next beh m (.deref i) = some (.val r, n1))
    (h2 : next beh n1 (.inc i) = some (.unit, n2)) :
    ∃ m1 m2, next beh m (.postInc i) = some (.unit, m1) ∧ next beh m1 (.deref m.var.length) = some (.val r, m2) ∧
      m2.tup = n2.tup ∧ m2.user = n2.user ∧ m2.vec = n2.vec ∧ ∀ k, k < m.var.length → m2.it k = n2.it k := by
  simp only [next, Option.map_eq_some_iff] at h1
  obtain ⟨x, hx, h1⟩ := h1
  have hlt := it_lt hx
  split at h1
  · rename_i s a hs ha
    rcases hb : beh s a m.user with ⟨r', a', w'⟩
    rw [hb] at h1
    cases h1
    have hx' : St.it { m with tup := m.tup.set x.args (some a'), user := w' } i = some x := hx
    have hadv : advance { m with tup := m.tup.set x.args (some a'), user := w' } x.iter = advance m x.iter := rfl
    simp only [next, hx', Option.map_some, hadv] at h2
    cases hp : advance m x.iter with
    | none => rw [hp] at h2; cases h2
    | some p =>
      rw [hp] at h2
      cases h2
      have hg : ∀ k, ((m.var ++ [some x]).set i (some { x with iter := p }))[k]?.join =
          if k = i then some { x with iter := p } else if k = m.var.length then some x else m.it k := fun k => by
        rw [join_set _ _ _ _ (by rw [it_append, if_neg (by omega), hx]; rfl), it_append]
      refine ⟨{ m with var := (m.var ++ [some x]).set i (some { x with iter := p }) },
        { m with var := (m.var ++ [some x]).set i (some { x with iter := p }), tup := m.tup.set x.args (some a'), user := w' },
        by simp only [next, hx, Option.map_some, hp], ?_, rfl, rfl, rfl, fun k hk => ?_⟩
      · have hq : St.it { m with var := (m.var ++ [some x]).set i (some { x with iter := p }) } m.var.length = some x := by
          refine (hg _).trans ?_; rw [if_neg (by omega), if_pos rfl]
        simp only [next, hq, Option.map_some, hs, ha, hb]
      · refine (hg k).trans ?_
        simp only [St.it]
        rw [it_set hx, if_neg (show ¬ k = m.var.length by omega)]; rfl
  · cases h1

namespace Demo
/-- Listeners `0`, `1`, ... take a string by value: they return its length plus their number and move from it. -/
def lis : Beh Nat (List Nat) (List Nat) Nat := fun s a w => (s + a.length, [], s :: w)
/-- A combiner makes a copy (2) of the first iterator (0), advances it with `++`, keeps the old place (3) with `2++`, and dereferences
number 3 and then number 0; the last iterator is number 1. -/
def hist : List (Op Nat (List Nat) (List Nat)) :=
  [.deref 0, .deref 3, .postInc 2, .inc 2, .copy 0, .emit [10, 11, 12] [5, 5]]
end Demo

example : (after Demo.lis [] Demo.hist).map (fun m => (m.var, m.tup, m.user)) =
    some ([some ⟨(0, 0), 0⟩, some ⟨(0, 3), 0⟩, some ⟨(0, 2), 0⟩, some ⟨(0, 1), 0⟩], [some []], [10, 11]) := by decide
-- number 3 sees the arguments, number 0 what that left
example : ((after Demo.lis [] (Demo.hist.drop 2)).bind (next Demo.lis · (.deref 3))).map (·.1) = some (.val 13) ∧
    ((after Demo.lis [] (Demo.hist.drop 1)).bind (next Demo.lis · (.deref 0))).map (·.1) = some (.val 10) := by decide
example : called Demo.hist = [10, 11] ∧ (∀ s a w, (Demo.lis s a w).2.2 = s :: w) := ⟨by decide, fun _ _ _ => rfl⟩
-- the end, another emission, an emission that is over
example : ((after Demo.lis [] Demo.hist).bind (next Demo.lis · (.deref 1))).map (·.1) = some .ub ∧
    ((after Demo.lis [] Demo.hist).bind (next Demo.lis · (.inc 1))).map (·.1) = some .ub ∧
    ((after Demo.lis [] (.emit [10] [] :: Demo.hist)).bind (next Demo.lis · (.eq 0 4))).map (·.1) = some .ub ∧
    ((after Demo.lis [] (.ret 0 :: Demo.hist)).bind (next Demo.lis · (.deref 0))).map (·.1) = some .ub := by decide
-- a loop from number 2 on
example : ((after Demo.lis [] (Demo.hist.drop 3)).bind (loop Demo.lis 2 1 4)).map (·.1) = some [13, 12] := by decide
-- a second pass: the arguments are gone
example : ((after Demo.lis [] (Demo.hist.drop 4)).bind (loop Demo.lis 0 1 4)).map (·.1) = some [12, 11, 12] ∧
    (((after Demo.lis [] (Demo.hist.drop 4)).bind (loop Demo.lis 0 1 4)).bind (loop Demo.lis 2 1 4 ·.2)).map (·.1) =
      some [10, 11, 12] := by decide
-- the hypotheses of `C59_count` and `C59_postInc`
example : (after Demo.lis [] (Demo.hist.drop 4)).map (·.it 2) = some (some ⟨(0, 0), 0⟩) ∧
    (after Demo.lis [] Demo.hist).map (·.it 2) = some (some ⟨(0, 2), 0⟩) ∧ (Demo.hist.take 4).countP (Op.incs 2) = 2 := by decide
example : ((after Demo.lis [] Demo.hist).bind (next Demo.lis · (.deref 3))).map (·.1) = some (.val 11) ∧
    (((after Demo.lis [] Demo.hist).bind (next Demo.lis · (.deref 3))).bind (next Demo.lis ·.2 (.inc 3))).map (·.1) = some .unit := by
  decide

end Verif.Iter
