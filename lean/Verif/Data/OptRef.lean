/-!
# `opt::optional<T&>` and property C58

optional.hpp:1038-1129. The only member is a pointer `T* ref` (1047). The program around it has objects of type `T`, which it creates,
destroys and writes, and `optional<T&>` variables.
-/

namespace Verif.OptRef

variable {α : Type}

/-- A `T*`: `0` is null, `o + 1` points to object `o`. -/
abbrev Ptr := Nat

/-- `std::addressof(v)`. -/
def addressof (o : Nat) : Ptr := o + 1

/-- The objects and the `optional<T&>` variables of the program, in the order of their creation; `none`: destroyed. -/
structure St (α : Type) where
  mem : List (Option α) := []
  var : List (Option Ptr) := []

/-- Operations of a program. -/
inductive Op (α : Type) where
  /-- a new object -/
  | new (v : α)
  /-- object `o` is destroyed -/
  | drop (o : Nat)
  /-- object `o` is assigned to directly -/
  | write (o : Nat) (v : α)
  /-- `optional()`, `optional(nullopt)` (1057, 1058) -/
  | mkNone
  /-- `optional(T&)`, `optional(in_place, T&)`, `make_optional(std::ref(o))` (1059, 1061, 1544) -/
  | mkRef (o : Nat)
  /-- `optional(const optional&)` (1060); there is no move constructor -/
  | copy (j : Nat)
  /-- `~optional` (1066) -/
  | dtor (i : Nat)
  /-- `operator=(U&&)` for another `optional<T&>` (1073-1079), and the implicit copy assignment -/
  | assign (i j : Nat)
  /-- `operator=(nullopt)`, `reset()` (1068, 1128) -/
  | reset (i : Nat)
  /-- `emplace(T&)` (1086) -/
  | emplace (i o : Nat)
  /-- `swap(optional&)`, `std::swap` (1094, 1625) -/
  | swap (i j : Nat)
  /-- `*i = v`, `i.value() = v` if it has one -/
  | store (i : Nat) (v : α)
  /-- `has_value()`, `operator bool` (1113-1120) -/
  | has (i : Nat)
  /-- reading through `operator*`, `operator->` (1099-1107); the assertions are off -/
  | get (i : Nat)
  /-- reading through `value()` (1109) -/
  | value (i : Nat)
  /-- `T x = i.value_or(v)` (1122-1126), making a new object -/
  | valueOr (i : Nat) (v : α)
deriving Repr

/-- What an operation gives back. -/
inductive Res (α : Type) where
  | unit | val (v : α) | bool (b : Bool)
  /-- `value()` of a disengaged optional -/
  | badAccess
  /-- a null pointer is dereferenced, or an object that does not exist is used -/
  | ub
deriving DecidableEq, Repr

/-- Read through a pointer. -/
def St.load (m : St α) (p : Ptr) : Option α :=
  match p with
  | 0 => none
  | o + 1 => m.mem[o]?.join

/-- Write through a pointer. -/
def St.put (m : St α) (p : Ptr) (v : α) : St α :=
  match p with
  | 0 => m
  | o + 1 => { m with mem := m.mem.set o (some v) }

/-- The value of member `ref` of variable `i`; `none`: there is no such variable. -/
def St.ref (m : St α) (i : Nat) : Option Ptr := m.var[i]?.join

/-- The object exists. -/
def St.has (m : St α) (o : Nat) : Bool := (m.mem[o]?.join).isSome

/-- One operation; `none`: it names a variable or an object that does not exist, which no program can. -/
def next (m : St α) : Op α → Option (Res α × St α)
  | .new v => some (.unit, { m with mem := m.mem ++ [some v] })
  | .drop o => if m.has o then some (.unit, { m with mem := m.mem.set o none }) else none
  | .write o v => if m.has o then some (.unit, { m with mem := m.mem.set o (some v) }) else none
  | .mkNone => some (.unit, { m with var := m.var ++ [some 0] })                                            -- ref(nullptr)
  | .mkRef o => if m.has o then some (.unit, { m with var := m.var ++ [some (addressof o)] }) else none      -- ref(std::addressof(v))
  | .copy j => (m.ref j).map fun p => (.unit, { m with var := m.var ++ [some p] })                           -- ref(rhs.ref)
  | .dtor i => (m.ref i).map fun _ => (.unit, { m with var := m.var.set i none })
  | .assign i j => (m.ref i).bind fun _ => (m.ref j).map fun p => (.unit, { m with var := m.var.set i (some p) })  -- ref = rhs.ref;
  | .reset i => (m.ref i).map fun _ => (.unit, { m with var := m.var.set i (some 0) })                      -- ref = nullptr;
  | .emplace i o => (m.ref i).bind fun _ =>                                                                  -- ref = std::addressof(v);
      if m.has o then some (.unit, { m with var := m.var.set i (some (addressof o)) }) else none
  | .swap i j => (m.ref i).bind fun p => (m.ref j).map fun q =>                                             -- std::swap(ref, rhs.ref);
      (.unit, { m with var := (m.var.set i (some q)).set j (some p) })
  | .store i v => (m.ref i).map fun p =>
      match m.load p with
      | some _ => (.unit, m.put p v)
      | none => (.ub, m)
  | .has i => (m.ref i).map fun p => (.bool (p != 0), m)                                                     -- ref != nullptr
  | .get i => (m.ref i).map fun p =>                                                                         -- ref ? *ref : (assert(ref), *ref)
      match m.load p with
      | some v => (.val v, m)
      | none => (.ub, m)
  | .value i => (m.ref i).map fun p =>                                                                       -- ref ? *ref : (throw ..., *ref)
      if p = 0 then (.badAccess, m)
      else match m.load p with
        | some v => (.val v, m)
        | none => (.ub, m)
  | .valueOr i v => (m.ref i).map fun p =>                                                                   -- ref ? *ref : std::forward<V>(v)
      if p = 0 then (.val v, { m with mem := m.mem ++ [some v] })
      else match m.load p with
        | some x => (.val x, { m with mem := m.mem ++ [some x] })
        | none => (.ub, m)

/-- The state after the operations `h` (the last one first). Undefined behaviour ends a program. -/
def after : List (Op α) → Option (St α)
  | [] => some {}
  | op :: h =>
      match after h with
      | none => none
      | some m =>
          match next m op with
          | none | some (.ub, _) => none
          | some (_, m') => some m'

/-! ### Specification

What a program with such variables means: each of them is another name of an object, or of nothing. The specification is written in
terms of the history of the program: which variable was last bound to which object, and which value was last written to which object. -/

/-- The number of variables made. -/
def vars (h : List (Op α)) : Nat := (h.filter fun | .mkNone | .mkRef _ | .copy _ => true | _ => false).length

/-- The number of objects made. -/
def objs (h : List (Op α)) : Nat := (h.filter fun | .new _ | .valueOr _ _ => true | _ => false).length

/-- What variable `i` names after the operations `h` (the last one first); `none`: nothing. -/
def names : List (Op α) → Nat → Option Nat
  | [], _ => none
  | op :: h, i =>
      match op with
      | .mkNone => if i = vars h then none else names h i
      | .mkRef o => if i = vars h then some o else names h i
      | .copy j => if i = vars h then names h j else names h i
      | .assign k j => if i = k then names h j else names h i
      | .reset k => if i = k then none else names h i
      | .emplace k o => if i = k then some o else names h i
      | .swap j k => if i = k then names h j else if i = j then names h k else names h i
      | _ => names h i

/-- The value of object `o` after the operations `h`: `none`, if it is dead. -/
def holds : List (Op α) → Nat → Option α
  | [], _ => none
  | op :: h, o =>
      match op with
      | .new v => if o = objs h then some v else holds h o
      | .valueOr i v => if o = objs h then (match names h i with | some o' => holds h o' | none => some v) else holds h o
      | .drop o' => if o = o' then none else holds h o
      | .write o' v => if o = o' then some v else holds h o
      | .store i v => if names h i = some o then some v else holds h o
      | _ => holds h o

/-- The result of an operation after the operations `h`. -/
def result (h : List (Op α)) : Op α → Res α
  | .has i => .bool (names h i).isSome
  | .store i _ => if ((names h i).bind (holds h)).isSome then .unit else .ub
  | .get i => match (names h i).bind (holds h) with | some v => .val v | none => .ub
  | .value i =>
      match names h i with
      | none => .badAccess
      | some o => match holds h o with | some v => .val v | none => .ub
  | .valueOr i v =>
      match names h i with
      | none => .val v
      | some o => match holds h o with | some v => .val v | none => .ub
  | _ => .unit

/-! ### C58 -/

/-- The pointer to what a variable names. -/
def enc : Option Nat → Ptr
  | none => 0
  | some o => o + 1

/-- The state is what the specification says. -/
structure Ok (h : List (Op α)) (m : St α) : Prop where
  nv : m.var.length = vars h
  no : m.mem.length = objs h
  ref : ∀ i p, m.ref i = some p → p = enc (names h i)
  mem : ∀ o, m.mem[o]?.join = holds h o

theorem Ok.load {h : List (Op α)} {m : St α} (k : Ok h m) (x : Option Nat) : m.load (enc x) = x.bind (holds h) := by
  cases x with
  | none => rfl
  | some o => exact k.mem o

theorem join_append {β : Type} (l : List (Option β)) (x : Option β) (i : Nat) :
    (l ++ [x])[i]?.join = if i = l.length then x else l[i]?.join := by
  split
  · rename_i e; subst e; simp
  · rename_i e
    rcases Nat.lt_or_ge i l.length with h | h
    · rw [List.getElem?_append_left h]
    · rw [List.getElem?_append_right h, List.getElem?_eq_none h, List.getElem?_eq_none (by simp; omega)]

theorem join_set {β : Type} (l : List (Option β)) (x : Option β) (i j : Nat) (h : (l[j]?.join).isSome) :
    (l.set j x)[i]?.join = if i = j then x else l[i]?.join := by
  have hj : j < l.length := by
    apply Nat.lt_of_not_le; intro hle
    rw [List.getElem?_eq_none hle] at h; cases h
  rw [List.getElem?_set]
  by_cases e : j = i
  · subst e; rw [if_pos rfl, if_pos hj, if_pos rfl]; rfl
  · rw [if_neg e, if_neg (Ne.symm e)]

theorem ref_append (m : St α) (p : Ptr) (i : Nat) :
    St.ref { m with var := m.var ++ [some p] } i = if i = m.var.length then some p else m.ref i := join_append ..

theorem ref_set {m : St α} {j : Nat} {p : Ptr} (h : m.ref j = some p) (x : Option Ptr) (i : Nat) :
    St.ref { m with var := m.var.set j x } i = if i = j then x else m.ref i :=
  join_set _ _ _ _ (by rw [show m.var[j]?.join = some p from h]; rfl)

/-- The result is as specified, and so is the state afterwards. -/
theorem ok_step {h : List (Op α)} {m m' : St α} {op : Op α} {r : Res α} (k : Ok h m) (hn : next m op = some (r, m')) :
    r = result h op ∧ (r ≠ .ub → Ok (op :: h) m') := by
  have live : ∀ {o}, m.has o = true → (m.mem[o]?.join).isSome = true := fun h => h
  have len : ∀ {x : Option Ptr} {i}, (m.var.set i x).length = vars h := fun {x i} => by rw [List.length_set, k.nv]
  cases op with
  | new v =>
    cases hn
    refine ⟨rfl, fun _ => ⟨k.nv, by simp [objs, k.no], k.ref, fun o => ?_⟩⟩
    rw [join_append, k.no, k.mem]; rfl
  | drop o =>
    simp only [next] at hn
    split at hn
    · rename_i hl; cases hn
      refine ⟨rfl, fun _ => ⟨k.nv, by rw [List.length_set]; exact k.no, k.ref, fun o' => ?_⟩⟩
      rw [join_set _ _ _ _ (live hl), k.mem]; rfl
    · cases hn
  | write o v =>
    simp only [next] at hn
    split at hn
    · rename_i hl; cases hn
      refine ⟨rfl, fun _ => ⟨k.nv, by rw [List.length_set]; exact k.no, k.ref, fun o' => ?_⟩⟩
      rw [join_set _ _ _ _ (live hl), k.mem]; rfl
    · cases hn
  | mkNone =>
    cases hn
    refine ⟨rfl, fun _ => ⟨by simp [vars, k.nv], k.no, fun i p => ?_, k.mem⟩⟩
    rw [ref_append, k.nv]
    simp only [names]
    split
    · rintro ⟨⟩; rfl
    · exact k.ref i p
  | mkRef o =>
    simp only [next] at hn
    split at hn
    · cases hn
      refine ⟨rfl, fun _ => ⟨by simp [vars, k.nv], k.no, fun i p => ?_, k.mem⟩⟩
      rw [ref_append, k.nv]
      simp only [names]
      split
      · rintro ⟨⟩; rfl
      · exact k.ref i p
    · cases hn
  | copy j =>
    simp only [next, Option.map_eq_some_iff, Prod.mk.injEq] at hn
    obtain ⟨p, hp, rfl, rfl⟩ := hn
    refine ⟨rfl, fun _ => ⟨by simp [vars, k.nv], k.no, fun i q => ?_, k.mem⟩⟩
    rw [ref_append, k.nv]
    simp only [names]
    split
    · rintro ⟨⟩; exact k.ref j _ hp
    · exact k.ref i q
  | dtor i =>
    simp only [next, Option.map_eq_some_iff, Prod.mk.injEq] at hn
    obtain ⟨p, hp, rfl, rfl⟩ := hn
    refine ⟨rfl, fun _ => ⟨len, k.no, fun i' q => ?_, k.mem⟩⟩
    rw [ref_set hp]
    split
    · rintro ⟨⟩
    · exact k.ref i' q
  | assign i j =>
    simp only [next, Option.bind_eq_some_iff, Option.map_eq_some_iff, Prod.mk.injEq] at hn
    obtain ⟨p, hp, q, hq, rfl, rfl⟩ := hn
    refine ⟨rfl, fun _ => ⟨len, k.no, fun i' x => ?_, k.mem⟩⟩
    rw [ref_set hp]
    simp only [names]
    split
    · rintro ⟨⟩; exact k.ref j _ hq
    · exact k.ref i' x
  | reset i =>
    simp only [next, Option.map_eq_some_iff, Prod.mk.injEq] at hn
    obtain ⟨p, hp, rfl, rfl⟩ := hn
    refine ⟨rfl, fun _ => ⟨len, k.no, fun i' q => ?_, k.mem⟩⟩
    rw [ref_set hp]
    simp only [names]
    split
    · rintro ⟨⟩; rfl
    · exact k.ref i' q
  | emplace i o =>
    simp only [next, Option.bind_eq_some_iff] at hn
    obtain ⟨p, hp, hn⟩ := hn
    split at hn
    · cases hn
      refine ⟨rfl, fun _ => ⟨len, k.no, fun i' q => ?_, k.mem⟩⟩
      rw [ref_set hp]
      simp only [names]
      split
      · rintro ⟨⟩; rfl
      · exact k.ref i' q
    · cases hn
  | swap i j =>
    simp only [next, Option.bind_eq_some_iff, Option.map_eq_some_iff, Prod.mk.injEq] at hn
    obtain ⟨p, hp, q, hq, rfl, rfl⟩ := hn
    refine ⟨rfl, fun _ => ⟨by rw [List.length_set]; exact len, k.no, fun i' x => ?_, k.mem⟩⟩
    have hj : St.ref { m with var := m.var.set i (some q) } j = some q := by
      rw [ref_set hp]; split
      · rfl
      · exact hq
    rw [show ({ m with var := (m.var.set i (some q)).set j (some p) } : St α) =
      { ({ m with var := m.var.set i (some q) } : St α) with var := (m.var.set i (some q)).set j (some p) } from rfl,
      ref_set hj, ref_set hp]
    simp only [names]
    split
    · rintro ⟨⟩; exact k.ref i _ hp
    · split
      · rintro ⟨⟩; exact k.ref j _ hq
      · exact k.ref i' x
  | store i v =>
    simp only [next, Option.map_eq_some_iff] at hn
    obtain ⟨p, hp, hn⟩ := hn
    obtain rfl := k.ref i p hp
    rw [k.load] at hn
    simp only [result]
    split at hn
    · rename_i x hx
      cases hn
      rw [hx]
      refine ⟨rfl, fun _ => ?_⟩
      cases ho : names h i with
      | none => rw [ho] at hx; cases hx
      | some o =>
        rw [ho] at hx
        refine ⟨k.nv, by simp only [St.put, enc, List.length_set]; exact k.no, k.ref, fun o' => ?_⟩
        simp only [St.put, enc, holds, ho]
        rw [join_set _ _ _ _ (by rw [k.mem, show holds h o = some x from hx]; rfl), k.mem]
        simp only [Option.some.injEq, eq_comm (a := o)]
    · rename_i hx
      cases hn
      rw [hx]
      exact ⟨rfl, fun h => (h rfl).elim⟩
  | has i =>
    simp only [next, Option.map_eq_some_iff, Prod.mk.injEq] at hn
    obtain ⟨p, hp, rfl, rfl⟩ := hn
    refine ⟨?_, fun _ => ⟨k.nv, k.no, k.ref, k.mem⟩⟩
    rw [k.ref i p hp, result]
    cases names h i <;> rfl
  | get i =>
    simp only [next, Option.map_eq_some_iff] at hn
    obtain ⟨p, hp, hn⟩ := hn
    obtain rfl := k.ref i p hp
    rw [k.load] at hn
    simp only [result]
    split at hn <;> (cases hn; exact ⟨rfl, fun _ => ⟨k.nv, k.no, k.ref, k.mem⟩⟩)
  | value i =>
    simp only [next, Option.map_eq_some_iff] at hn
    obtain ⟨p, hp, hn⟩ := hn
    obtain rfl := k.ref i p hp
    have k' : Ok (.value i :: h) m := ⟨k.nv, k.no, k.ref, k.mem⟩
    rw [k.load] at hn
    simp only [result]
    cases ho : names h i with
    | none => rw [ho] at hn; cases hn; exact ⟨rfl, fun _ => k'⟩
    | some o =>
      rw [ho] at hn
      simp only [enc, Nat.add_eq_zero_iff, Nat.succ_ne_self, and_false, if_false, Option.bind_some] at hn
      split at hn <;> (rename_i hx; cases hn; simp only [hx]; exact ⟨trivial, fun _ => k'⟩)
  | valueOr i v =>
    simp only [next, Option.map_eq_some_iff] at hn
    obtain ⟨p, hp, hn⟩ := hn
    obtain rfl := k.ref i p hp
    rw [k.load] at hn
    simp only [result]
    cases ho : names h i with
    | none =>
      rw [ho] at hn; cases hn
      refine ⟨rfl, fun _ => ⟨k.nv, by simp [objs, k.no], k.ref, fun o' => ?_⟩⟩
      rw [join_append, k.no, k.mem]; simp only [holds, ho]
    | some o =>
      rw [ho] at hn
      simp only [enc, Nat.add_eq_zero_iff, Nat.succ_ne_self, and_false, if_false, Option.bind_some] at hn
      split at hn
      · rename_i x hx
        cases hn; simp only [hx]
        refine ⟨trivial, fun _ => ⟨k.nv, by simp [objs, k.no], k.ref, fun o' => ?_⟩⟩
        rw [join_append, k.no, k.mem]; simp only [holds, ho, hx]
      · rename_i hx; cases hn; simp only [hx]; exact ⟨trivial, fun h => (h rfl).elim⟩

theorem ok_after {h : List (Op α)} {m : St α} (ha : after h = some m) : Ok h m := by
  induction h generalizing m with
  | nil => cases ha; exact ⟨rfl, rfl, by simp [St.ref], by simp [holds]⟩
  | cons op h ih =>
    unfold after at ha
    split at ha
    · cases ha
    · rename_i m0 h0
      split at ha
      · cases ha
      · cases ha
      · rename_i r m1 hnu hn
        cases ha
        exact (ok_step (ih h0) hn).2 fun hr => (hnu hr).elim

/-- C58: every operation of every program does what the specification says: an `optional<T&>` is another name of the object it was last
bound to, whichever optional that binding came from. -/
theorem C58 {h : List (Op α)} {m m' : St α} {op : Op α} {r : Res α} (ha : after h = some m) (hn : next m op = some (r, m')) :
    r = result h op := (ok_step (ok_after ha) hn).1

namespace Demo
/-- Two objects; variable 0 names the first, 1 is a copy of it, then 0 is assigned from 2, which names the second; `*1 = 7`. -/
def hist : List (Op Nat) :=
  [.store 1 7, .assign 0 2, .mkRef 1, .copy 0, .mkRef 0, .new 20, .new 10]
end Demo

example : (after Demo.hist).map (·.mem) = some [some 7, some 20] := by decide
example : ((after Demo.hist).bind (next · (.get 0))).map (·.1) = some (.val 20) := by decide
example : result Demo.hist (.get 0) = .val 20 ∧ result Demo.hist (.get 1) = .val 7 := by decide
-- the object is gone, the name is not
example : ((after (.drop 1 :: Demo.hist)).bind (next · (.get 0))).map (·.1) = some .ub ∧
    ((after (.drop 1 :: Demo.hist)).bind (next · (.has 0))).map (·.1) = some (.bool true) := by decide
example : ((after (.reset 0 :: Demo.hist)).bind (next · (.value 0))).map (·.1) = some .badAccess := by decide

/-- The objects and variables an operation names exist (what the language guarantees). -/
def Op.ok (m : St α) : Op α → Prop
  | .drop o | .write o _ | .mkRef o => m.has o = true
  | .copy i | .dtor i | .reset i | .store i _ | .has i | .get i | .value i | .valueOr i _ => (m.ref i).isSome = true
  | .assign i j | .swap i j => (m.ref i).isSome = true ∧ (m.ref j).isSome = true
  | .emplace i o => (m.ref i).isSome = true ∧ m.has o = true
  | _ => True

/-- The model gives every operation a result. -/
theorem C58_total {m : St α} {op : Op α} (h : op.ok m) : (next m op).isSome = true := by
  cases op <;> simp_all [Op.ok, next, Option.isSome_iff_exists, Option.bind_eq_some_iff] <;>
    (try obtain ⟨⟨p, hp⟩, q, hq⟩ := h) <;> (try obtain ⟨⟨p, hp⟩, hq⟩ := h) <;> simp_all

theorem next_ub {m m' : St α} {op : Op α} (h : next m op = some (.ub, m')) : m' = m := by
  cases op <;> simp only [next, Option.map_eq_some_iff, Option.bind_eq_some_iff, Prod.mk.injEq, reduceCtorEq, false_and, and_false,
    exists_const, Option.some.injEq] at h <;> grind

/-- The operation is one of `optional<T&>` itself, not an assignment to an object. -/
def Op.own : Op α → Bool
  | .new _ | .drop _ | .write _ _ | .store _ _ => false
  | _ => true

/-- C58: no operation of `optional<T&>` writes, moves from, or destroys an object: assignment, `emplace` and `swap` rebind, and
`value_or` copies. -/
theorem C58_rebinds {h : List (Op α)} {m m' : St α} {op : Op α} {r : Res α} (ha : after h = some m) (hn : next m op = some (r, m'))
    (ho : op.own = true) {o : Nat} {v : α} (hv : m.mem[o]?.join = some v) : m'.mem[o]?.join = some v := by
  have k := ok_after ha
  have k' := ok_step k hn
  have hlt : o ≠ objs h := fun e => by
    rw [e, ← k.no, List.getElem?_eq_none (Nat.le_refl _)] at hv; cases hv
  by_cases hr : r = .ub
  · subst hr; rw [next_ub hn]; exact hv
  · rw [(k'.2 hr).mem, ← hv, k.mem]
    cases op <;> first | cases ho; done | rfl | (simp only [holds, if_neg hlt]; done)

/-- C58: an assignment through one name is seen through every other name of the object, and through no other. -/
theorem C58_alias {m : St α} {i j : Nat} {p q : Ptr} {x v : α} (hi : m.ref i = some p) (hj : m.ref j = some q)
    (hx : m.load p = some x) :
    ∃ m', next m (.store i v) = some (.unit, m') ∧
      (next m' (.get j)).map (·.1) = if p = q then some (.val v) else (next m (.get j)).map (·.1) := by
  refine ⟨m.put p v, by simp only [next, hi, Option.map_some, hx], ?_⟩
  cases p with
  | zero => cases hx
  | succ o =>
    have hj' : (m.put (o + 1) v).ref j = some q := hj
    simp only [next, hj, hj', Option.map_some]
    have hl : (m.put (o + 1) v).load q = if o + 1 = q then some v else m.load q := by
      cases q with
      | zero => rfl
      | succ o' =>
        simp only [St.put, St.load]
        rw [join_set _ _ _ _ (by rw [show m.mem[o]?.join = some x from hx]; rfl)]
        by_cases e : o = o'
        · subst e; simp
        · rw [if_neg (Ne.symm e), if_neg (by omega)]
    rw [hl]
    by_cases e : o + 1 = q
    · rw [if_pos e, if_pos e]
    · rw [if_neg e, if_neg e]; cases m.load q <;> rfl

/-! ### The default combiner on a signal of references -/

/-- `optional_last_value<T&>` (signals.hpp:1624-1637): `rs` are what the listeners return, a reference to an object or nothing. The local
variables `result` and `temp` are new variables of the program; the returned variable is a copy of `result`. `none` or a `Res.ub` on the
way: the combiner does not work. -/
def combine (m : St α) (rs : List (Option Nat)) : Option (St α) :=
  (do1 m .mkNone).bind fun m1 => go m1 m.var.length rs
where
  /-- One operation that must succeed. -/
  do1 (m : St α) (op : Op α) : Option (St α) :=
    match next m op with
    | some (.unit, m') => some m'
    | _ => none
  /-- The loop (1628-1634). -/
  go (m : St α) (result : Nat) : List (Option Nat) → Option (St α)
    | [] => some m
    | r :: rs =>
        let temp := m.var.length
        (do1 m (match r with | some o => .mkRef o | none => .mkNone)).bind fun m1 =>          -- result_type temp = *first;
        match next m1 (.has temp) with                                                       -- if (temp)
        | some (.bool true, m2) => (do1 m2 (.assign result temp)).bind fun m3 =>             --   result = temp;
            (do1 m3 (.dtor temp)).bind fun m4 => go m4 result rs
        | some (.bool false, m2) => (do1 m2 (.dtor temp)).bind fun m3 => go m3 result rs
        | _ => none

/-- The last engaged one. -/
def lastRef : List (Option Nat) → Option Nat
  | [] => none
  | r :: rs => match lastRef rs with | some o => some o | none => r

theorem go_ok (rs : List (Option Nat)) : ∀ {m : St α} {res : Nat} {x : Option Nat}, m.ref res = some (enc x) →
    (∀ o, some o ∈ rs → m.has o = true) →
    ∃ m', combine.go m res rs = some m' ∧ m'.mem = m.mem ∧
      m'.ref res = some (enc (match lastRef rs with | some o => some o | none => x)) ∧
      ∀ i, i < m.var.length → i ≠ res → m'.ref i = m.ref i := by
  induction rs with
  | nil => intro m res x hx _; exact ⟨m, rfl, rfl, hx, fun _ _ _ => rfl⟩
  | cons r rs ih =>
    intro m res x hx hr
    have hlt : res < m.var.length := by
      apply Nat.lt_of_not_le; intro hle
      simp only [St.ref, List.getElem?_eq_none hle] at hx; cases hx
    have ht : ∀ p, St.ref { m with var := m.var ++ [some p] } m.var.length = some p := fun p => by rw [ref_append, if_pos rfl]
    have hres : ∀ p, St.ref { m with var := m.var ++ [some p] } res = some (enc x) := fun p => by
      rw [ref_append, if_neg (by omega), hx]
    cases r with
    | none =>
      have e2 := ref_set (ht 0) none
      obtain ⟨m', h1, h2, h3, h4⟩ := ih (m := { m with var := (m.var ++ [some 0]).set m.var.length none }) (res := res) (x := x)
        (by refine (e2 res).trans ?_; rw [if_neg (by omega), hres]) (fun o ho => hr o (List.mem_cons_of_mem _ ho))
      refine ⟨m', ?_, h2, ?_, fun i hi hne => ?_⟩
      · simpa [combine.go, combine.do1, next, ht] using h1
      · rw [h3, lastRef]; cases lastRef rs <;> rfl
      · rw [h4 i (by simp; omega) hne]
        refine (e2 i).trans ?_
        rw [if_neg (by omega), ref_append, if_neg (by omega)]
    | some o =>
      have ho := hr o List.mem_cons_self
      have e1 := ref_set (hres (o + 1)) (some (o + 1))
      have ht' : St.ref { m with var := (m.var ++ [some (o + 1)]).set res (some (o + 1)) } m.var.length = some (o + 1) :=
        (e1 _).trans (by rw [if_neg (by omega), ht])
      have e2 := fun i => (ref_set ht' none i).trans (congrArg _ (e1 i))
      obtain ⟨m', h1, h2, h3, h4⟩ := ih
        (m := { m with var := ((m.var ++ [some (o + 1)]).set res (some (o + 1))).set m.var.length none }) (res := res) (x := some o)
        (by refine (e2 res).trans ?_; rw [if_neg (by omega), if_pos rfl]; rfl)
        (fun o ho => hr o (List.mem_cons_of_mem _ ho))
      refine ⟨m', ?_, h2, ?_, fun i hi hne => ?_⟩
      · simpa [combine.go, combine.do1, next, ht, ho, addressof, hres, ht'] using h1
      · rw [h3, lastRef]; cases lastRef rs <;> rfl
      · rw [h4 i (by simp; omega) hne]
        refine (e2 i).trans ?_
        rw [if_neg (by omega), if_neg hne, ref_append, if_neg (by omega)]

/-- C58: the default combiner on a signal whose listeners return references gives back a name of the object that the last of them
(that returned one) named. It touches no object, and none of the program's other names. -/
theorem C58_combine {m : St α} {rs : List (Option Nat)} (hr : ∀ o, some o ∈ rs → m.has o = true) :
    ∃ m', combine m rs = some m' ∧ m'.mem = m.mem ∧ m'.ref m.var.length = some (enc (lastRef rs)) ∧
      ∀ i, i < m.var.length → m'.ref i = m.ref i := by
  obtain ⟨m', h1, h2, h3, h4⟩ := go_ok rs (m := { m with var := m.var ++ [some 0] }) (res := m.var.length) (x := none)
    (by rw [ref_append, if_pos rfl]; rfl) hr
  refine ⟨m', h1, h2, ?_, fun i hi => ?_⟩
  · rw [h3]; cases lastRef rs <;> rfl
  · rw [h4 i (by simp; omega) (by omega), ref_append, if_neg (by omega)]

-- four listeners; the second and the last return nothing
example : ((after Demo.hist).bind (combine · [some 1, none, some 0, none])).map (fun m => (m.mem, m.ref 3)) =
    some ([some 7, some 20], some (addressof 0)) := by decide
-- a program for the other theorems: `swap` of names of different objects, and a write through a name
example : ((after (.swap 0 1 :: Demo.hist)).map fun m => (m.mem, m.var)) = some ([some 7, some 20], [some 1, some 2, some 2]) := by decide
example : ∃ m, after Demo.hist = some m ∧ m.ref 0 = m.ref 2 ∧ m.ref 0 ≠ m.ref 1 ∧ m.load 2 = some 20 := ⟨_, rfl, by decide⟩

end Verif.OptRef
