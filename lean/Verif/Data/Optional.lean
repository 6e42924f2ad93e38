/-!
# `opt::optional` and properties C32, C33

optional.hpp:127-1036. Two storages: `optional_base` (128-505) keeps raw memory in which it constructs and destroys a `T`,
`tc_optional_base` (508-734) keeps a `T` all the time (used for scalar types).
-/

namespace Verif.Opt

variable {α : Type}

/-- What moving does to values of the contained type: `mf v` is what the source of a move is left with, `sm v` what `x = std::move(x)`
leaves in `x`. Copies and move targets have the value of the source. -/
structure TOps (α : Type) where
  mf : α → α
  sm : α → α

/-- The argument of a constructor or assignment of `T`: an object outside of all optionals, a `T const&` or a `T&&` to the object
inside an optional. -/
inductive Src (α : Type) where
  | lit (v : α) | copyOf (j : Nat) | moveOf (j : Nat)
deriving DecidableEq, Repr

/-- The variables it refers to. -/
def Src.vars : Src α → List Nat
  | .lit _ => []
  | .copyOf j | .moveOf j => [j]

/-- It is an rvalue reference to the content of variable `i`. -/
def Src.moves (i : Nat) : Src α → Bool
  | .moveOf j => j == i
  | _ => false

theorem Src.moves_iff {a : Src α} {i : Nat} : a.moves i = true ↔ a = .moveOf i := by
  cases a <;> simp [Src.moves]

/-- `none`: the operation of `T` succeeds. `some (x, y)`: it throws and leaves its target with value `x` (if the target existed) and
its source, if that was an rvalue, with value `y`. -/
abbrev Fault (α : Type) := Option (α × α)

/-- Operations of a program on its `optional<T>` variables. -/
inductive Op (α : Type) where
  /-- `optional()`, `optional(nullopt)` (778, 784) -/
  | mkNone
  /-- `optional(T const&)`, `optional(T&&)`, `optional(in_place, args...)` (790, 796, 900, 905) -/
  | mkVal (a : Src α)
  /-- `optional(bool, T&&)`, `optional(in_place_if, bool, args...)` (802, 910, 915) -/
  | mkIf (c : Bool) (a : Src α)
  /-- `explicit optional(optional<U> const&)`, `explicit optional(optional<U>&&)` (810, 821); the content of the other optional -/
  | mkOther (x : Option α)
  /-- `optional(optional const&)` (830) -/
  | copy (j : Nat)
  /-- `optional(optional&&)` (834) -/
  | move (j : Nat)
  /-- `~optional` (837) -/
  | dtor (i : Nat)
  /-- `operator=(optional const&)` (862) -/
  | copyAssign (i j : Nat)
  /-- `operator=(optional&&)` (865) -/
  | moveAssign (i j : Nat)
  /-- `operator=(optional<U> const&)`, `operator=(optional<U>&&)` (843, 853) -/
  | assignOther (i : Nat) (x : Option α)
  /-- `operator=(U&&)` for a `T` (870) -/
  | assignVal (i : Nat) (a : Src α)
  /-- `operator=(nullopt)`, `reset()` (879, 349) -/
  | reset (i : Nat)
  /-- `emplace(args...)` (888, 894) -/
  | emplace (i : Nat) (a : Src α)
  /-- `swap(optional&)` (919), `std::swap` (1625) -/
  | swap (i j : Nat)
  /-- an assignment through the reference `*o`, `o.get()`, `*o.get_ptr()`, ... -/
  | store (i : Nat) (a : Src α)
  /-- `has_value()`, `operator bool`, `is_initialized()`, `get_ptr() != nullptr` (1026-1034, 367, 357) -/
  | has (i : Nat)
  /-- reading through `get()`, `operator*`, `operator->` (928-976) -/
  | get (i : Nat)
  /-- reading through `value()` (983-997) -/
  | value (i : Nat)
  /-- `T x = o.value_or(v)`, `T x = o.get_value_or(v)` (1007-1014, 941-949) -/
  | valueOr (i : Nat) (v : α)
  /-- `T x = std::move(o).value()` (999-1005) -/
  | take (i : Nat)
  /-- `T x = std::move(o).value_or(v)` (1016-1023) -/
  | takeOr (i : Nat) (v : α)
deriving Repr

/-- What an operation gives back. -/
inductive Res (α : Type) where
  | unit | val (v : α) | bool (b : Bool)
  /-- `value()` of a disengaged optional -/
  | badAccess
  /-- a constructor or assignment of `T` threw -/
  | thrown
  /-- a `T` that does not exist was used, assigned or destroyed -/
  | ub
  /-- a `T` was constructed on top of another -/
  | leak
deriving DecidableEq, Repr

/-! ### Specification: a variable holds nothing or a value -/

/-- The variables of the program; `none`: destroyed. -/
abbrev Spec (α : Type) := List (Option (Option α))

/-- The value an argument refers to. -/
def Spec.look (m : Spec α) : Src α → Option α
  | .lit v => some v
  | .copyOf j | .moveOf j => (m[j]?.join).join

/-- What an rvalue argument is left with. -/
def Spec.leave (m : Spec α) : Src α → α → Spec α
  | .moveOf j, x => m.set j (some (some x))
  | _, _ => m

/-- `a` with the value `v` is assigned to variable `i`. -/
def Spec.store (T : TOps α) (m : Spec α) (i : Nat) (a : Src α) (v : α) : Spec α :=
  if a.moves i then m.set i (some (some (T.sm v))) else (m.leave a (T.mf v)).set i (some (some v))

/-- The variables an operation names; they must exist. -/
def Op.vars : Op α → List Nat
  | .mkNone | .mkOther _ => []
  | .mkVal a | .mkIf _ a => a.vars
  | .copy j | .move j => [j]
  | .dtor i | .reset i | .has i | .get i | .value i | .valueOr i _ | .take i | .takeOr i _ | .assignOther i _ => [i]
  | .copyAssign i j | .moveAssign i j | .swap i j => [i, j]
  | .assignVal i a | .emplace i a | .store i a => i :: a.vars

/-- What each operation means, if no operation of `T` throws. -/
def Spec.next (T : TOps α) (m : Spec α) : Op α → Res α × Spec α
  | .mkNone => (.unit, m ++ [some none])
  | .mkVal a =>
      match m.look a with
      | some v => (.unit, m.leave a (T.mf v) ++ [some (some v)])
      | none => (.ub, m)
  | .mkIf c a =>
      if c then
        match m.look a with
        | some v => (.unit, m.leave a (T.mf v) ++ [some (some v)])
        | none => (.ub, m)
      else (.unit, m ++ [some none])
  | .mkOther x => (.unit, m ++ [some x])
  | .copy j => (.unit, m ++ [some (m.look (.copyOf j))])
  | .move j =>
      match m.look (.moveOf j) with
      | some v => (.unit, m.set j (some (some (T.mf v))) ++ [some (some v)])
      | none => (.unit, m ++ [some none])
  | .dtor i => (.unit, m.set i none)
  | .copyAssign i j => (.unit, m.set i (some (m.look (.copyOf j))))
  | .moveAssign i j =>
      match m.look (.moveOf j) with
      | some v => (.unit, m.store T i (.moveOf j) v)
      | none => (.unit, m.set i (some none))
  | .assignOther i x => (.unit, m.set i (some x))
  | .assignVal i a =>
      match m.look a with
      | some v => (.unit, m.store T i a v)
      | none => (.ub, m)
  | .reset i => (.unit, m.set i (some none))
  | .emplace i a =>
      if i ∈ a.vars then (.ub, m.set i (some none))
      else
        match m.look a with
        | some v => (.unit, (m.leave a (T.mf v)).set i (some (some v)))
        | none => (.ub, m.set i (some none))
  | .swap i j => (.unit, (m.set i (some (m.look (.copyOf j)))).set j (some (m.look (.copyOf i))))
  | .store i a =>
      match m.look (.copyOf i), m.look a with
      | some _, some v => (.unit, m.store T i a v)
      | _, _ => (.ub, m)
  | .has i => (.bool (m.look (.copyOf i)).isSome, m)
  | .get i => ((m.look (.copyOf i)).elim .ub .val, m)
  | .value i => ((m.look (.copyOf i)).elim .badAccess .val, m)
  | .valueOr i v => (.val ((m.look (.copyOf i)).getD v), m)
  | .take i =>
      match m.look (.moveOf i) with
      | some v => (.val v, m.set i (some (some (T.mf v))))
      | none => (.badAccess, m)
  | .takeOr i u =>
      match m.look (.moveOf i) with
      | some v => (.val v, m.set i (some (some (T.mf v))))
      | none => (.val u, m)

/-- Nothing but the values of the variables in `S` differs: the same ones exist and the same ones are engaged. -/
def Spec.Keeps (m m' : Spec α) (S : List Nat) : Prop :=
  m'.length = m.length ∧ ∀ k : Nat, (m'[k]?.map fun x => x.map Option.isSome) = (m[k]?.map fun x => x.map Option.isSome) ∧
    (k ∉ S → m'[k]? = m[k]?)

/-- What is left if an operation of `T` throws. -/
def Spec.threw (m : Spec α) (o : Op α) (m' : Spec α) : Prop :=
  match o with
  -- a constructor: no new variable; an rvalue argument may have changed
  | .mkVal a | .mkIf _ a => m.Keeps m' (match a with | .moveOf j => [j] | _ => [])
  | .mkOther _ | .copy _ | .valueOr _ _ => m' = m
  | .move j | .take j | .takeOr j _ => m.Keeps m' [j]
  -- an assignment: the target is engaged iff it was before
  | .copyAssign i _ | .assignOther i _ => m.Keeps m' [i]
  | .moveAssign i j => m.Keeps m' [i, j]
  | .assignVal i a | .store i a => m.Keeps m' (i :: match a with | .moveOf j => [j] | _ => [])
  -- `emplace`: the target is disengaged
  | .emplace i a => ∃ m1, m.Keeps m1 (match a with | .moveOf j => [j] | _ => []) ∧ m' = m1.set i (some none)
  -- `swap`: the two may have any content
  | .swap i j => m'.length = m.length ∧ ∀ k : Nat, (m'[k]?.map Option.isSome) = (m[k]?.map Option.isSome) ∧
      (k ≠ i → k ≠ j → m'[k]? = m[k]?)
  | _ => False

/-! ### `optional_base` -/

/-- `optional_base`: the flag (134) and what lives in the storage (135). -/
structure Obj (α : Type) where
  init : Bool
  cell : Option α
deriving DecidableEq, Repr

/-- All variables; how many `T`s were constructed and destroyed in optionals; what the next operations of `T` will do; ghost: in which
variable each `T` was constructed, newest first. -/
structure St (α : Type) where
  vars : List (Option (Obj α))
  made : Nat
  died : Nat
  fs : List (Fault α)
  hist : List Nat := []
deriving DecidableEq, Repr

/-- The members of variable `i`, and stores to them. -/
def St.obj (s : St α) (i : Nat) : Obj α := (s.vars[i]?.join).getD ⟨false, none⟩
def St.setCell (s : St α) (i : Nat) (c : Option α) : St α := { s with vars := s.vars.set i (some ⟨(s.obj i).init, c⟩) }
def St.setInit (s : St α) (i : Nat) (b : Bool) : St α := { s with vars := s.vars.set i (some ⟨b, (s.obj i).cell⟩) }

/-- Does the next operation of `T` throw? -/
def St.pop (s : St α) : Fault α × St α := (s.fs.head?.join, { s with fs := s.fs.tail })

/-- The value an argument refers to; `none`: it refers to storage without an object. -/
def St.look (s : St α) : Src α → Option α
  | .lit v => some v
  | .copyOf j | .moveOf j => (s.obj j).cell

/-- What an rvalue argument is left with. -/
def St.leave (s : St α) : Src α → α → St α
  | .moveOf j, x => s.setCell j (some x)
  | _, _ => s

/-- `::new(&m_storage) value_type(...)`. If the constructor throws there is no object. -/
def tNew (T : TOps α) (s : St α) (i : Nat) (a : Src α) : Res α × St α :=
  match s.look a with
  | none => (.ub, s)
  | some v =>
      if (s.obj i).cell.isSome then (.leak, s)
      else
        match s.pop with
        | (some (_, y), s) => (.thrown, s.leave a y)
        | (none, s) => (.unit, { (s.leave a (T.mf v)).setCell i (some v) with made := s.made + 1, hist := i :: s.hist })

/-- `get_impl() = ...` (`assign_value`, 461-471). -/
def tAssign (T : TOps α) (s : St α) (i : Nat) (a : Src α) : Res α × St α :=
  match (s.obj i).cell, s.look a with
  | some _, some v =>
      match s.pop with
      | (some (x, y), s) => (.thrown, (s.leave a y).setCell i (some x))
      | (none, s) =>
          if a.moves i then (.unit, s.setCell i (some (T.sm v)))
          else (.unit, (s.leave a (T.mf v)).setCell i (some v))
  | _, _ => (.ub, s)

/-- `get_impl().T::~T()` -/
def tDel (s : St α) (i : Nat) : Res α × St α :=
  match (s.obj i).cell with
  | none => (.ub, s)
  | some _ => (.unit, { s.setCell i none with died := s.died + 1 })

/-- `construct` (374-400): the flag is set after the constructor has returned. -/
def construct (T : TOps α) (s : St α) (i : Nat) (a : Src α) : Res α × St α :=
  match tNew T s i a with
  | (.unit, s) => (.unit, s.setInit i true)
  | r => r

/-- `destroy`, `destroy_impl` (473-477, 500-504) -/
def destroy (s : St α) (i : Nat) : Res α × St α :=
  if (s.obj i).init then
    match tDel s i with
    | (.unit, s) => (.unit, s.setInit i false)
    | r => r
  else (.unit, s)

/-- `assign(optional_base const&)`, `assign(optional_base&&)` (250-281); `a` is the content of `j`. -/
def assign (T : TOps α) (s : St α) (i j : Nat) (a : Src α) : Res α × St α :=
  if (s.obj i).init then
    if (s.obj j).init then tAssign T s i a
    else destroy s i
  else
    if (s.obj j).init then construct T s i a
    else (.unit, s)

/-- `assign(optional<U> const&)`, `assign(optional<U>&&)` (284-318) -/
def assignOther (T : TOps α) (s : St α) (i : Nat) (x : Option α) : Res α × St α :=
  if (s.obj i).init then
    match x with
    | some v => tAssign T s i (.lit v)
    | none => destroy s i
  else
    match x with
    | some v => construct T s i (.lit v)
    | none => (.unit, s)

/-- `assign(T const&)`, `assign(T&&)` (321-336) -/
def assignVal (T : TOps α) (s : St α) (i : Nat) (a : Src α) : Res α × St α :=
  if (s.obj i).init then tAssign T s i a else construct T s i a

/-- `emplace_assign` (402-407) -/
def emplace (T : TOps α) (s : St α) (i : Nat) (a : Src α) : Res α × St α :=
  match destroy s i with
  | (.unit, s) => construct T s i a
  | r => r

/-- A constructor: `m_initialized(false)`, then the body. If the body throws the variable does not come into being and its
destructor is not run. -/
def ctor (s : St α) (body : St α → Nat → Res α × St α) : Res α × St α :=
  finish s.vars.length (body { s with vars := s.vars ++ [some ⟨false, none⟩] } s.vars.length)
where
  finish (n : Nat) : Res α × St α → Res α × St α
    | (.unit, s) => (.unit, s)
    | (r, s) => (r, { s with vars := s.vars.take n })

/-- The local variable `n` goes out of scope, normally or because of an exception. -/
def unwind (r : Res α) (s : St α) (n : Nat) : Res α × St α :=
  match destroy s n with
  | (.unit, s) => (r, { s with vars := s.vars.take n })
  | r' => r'

/-- `optional_base(optional_base&&)` (206-212) -/
def moveCtor (T : TOps α) (s : St α) (j : Nat) : Res α × St α :=
  ctor s fun s n => if (s.obj j).init then construct T s n (.moveOf j) else (.unit, s)

/-- `std::swap(*this, rhs)`: `optional tmp(std::move(a)); a = std::move(b); b = std::move(tmp);` -/
def swap (T : TOps α) (s : St α) (i j : Nat) : Res α × St α :=
  let n := s.vars.length
  match moveCtor T s i with
  | (.unit, s) =>
      match assign T s i j (.moveOf j) with
      | (.unit, s) =>
          match assign T s j n (.moveOf n) with
          | (.unit, s) => unwind .unit s n
          | (.thrown, s) => unwind .thrown s n
          | r => r
      | (.thrown, s) => unwind .thrown s n
      | r => r
  | r => r

/-- A `T` outside of all optionals is constructed from `a`. -/
def fetch (T : TOps α) (s : St α) (a : Src α) : Res α × St α :=
  match s.look a with
  | none => (.ub, s)
  | some v =>
      match s.pop with
      | (some (_, y), s) => (.thrown, s.leave a y)
      | (none, s) => (.val v, s.leave a (T.mf v))

/-- All variables an operation names exist. -/
def St.exist (s : St α) (l : List Nat) : Bool := l.all fun i => (s.vars[i]?.join).isSome

/-- One operation. `none`: the program names a variable that does not exist. -/
def step (T : TOps α) (s : St α) (o : Op α) : Option (Res α × St α) :=
  if s.exist o.vars then
    some <| match o with
      | .mkNone => ctor s fun s _ => (.unit, s)
      | .mkVal a => ctor s fun s n => construct T s n a
      | .mkIf c a => ctor s fun s n => if c then construct T s n a else (.unit, s)
      | .mkOther x => ctor s fun s n => match x with | some v => construct T s n (.lit v) | none => (.unit, s)
      | .copy j => ctor s fun s n => if (s.obj j).init then construct T s n (.copyOf j) else (.unit, s)
      | .move j => moveCtor T s j
      | .dtor i =>
          match destroy s i with
          | (.unit, s) => (.unit, { s with vars := s.vars.set i none })
          | r => r
      | .copyAssign i j => assign T s i j (.copyOf j)
      | .moveAssign i j => assign T s i j (.moveOf j)
      | .assignOther i x => assignOther T s i x
      | .assignVal i a => assignVal T s i a
      | .reset i => destroy s i
      | .emplace i a => emplace T s i a
      | .swap i j => swap T s i j
      | .store i a => tAssign T s i a
      | .has i => (.bool (s.obj i).init, s)
      | .get i => ((s.obj i).cell.elim .ub .val, s)
      | .value i => if (s.obj i).init then ((s.obj i).cell.elim .ub .val, s) else (.badAccess, s)
      | .valueOr i v => if (s.obj i).init then fetch T s (.copyOf i) else fetch T s (.lit v)
      | .take i => if (s.obj i).init then fetch T s (.moveOf i) else (.badAccess, s)
      | .takeOr i v => if (s.obj i).init then fetch T s (.moveOf i) else fetch T s (.lit v)
  else none

/-! ### Proof that `optional_base` does what the specification says -/

/-- A flag is up iff there is an object. -/
def St.Good (s : St α) : Prop := ∀ o, some o ∈ s.vars → o.init = o.cell.isSome

/-- There is an object in the storage of this variable. -/
def live : Option (Obj α) → Bool
  | some o => o.cell.isSome
  | none => false

/-- Every `T` ever constructed has been destroyed or is in exactly one optional. -/
def St.Acct (s : St α) : Prop := s.made = s.died + s.vars.countP live

/-- The state of the specification that a state stands for. -/
def St.abs (s : St α) : Spec α := s.vars.map (Option.map Obj.cell)

/-- What is true between operations. -/
structure St.Ok (s : St α) : Prop where
  good : s.Good
  acct : s.Acct

theorem abs_len (s : St α) : s.abs.length = s.vars.length := by simp [St.abs]

theorem obj_of {s : St α} {i : Nat} {c : Option α} (h : s.abs[i]? = some (some c)) :
    s.vars[i]? = some (some (s.obj i)) ∧ (s.obj i).cell = c ∧ i < s.vars.length := by
  simp only [St.abs, List.getElem?_map, Option.map_eq_some_iff] at h
  obtain ⟨x, h1, o, rfl, h2⟩ := h
  have : s.obj i = o := by simp [St.obj, h1]
  rw [this]
  exact ⟨h1, h2, (List.getElem?_eq_some_iff.1 h1).1⟩

theorem init_of {s : St α} (g : s.Good) {i : Nat} {c : Option α} (h : s.abs[i]? = some (some c)) : (s.obj i).init = c.isSome := by
  obtain ⟨h1, h2, -⟩ := obj_of h
  rw [← h2]; exact g _ (List.mem_of_getElem? h1)

theorem abs_setCell (s : St α) (i : Nat) (c : Option α) : (s.setCell i c).abs = s.abs.set i (some c) := by
  simp [St.abs, St.setCell, List.map_set]

theorem abs_setInit {s : St α} {i : Nat} {b : Bool} {c : Option α} (h : s.abs[i]? = some (some c)) : (s.setInit i b).abs = s.abs := by
  obtain ⟨h1, h2, h3⟩ := obj_of h
  simp only [St.abs, St.setInit, List.map_set, Option.map_some]
  apply List.ext_getElem?
  intro k
  rw [List.getElem?_set]
  split
  · rename_i e; subst e
    rw [if_pos (by simpa using h3), List.getElem?_map, h1]; rfl
  · rfl

theorem countP_set_live {l : List (Option (Obj α))} {i : Nat} {x y : Option (Obj α)} (h : l[i]? = some x) :
    (l.set i y).countP live + (if live x then 1 else 0) = l.countP live + (if live y then 1 else 0) := by
  obtain ⟨hi, e⟩ := List.getElem?_eq_some_iff.1 h
  have h1 := List.countP_set (p := live) (a := y) hi
  rw [h1, e]
  split
  · have : 0 < l.countP live := List.countP_pos_iff.2 ⟨x, List.mem_of_getElem? h, by assumption⟩
    omega
  · omega

theorem pop_same (s : St α) : s.pop.2.vars = s.vars ∧ s.pop.2.made = s.made ∧ s.pop.2.died = s.died := ⟨rfl, rfl, rfl⟩

/-- The reference `a` is to a variable that exists. -/
def Names (m : Spec α) (a : Src α) : Prop := ∀ j, a = .copyOf j ∨ a = .moveOf j → ∃ c, m[j]? = some (some c)

theorem look_abs {s : St α} {a : Src α} (h : Names s.abs a) : s.look a = s.abs.look a := by
  cases a with
  | lit v => rfl
  | copyOf j =>
    obtain ⟨c, hc⟩ := h j (.inl rfl)
    simp [St.look, Spec.look, hc, (obj_of hc).2.1]
  | moveOf j =>
    obtain ⟨c, hc⟩ := h j (.inr rfl)
    simp [St.look, Spec.look, hc, (obj_of hc).2.1]

/-- Giving an existing object another value keeps everything in order. -/
theorem Ok.reval {s : St α} (ok : s.Ok) {i : Nat} {x y : α} (h : s.abs[i]? = some (some (some x))) : (s.setCell i (some y)).Ok := by
  obtain ⟨h1, h2, h3⟩ := obj_of h
  have hi := init_of ok.good h
  constructor
  · intro o ho
    rcases List.mem_or_eq_of_mem_set ho with ho | ho
    · exact ok.good o ho
    · injection ho with ho; subst ho; exact hi
  · have := countP_set_live (y := some (⟨(s.obj i).init, some y⟩ : Obj α)) h1
    have ha := ok.acct
    unfold St.Acct at ha ⊢
    simp only [St.setCell]
    simp [live, h2] at this
    omega

theorem Ok.pop {s : St α} (ok : s.Ok) : s.pop.2.Ok := ⟨ok.good, ok.acct⟩

theorem look_some {m : Spec α} {a : Src α} {v : α} (h : m.look a = some v) : ∀ j, a = .copyOf j ∨ a = .moveOf j →
    m[j]? = some (some (some v)) := by
  rintro j (rfl | rfl)
  all_goals
    simp only [Spec.look] at h
    cases e : m[j]? with
    | none => rw [e] at h; simp at h
    | some x =>
      rw [e] at h
      cases x with
      | none => simp at h
      | some c => simp at h; rw [h]

theorem leave_spec {s : St α} (ok : s.Ok) {a : Src α} {v x : α} (h : s.abs.look a = some v) :
    (s.leave a x).Ok ∧ (s.leave a x).abs = s.abs.leave a x ∧ (s.leave a x).made = s.made ∧ (s.leave a x).died = s.died := by
  cases a with
  | lit v => exact ⟨ok, rfl, rfl, rfl⟩
  | copyOf j => exact ⟨ok, rfl, rfl, rfl⟩
  | moveOf j => exact ⟨Ok.reval ok (look_some h j (.inr rfl)), abs_setCell _ _ _, rfl, rfl⟩

theorem leave_get {m : Spec α} {a : Src α} {x : α} {k : Nat} (hk : a ≠ .moveOf k) : (m.leave a x)[k]? = m[k]? := by
  cases a with
  | lit v => rfl
  | copyOf j => rfl
  | moveOf j =>
    simp only [Spec.leave]
    rw [List.getElem?_set_ne (by rintro rfl; exact hk rfl)]

theorem construct_spec {T : TOps α} {s : St α} (ok : s.Ok) {i : Nat} {a : Src α} {v : α} (hi : s.abs[i]? = some (some none))
    (hv : s.abs.look a = some v) : ∃ r s', construct T s i a = (r, s') ∧ s'.Ok ∧
      ((r = .unit ∧ s'.abs = (s.abs.leave a (T.mf v)).set i (some (some v))) ∨ (r = .thrown ∧ ∃ y, s'.abs = s.abs.leave a y)) := by
  have hn : Names s.abs a := fun j hj => ⟨_, look_some hv j hj⟩
  have hia : a ≠ .moveOf i := by
    rintro rfl
    have := look_some hv i (.inr rfl)
    rw [hi] at this; simp at this
  obtain ⟨h1, h2, h3⟩ := obj_of hi
  unfold construct tNew
  rw [look_abs hn, hv]
  simp only [h2, Option.isSome_none, Bool.false_eq_true, if_false]
  cases hf : s.pop.1 with
  | some f =>
    obtain ⟨x, y⟩ := f
    have e : s.pop = (some (x, y), s.pop.2) := by rw [← hf]
    rw [e]
    obtain ⟨l1, l2, -, -⟩ := leave_spec (x := y) (Ok.pop ok) hv
    exact ⟨.thrown, _, rfl, l1, .inr ⟨rfl, y, l2⟩⟩
  | none =>
    have e : s.pop = (none, s.pop.2) := by rw [← hf]
    rw [e]
    obtain ⟨l1, l2, l3, l4⟩ := leave_spec (x := T.mf v) (Ok.pop ok) hv
    refine ⟨.unit, _, rfl, ?_, .inl ⟨rfl, ?_⟩⟩
    · generalize (s.pop.2.leave a (T.mf v)) = s1 at *
      have g : s1.abs[i]? = some (some none) := by rw [l2, leave_get hia]; exact hi
      obtain ⟨k1, k2, k3⟩ := obj_of g
      have hobj : ∀ b m l, (({ (s1.setCell i (some v)) with made := m, hist := l }).setInit i b).vars = s1.vars.set i (some ⟨b, some v⟩) := by
        intro b m l
        simp [St.setInit, St.setCell, St.obj, k3]
      constructor
      · intro o ho
        rw [hobj] at ho
        rcases List.mem_or_eq_of_mem_set ho with ho | ho
        · exact l1.good o ho
        · injection ho with ho; subst ho; rfl
      · unfold St.Acct
        rw [hobj]
        have := countP_set_live (y := some (⟨true, some v⟩ : Obj α)) k1
        have ha := l1.acct
        unfold St.Acct at ha
        simp [live, k2] at this
        show s.pop.2.made + 1 = s1.died + _
        omega
    · rw [abs_setInit (c := some v)]
      · show (St.setCell _ i (some v)).abs = _
        rw [abs_setCell, l2]; rfl
      · show (St.setCell _ i (some v)).abs[i]? = _
        have : i < s.abs.length := by rw [abs_len]; exact h3
        rw [abs_setCell, l2, List.getElem?_set_self]
        cases a <;> simp [Spec.leave] <;> exact this

theorem destroy_spec {s : St α} (ok : s.Ok) {i : Nat} {c : Option α} (hi : s.abs[i]? = some (some c)) :
    ∃ s', destroy s i = (.unit, s') ∧ s'.Ok ∧ s'.abs = s.abs.set i (some none) := by
  obtain ⟨h1, h2, h3⟩ := obj_of hi
  have hin := init_of ok.good hi
  unfold destroy
  cases c with
  | none =>
    rw [hin]
    refine ⟨s, rfl, ok, ?_⟩
    apply List.ext_getElem?
    intro k
    rw [List.getElem?_set]
    split
    · rename_i e; subst e; rw [hi, abs_len, if_pos h3]
    · rfl
  | some v =>
    rw [hin]
    simp only [Option.isSome_some, if_true, tDel, h2]
    have hobj : ∀ m, (({ (s.setCell i none) with died := m }).setInit i false).vars = s.vars.set i (some ⟨false, none⟩) := by
      intro m
      simp [St.setInit, St.setCell, St.obj, h3]
    refine ⟨_, rfl, ⟨?_, ?_⟩, ?_⟩
    · intro o ho
      rw [hobj] at ho
      rcases List.mem_or_eq_of_mem_set ho with ho | ho
      · exact ok.good o ho
      · injection ho with ho; subst ho; rfl
    · unfold St.Acct
      rw [hobj]
      have := countP_set_live (y := some (⟨false, none⟩ : Obj α)) h1
      have ha := ok.acct
      unfold St.Acct at ha
      simp [live, h2] at this
      show s.made = s.died + 1 + _
      omega
    · simp only [St.abs, hobj, List.map_set]; rfl

theorem tAssign_spec {T : TOps α} {s : St α} (ok : s.Ok) {i : Nat} {a : Src α} {u v : α} (hi : s.abs[i]? = some (some (some u)))
    (hv : s.abs.look a = some v) : ∃ r s', tAssign T s i a = (r, s') ∧ s'.Ok ∧
      ((r = .unit ∧ s'.abs = s.abs.store T i a v) ∨ (r = .thrown ∧ ∃ x y, s'.abs = (s.abs.leave a y).set i (some (some x)))) := by
  have hn : Names s.abs a := fun j hj => ⟨_, look_some hv j hj⟩
  obtain ⟨h1, h2, h3⟩ := obj_of hi
  have get : ∀ x, ∃ z, (s.abs.leave a x)[i]? = some (some (some z)) := by
    intro x
    by_cases hia : a = .moveOf i
    · subst hia
      exact ⟨x, by simp [Spec.leave, abs_len, h3]⟩
    · exact ⟨u, by rw [leave_get hia]; exact hi⟩
  unfold tAssign
  rw [look_abs hn, hv, h2]
  simp only
  cases hf : s.pop.1 with
  | some f =>
    obtain ⟨x, y⟩ := f
    have e : s.pop = (some (x, y), s.pop.2) := by rw [← hf]
    rw [e]
    obtain ⟨l1, l2, -, -⟩ := leave_spec (x := y) (Ok.pop ok) hv
    obtain ⟨z, hz⟩ := get y
    refine ⟨.thrown, _, rfl, Ok.reval (x := z) l1 (by rw [l2]; exact hz), .inr ⟨rfl, x, y, ?_⟩⟩
    rw [abs_setCell, l2]; rfl
  | none =>
    have e : s.pop = (none, s.pop.2) := by rw [← hf]
    rw [e]
    simp only
    by_cases hia : a = .moveOf i
    · rw [← Src.moves_iff] at hia
      rw [if_pos hia]
      exact ⟨.unit, _, rfl, Ok.reval (x := u) (Ok.pop ok) hi, .inl ⟨rfl, by rw [abs_setCell]; unfold Spec.store; rw [if_pos hia]; rfl⟩⟩
    · rw [← Src.moves_iff] at hia
      rw [if_neg hia]
      obtain ⟨l1, l2, l3, l4⟩ := leave_spec (x := T.mf v) (Ok.pop ok) hv
      obtain ⟨z, hz⟩ := get (T.mf v)
      refine ⟨.unit, _, rfl, Ok.reval (x := z) l1 (by rw [l2]; exact hz), .inl ⟨rfl, ?_⟩⟩
      rw [abs_setCell, l2]; unfold Spec.store; rw [if_neg hia]; rfl

/-- The variable an rvalue argument may change. -/
def Src.hit : Src α → List Nat
  | .moveOf j => [j]
  | _ => []

theorem keeps_refl {m : Spec α} {S : List Nat} : m.Keeps m S := ⟨rfl, fun _ => ⟨rfl, fun _ => rfl⟩⟩

theorem keeps_trans {m m' m'' : Spec α} {S : List Nat} (h : m.Keeps m' S) (h' : m'.Keeps m'' S) : m.Keeps m'' S :=
  ⟨h'.1.trans h.1, fun k => ⟨(h'.2 k).1.trans (h.2 k).1, fun hk => ((h'.2 k).2 hk).trans ((h.2 k).2 hk)⟩⟩

theorem keeps_mono {m m' : Spec α} {S S' : List Nat} (h : m.Keeps m' S) (hs : ∀ x ∈ S, x ∈ S') : m.Keeps m' S' :=
  ⟨h.1, fun k => ⟨(h.2 k).1, fun hk => (h.2 k).2 fun hx => hk (hs k hx)⟩⟩

theorem keeps_set {m : Spec α} {i : Nat} {x y : α} (h : m[i]? = some (some (some x))) : m.Keeps (m.set i (some (some y))) [i] := by
  have hlt := (List.getElem?_eq_some_iff.1 h).1
  refine ⟨by simp, fun k => ⟨?_, fun hk => ?_⟩⟩
  · rw [List.getElem?_set]
    split
    · rename_i e; subst e; simp [h]
    · rfl
  · rw [List.getElem?_set_ne (by rintro rfl; simp at hk)]

theorem keeps_leave {m : Spec α} {a : Src α} {v y : α} (h : m.look a = some v) : m.Keeps (m.leave a y) a.hit := by
  cases a with
  | lit v => exact keeps_refl
  | copyOf j => exact keeps_refl
  | moveOf j => exact keeps_set (look_some h j (.inr rfl))

theorem keeps_at {m m' : Spec α} {S : List Nat} (h : m.Keeps m' S) {i : Nat} {c : Option α} (hi : m[i]? = some (some c)) :
    ∃ c', m'[i]? = some (some c') ∧ c'.isSome = c.isSome := by
  have := (h.2 i).1
  rw [hi] at this
  cases e : m'[i]? with
  | none => rw [e] at this; simp at this
  | some x =>
    rw [e] at this
    cases x with
    | none => simp at this
    | some c' => exact ⟨c', rfl, by simpa using this⟩

/-- After content `c` of variable `j` has been moved out. -/
def Spec.taken (T : TOps α) (m : Spec α) (j : Nat) : Option α → Spec α
  | some v => m.set j (some (some (T.mf v)))
  | none => m

/-- After content `d`, which `a` refers to, has been assigned to variable `i`. -/
def Spec.assigned (T : TOps α) (m : Spec α) (i : Nat) (a : Src α) : Option α → Spec α
  | some v => m.store T i a v
  | none => m.set i (some none)

theorem look_copy {m : Spec α} {j : Nat} {c : Option α} (h : m[j]? = some (some c)) :
    m.look (.copyOf j) = c ∧ m.look (.moveOf j) = c := by simp [Spec.look, h]

/-- `assignVal`, for an argument that refers to a value. -/
theorem assignVal_spec {T : TOps α} {s : St α} (ok : s.Ok) {i : Nat} {a : Src α} {c : Option α} {v : α}
    (hi : s.abs[i]? = some (some c)) (hv : s.abs.look a = some v) : ∃ r s', assignVal T s i a = (r, s') ∧ s'.Ok ∧
      ((r = .unit ∧ s'.abs = s.abs.store T i a v) ∨ (r = .thrown ∧ s.abs.Keeps s'.abs (i :: a.hit))) := by
  unfold assignVal
  rw [init_of ok.good hi]
  cases c with
  | none =>
    simp only [Option.isSome_none, Bool.false_eq_true, if_false]
    obtain ⟨r, s', h1, h2, h3⟩ := construct_spec (T := T) ok hi hv
    refine ⟨r, s', h1, h2, ?_⟩
    rcases h3 with ⟨rfl, h3⟩ | ⟨rfl, y, h3⟩
    · refine .inl ⟨rfl, ?_⟩
      have : a.moves i = false := by
        cases e : a.moves i with
        | false => rfl
        | true =>
          rw [Src.moves_iff] at e; subst e
          rw [(look_copy hi).2] at hv; cases hv
      rw [h3]; unfold Spec.store; rw [this]; rfl
    · refine .inr ⟨rfl, ?_⟩
      rw [h3]
      exact keeps_mono (keeps_leave hv) fun x hx => List.mem_cons_of_mem _ hx
  | some u =>
    simp only [Option.isSome_some, if_true]
    obtain ⟨r, s', h1, h2, h3⟩ := tAssign_spec (T := T) ok hi hv
    refine ⟨r, s', h1, h2, ?_⟩
    rcases h3 with ⟨rfl, h3⟩ | ⟨rfl, x, y, h3⟩
    · exact .inl ⟨rfl, h3⟩
    · refine .inr ⟨rfl, ?_⟩
      have k1 := keeps_leave (y := y) hv
      obtain ⟨c', g1, g2⟩ := keeps_at k1 hi
      rw [h3]
      cases c' with
      | none => cases g2
      | some z =>
        exact keeps_trans (keeps_mono k1 fun x hx => List.mem_cons_of_mem _ hx) (keeps_mono (keeps_set g1) (by simp))

theorem fetch_spec {T : TOps α} {s : St α} (ok : s.Ok) {a : Src α} {v : α} (hv : s.abs.look a = some v) :
    ∃ r s', fetch T s a = (r, s') ∧ s'.Ok ∧
      ((r = .val v ∧ s'.abs = s.abs.leave a (T.mf v)) ∨ (r = .thrown ∧ ∃ y, s'.abs = s.abs.leave a y)) := by
  have hn : Names s.abs a := fun j hj => ⟨_, look_some hv j hj⟩
  unfold fetch
  rw [look_abs hn, hv]
  cases hf : s.pop.1 with
  | some f =>
    obtain ⟨x, y⟩ := f
    have e : s.pop = (some (x, y), s.pop.2) := by rw [← hf]
    rw [e]
    obtain ⟨l1, l2, -, -⟩ := leave_spec (x := y) (Ok.pop ok) hv
    exact ⟨_, _, rfl, l1, .inr ⟨rfl, y, l2⟩⟩
  | none =>
    have e : s.pop = (none, s.pop.2) := by rw [← hf]
    rw [e]
    obtain ⟨l1, l2, -, -⟩ := leave_spec (x := T.mf v) (Ok.pop ok) hv
    exact ⟨_, _, rfl, l1, .inl ⟨rfl, l2⟩⟩

/-- `assign` from the optional `j`, whose content is the argument. -/
theorem assign_spec {T : TOps α} {s : St α} (ok : s.Ok) {i j : Nat} {a : Src α} (ha : a = .copyOf j ∨ a = .moveOf j)
    {c d : Option α} (hi : s.abs[i]? = some (some c)) (hj : s.abs[j]? = some (some d)) :
    ∃ r s', assign T s i j a = (r, s') ∧ s'.Ok ∧
      ((r = .unit ∧ s'.abs = s.abs.assigned T i a d) ∨
       (r = .thrown ∧ s.abs.Keeps s'.abs (i :: a.hit))) := by
  have hl : s.abs.look a = d := by
    rcases ha with rfl | rfl
    · exact (look_copy hj).1
    · exact (look_copy hj).2
  cases d with
  | some v =>
    have : assign T s i j a = assignVal T s i a := by
      unfold assign assignVal
      rw [init_of ok.good hj]; rfl
    rw [this]
    exact assignVal_spec ok hi hl
  | none =>
    obtain ⟨s', h1, h2, h3⟩ := destroy_spec ok hi
    have : assign T s i j a = (.unit, s') := by
      unfold assign
      rw [init_of ok.good hj]
      simp only [Option.isSome_none, Bool.false_eq_true, if_false]
      split
      · exact h1
      · rename_i hn
        unfold destroy at h1
        rw [if_neg hn] at h1
        exact h1
    rw [this]
    exact ⟨_, _, rfl, h2, .inl ⟨rfl, h3⟩⟩

/-! #### Constructors -/

/-- A variable under construction. -/
def St.more (s : St α) : St α := { s with vars := s.vars ++ [some ⟨false, none⟩] }

theorem more_spec {s : St α} (ok : s.Ok) : s.more.Ok ∧ s.more.abs = s.abs ++ [some none] := by
  refine ⟨⟨?_, ?_⟩, by simp [St.more, St.abs]⟩
  · intro o ho
    rcases List.mem_append.1 ho with ho | ho
    · exact ok.good o ho
    · simp at ho; subst ho; rfl
  · have := ok.acct
    unfold St.Acct at *
    simp [St.more, live, this]

theorem less_spec {s : St α} (ok : s.Ok) {m : Spec α} (h : s.abs = m ++ [some none]) :
    ({ s with vars := s.vars.take m.length } : St α).Ok ∧ ({ s with vars := s.vars.take m.length } : St α).abs = m := by
  have hv : s.vars.length = m.length + 1 := by rw [← abs_len, h]; simp
  have hlast : ∃ o, s.vars = s.vars.take m.length ++ [some o] ∧ o.cell = none := by
    have h1 : s.abs[m.length]? = some (some none) := by rw [h]; simp
    obtain ⟨h2, h3, h4⟩ := obj_of h1
    refine ⟨s.obj m.length, ?_, h3⟩
    have h5 := (List.getElem?_eq_some_iff.1 h2).2
    have : s.vars.drop m.length = [some (s.obj m.length)] := by
      rw [List.drop_eq_getElem_cons h4, h5, List.drop_eq_nil_of_le (by omega)]
    rw [← this]; exact (List.take_append_drop _ _).symm
  obtain ⟨o, h1, h2⟩ := hlast
  refine ⟨⟨fun x hx => ok.good x (List.mem_of_mem_take hx), ?_⟩, ?_⟩
  · have := ok.acct
    unfold St.Acct at *
    rw [h1] at this
    simpa [live, h2] using this
  · simp only [St.abs, List.map_take]
    rw [show s.vars.map (Option.map Obj.cell) = s.abs from rfl, h]; simp

theorem look_more {m : Spec α} {a : Src α} {x : Option (Option α)} (h : Names m a) : (m ++ [x]).look a = m.look a := by
  have lt : ∀ j, a = .copyOf j ∨ a = .moveOf j → j < m.length := fun j hj =>
    (List.getElem?_eq_some_iff.1 (h j hj).choose_spec).1
  cases a with
  | lit v => rfl
  | copyOf j => simp only [Spec.look]; rw [List.getElem?_append_left (lt j (.inl rfl))]
  | moveOf j => simp only [Spec.look]; rw [List.getElem?_append_left (lt j (.inr rfl))]

theorem leave_more {m : Spec α} {a : Src α} {x : Option (Option α)} {y : α} (h : Names m a) :
    (m ++ [x]).leave a y = m.leave a y ++ [x] := by
  have lt : ∀ j, a = .copyOf j ∨ a = .moveOf j → j < m.length := fun j hj =>
    (List.getElem?_eq_some_iff.1 (h j hj).choose_spec).1
  cases a with
  | lit v => rfl
  | copyOf j => rfl
  | moveOf j => simp only [Spec.leave]; rw [List.set_append_left _ _ (lt j (.inr rfl))]

theorem leave_len {m : Spec α} {a : Src α} {y : α} : (m.leave a y).length = m.length := by cases a <;> simp [Spec.leave]

/-- The new variable is constructed from `a`. -/
theorem ctor_construct {T : TOps α} {s : St α} (ok : s.Ok) {a : Src α} {v : α} {body : St α → Nat → Res α × St α}
    (hb : body s.more s.vars.length = construct T s.more s.vars.length a)
    (hv : s.abs.look a = some v) : ∃ r s', ctor s body = (r, s') ∧ s'.Ok ∧
      ((r = .unit ∧ s'.abs = s.abs.leave a (T.mf v) ++ [some (some v)]) ∨ (r = .thrown ∧ ∃ y, s'.abs = s.abs.leave a y)) := by
  have hn : Names s.abs a := fun j hj => ⟨_, look_some hv j hj⟩
  obtain ⟨m1, m2⟩ := more_spec ok
  obtain ⟨r, s', h1, h2, h3⟩ := construct_spec (T := T) (i := s.vars.length) (a := a) (v := v) m1
    (by rw [m2, ← abs_len]; simp) (by rw [m2, look_more hn, hv])
  have e : ctor s body = ctor.finish s.vars.length (r, s') := by
    rw [← h1, ← hb]; rfl
  rcases h3 with ⟨rfl, h3⟩ | ⟨rfl, y, h3⟩
  · refine ⟨.unit, s', e, h2, .inl ⟨rfl, ?_⟩⟩
    rw [h3, m2, leave_more hn, ← abs_len, ← leave_len (a := a) (y := T.mf v) (m := s.abs)]
    simp
  · rw [m2, leave_more hn] at h3
    obtain ⟨k1, k2⟩ := less_spec h2 h3
    rw [leave_len, abs_len] at k1 k2
    exact ⟨.thrown, _, e, k1, .inr ⟨rfl, y, k2⟩⟩

/-- The new variable is disengaged. -/
theorem ctor_skip {s : St α} (ok : s.Ok) {body : St α → Nat → Res α × St α} (hb : body s.more s.vars.length = (.unit, s.more)) :
    ∃ s', ctor s body = (.unit, s') ∧ s'.Ok ∧ s'.abs = s.abs ++ [some none] := by
  have e : ctor s body = (.unit, s.more) := by
    unfold ctor
    show ctor.finish _ (body s.more s.vars.length) = _
    rw [hb]; rfl
  exact ⟨_, e, more_spec ok⟩

/-- The argument does not refer to anything. -/
theorem ctor_ub {T : TOps α} {s : St α} (ok : s.Ok) {a : Src α} {body : St α → Nat → Res α × St α}
    (hb : body s.more s.vars.length = construct T s.more s.vars.length a) (hn : Names s.abs a)
    (hv : s.abs.look a = none) : ∃ s', ctor s body = (.ub, s') ∧ s'.Ok ∧ s'.abs = s.abs := by
  obtain ⟨m1, m2⟩ := more_spec ok
  have hn' : Names s.more.abs a := fun j hj => by
    obtain ⟨c, hc⟩ := hn j hj
    exact ⟨c, by rw [m2, List.getElem?_append_left (List.getElem?_eq_some_iff.1 hc).1, hc]⟩
  have : construct T s.more s.vars.length a = (.ub, s.more) := by
    unfold construct tNew
    rw [look_abs hn', m2, look_more hn, hv]
  have e : ctor s body = (.ub, { s.more with vars := s.more.vars.take s.vars.length }) := by
    unfold ctor
    show ctor.finish _ (body s.more s.vars.length) = _
    rw [hb, this]; rfl
  obtain ⟨k1, k2⟩ := less_spec m1 m2
  rw [abs_len] at k1 k2
  exact ⟨_, e, k1, k2⟩

theorem moveCtor_spec {T : TOps α} {s : St α} (ok : s.Ok) {j : Nat} {c : Option α} (hj : s.abs[j]? = some (some c)) :
    ∃ r s', moveCtor T s j = (r, s') ∧ s'.Ok ∧
      ((r = .unit ∧ s'.abs = s.abs.taken T j c ++ [some c]) ∨
       (r = .thrown ∧ s.abs.Keeps s'.abs [j])) := by
  obtain ⟨m1, m2⟩ := more_spec ok
  have hj' : s.more.abs[j]? = some (some c) := by
    rw [m2, List.getElem?_append_left (List.getElem?_eq_some_iff.1 hj).1, hj]
  have hin := init_of m1.good hj'
  unfold moveCtor
  cases c with
  | some v =>
    obtain ⟨r, s', h1, h2, h3⟩ := ctor_construct (T := T) (v := v) (a := .moveOf j)
      (body := fun s n => if (s.obj j).init then construct T s n (.moveOf j) else (.unit, s)) ok
      (by simp only [hin]; rfl) (look_copy hj).2
    refine ⟨r, s', h1, h2, ?_⟩
    rcases h3 with ⟨rfl, h3⟩ | ⟨rfl, y, h3⟩
    · exact .inl ⟨rfl, h3⟩
    · exact .inr ⟨rfl, by rw [h3]; exact keeps_leave (look_copy hj).2⟩
  | none =>
    obtain ⟨s', h1, h2, h3⟩ := ctor_skip
      (body := fun s n => if (s.obj j).init then construct T s n (.moveOf j) else (.unit, s)) ok
      (by simp only [hin]; rfl)
    exact ⟨_, s', h1, h2, .inl ⟨rfl, h3⟩⟩

/-- The local variable at the end of the list goes away. -/
theorem unwind_spec {s : St α} (ok : s.Ok) {m : Spec α} {c : Option α} {r : Res α} (h : s.abs = m ++ [some c]) :
    ∃ s', unwind r s m.length = (r, s') ∧ s'.Ok ∧ s'.abs = m := by
  obtain ⟨s', h1, h2, h3⟩ := destroy_spec (i := m.length) (c := c) ok (by rw [h]; simp)
  have : s'.abs = m ++ [some none] := by rw [h3, h]; simp
  obtain ⟨k1, k2⟩ := less_spec h2 this
  unfold unwind
  rw [h1]
  exact ⟨_, rfl, k1, k2⟩

/-! #### Swap -/

/-- The same variables exist, those outside of `S` have not changed. -/
def Frame (m m' : Spec α) (S : List Nat) : Prop :=
  m'.length = m.length ∧ ∀ k : Nat, (m'[k]?.map Option.isSome) = (m[k]?.map Option.isSome) ∧ (k ∉ S → m'[k]? = m[k]?)

theorem frame_trans {m m' m'' : Spec α} {S : List Nat} (h : Frame m m' S) (h' : Frame m' m'' S) : Frame m m'' S :=
  ⟨h'.1.trans h.1, fun k => ⟨(h'.2 k).1.trans (h.2 k).1, fun hk => ((h'.2 k).2 hk).trans ((h.2 k).2 hk)⟩⟩

theorem frame_keeps {m m' : Spec α} {S : List Nat} (h : m.Keeps m' S) : Frame m m' S := by
  refine ⟨h.1, fun k => ⟨?_, (h.2 k).2⟩⟩
  have := (h.2 k).1
  cases e : m[k]? <;> cases e' : m'[k]? <;> rw [e, e'] at this <;> simp at this ⊢
  rename_i x y
  cases x <;> cases y <;> simp at this ⊢

theorem frame_set {m : Spec α} {i : Nat} {c d : Option α} {S : List Nat} (h : m[i]? = some (some c)) (hi : i ∈ S) :
    Frame m (m.set i (some d)) S := by
  refine ⟨by simp, fun k => ⟨?_, fun hk => ?_⟩⟩
  · rw [List.getElem?_set]
    split
    · rename_i e; subst e; rw [h]; simp [(List.getElem?_eq_some_iff.1 h).1]
    · rfl
  · rw [List.getElem?_set_ne (by rintro rfl; exact hk hi)]

theorem frame_at {m m' : Spec α} {S : List Nat} (h : Frame m m' S) {i : Nat} {c : Option α} (hi : m[i]? = some (some c)) :
    ∃ c', m'[i]? = some (some c') := by
  have := (h.2 i).1
  rw [hi] at this
  cases e : m'[i]? with
  | none => rw [e] at this; simp at this
  | some x =>
    rw [e] at this
    cases x with
    | none => simp at this
    | some c' => exact ⟨c', rfl⟩

theorem split_last {m : Spec α} {n : Nat} {c : Option α} (hn : m.length = n + 1) (h : m[n]? = some (some c)) :
    m = m.take n ++ [some c] := by
  have hlt := (List.getElem?_eq_some_iff.1 h)
  have : m.drop n = [some c] := by
    rw [List.drop_eq_getElem_cons hlt.1, hlt.2, List.drop_eq_nil_of_le (by omega)]
  rw [← this]; exact (List.take_append_drop _ _).symm

/-- A frame around one more variable. -/
theorem frame_less {m m' : Spec α} {S : List Nat} {x : Option (Option α)} (h : Frame (m ++ [x]) m' S) :
    Frame m (m'.take m.length) S := by
  have hl := h.1
  simp only [List.length_append, List.length_cons, List.length_nil] at hl
  refine ⟨by simp; omega, fun k => ?_⟩
  rw [List.getElem?_take]
  split
  · rename_i hk
    have := h.2 k
    rwa [List.getElem?_append_left hk] at this
  · rename_i hk
    rw [List.getElem?_eq_none (by omega)]; simp

theorem store_more {T : TOps α} {m : Spec α} {i : Nat} {a : Src α} {v : α} {x : Option (Option α)} (hi : i < m.length)
    (h : Names m a) : (m ++ [x]).store T i a v = m.store T i a v ++ [x] := by
  unfold Spec.store
  split
  · rw [List.set_append_left _ _ hi]
  · rw [leave_more h, List.set_append_left _ _ (by rw [leave_len]; exact hi)]

theorem swap_spec {T : TOps α} {s : St α} (ok : s.Ok) {i j : Nat} {c d : Option α}
    (hi : s.abs[i]? = some (some c)) (hj : s.abs[j]? = some (some d)) :
    ∃ r s', swap T s i j = (r, s') ∧ s'.Ok ∧
      ((r = .unit ∧ s'.abs = (s.abs.set i (some d)).set j (some c)) ∨ (r = .thrown ∧ Frame s.abs s'.abs [i, j])) := by
  have li := (List.getElem?_eq_some_iff.1 hi).1
  have lj := (List.getElem?_eq_some_iff.1 hj).1
  obtain ⟨r1, s1, e1, o1, h1⟩ := moveCtor_spec (T := T) ok hi
  unfold swap
  rw [e1]
  rcases h1 with ⟨rfl, h1⟩ | ⟨rfl, h1⟩
  · -- after the first move
    simp only
    generalize hm1 : s.abs.taken T i c = m1 at h1
    have f1 : Frame s.abs m1 [i, j] := by
      rw [← hm1]
      cases c with
      | none => exact frame_keeps keeps_refl
      | some v => exact frame_set hi (by simp)
    obtain ⟨c1, hi1⟩ := frame_at f1 hi
    obtain ⟨d1, hj1⟩ := frame_at f1 hj
    have n1 : m1.length = s.vars.length := by rw [f1.1, abs_len]
    have li1 := (List.getElem?_eq_some_iff.1 hi1).1
    have lj1 := (List.getElem?_eq_some_iff.1 hj1).1
    obtain ⟨r2, s2, e2, o2, h2⟩ := assign_spec (T := T) (a := .moveOf j) o1 (.inr rfl) (i := i) (j := j) (c := c1) (d := d1)
      (by rw [h1, List.getElem?_append_left li1, hi1]) (by rw [h1, List.getElem?_append_left lj1, hj1])
    rw [e2]
    rcases h2 with ⟨rfl, h2⟩ | ⟨rfl, h2⟩
    · simp only
      have hnm : Names m1 (.moveOf j) := by rintro k (hk | hk) <;> cases hk; exact ⟨d1, hj1⟩
      have h2' : s2.abs = m1.assigned T i (.moveOf j) d1 ++ [some c] := by
        rw [h2, h1]
        cases d1 with
        | some v => exact store_more li1 hnm
        | none => simp only [Spec.assigned]; rw [List.set_append_left _ _ li1]
      generalize hm2 : m1.assigned T i (.moveOf j) d1 = m2 at h2'
      have n2 : m2.length = s.vars.length := by
        rw [← hm2, ← n1]
        cases d1 with
        | none => simp [Spec.assigned]
        | some v => simp only [Spec.assigned, Spec.store]; split <;> simp [leave_len]
      have f2 : Frame m1 m2 [i, j] := by
        rw [← hm2]
        cases d1 with
        | none => exact frame_set hi1 (by simp)
        | some v =>
          simp only [Spec.assigned, Spec.store]
          split
          · exact frame_set hi1 (by simp)
          · have k := frame_set (S := [i, j]) (d := some (T.mf v)) hj1 (by simp)
            obtain ⟨c', hc'⟩ := frame_at k hi1
            exact frame_trans k (frame_set hc' (by simp))
      obtain ⟨d2, hj2⟩ := frame_at f2 hj1
      have lj2 := (List.getElem?_eq_some_iff.1 hj2).1
      obtain ⟨r3, s3, e3, o3, h3⟩ := assign_spec (T := T) (a := .moveOf s.vars.length) o2 (.inr rfl) (i := j) (j := s.vars.length)
        (c := d2) (d := c)
        (by rw [h2', List.getElem?_append_left lj2, hj2]) (by rw [h2', ← n2]; simp)
      rw [e3]
      rcases h3 with ⟨rfl, h3⟩ | ⟨rfl, h3⟩
      · simp only
        have h3' : ∃ c', s3.abs = m2.set j (some c) ++ [some c'] := by
          rw [h3, h2']
          cases c with
          | some v =>
            refine ⟨some (T.mf v), ?_⟩
            have hne : (Src.moveOf s.vars.length : Src α).moves j = false := by simp [Src.moves]; omega
            simp only [Spec.assigned, Spec.store, hne, Bool.false_eq_true, if_false, Spec.leave]
            rw [← n2, List.set_append_right _ _ (Nat.le_refl _)]
            simp only [Nat.sub_self, List.set_cons_zero]
            rw [List.set_append_left _ _ lj2]
          | none => exact ⟨none, by simp only [Spec.assigned]; rw [List.set_append_left _ _ lj2]⟩
        obtain ⟨c', h3'⟩ := h3'
        obtain ⟨s4, e4, o4, h4⟩ := unwind_spec (r := .unit) o3 h3'
        rw [List.length_set, n2] at e4
        refine ⟨_, s4, e4, o4, .inl ⟨rfl, ?_⟩⟩
        rw [h4, ← hm2, ← hm1]
        by_cases hij : i = j
        · subst hij
          rw [hi] at hj; injection hj with hj; injection hj with hj; subst hj
          cases d1 <;> cases c <;> simp [Spec.assigned, Spec.taken, Spec.store, Src.moves]
        · have hd : d1 = d := by
            have : m1[j]? = s.abs[j]? := by
              rw [← hm1]
              cases c with
              | none => rfl
              | some v => simp only [Spec.taken]; rw [List.getElem?_set_ne hij]
            rw [hj1, hj] at this; simpa using this
          subst hd
          have hne : (Src.moveOf j : Src α).moves i = false := by simp [Src.moves]; omega
          apply List.ext_getElem?
          intro k
          cases d1 <;> cases c <;> simp only [Spec.assigned, Spec.taken, Spec.store, hne, Bool.false_eq_true, if_false, Spec.leave, List.getElem?_set,
            List.length_set] <;> by_cases h5 : j = k <;> by_cases h6 : i = k <;> simp only [h5, h6, if_true, if_false]
      · simp only
        have f3 : Frame (m2 ++ [some c]) s3.abs [i, j, s.vars.length] := by
          rw [← h2']
          exact frame_keeps (keeps_mono h3 (by simp [Src.hit]))
        obtain ⟨c', hc'⟩ := frame_at f3 (i := s.vars.length) (c := c) (by rw [← n2]; simp)
        have hs3 := split_last (by rw [f3.1]; simp [n2]) hc'
        obtain ⟨s4, e4, o4, h4⟩ := unwind_spec (r := .thrown) o3 hs3
        have hlen : (s3.abs.take s.vars.length).length = s.vars.length := by simp [f3.1, n2]
        rw [hlen] at e4
        refine ⟨_, s4, e4, o4, .inr ⟨rfl, ?_⟩⟩
        rw [h4]
        have f3' : Frame m2 (s3.abs.take s.vars.length) [i, j] := by
          have := frame_less f3
          rw [n2] at this
          refine ⟨this.1, fun k => ⟨(this.2 k).1, fun hk => ?_⟩⟩
          by_cases hkn : k = s.vars.length
          · subst hkn
            rw [List.getElem?_eq_none (by omega), List.getElem?_eq_none (by omega)]
          · exact (this.2 k).2 (by simp at hk ⊢; exact ⟨hk.1, hk.2, hkn⟩)
        exact frame_trans f1 (frame_trans f2 f3')
    · simp only
      have f2 : Frame (m1 ++ [some c]) s2.abs [i, j] := by
        rw [← h1]; exact frame_keeps h2
      obtain ⟨c', hc'⟩ := frame_at f2 (i := s.vars.length) (c := c) (by rw [← n1]; simp)
      have hs2 := split_last (by rw [f2.1]; simp [n1]) hc'
      obtain ⟨s4, e4, o4, h4⟩ := unwind_spec (r := .thrown) o2 hs2
      have hlen : (s2.abs.take s.vars.length).length = s.vars.length := by simp [f2.1, n1]
      rw [hlen] at e4
      refine ⟨_, s4, e4, o4, .inr ⟨rfl, ?_⟩⟩
      rw [h4]
      have := frame_less f2
      rw [n1] at this
      exact frame_trans f1 this
  · exact ⟨_, s1, rfl, o1, .inr ⟨rfl, frame_keeps (keeps_mono h1 (by simp))⟩⟩

theorem exist_at {s : St α} {l : List Nat} (h : s.exist l = true) {i : Nat} (hi : i ∈ l) : ∃ c, s.abs[i]? = some (some c) := by
  have := List.all_eq_true.1 h i hi
  cases e : s.vars[i]? with
  | none => rw [e] at this; simp at this
  | some x =>
    rw [e] at this
    cases x with
    | none => simp at this
    | some o => exact ⟨o.cell, by simp [St.abs, e]⟩

theorem exist_names {s : St α} {l : List Nat} (h : s.exist l = true) {a : Src α} (ha : ∀ j ∈ a.vars, j ∈ l) : Names s.abs a := by
  rintro j (rfl | rfl) <;> exact exist_at h (ha j (by simp [Src.vars]))

/-- Every operation keeps the storages in order, and has the result and the effect the specification gives, unless an
operation of `T` throws, and then it leaves what the specification says. -/
theorem step_spec {T : TOps α} {s s' : St α} {o : Op α} {r : Res α} (ok : s.Ok) (h : step T s o = some (r, s')) :
    s'.Ok ∧ ((r, s'.abs) = s.abs.next T o ∨ (r = .thrown ∧ s.abs.threw o s'.abs)) := by
  unfold step at h
  split at h
  case isFalse => cases h
  rename_i hex
  injection h with h
  obtain ⟨m1, m2⟩ := more_spec ok
  have more_at : ∀ {j c}, s.abs[j]? = some (some c) → (s.more.obj j).init = c.isSome := by
    intro j c hj
    exact init_of m1.good (by rw [m2, List.getElem?_append_left (List.getElem?_eq_some_iff.1 hj).1, hj])
  cases o with
  | mkNone =>
    obtain ⟨s1, e, h1, h2⟩ := ctor_skip (body := fun s _ => (.unit, s)) ok rfl
    simp only [e, Prod.mk.injEq] at h
    obtain ⟨rfl, rfl⟩ := h
    exact ⟨h1, .inl (by rw [h2]; rfl)⟩
  | mkVal a =>
    have hn := exist_names hex (a := a) (fun j hj => hj)
    cases hv : s.abs.look a with
    | none =>
      obtain ⟨s1, e, h1, h2⟩ := ctor_ub (T := T) (body := fun s n => construct T s n a) ok rfl hn hv
      simp only [e, Prod.mk.injEq] at h
      obtain ⟨rfl, rfl⟩ := h
      exact ⟨h1, .inl (by simp only [Spec.next, hv, h2])⟩
    | some v =>
      obtain ⟨r1, s1, e, h1, h2⟩ := ctor_construct (T := T) (body := fun s n => construct T s n a) ok rfl hv
      simp only [e, Prod.mk.injEq] at h
      obtain ⟨rfl, rfl⟩ := h
      refine ⟨h1, ?_⟩
      rcases h2 with ⟨rfl, h2⟩ | ⟨rfl, y, h2⟩
      · exact .inl (by simp only [Spec.next, hv, h2])
      · refine .inr ⟨rfl, ?_⟩
        rw [h2]; exact keeps_leave hv
  | mkIf c a =>
    have hn := exist_names hex (a := a) (fun j hj => hj)
    cases c with
    | false =>
      obtain ⟨s1, e, h1, h2⟩ := ctor_skip (body := fun s n => if false = true then construct T s n a else (.unit, s)) ok rfl
      simp only [e, Prod.mk.injEq] at h
      obtain ⟨rfl, rfl⟩ := h
      exact ⟨h1, .inl (by rw [h2]; rfl)⟩
    | true =>
      cases hv : s.abs.look a with
      | none =>
        obtain ⟨s1, e, h1, h2⟩ := ctor_ub (T := T) (body := fun s n => construct T s n a) ok rfl hn hv
        simp only [if_true, e, Prod.mk.injEq] at h
        obtain ⟨rfl, rfl⟩ := h
        exact ⟨h1, .inl (by simp only [Spec.next, hv, h2, if_true])⟩
      | some v =>
        obtain ⟨r1, s1, e, h1, h2⟩ := ctor_construct (T := T) (body := fun s n => construct T s n a) ok rfl hv
        simp only [if_true, e, Prod.mk.injEq] at h
        obtain ⟨rfl, rfl⟩ := h
        refine ⟨h1, ?_⟩
        rcases h2 with ⟨rfl, h2⟩ | ⟨rfl, y, h2⟩
        · exact .inl (by simp only [Spec.next, hv, h2, if_true])
        · refine .inr ⟨rfl, ?_⟩
          rw [h2]; exact keeps_leave hv
  | mkOther x =>
    cases x with
    | none =>
      obtain ⟨s1, e, h1, h2⟩ := ctor_skip (body := fun s n => match (none : Option α) with | some v => construct T s n (.lit v) | none => (.unit, s)) ok rfl
      simp only at h e
      simp only [e, Prod.mk.injEq] at h
      obtain ⟨rfl, rfl⟩ := h
      exact ⟨h1, .inl (by rw [h2]; rfl)⟩
    | some v =>
      obtain ⟨r1, s1, e, h1, h2⟩ := ctor_construct (T := T) (a := .lit v) (v := v)
        (body := fun s n => construct T s n (.lit v)) ok rfl rfl
      simp only at h
      simp only [e, Prod.mk.injEq] at h
      obtain ⟨rfl, rfl⟩ := h
      refine ⟨h1, ?_⟩
      rcases h2 with ⟨rfl, h2⟩ | ⟨rfl, y, h2⟩
      · exact .inl (by rw [h2]; rfl)
      · exact .inr ⟨rfl, h2⟩
  | copy j =>
    obtain ⟨c, hc⟩ := exist_at hex (i := j) (by simp [Op.vars])
    have hin := more_at hc
    cases c with
    | none =>
      obtain ⟨s1, e, h1, h2⟩ := ctor_skip
        (body := fun s n => if (s.obj j).init then construct T s n (.copyOf j) else (.unit, s)) ok (by simp only [hin]; rfl)
      simp only [e, Prod.mk.injEq] at h
      obtain ⟨rfl, rfl⟩ := h
      exact ⟨h1, .inl (by simp only [Spec.next, (look_copy hc).1, h2])⟩
    | some v =>
      obtain ⟨r1, s1, e, h1, h2⟩ := ctor_construct (T := T) (a := .copyOf j) (v := v)
        (body := fun s n => if (s.obj j).init then construct T s n (.copyOf j) else (.unit, s)) ok (by simp only [hin]; rfl)
        (look_copy hc).1
      simp only [e, Prod.mk.injEq] at h
      obtain ⟨rfl, rfl⟩ := h
      refine ⟨h1, ?_⟩
      rcases h2 with ⟨rfl, h2⟩ | ⟨rfl, y, h2⟩
      · exact .inl (by simp only [Spec.next, (look_copy hc).1, h2]; rfl)
      · exact .inr ⟨rfl, h2⟩
  | move j =>
    obtain ⟨c, hc⟩ := exist_at hex (i := j) (by simp [Op.vars])
    obtain ⟨r1, s1, e, h1, h2⟩ := moveCtor_spec (T := T) ok hc
    simp only [e, Prod.mk.injEq] at h
    obtain ⟨rfl, rfl⟩ := h
    refine ⟨h1, ?_⟩
    rcases h2 with ⟨rfl, h2⟩ | ⟨rfl, h2⟩
    · refine .inl ?_
      rw [h2]
      cases c with
      | none => simp only [Spec.next, (look_copy hc).2]; rfl
      | some v => simp only [Spec.next, (look_copy hc).2]; rfl
    · exact .inr ⟨rfl, h2⟩
  | dtor i =>
    obtain ⟨c, hc⟩ := exist_at hex (i := i) (by simp [Op.vars])
    obtain ⟨s1, e, h1, h2⟩ := destroy_spec ok hc
    simp only [e, Prod.mk.injEq] at h
    obtain ⟨rfl, rfl⟩ := h
    have hlt : i < s1.abs.length := by rw [h2]; simpa using (List.getElem?_eq_some_iff.1 hc).1
    have hat : s1.abs[i]? = some (some none) := by
      rw [h2, List.getElem?_set_self]
      simpa using (List.getElem?_eq_some_iff.1 hc).1
    obtain ⟨k1, k2, k3⟩ := obj_of hat
    refine ⟨⟨?_, ?_⟩, .inl ?_⟩
    · intro o ho
      rcases List.mem_or_eq_of_mem_set ho with ho | ho
      · exact h1.good o ho
      · cases ho
    · have := countP_set_live (y := (none : Option (Obj α))) k1
      have ha := h1.acct
      unfold St.Acct at *
      simp [live, k2] at this
      simp only
      omega
    · simp only [Spec.next, St.abs, List.map_set]
      have : s1.vars.map (Option.map Obj.cell) = s.abs.set i (some none) := h2
      rw [this, List.set_set]; rfl
  | copyAssign i j =>
    obtain ⟨c, hc⟩ := exist_at hex (i := i) (by simp [Op.vars])
    obtain ⟨d, hd⟩ := exist_at hex (i := j) (by simp [Op.vars])
    obtain ⟨r1, s1, e, h1, h2⟩ := assign_spec (T := T) (a := .copyOf j) ok (.inl rfl) hc hd
    simp only [e, Prod.mk.injEq] at h
    obtain ⟨rfl, rfl⟩ := h
    refine ⟨h1, ?_⟩
    rcases h2 with ⟨rfl, h2⟩ | ⟨rfl, h2⟩
    · refine .inl ?_
      rw [h2]
      cases d with
      | none => simp only [Spec.next, (look_copy hd).1]; rfl
      | some v => simp only [Spec.next, (look_copy hd).1]; rfl
    · exact .inr ⟨rfl, h2⟩
  | moveAssign i j =>
    obtain ⟨c, hc⟩ := exist_at hex (i := i) (by simp [Op.vars])
    obtain ⟨d, hd⟩ := exist_at hex (i := j) (by simp [Op.vars])
    obtain ⟨r1, s1, e, h1, h2⟩ := assign_spec (T := T) (a := .moveOf j) ok (.inr rfl) hc hd
    simp only [e, Prod.mk.injEq] at h
    obtain ⟨rfl, rfl⟩ := h
    refine ⟨h1, ?_⟩
    rcases h2 with ⟨rfl, h2⟩ | ⟨rfl, h2⟩
    · refine .inl ?_
      rw [h2]
      cases d with
      | none => simp only [Spec.next, (look_copy hd).2]; rfl
      | some v => simp only [Spec.next, (look_copy hd).2]; rfl
    · exact .inr ⟨rfl, h2⟩
  | assignOther i x =>
    obtain ⟨c, hc⟩ := exist_at hex (i := i) (by simp [Op.vars])
    cases x with
    | none =>
      obtain ⟨s1, e, h1, h2⟩ := destroy_spec ok hc
      have : assignOther T s i none = destroy s i := by unfold assignOther destroy; split <;> rfl
      simp only [this, e, Prod.mk.injEq] at h
      obtain ⟨rfl, rfl⟩ := h
      exact ⟨h1, .inl (by rw [h2]; rfl)⟩
    | some v =>
      obtain ⟨r1, s1, e, h1, h2⟩ := assignVal_spec (T := T) (a := .lit v) (v := v) ok hc rfl
      have : assignOther T s i (some v) = assignVal T s i (.lit v) := by unfold assignOther assignVal; split <;> rfl
      simp only [this, e, Prod.mk.injEq] at h
      obtain ⟨rfl, rfl⟩ := h
      refine ⟨h1, ?_⟩
      rcases h2 with ⟨rfl, h2⟩ | ⟨rfl, h2⟩
      · exact .inl (by rw [h2]; rfl)
      · exact .inr ⟨rfl, h2⟩
  | assignVal i a =>
    obtain ⟨c, hc⟩ := exist_at hex (i := i) (by simp [Op.vars])
    have hn := exist_names hex (a := a) (fun j hj => by simp [Op.vars, hj])
    cases hv : s.abs.look a with
    | none =>
      have : assignVal T s i a = (.ub, s) := by
        unfold assignVal
        split
        · unfold tAssign; rw [look_abs hn, hv]; cases (s.obj i).cell <;> rfl
        · unfold construct tNew; rw [look_abs hn, hv]
      simp only [this, Prod.mk.injEq] at h
      obtain ⟨rfl, rfl⟩ := h
      exact ⟨ok, .inl (by simp only [Spec.next, hv])⟩
    | some v =>
      obtain ⟨r1, s1, e, h1, h2⟩ := assignVal_spec (T := T) ok hc hv
      simp only [e, Prod.mk.injEq] at h
      obtain ⟨rfl, rfl⟩ := h
      refine ⟨h1, ?_⟩
      rcases h2 with ⟨rfl, h2⟩ | ⟨rfl, h2⟩
      · exact .inl (by simp only [Spec.next, hv, h2])
      · exact .inr ⟨rfl, h2⟩
  | reset i =>
    obtain ⟨c, hc⟩ := exist_at hex (i := i) (by simp [Op.vars])
    obtain ⟨s1, e, h1, h2⟩ := destroy_spec ok hc
    simp only [e, Prod.mk.injEq] at h
    obtain ⟨rfl, rfl⟩ := h
    exact ⟨h1, .inl (by rw [h2]; rfl)⟩
  | emplace i a =>
    obtain ⟨c, hc⟩ := exist_at hex (i := i) (by simp [Op.vars])
    have hn := exist_names hex (a := a) (fun j hj => by simp [Op.vars, hj])
    obtain ⟨s1, e, h1, h2⟩ := destroy_spec ok hc
    have hlt := (List.getElem?_eq_some_iff.1 hc).1
    have hat : s1.abs[i]? = some (some none) := by
      rw [h2, List.getElem?_set_self hlt]
    have hn1 : Names s1.abs a := fun j hj => by
      obtain ⟨d, hd⟩ := hn j hj
      rw [h2, List.getElem?_set]
      split
      · exact ⟨none, by simp⟩
      · exact ⟨d, hd⟩
    simp only [emplace, e] at h
    have nothing : s1.abs.look a = none → construct T s1 i a = (.ub, s1) := fun hv => by
      unfold construct tNew; rw [look_abs hn1, hv]
    by_cases hia : i ∈ a.vars
    · have hv : s1.abs.look a = none := by
        cases a with
        | lit v => simp [Src.vars] at hia
        | copyOf j => simp [Src.vars] at hia; subst hia; exact (look_copy hat).1
        | moveOf j => simp [Src.vars] at hia; subst hia; exact (look_copy hat).2
      rw [nothing hv] at h
      simp only [Prod.mk.injEq] at h
      obtain ⟨rfl, rfl⟩ := h
      exact ⟨h1, .inl (by simp only [Spec.next, hia, if_true, h2])⟩
    · have hl : s1.abs.look a = s.abs.look a := by
        rw [h2]
        cases a with
        | lit v => rfl
        | copyOf j => simp [Src.vars] at hia; simp only [Spec.look]; rw [List.getElem?_set_ne hia]
        | moveOf j => simp [Src.vars] at hia; simp only [Spec.look]; rw [List.getElem?_set_ne hia]
      have hcomm : ∀ y, Spec.leave (s.abs.set i (some none)) a y = (s.abs.leave a y).set i (some none) := by
        intro y
        cases a with
        | lit v => rfl
        | copyOf j => rfl
        | moveOf j => simp [Src.vars] at hia; simp only [Spec.leave]; rw [List.set_comm _ _ hia]
      cases hv : s.abs.look a with
      | none =>
        rw [nothing (by rw [hl, hv])] at h
        simp only [Prod.mk.injEq] at h
        obtain ⟨rfl, rfl⟩ := h
        exact ⟨h1, .inl (by simp only [Spec.next, hia, if_false, hv, h2])⟩
      | some v =>
        obtain ⟨r1, s2, e2, h3, h4⟩ := construct_spec (T := T) h1 hat (by rw [hl, hv])
        rw [e2] at h
        simp only [Prod.mk.injEq] at h
        obtain ⟨rfl, rfl⟩ := h
        refine ⟨h3, ?_⟩
        rcases h4 with ⟨rfl, h4⟩ | ⟨rfl, y, h4⟩
        · refine .inl ?_
          simp only [Spec.next, hia, if_false, hv]
          rw [h4, h2, hcomm, List.set_set]
        · refine .inr ⟨rfl, s.abs.leave a y, ?_, ?_⟩
          · exact keeps_leave hv
          · rw [h4, h2, hcomm]
  | swap i j =>
    obtain ⟨c, hc⟩ := exist_at hex (i := i) (by simp [Op.vars])
    obtain ⟨d, hd⟩ := exist_at hex (i := j) (by simp [Op.vars])
    obtain ⟨r1, s1, e, h1, h2⟩ := swap_spec (T := T) ok hc hd
    simp only [e, Prod.mk.injEq] at h
    obtain ⟨rfl, rfl⟩ := h
    refine ⟨h1, ?_⟩
    rcases h2 with ⟨rfl, h2⟩ | ⟨rfl, h2⟩
    · exact .inl (by simp only [Spec.next, (look_copy hc).1, (look_copy hd).1, h2])
    · refine .inr ⟨rfl, h2.1, fun k => ⟨(h2.2 k).1, fun h3 h4 => (h2.2 k).2 (by simp [h3, h4])⟩⟩
  | store i a =>
    obtain ⟨c, hc⟩ := exist_at hex (i := i) (by simp [Op.vars])
    have hn := exist_names hex (a := a) (fun j hj => by simp [Op.vars, hj])
    have ubc : c = none ∨ s.abs.look a = none → tAssign T s i a = (.ub, s) := by
      intro hx
      unfold tAssign
      rw [look_abs hn, (obj_of hc).2.1]
      rcases hx with rfl | hx
      · rfl
      · rw [hx]; cases c <;> rfl
    cases c with
    | none =>
      simp only [ubc (.inl rfl), Prod.mk.injEq] at h
      obtain ⟨rfl, rfl⟩ := h
      exact ⟨ok, .inl (by simp only [Spec.next, (look_copy hc).1])⟩
    | some u =>
      cases hv : s.abs.look a with
      | none =>
        simp only [ubc (.inr hv), Prod.mk.injEq] at h
        obtain ⟨rfl, rfl⟩ := h
        exact ⟨ok, .inl (by simp only [Spec.next, (look_copy hc).1, hv])⟩
      | some v =>
        have hin : assignVal T s i a = tAssign T s i a := by
          unfold assignVal; rw [init_of ok.good hc]; rfl
        obtain ⟨r1, s1, e, h1, h2⟩ := assignVal_spec (T := T) ok hc hv
        rw [hin] at e
        simp only [e, Prod.mk.injEq] at h
        obtain ⟨rfl, rfl⟩ := h
        refine ⟨h1, ?_⟩
        rcases h2 with ⟨rfl, h2⟩ | ⟨rfl, h2⟩
        · exact .inl (by simp only [Spec.next, (look_copy hc).1, hv, h2])
        · exact .inr ⟨rfl, h2⟩
  | has i =>
    obtain ⟨c, hc⟩ := exist_at hex (i := i) (by simp [Op.vars])
    simp only [Prod.mk.injEq] at h
    obtain ⟨rfl, rfl⟩ := h
    exact ⟨ok, .inl (by simp only [Spec.next, (look_copy hc).1, init_of ok.good hc])⟩
  | get i =>
    obtain ⟨c, hc⟩ := exist_at hex (i := i) (by simp [Op.vars])
    simp only [Prod.mk.injEq] at h
    obtain ⟨rfl, rfl⟩ := h
    exact ⟨ok, .inl (by simp only [Spec.next, (look_copy hc).1, (obj_of hc).2.1])⟩
  | value i =>
    obtain ⟨c, hc⟩ := exist_at hex (i := i) (by simp [Op.vars])
    simp only [init_of ok.good hc, (obj_of hc).2.1] at h
    cases c with
    | none =>
      simp only [Option.isSome_none, Bool.false_eq_true, if_false, Prod.mk.injEq] at h
      obtain ⟨rfl, rfl⟩ := h
      exact ⟨ok, .inl (by simp only [Spec.next, (look_copy hc).1, Option.elim_none])⟩
    | some v =>
      simp only [Option.isSome_some, if_true, Option.elim_some, Prod.mk.injEq] at h
      obtain ⟨rfl, rfl⟩ := h
      exact ⟨ok, .inl (by simp only [Spec.next, (look_copy hc).1, Option.elim_some])⟩
  | valueOr i u =>
    obtain ⟨c, hc⟩ := exist_at hex (i := i) (by simp [Op.vars])
    simp only [init_of ok.good hc] at h
    cases c with
    | none =>
      obtain ⟨r1, s1, e, h1, h2⟩ := fetch_spec (T := T) ok (a := .lit u) rfl
      simp only [Option.isSome_none, Bool.false_eq_true, if_false, e, Prod.mk.injEq] at h
      obtain ⟨rfl, rfl⟩ := h
      refine ⟨h1, ?_⟩
      rcases h2 with ⟨rfl, h2⟩ | ⟨rfl, y, h2⟩
      · exact .inl (by simp only [Spec.next, (look_copy hc).1, Option.getD_none, h2]; rfl)
      · exact .inr ⟨rfl, h2⟩
    | some v =>
      obtain ⟨r1, s1, e, h1, h2⟩ := fetch_spec (T := T) ok (a := .copyOf i) (look_copy hc).1
      simp only [Option.isSome_some, if_true, e, Prod.mk.injEq] at h
      obtain ⟨rfl, rfl⟩ := h
      refine ⟨h1, ?_⟩
      rcases h2 with ⟨rfl, h2⟩ | ⟨rfl, y, h2⟩
      · exact .inl (by simp only [Spec.next, (look_copy hc).1, Option.getD_some, h2]; rfl)
      · exact .inr ⟨rfl, h2⟩
  | take i =>
    obtain ⟨c, hc⟩ := exist_at hex (i := i) (by simp [Op.vars])
    simp only [init_of ok.good hc] at h
    cases c with
    | none =>
      simp only [Option.isSome_none, Bool.false_eq_true, if_false, Prod.mk.injEq] at h
      obtain ⟨rfl, rfl⟩ := h
      exact ⟨ok, .inl (by simp only [Spec.next, (look_copy hc).2])⟩
    | some v =>
      obtain ⟨r1, s1, e, h1, h2⟩ := fetch_spec (T := T) ok (a := .moveOf i) (look_copy hc).2
      simp only [Option.isSome_some, if_true, e, Prod.mk.injEq] at h
      obtain ⟨rfl, rfl⟩ := h
      refine ⟨h1, ?_⟩
      rcases h2 with ⟨rfl, h2⟩ | ⟨rfl, y, h2⟩
      · exact .inl (by simp only [Spec.next, (look_copy hc).2, h2]; rfl)
      · exact .inr ⟨rfl, by rw [h2]; exact keeps_leave (look_copy hc).2⟩
  | takeOr i u =>
    obtain ⟨c, hc⟩ := exist_at hex (i := i) (by simp [Op.vars])
    simp only [init_of ok.good hc] at h
    cases c with
    | none =>
      obtain ⟨r1, s1, e, h1, h2⟩ := fetch_spec (T := T) ok (a := .lit u) rfl
      simp only [Option.isSome_none, Bool.false_eq_true, if_false, e, Prod.mk.injEq] at h
      obtain ⟨rfl, rfl⟩ := h
      refine ⟨h1, ?_⟩
      rcases h2 with ⟨rfl, h2⟩ | ⟨rfl, y, h2⟩
      · exact .inl (by simp only [Spec.next, (look_copy hc).2, h2]; rfl)
      · exact .inr ⟨rfl, by rw [h2]; exact keeps_refl⟩
    | some v =>
      obtain ⟨r1, s1, e, h1, h2⟩ := fetch_spec (T := T) ok (a := .moveOf i) (look_copy hc).2
      simp only [Option.isSome_some, if_true, e, Prod.mk.injEq] at h
      obtain ⟨rfl, rfl⟩ := h
      refine ⟨h1, ?_⟩
      rcases h2 with ⟨rfl, h2⟩ | ⟨rfl, y, h2⟩
      · exact .inl (by simp only [Spec.next, (look_copy hc).2, h2]; rfl)
      · exact .inr ⟨rfl, by rw [h2]; exact keeps_leave (look_copy hc).2⟩

/-! ### Whole programs -/

/-- No variables yet. -/
def St.none : St α := ⟨[], 0, 0, [], []⟩

/-- A program: operations, each with what the operations of `T` it performs will do. It ends at undefined behaviour. -/
def run (T : TOps α) (s : St α) : List (Op α × List (Fault α)) → Option (List (Res α) × St α)
  | [] => some ([], s)
  | (o, fs) :: l =>
      match step T { s with fs := fs } o with
      | .none => .none
      | some (.ub, s) => some ([.ub], s)
      | some (r, s) => (run T s l).map fun p => (r :: p.1, p.2)

/-- Specification: the results `rs` the operations may have, and what the variables may hold afterwards. Nothing is said about what
happens after undefined behaviour. -/
inductive Spec.Run (T : TOps α) : Spec α → List (Op α) → List (Res α) → Spec α → Prop
  | nil {m} : Spec.Run T m [] [] m
  | ok {m m1 m2 o l r rs} : m.next T o = (r, m1) → r ≠ .ub → Spec.Run T m1 l rs m2 → Spec.Run T m (o :: l) (r :: rs) m2
  | threw {m m1 m2 o l rs} : m.threw o m1 → Spec.Run T m1 l rs m2 → Spec.Run T m (o :: l) (.thrown :: rs) m2
  | ub {m m1 o l} : (m.next T o).1 = .ub → Spec.Run T m (o :: l) [.ub] m1

theorem run_spec {T : TOps α} {l : List (Op α × List (Fault α))} {s s' : St α} {rs : List (Res α)} (ok : s.Ok)
    (h : run T s l = some (rs, s')) : s'.Ok ∧ Spec.Run T s.abs (l.map Prod.fst) rs s'.abs := by
  induction l generalizing s rs with
  | nil => cases h; exact ⟨ok, .nil⟩
  | cons p l ih =>
    obtain ⟨o, fs⟩ := p
    unfold run at h
    have ok' : ({ s with fs := fs } : St α).Ok := ⟨ok.good, ok.acct⟩
    split at h
    · cases h
    · rename_i s1 e
      cases h
      obtain ⟨h1, h2⟩ := step_spec ok' e
      refine ⟨h1, .ub ?_⟩
      rcases h2 with h2 | ⟨h2, -⟩
      · have : (Res.ub : Res α) = (s.abs.next T o).1 := congrArg Prod.fst h2
        exact this.symm
      · cases h2
    · rename_i r s1 hne e
      obtain ⟨h1, h2⟩ := step_spec ok' e
      simp only [Option.map_eq_some_iff, Prod.mk.injEq] at h
      obtain ⟨q, h3, rfl, rfl⟩ := h
      obtain ⟨h4, h5⟩ := ih h1 h3
      refine ⟨h4, ?_⟩
      rcases h2 with h2 | ⟨rfl, h2⟩
      · exact .ok h2.symm (fun hr => hne (by rw [hr])) h5
      · exact .threw h2 h5

theorem none_ok : (St.none : St α).Ok := ⟨fun o h => by simp [St.none] at h, rfl⟩

/-- C32: whatever a program does with its `optional`s (`optional_base`), each result is what the specification "nothing or a value"
says, and so is the content of every variable at the end. -/
theorem C32 {T : TOps α} {l : List (Op α × List (Fault α))} {s : St α} {rs : List (Res α)} (h : run T .none l = some (rs, s)) :
    Spec.Run T [] (l.map Prod.fst) rs s.abs := (run_spec none_ok h).2

/-- C33: at every point, also after exceptions, the objects constructed and not yet destroyed are as many as there are engaged
optionals, each flag tells whether there is an object in the storage, and nothing was constructed over a live object. -/
theorem C33 {T : TOps α} {l : List (Op α × List (Fault α))} {s : St α} {rs : List (Res α)} (h : run T .none l = some (rs, s)) :
    s.made = s.died + (s.vars.filter fun x => x.any fun o => o.cell.isSome).length ∧
    (∀ o, some o ∈ s.vars → (o.init = true ↔ o.cell ≠ Option.none)) ∧ Res.leak ∉ rs := by
  obtain ⟨h1, h2⟩ := run_spec none_ok h
  refine ⟨?_, fun o ho => ?_, ?_⟩
  · have := h1.acct
    unfold St.Acct at this
    rw [this, List.countP_eq_length_filter]
    congr 2
    apply List.filter_congr
    intro x _
    cases x <;> rfl
  · rw [h1.good o ho]; cases o.cell <;> simp
  · have key : ∀ {m : Spec α} {l rs m'}, Spec.Run T m l rs m' → Res.leak ∉ rs := by
      intro m l rs m' hr
      induction hr with
      | nil => simp
      | ok h1 h2 h3 ih =>
        rename_i m m1 m2 o l r rs
        simp only [List.mem_cons, not_or]
        refine ⟨?_, ih⟩
        rintro rfl
        have : (m.next T o).1 = .leak := by rw [h1]
        revert this
        cases o <;> simp only [Spec.next]
        all_goals first
          | (intro h; cases h; done)
          | (split <;> intro h <;> cases h; done)
          | (split <;> (try split) <;> intro h <;> cases h; done)
          | (intro h; revert h; generalize Spec.look m _ = c; cases c <;> intro h <;> cases h)
      | threw h1 h2 ih => simpa using ih
      | ub => simp
    exact key h2

/-- C33: when all variables are gone, every object constructed has been destroyed, exactly once. -/
theorem C33_end {T : TOps α} {l : List (Op α × List (Fault α))} {s : St α} {rs : List (Res α)} (h : run T .none l = some (rs, s))
    (all : ∀ x ∈ s.vars, x = Option.none) : s.made = s.died := by
  have := (C33 h).1
  rw [this, List.filter_eq_nil_iff.2]
  · rfl
  · intro x hx; rw [all x hx]; simp

/-! ### Without exceptions -/

/-- No operation of `T` will throw. -/
def St.Calm (s : St α) : Prop := ∀ f ∈ s.fs, f = Option.none

/-- The outcome is not an exception and none is coming. -/
def Fine (p : Res α × St α) : Prop := p.1 ≠ .thrown ∧ p.2.Calm

theorem calm_pop {s : St α} (h : s.Calm) : s.pop.1 = Option.none ∧ s.pop.2.Calm := by
  refine ⟨?_, fun f hf => h f (List.mem_of_mem_tail hf)⟩
  unfold St.pop
  cases e : s.fs with
  | nil => rfl
  | cons f l => simp [h f (by rw [e]; simp)]

theorem calm_leave {s : St α} {a : Src α} {x : α} (h : s.Calm) : (s.leave a x).Calm := by
  cases a <;> exact h

theorem fine_new {T : TOps α} {s : St α} {i : Nat} {a : Src α} (h : s.Calm) : Fine (tNew T s i a) := by
  obtain ⟨h1, h2⟩ := calm_pop h
  unfold tNew
  split
  · exact ⟨nofun, h⟩
  · split
    · exact ⟨nofun, h⟩
    · split
      · rename_i e; rw [e] at h1; cases h1
      · rename_i e; rw [e] at h2; exact ⟨nofun, calm_leave h2⟩

theorem fine_tAssign {T : TOps α} {s : St α} {i : Nat} {a : Src α} (h : s.Calm) : Fine (tAssign T s i a) := by
  obtain ⟨h1, h2⟩ := calm_pop h
  unfold tAssign
  split
  · split
    · rename_i e; rw [e] at h1; cases h1
    · rename_i e; rw [e] at h2
      split
      · exact ⟨nofun, h2⟩
      · exact ⟨nofun, calm_leave h2⟩
  · exact ⟨nofun, h⟩

theorem fine_construct {T : TOps α} {s : St α} {i : Nat} {a : Src α} (h : s.Calm) : Fine (construct T s i a) := by
  have := fine_new (T := T) (i := i) (a := a) h
  unfold construct
  split
  · rename_i e; rw [e] at this; exact ⟨nofun, this.2⟩
  · exact this

theorem fine_destroy {s : St α} {i : Nat} (h : s.Calm) : Fine (destroy s i) := by
  unfold destroy tDel
  split
  · cases (s.obj i).cell <;> exact ⟨nofun, h⟩
  · exact ⟨nofun, h⟩

theorem fine_assign {T : TOps α} {s : St α} {i j : Nat} {a : Src α} (h : s.Calm) : Fine (assign T s i j a) := by
  unfold assign
  split <;> split
  · exact fine_tAssign h
  · exact fine_destroy h
  · exact fine_construct h
  · exact ⟨nofun, h⟩

theorem fine_ctor {s : St α} {body : St α → Nat → Res α × St α} (h : s.Calm) (hb : ∀ s n, s.Calm → Fine (body s n)) :
    Fine (ctor s body) := by
  unfold ctor
  have := hb { s with vars := s.vars ++ [some ⟨false, Option.none⟩] } s.vars.length h
  revert this
  generalize body _ _ = p
  intro hp
  unfold ctor.finish
  split
  · exact ⟨nofun, hp.2⟩
  · exact hp

theorem fine_fetch {T : TOps α} {s : St α} {a : Src α} (h : s.Calm) : Fine (fetch T s a) := by
  unfold fetch
  split
  · exact ⟨nofun, h⟩
  · have hp := calm_pop h
    split
    · rename_i e; rw [e] at hp; cases hp.1
    · rename_i e; rw [e] at hp; exact ⟨nofun, calm_leave hp.2⟩

theorem fine_unwind {s : St α} {n : Nat} (h : s.Calm) : Fine (unwind .unit s n) := by
  have := fine_destroy (i := n) h
  unfold unwind
  split
  · rename_i e; rw [e] at this; exact ⟨nofun, this.2⟩
  · exact this

theorem fine_swap {T : TOps α} {s : St α} {i j : Nat} (h : s.Calm) : Fine (swap T s i j) := by
  have h1 : Fine (moveCtor T s i) := fine_ctor h fun s n hs => by
    split
    · exact fine_construct hs
    · exact ⟨nofun, hs⟩
  unfold swap
  simp only
  split
  · rename_i s1 e1
    rw [e1] at h1
    have h2 := fine_assign (T := T) (i := i) (j := j) (a := .moveOf j) h1.2
    split
    · rename_i s2 e2
      rw [e2] at h2
      have h3 := fine_assign (T := T) (i := j) (j := s.vars.length) (a := .moveOf s.vars.length) h2.2
      split
      · rename_i s3 e3; rw [e3] at h3; exact fine_unwind h3.2
      · rename_i s3 e3; rw [e3] at h3; exact (h3.1 rfl).elim
      · exact h3
    · rename_i s2 e2; rw [e2] at h2; exact (h2.1 rfl).elim
    · exact h2
  · exact h1

theorem fine_step {T : TOps α} {s s' : St α} {o : Op α} {r : Res α} (c : s.Calm) (h : step T s o = some (r, s')) : r ≠ .thrown := by
  unfold step at h
  split at h
  case isFalse => cases h
  injection h with h
  have e : ∀ {p : Res α × St α}, Fine p → p = (r, s') → r ≠ .thrown := by rintro p hp rfl; exact hp.1
  cases o with
  | mkNone => exact e (fine_ctor (body := fun s _ => (.unit, s)) c fun s n hs => ⟨nofun, hs⟩) h
  | mkVal a => exact e (fine_ctor c fun s n hs => fine_construct hs) h
  | mkIf b a =>
    refine e (fine_ctor c fun s n hs => ?_) h
    split
    · exact fine_construct hs
    · exact ⟨nofun, hs⟩
  | mkOther x =>
    refine e (fine_ctor c fun s n hs => ?_) h
    split
    · exact fine_construct hs
    · exact ⟨nofun, hs⟩
  | copy j =>
    refine e (fine_ctor c fun s n hs => ?_) h
    split
    · exact fine_construct hs
    · exact ⟨nofun, hs⟩
  | move j =>
    refine e (fine_ctor c fun s n hs => ?_) h
    split
    · exact fine_construct hs
    · exact ⟨nofun, hs⟩
  | dtor i =>
    have hd := fine_destroy (i := i) c
    simp only at h
    split at h
    · cases h; nofun
    · exact e hd h
  | copyAssign i j => exact e (fine_assign c) h
  | moveAssign i j => exact e (fine_assign c) h
  | assignOther i x =>
    refine e (p := assignOther T s i x) ?_ h
    unfold assignOther
    split <;> split
    · exact fine_tAssign c
    · exact fine_destroy c
    · exact fine_construct c
    · exact ⟨nofun, c⟩
  | assignVal i a =>
    refine e (p := assignVal T s i a) ?_ h
    unfold assignVal
    split
    · exact fine_tAssign c
    · exact fine_construct c
  | reset i => exact e (fine_destroy c) h
  | emplace i a =>
    have hd := fine_destroy (i := i) c
    simp only [emplace] at h
    split at h
    · rename_i e1; rw [e1] at hd; exact e (fine_construct hd.2) h
    · exact e hd h
  | swap i j => exact e (fine_swap c) h
  | store i a => exact e (fine_tAssign c) h
  | has i => cases h; nofun
  | get i =>
    injection h with h h'
    rw [← h]; cases (s.obj i).cell <;> nofun
  | value i =>
    simp only at h
    split at h
    · injection h with h h'
      rw [← h]; cases (s.obj i).cell <;> nofun
    · cases h; nofun
  | valueOr i v =>
    simp only at h
    split at h <;> exact e (fine_fetch c) h
  | take i =>
    simp only at h
    split at h
    · exact e (fine_fetch c) h
    · cases h; nofun
  | takeOr i v =>
    simp only at h
    split at h <;> exact e (fine_fetch c) h

/-- C32: if no operation of `T` throws, no operation of `optional` does (other than `value()`). -/
theorem C32_calm {T : TOps α} {l : List (Op α × List (Fault α))} {s : St α} {rs : List (Res α)} (h : run T .none l = some (rs, s))
    (c : ∀ p ∈ l, ∀ f ∈ p.2, f = Option.none) : Res.thrown ∉ rs := by
  have key : ∀ {l : List (Op α × List (Fault α))} {s s' : St α} {rs}, run T s l = some (rs, s') →
      (∀ p ∈ l, ∀ f ∈ p.2, f = Option.none) → Res.thrown ∉ rs := by
    intro l
    induction l with
    | nil => intro s s' rs h _; cases h; simp
    | cons p l ih =>
      intro s s' rs h c
      obtain ⟨o, fs⟩ := p
      unfold run at h
      have hc : ({ s with fs := fs } : St α).Calm := c (o, fs) (by simp)
      split at h
      · cases h
      · cases h; simp
      · rename_i r s1 _ e
        simp only [Option.map_eq_some_iff, Prod.mk.injEq] at h
        obtain ⟨q, h3, rfl, rfl⟩ := h
        simp only [List.mem_cons, not_or]
        exact ⟨(fine_step hc e).symm, ih h3 fun p hp => c p (by simp [hp])⟩
  exact key h c

-- two strings moved around; a move leaves "" behind, a self-move nothing; the copy in the last assignment throws
example : run ⟨fun _ => "", fun _ => ""⟩ .none
    [(.mkVal (.lit "a"), []), (.mkNone, []), (.swap 0 1, []), (.has 0, []), (.get 1, []), (.copy 1, []), (.moveAssign 0 1, []),
     (.get 1, []), (.get 0, []), (.emplace 2 (.lit "b"), [some ("?", "?")]), (.has 2, []), (.value 2, []),
     (.copyAssign 1 0, [some ("half", "?")]), (.takeOr 1 "d", []), (.takeOr 2 "d", []), (.value 1, []), (.dtor 0, []), (.dtor 1, []), (.dtor 2, [])] =
    some ([.unit, .unit, .unit, .bool false, .val "a", .unit, .unit, .val "", .val "a", .thrown, .bool false, .badAccess,
      .thrown, .val "half", .val "d", .val "", .unit, .unit, .unit], ⟨[Option.none, Option.none, Option.none], 5, 5, [], [0, 2, 1, 2, 0]⟩) := by decide

/-! ### `tc_optional_base`: scalars -/

namespace Sc

/-- `tc_optional_base` (509-516): the flag and a `T` that is always there. -/
structure Obj (α : Type) where
  init : Bool
  store : α
deriving DecidableEq, Repr

/-- All variables; `none`: destroyed. -/
abbrev St (α : Type) := List (Option (Obj α))

variable (d : α)

/-- The members of variable `i`. -/
def St.obj (s : St α) (i : Nat) : Obj α := (s[i]?.join).getD ⟨false, d⟩

/-- The value of an argument. For a scalar, moving is copying (`std::move` of a scalar, 577, 707). -/
def St.look (s : St α) : Src α → α
  | .lit v => v
  | .copyOf j | .moveOf j => (s.obj d j).store

/-- One operation. `d` is `T{}`; `f` says that the conversion of the argument to `T` throws (the only thing that can throw for a
scalar `T`), in the operations that convert one. `none`: a variable that does not exist is named. -/
def step (s : St α) (o : Op α) (f : Bool) : Option (Res α × St α) :=
  if o.vars.all fun i => (s[i]?.join).isSome then
    some <| match o with
      -- 527-535
      | .mkNone => (.unit, s ++ [some ⟨false, d⟩])
      -- 537-540, 648-660
      | .mkVal a => if f then (.thrown, s) else (.unit, s ++ [some ⟨true, s.look d a⟩])
      -- 542-545; `in_place_if` (662-677) leaves `T{}` if `c` is false, which is not visible
      | .mkIf c a => if f then (.thrown, s) else (.unit, s ++ [some ⟨c, s.look d a⟩])
      -- 809-827 with 620-624
      | .mkOther x =>
          match x with
          | some v => if f then (.thrown, s) else (.unit, s ++ [some ⟨true, v⟩])
          | Option.none => (.unit, s ++ [some ⟨false, d⟩])
      -- implicit copy and move: memberwise
      | .copy j | .move j => (.unit, s ++ [some (s.obj d j)])
      | .dtor i => (.unit, s.set i Option.none)
      | .copyAssign i j | .moveAssign i j => (.unit, s.set i (some (s.obj d j)))
      -- 561-580: the value first, then the flag
      | .assignOther i x =>
          match x with
          | some v => if f then (.thrown, s) else (.unit, s.set i (some ⟨true, v⟩))
          | Option.none => (.unit, s.set i (some ⟨false, (s.obj d i).store⟩))
      -- 582-585, 620-624
      | .assignVal i a => (.unit, s.set i (some ⟨true, s.look d a⟩))
      -- 587-590, 730-733
      | .reset i => (.unit, s.set i (some ⟨false, (s.obj d i).store⟩))
      -- 642-646, 628-640: no `destroy()` before
      | .emplace i a => if f then (.thrown, s) else (.unit, s.set i (some ⟨true, s.look d a⟩))
      | .swap i j => (.unit, (s.set i (some (s.obj d j))).set j (some (s.obj d i)))
      | .store i a => if f then (.thrown, s) else (.unit, s.set i (some ⟨(s.obj d i).init, s.look d a⟩))
      | .has i => (.bool (s.obj d i).init, s)
      | .get i => (.val (s.obj d i).store, s)
      | .value i | .take i => (if (s.obj d i).init then .val (s.obj d i).store else .badAccess, s)
      | .valueOr i v | .takeOr i v => (if (s.obj d i).init then .val (s.obj d i).store else if f then .thrown else .val v, s)
  else Option.none

/-- The content that the specification speaks of. -/
def Obj.abs (o : Obj α) : Option α := if o.init then some o.store else Option.none

/-- The state of the specification that a state stands for. -/
def St.abs (s : St α) : Spec α := s.map (Option.map Obj.abs)

/-- Moving a scalar copies it. -/
def ops : TOps α := ⟨id, id⟩

end Sc

theorem leave_same {m : Spec α} {a : Src α} {v : α} (h : m.look a = some v) : m.leave a v = m := by
  cases a with
  | lit | copyOf => rfl
  | moveOf j =>
    have := look_some h j (.inr rfl)
    obtain ⟨h1, h2⟩ := List.getElem?_eq_some_iff.1 this
    simp only [Spec.leave]
    rw [← h2, List.set_getElem_self]

namespace Sc

variable {d : α}

theorem obj_abs {s : St α} {i : Nat} (h : (s[i]?.join).isSome) : s[i]? = some (some (s.obj d i)) ∧
    s.abs.look (.copyOf i) = (s.obj d i).abs ∧ s.abs.look (.moveOf i) = (s.obj d i).abs := by
  cases e : s[i]? with
  | none => rw [e] at h; cases h
  | some x =>
    rw [e] at h
    cases x with
    | none => cases h
    | some o => simp [St.obj, e, Spec.look, St.abs]

theorem look_abs {s : St α} {a : Src α} {v : α} (h : ∀ j ∈ a.vars, (s[j]?.join).isSome) (hv : s.abs.look a = some v) :
    s.look d a = v := by
  cases a with
  | lit w => cases hv; rfl
  | copyOf j =>
    have := (obj_abs (d := d) (h j (by simp [Src.vars]))).2.1
    rw [this] at hv
    simp only [Obj.abs] at hv
    split at hv <;> cases hv; rfl
  | moveOf j =>
    have := (obj_abs (d := d) (h j (by simp [Src.vars]))).2.2
    rw [this] at hv
    simp only [Obj.abs] at hv
    split at hv <;> cases hv; rfl

/-- Unless the specification says that an operation is undefined, its result and effect are what the specification says, or the
conversion threw and nothing changed. -/
theorem step_spec {s s' : St α} {o : Op α} {f : Bool} {r : Res α} (h : step d s o f = some (r, s'))
    (def_ : (s.abs.next ops o).1 ≠ .ub) : (r, s'.abs) = s.abs.next ops o ∨ (r = .thrown ∧ f = true ∧ s' = s) := by
  unfold step at h
  split at h
  case isFalse => cases h
  rename_i hex
  injection h with h
  have ex : ∀ i ∈ o.vars, (s[i]?.join).isSome := fun i hi => List.all_eq_true.1 hex i hi
  have same : ∀ {i v}, s.abs.look (.copyOf i) = some v → i ∈ o.vars → (s.obj d i).store = v ∧ (s.obj d i).init = true := by
    intro i v h1 h2
    rw [(obj_abs (d := d) (ex i h2)).2.1] at h1
    simp only [Obj.abs] at h1
    split at h1 <;> cases h1
    exact ⟨rfl, by assumption⟩
  have app : ∀ {x : Option (Obj α)}, St.abs (s ++ [x]) = s.abs ++ [x.map Obj.abs] := by intro x; simp [St.abs]
  have upd : ∀ {i} {x : Option (Obj α)} {s : St α}, St.abs (s.set i x) = s.abs.set i (x.map Obj.abs) := by
    intro i x s; simp [St.abs, List.map_set]
  have sto : ∀ {i a v}, s.abs.look a = some v → Spec.store ops s.abs i a v = s.abs.set i (some (some v)) := by
    intro i a v h1
    unfold Spec.store
    split
    · rfl
    · rw [show (ops.mf v : α) = v from rfl, leave_same h1]
  cases o with
  | mkNone => cases h; exact .inl (by simp [app, Spec.next, Obj.abs])
  | mkVal a =>
    cases f with
    | true => cases h; exact .inr ⟨rfl, rfl, rfl⟩
    | false =>
      cases h
      cases hv : s.abs.look a with
      | none => simp [Spec.next, hv] at def_
      | some v =>
        refine .inl ?_
        simp [app, Spec.next, hv, Obj.abs, look_abs (d := d) ex hv, show (ops.mf v : α) = v from rfl, leave_same hv]
  | mkIf c a =>
    cases f with
    | true => cases h; exact .inr ⟨rfl, rfl, rfl⟩
    | false =>
      cases h
      cases c with
      | false => exact .inl (by simp [app, Spec.next, Obj.abs])
      | true =>
        cases hv : s.abs.look a with
        | none => simp [Spec.next, hv] at def_
        | some v =>
          refine .inl ?_
          simp [app, Spec.next, hv, Obj.abs, look_abs (d := d) ex hv, show (ops.mf v : α) = v from rfl, leave_same hv]
  | mkOther x =>
    cases x with
    | none => cases h; exact .inl (by simp [app, Spec.next, Obj.abs])
    | some v =>
      cases f with
      | true => cases h; exact .inr ⟨rfl, rfl, rfl⟩
      | false => cases h; exact .inl (by simp [app, Spec.next, Obj.abs])
  | copy j =>
    cases h
    exact .inl (by simp [app, Spec.next, (obj_abs (d := d) (ex j (by simp [Op.vars]))).2.1])
  | move j =>
    cases h
    have hl := (obj_abs (d := d) (ex j (by simp [Op.vars]))).2.2
    refine .inl ?_
    simp only [app, Spec.next]
    split
    · rename_i v hv
      rw [hl] at hv
      rw [show (ops.mf v : α) = v from rfl, show s.abs.set j (some (some v)) = s.abs from leave_same (hl.trans hv)]
      simp [hv]
    · rename_i hv; rw [hl] at hv; simp [hv]
  | dtor i => cases h; exact .inl (by simp [upd, Spec.next])
  | copyAssign i j =>
    cases h
    exact .inl (by simp [upd, Spec.next, (obj_abs (d := d) (ex j (by simp [Op.vars]))).2.1])
  | moveAssign i j =>
    cases h
    have hl := (obj_abs (d := d) (ex j (by simp [Op.vars]))).2.2
    refine .inl ?_
    simp only [upd, Spec.next]
    split
    · rename_i v hv
      rw [sto hv]
      rw [hl] at hv
      simp [hv]
    · rename_i hv; rw [hl] at hv; simp [hv]
  | assignOther i x =>
    cases x with
    | none => cases h; exact .inl (by simp [upd, Spec.next, Obj.abs])
    | some v =>
      cases f with
      | true => cases h; exact .inr ⟨rfl, rfl, rfl⟩
      | false => cases h; exact .inl (by simp [upd, Spec.next, Obj.abs])
  | assignVal i a =>
    cases h
    cases hv : s.abs.look a with
    | none => simp [Spec.next, hv] at def_
    | some v =>
      refine .inl ?_
      simp [upd, Spec.next, hv, Obj.abs, look_abs (d := d) (fun j hj => ex j (by simp [Op.vars, hj])) hv, sto hv]
  | reset i => cases h; exact .inl (by simp [upd, Spec.next, Obj.abs])
  | emplace i a =>
    cases f with
    | true => cases h; exact .inr ⟨rfl, rfl, rfl⟩
    | false =>
      cases h
      by_cases hia : i ∈ a.vars
      · simp [Spec.next, hia] at def_
      · cases hv : s.abs.look a with
        | none => simp [Spec.next, hia, hv] at def_
        | some v =>
          refine .inl ?_
          simp [upd, Spec.next, hia, hv, Obj.abs, look_abs (d := d) (fun j hj => ex j (by simp [Op.vars, hj])) hv,
            show (ops.mf v : α) = v from rfl, leave_same hv]
  | swap i j =>
    cases h
    exact .inl (by simp [upd, Spec.next, (obj_abs (d := d) (ex j (by simp [Op.vars]))).2.1,
      (obj_abs (d := d) (ex i (by simp [Op.vars]))).2.1])
  | store i a =>
    cases f with
    | true => cases h; exact .inr ⟨rfl, rfl, rfl⟩
    | false =>
      cases h
      cases hu : s.abs.look (.copyOf i) with
      | none => simp [Spec.next, hu] at def_
      | some u =>
        cases hv : s.abs.look a with
        | none => simp [Spec.next, hu, hv] at def_
        | some v =>
          refine .inl ?_
          simp [upd, Spec.next, hu, hv, Obj.abs, look_abs (d := d) (fun j hj => ex j (by simp [Op.vars, hj])) hv, sto hv,
            (same hu (by simp [Op.vars])).2]
  | has i =>
    cases h
    refine .inl ?_
    simp only [Spec.next, (obj_abs (d := d) (ex i (by simp [Op.vars]))).2.1, Obj.abs]
    split <;> simp_all
  | get i =>
    cases h
    have hl := (obj_abs (d := d) (ex i (by simp [Op.vars]))).2.1
    cases hv : s.abs.look (.copyOf i) with
    | none => simp [Spec.next, hv] at def_
    | some v => exact .inl (by simp [Spec.next, hv, (same hv (by simp [Op.vars])).1])
  | value i =>
    cases h
    refine .inl ?_
    simp only [Spec.next, (obj_abs (d := d) (ex i (by simp [Op.vars]))).2.1, Obj.abs]
    split <;> simp_all
  | valueOr i v =>
    cases h
    simp only [Spec.next, (obj_abs (d := d) (ex i (by simp [Op.vars]))).2.1, Obj.abs]
    split <;> cases f <;> simp_all
  | take i =>
    cases h
    refine .inl ?_
    have hl := (obj_abs (d := d) (ex i (by simp [Op.vars]))).2.1
    cases hv : s.abs.look (.moveOf i) with
    | none =>
      rw [show s.abs.look (.moveOf i) = s.abs.look (.copyOf i) from rfl, hl, Obj.abs] at hv
      simp only [Spec.next, show s.abs.look (.moveOf i) = s.abs.look (.copyOf i) from rfl, hl, Obj.abs, hv]
      split at hv <;> simp_all
    | some v =>
      have hs := same hv (by simp [Op.vars])
      have hg := leave_same (a := .moveOf i) hv
      simp only [Spec.leave] at hg
      simp only [Spec.next, hv, hs, if_true]
      rw [show (ops.mf v : α) = v from rfl, hg]
  | takeOr i u =>
    cases h
    have hl := (obj_abs (d := d) (ex i (by simp [Op.vars]))).2.1
    cases hv : s.abs.look (.moveOf i) with
    | none =>
      rw [show s.abs.look (.moveOf i) = s.abs.look (.copyOf i) from rfl, hl, Obj.abs] at hv
      simp only [Spec.next, show s.abs.look (.moveOf i) = s.abs.look (.copyOf i) from rfl, hl, Obj.abs, hv]
      split at hv <;> cases f <;> simp_all
    | some v =>
      have hs := same hv (by simp [Op.vars])
      have hg := leave_same (a := .moveOf i) hv
      simp only [Spec.leave] at hg
      refine .inl ?_
      simp only [Spec.next, hv, hs, if_true]
      rw [show (ops.mf v : α) = v from rfl, hg]

/-- A program on scalar optionals. -/
def run (d : α) (s : St α) : List (Op α × Bool) → Option (List (Res α) × St α)
  | [] => some ([], s)
  | (o, f) :: l =>
      match step d s o f with
      | .none => .none
      | some (r, s) => (run d s l).map fun p => (r :: p.1, p.2)

/-- Specification for scalars: an operation that throws changes nothing, and after undefined behaviour anything may happen. -/
inductive Run : Spec α → List (Op α) → List (Res α) → Spec α → Prop
  | nil {m} : Run m [] [] m
  | ok {m m1 m2 o l r rs} : m.next ops o = (r, m1) → r ≠ .ub → Run m1 l rs m2 → Run m (o :: l) (r :: rs) m2
  | threw {m m2 o l rs} : Run m l rs m2 → Run m (o :: l) (.thrown :: rs) m2
  | ub {m m1 o l rs} : (m.next ops o).1 = .ub → Run m (o :: l) rs m1

end Sc

/-- C32 for scalars: whatever a program does, up to the first operation that is undefined, each result is what the specification
"nothing or a value" says, and so is the content of every variable. -/
theorem C32_scalar {d : α} {l : List (Op α × Bool)} {s : Sc.St α} {rs : List (Res α)} (h : Sc.run d [] l = some (rs, s)) :
    Sc.Run [] (l.map Prod.fst) rs s.abs := by
  have key : ∀ {l : List (Op α × Bool)} {s s' : Sc.St α} {rs}, Sc.run d s l = some (rs, s') →
      Sc.Run s.abs (l.map Prod.fst) rs s'.abs := by
    intro l
    induction l with
    | nil => intro s s' rs h; cases h; exact .nil
    | cons p l ih =>
      intro s s' rs h
      obtain ⟨o, f⟩ := p
      unfold Sc.run at h
      split at h
      · cases h
      · rename_i r s1 e
        simp only [Option.map_eq_some_iff, Prod.mk.injEq] at h
        obtain ⟨q, h3, rfl, rfl⟩ := h
        by_cases hd : (s.abs.next Sc.ops o).1 = .ub
        · exact .ub hd
        · rcases Sc.step_spec e hd with h4 | ⟨rfl, -, rfl⟩
          · refine .ok h4.symm ?_ (ih h3)
            rintro rfl
            exact hd (by rw [← h4])
          · exact .threw (ih h3)
  exact key h

-- integers; the stale 7 of a reset optional is not visible; the conversion in the last `emplace` throws
example : Sc.run (0 : Int) [] [(.mkVal (.lit 7), false), (.mkNone, false), (.reset 0, false), (.value 0, false), (.has 0, false),
    (.assignVal 1 (.lit 3), false), (.move 1, false), (.get 1, false), (.swap 0 1, false), (.valueOr 1 9, false), (.get 0, false),
    (.emplace 0 (.lit 5), true), (.value 0, false)] =
    some ([.unit, .unit, .unit, .badAccess, .bool false, .unit, .unit, .val 3, .unit, .val 9, .val 3, .thrown, .val 3],
      [some ⟨true, 3⟩, some ⟨false, 7⟩, some ⟨true, 3⟩]) := by decide

/-! ### Exceptions and the documentation -/

/-- C50, for `optional_base`: if `emplace` throws the optional is disengaged (what 886, 391, 401 say). -/
theorem C50_emplace_partial {T : TOps α} {s s' : St α} {i : Nat} {a : Src α} (ok : s.Ok)
    (h : step T s (.emplace i a) = some (.thrown, s')) : s'.abs[i]? = some (some Option.none) := by
  have hi : i < s.abs.length := by
    unfold step at h
    split at h
    case isFalse => cases h
    rename_i hex
    obtain ⟨c, hc⟩ := exist_at hex (i := i) (by simp [Op.vars])
    exact (List.getElem?_eq_some_iff.1 hc).1
  rcases (step_spec ok h).2 with h1 | ⟨-, m1, h1, h2⟩
  · simp only [Spec.next] at h1
    split at h1
    · cases h1
    · split at h1 <;> cases h1
  · rw [h2, List.getElem?_set_self (by rw [h1.1]; exact hi)]

/-- C50 is false for scalars: the comment "upon exception *this is always uninitialized" (626-627, 886-887) does not hold, the
optional keeps its value. -/
theorem C50_scalar_false : ∃ (s s' : Sc.St Int) (i : Nat) (a : Src Int),
    Sc.run 0 [] [(.mkVal (.lit 1), false)] = some ([.unit], s) ∧
    Sc.step 0 s (.emplace i a) true = some (.thrown, s') ∧ s'.abs[i]? = some (some (some 1)) :=
  ⟨_, _, 0, .lit 2, rfl, rfl, rfl⟩

/-- C50 is false for assignments: "If T::T( U const& ) throws, this is left UNINITIALIZED" (842, 851, 860) does not hold for an
engaged optional; it stays engaged, with whatever the assignment of `T` left in it. -/
theorem C50_assign_false : ∃ (s s' : St Int) (i : Nat) (fs : List (Fault Int)),
    run ⟨id, id⟩ St.none [(.mkVal (.lit 1), [])] = some ([.unit], s) ∧
    step ⟨id, id⟩ { s with fs := fs } (.assignOther i (some 2)) = some (.thrown, s') ∧ s'.abs[i]? = some (some (some 1)) :=
  ⟨_, _, 0, [some (1, 0)], rfl, rfl, rfl⟩

end Verif.Opt
