import Verif.Data.Optional

/-!
# References kept into an `optional`, property C68

optional.hpp:928-1005 and 357-365. `get()`, `operator*`, `operator->`, `value()`, `get_ptr()` and `get_value_or()` hand out a reference
or a pointer to the contained object (or to their argument), which the program may keep. `Verif.Opt.St.hist` tells one object from the
next in the same storage.
-/

namespace Verif.Opt

variable {α : Type}

/-- The `k`-th object constructed in variable `i`, an object outside of all optionals, or a null pointer. -/
inductive Ref where
  | inside (i k : Nat) | outside (j : Nat) | null
deriving DecidableEq, Repr

/-- The optionals, the program's other objects of type `T` (`none`: destroyed) and the references it keeps, in the order in which it got
them. -/
structure RSt (α : Type) where
  s : St α
  outs : List (Option α)
  refs : List Ref
deriving DecidableEq, Repr

/-- How many objects have been constructed in variable `i`. -/
def St.born (s : St α) (i : Nat) : Nat := s.hist.count i

/-- There is an object in variable `i`. -/
def St.full (s : St α) (i : Nat) : Bool := (s.obj i).cell.isSome

/-- Operations of a program. -/
inductive ROp (α : Type) where
  /-- an operation that keeps no reference -/
  | op (o : Op α)
  /-- `T x = v;` -/
  | new (v : α)
  /-- the end of `x` -/
  | del (j : Nat)
  /-- `x = v;` -/
  | put (j : Nat) (v : α)
  /-- `T& r = o.get();`, `*o`, `*o.operator->()` (928-976) -/
  | hold (i : Nat)
  /-- `T& r = o.value();` (983-997) -/
  | holdValue (i : Nat)
  /-- `T* p = o.get_ptr();` and `p != nullptr` (357-365) -/
  | holdPtr (i : Nat)
  /-- `T& r = o.get_value_or(x);` (941-949) -/
  | holdOr (i j : Nat)
  /-- reading `r` or `*p` -/
  | read (r : Nat)
  /-- `r = v;` or `*p = v;` -/
  | write (r : Nat) (v : α)
deriving Repr

/-- An assignment to an object outside of all optionals. -/
def RSt.putOut (s : RSt α) (j : Nat) (v : α) : Res α × RSt α :=
  match s.s.pop with
  | (some (x, _), s') => (.thrown, { s with s := s', outs := s.outs.set j (some x) })
  | (none, s') => (.unit, { s with s := s', outs := s.outs.set j (some v) })

/-- One operation. `none`: the program names a variable or reference that does not exist. Simplification: a reference to an object that
has been destroyed is taken to dangle even if another object lives in the same storage by now (the standard lets it refer to the new
object for most types). `get()` of an empty optional is undefined (925-927) though it only forms a reference to raw storage. -/
def rstep (T : TOps α) (s : RSt α) : ROp α → Option (Res α × RSt α)
  | .op o => (step T s.s o).map fun x => (x.1, { s with s := x.2 })
  | .new v => some (.unit, { s with outs := s.outs ++ [some v] })
  | .del j => if (s.outs[j]?.join).isSome then some (.unit, { s with outs := s.outs.set j none }) else none
  | .put j v => if (s.outs[j]?.join).isSome then some (s.putOut j v) else none
  | .hold i =>
      if s.s.exist [i] then
        some (if s.s.full i then (.unit, { s with refs := s.refs ++ [.inside i (s.s.born i)] }) else (.ub, s))
      else none
  | .holdValue i =>
      if s.s.exist [i] then
        some (if (s.s.obj i).init then (.unit, { s with refs := s.refs ++ [.inside i (s.s.born i)] }) else (.badAccess, s))
      else none
  | .holdPtr i =>
      if s.s.exist [i] then
        some (.bool (s.s.obj i).init, { s with refs := s.refs ++ [if (s.s.obj i).init then .inside i (s.s.born i) else .null] })
      else none
  | .holdOr i j =>
      if s.s.exist [i] && (s.outs[j]?.join).isSome then
        some (.unit, { s with refs := s.refs ++ [if (s.s.obj i).init then .inside i (s.s.born i) else .outside j] })
      else none
  | .read r =>
      match s.refs[r]? with
      | none => none
      | some .null => some (.ub, s)
      | some (.outside j) => some ((s.outs[j]?.join).elim .ub .val, s)
      | some (.inside i k) => some (if s.s.born i = k then (s.s.obj i).cell.elim .ub .val else .ub, s)
  | .write r v =>
      match s.refs[r]? with
      | none => none
      | some .null => some (.ub, s)
      | some (.outside j) => some (if (s.outs[j]?.join).isSome then s.putOut j v else (.ub, s))
      | some (.inside i k) =>
          some (if s.s.born i = k then ((tAssign T s.s i (.lit v)).1, { s with s := (tAssign T s.s i (.lit v)).2 }) else (.ub, s))

/-- A program: operations, each with what the operations of `T` it performs will do. It stops at undefined behaviour. -/
def rrun (T : TOps α) (s : RSt α) : List (ROp α × List (Fault α)) → Option (List (Res α) × RSt α)
  | [] => some ([], s)
  | (o, fs) :: l =>
      match rstep T { s with s.fs := fs } o with
      | none => none
      | some (.ub, s') => some ([.ub], s')
      | some (r, s') => (rrun T s' l).map fun p => (r :: p.1, p.2)

/-- Before the program starts. -/
def RSt.init : RSt α := ⟨St.none, [], []⟩

/-! ### Specification: a reference is a name of a variable, as long as it is good. There are no objects or counts in it. -/

/-- What a reference is another name of. -/
inductive Place where
  | inside (i : Nat) | outside (j : Nat)
deriving DecidableEq, Repr

/-- What the optionals hold, what the other objects hold, and what each reference names; `none`: it must not be used. -/
structure RSpec (α : Type) where
  vals : Spec α
  outs : List (Option α)
  refs : List (Option Place)

/-- The operation replaces the object in `i` even if there is one. -/
def Op.replaces (i : Nat) : Op α → Bool
  | .emplace k _ => k == i
  | _ => false

/-- What becomes of a reference when `o` makes `vals` of the optionals: it is lost if it was to the inside of an optional that is empty
or gone now, or was emplaced. -/
def keep (o : Op α) (vals : Spec α) : Option Place → Option Place
  | some (.inside i) => if o.replaces i || (vals.look (.copyOf i)).isNone then none else some (.inside i)
  | x => x

/-- What an operation may do. -/
inductive RSpec.Step (T : TOps α) : RSpec α → ROp α → Res α → RSpec α → Prop
  | op {m o r v} : m.vals.next T o = (r, v) → r ≠ .ub → RSpec.Step T m (.op o) r ⟨v, m.outs, m.refs.map (keep o v)⟩
  | threw {m o v} : m.vals.threw o v → RSpec.Step T m (.op o) .thrown ⟨v, m.outs, m.refs.map (keep o v)⟩
  | opUb {m m' o} : (m.vals.next T o).1 = .ub → RSpec.Step T m (.op o) .ub m'
  | new {m v} : RSpec.Step T m (.new v) .unit ⟨m.vals, m.outs ++ [some v], m.refs⟩
  | del {m j} : RSpec.Step T m (.del j) .unit
      ⟨m.vals, m.outs.set j none, m.refs.map fun x => if x = some (.outside j) then none else x⟩
  | put {m j v} : RSpec.Step T m (.put j v) .unit ⟨m.vals, m.outs.set j (some v), m.refs⟩
  | putThrew {m j v x} : RSpec.Step T m (.put j v) .thrown ⟨m.vals, m.outs.set j (some x), m.refs⟩
  | hold {m i x} : m.vals.look (.copyOf i) = some x → RSpec.Step T m (.hold i) .unit ⟨m.vals, m.outs, m.refs ++ [some (.inside i)]⟩
  | holdUb {m m' i} : m.vals.look (.copyOf i) = none → RSpec.Step T m (.hold i) .ub m'
  | holdValue {m i x} : m.vals.look (.copyOf i) = some x →
      RSpec.Step T m (.holdValue i) .unit ⟨m.vals, m.outs, m.refs ++ [some (.inside i)]⟩
  | holdBad {m i} : m.vals.look (.copyOf i) = none → RSpec.Step T m (.holdValue i) .badAccess m
  | holdPtr {m i} : RSpec.Step T m (.holdPtr i) (.bool (m.vals.look (.copyOf i)).isSome)
      ⟨m.vals, m.outs, m.refs ++ [(m.vals.look (.copyOf i)).map fun _ => .inside i]⟩
  | holdOr {m i j} : RSpec.Step T m (.holdOr i j) .unit
      ⟨m.vals, m.outs, m.refs ++ [some (if (m.vals.look (.copyOf i)).isSome then .inside i else .outside j)]⟩
  | readIn {m r i x} : m.refs[r]? = some (some (.inside i)) → m.vals.look (.copyOf i) = some x → RSpec.Step T m (.read r) (.val x) m
  | readOut {m r j x} : m.refs[r]? = some (some (.outside j)) → m.outs[j]? = some (some x) → RSpec.Step T m (.read r) (.val x) m
  | readUb {m m' r} : m.refs[r]? = some none → RSpec.Step T m (.read r) .ub m'
  -- a store through a reference is a store to the variable it names
  | writeIn {m m' r i v x} : m.refs[r]? = some (some (.inside i)) → RSpec.Step T m (.op (.store i (.lit v))) x m' → x ≠ .ub →
      RSpec.Step T m (.write r v) x m'
  | writeOut {m m' r j v x} : m.refs[r]? = some (some (.outside j)) → RSpec.Step T m (.put j v) x m' → RSpec.Step T m (.write r v) x m'
  | writeUb {m m' r v} : m.refs[r]? = some none → RSpec.Step T m (.write r v) .ub m'

/-- What a program may do; it stops at undefined behaviour. -/
inductive RSpec.Run (T : TOps α) : RSpec α → List (ROp α) → List (Res α) → RSpec α → Prop
  | nil {m} : RSpec.Run T m [] [] m
  | ub {m m' o l} : RSpec.Step T m o .ub m' → RSpec.Run T m (o :: l) [.ub] m'
  | step {m m1 m2 o l r rs} : RSpec.Step T m o r m1 → r ≠ .ub → RSpec.Run T m1 l rs m2 → RSpec.Run T m (o :: l) (r :: rs) m2

/-! ### Which operations make a new object -/

/-- Nothing happens to the object in `k`, or to the absence of one. -/
def Quiet (s s' : St α) (k : Nat) : Prop := s'.born k = s.born k ∧ s'.full k = s.full k

/-- An object that is there before and after is the same one; an object that was not there is new. -/
def Law (s s' : St α) (k : Nat) : Prop :=
  s.born k ≤ s'.born k ∧ (s.full k = true → s'.full k = true → s'.born k = s.born k) ∧
    (s.full k = false → s'.full k = true → s.born k < s'.born k)

theorem Quiet.rfl {s : St α} {k : Nat} : Quiet s s k := ⟨.refl _, .refl _⟩

theorem Quiet.trans {s s1 s2 : St α} {k : Nat} (h : Quiet s s1 k) (h' : Quiet s1 s2 k) : Quiet s s2 k :=
  ⟨h'.1.trans h.1, h'.2.trans h.2⟩

theorem Quiet.law {s s' : St α} {k : Nat} (h : Quiet s s' k) : Law s s' k := by
  obtain ⟨h1, h2⟩ := h
  refine ⟨by omega, fun _ _ => h1, fun h3 h4 => ?_⟩
  rw [h2, h3] at h4; cases h4

theorem Quiet.then {s s1 s2 : St α} {k : Nat} (h : Quiet s s1 k) (h' : Law s1 s2 k) : Law s s2 k := by
  obtain ⟨h1, h2⟩ := h
  obtain ⟨h3, h4, h5⟩ := h'
  exact ⟨by omega, fun a b => by rw [h4 (h2 ▸ a) b, h1], fun a b => by have := h5 (h2 ▸ a) b; omega⟩

theorem Law.then {s s1 s2 : St α} {k : Nat} (h' : Law s s1 k) (h : Quiet s1 s2 k) : Law s s2 k := by
  obtain ⟨h1, h2⟩ := h
  obtain ⟨h3, h4, h5⟩ := h'
  exact ⟨by omega, fun a b => by rw [h1, h4 a (h2 ▸ b)], fun a b => by have := h5 a (h2 ▸ b); omega⟩

/-- Something happens at `i` at most. -/
def At (s s' : St α) (i : Nat) : Prop := ∀ k, Law s s' k ∧ (k ≠ i → Quiet s s' k)

theorem obj_set {s : St α} {i k : Nat} {o : Obj α} {l : List (Option (Obj α))} (hl : l = s.vars.set i (some o)) :
    (l[k]?.join).getD ⟨false, none⟩ = if k = i ∧ i < s.vars.length then o else s.obj k := by
  subst hl
  simp only [St.obj, List.getElem?_set]
  by_cases h : i = k
  · subst h
    by_cases hl : i < s.vars.length
    · simp [hl]
    · simp [hl]
  · simp [h, Ne.symm h]

theorem full_setCell {s : St α} {i k : Nat} {c : Option α} :
    (s.setCell i c).full k = if k = i ∧ i < s.vars.length then c.isSome else s.full k := by
  unfold St.full
  rw [show (s.setCell i c).obj k = _ from obj_set rfl]
  split <;> rfl

theorem full_setInit {s : St α} {i k : Nat} {b : Bool} : (s.setInit i b).full k = s.full k := by
  unfold St.full
  rw [show (s.setInit i b).obj k = _ from obj_set rfl]
  split
  · rename_i h; obtain ⟨rfl, -⟩ := h; rfl
  · rfl

theorem full_lt {s : St α} {i : Nat} (h : s.full i = true) : i < s.vars.length := by
  refine Nat.lt_of_not_le fun hl => ?_
  simp [St.full, St.obj, List.getElem?_eq_none hl] at h

theorem quiet_pop {s : St α} {k : Nat} : Quiet s s.pop.2 k := ⟨rfl, rfl⟩

theorem quiet_leave {s : St α} {a : Src α} {v x : α} (h : s.look a = some v) {k : Nat} : Quiet s (s.leave a x) k := by
  cases a with
  | lit | copyOf => exact .rfl
  | moveOf j =>
    have hf : s.full j = true := by simp only [St.look] at h; simp [St.full, h]
    refine ⟨rfl, ?_⟩
    show (s.setCell j (some x)).full k = _
    rw [full_setCell]
    split
    · rename_i h; obtain ⟨rfl, -⟩ := h; rw [hf]; rfl
    · rfl

theorem quiet_revalue {s : St α} {i : Nat} {x : α} (h : s.full i = true) {k : Nat} : Quiet s (s.setCell i (some x)) k := by
  refine ⟨rfl, ?_⟩
  rw [full_setCell]
  split
  · rename_i h'; obtain ⟨rfl, -⟩ := h'; rw [h]; rfl
  · rfl

theorem quiet_tAssign {T : TOps α} {s : St α} {i : Nat} {a : Src α} {k : Nat} : Quiet s (tAssign T s i a).2 k := by
  unfold tAssign
  split
  · rename_i u v hu hv
    have hf : ∀ {j : Nat}, j = i → s.full j = true := by rintro _ rfl; simp [St.full, hu]
    have hp : s.pop.2.look a = some v := by cases a <;> exact hv
    split
    · rename_i x y s1 e
      obtain rfl : s.pop.2 = s1 := by rw [e]
      refine (quiet_pop.trans (quiet_leave hp)).trans (quiet_revalue ?_)
      rw [(quiet_leave hp).2, quiet_pop.2, hf rfl]
    · rename_i s1 e
      obtain rfl : s.pop.2 = s1 := by rw [e]
      split
      · exact quiet_pop.trans (quiet_revalue (by rw [quiet_pop.2, hf rfl]))
      · refine (quiet_pop.trans (quiet_leave hp)).trans (quiet_revalue ?_)
        rw [(quiet_leave hp).2, quiet_pop.2, hf rfl]
  · exact .rfl

theorem At.of_quiet {s s' : St α} {i : Nat} (h : ∀ k, Quiet s s' k) : At s s' i := fun k => ⟨(h k).law, fun _ => h k⟩

/-- A constructor makes a new object where there was none. -/
theorem tNew_at {T : TOps α} {s : St α} {i : Nat} {a : Src α} : At s (tNew T s i a).2 i ∧
    ((tNew T s i a).1 = .unit → s.full i = false ∧ (tNew T s i a).2.born i = s.born i + 1) ∧
    ((tNew T s i a).1 = .thrown → s.full i = false ∧ (tNew T s i a).2.full i = false) := by
  unfold tNew
  split
  · exact ⟨.of_quiet fun _ => .rfl, by simp, by simp⟩
  · rename_i v hv
    have hp : s.pop.2.look a = some v := by cases a <;> exact hv
    split
    · exact ⟨.of_quiet fun _ => .rfl, by simp, by simp⟩
    · rename_i hc
      have hc' : s.full i = false := Bool.eq_false_iff.2 hc
      split
      · rename_i x y s1 e
        obtain rfl : s.pop.2 = s1 := by rw [e]
        refine ⟨.of_quiet fun k => quiet_pop.trans (quiet_leave hp), by simp, fun _ => ⟨hc', ?_⟩⟩
        rw [(quiet_leave hp).2, quiet_pop.2, hc']
      · rename_i s1 e
        obtain rfl : s.pop.2 = s1 := by rw [e]
        have hb : ∀ k, St.born { (s.pop.2.leave a (T.mf v)).setCell i (some v) with made := s.pop.2.made + 1, hist := i :: s.pop.2.hist } k =
            s.born k + if i = k then 1 else 0 := by
          intro k
          simp only [St.born, List.count_cons, beq_iff_eq]
          rfl
        have hf : ∀ k, k ≠ i → St.full { (s.pop.2.leave a (T.mf v)).setCell i (some v) with
            made := s.pop.2.made + 1, hist := i :: s.pop.2.hist } k = s.full k := by
          intro k hk
          show ((s.pop.2.leave a (T.mf v)).setCell i (some v)).full k = _
          rw [full_setCell, if_neg (by simp [hk]), (quiet_leave hp).2, quiet_pop.2]
        refine ⟨fun k => ?_, fun _ => ⟨hc', by rw [hb]; simp⟩, by simp⟩
        rcases Nat.decEq k i with hk | rfl
        · have : Quiet s _ k := ⟨by rw [hb, if_neg (Ne.symm hk), Nat.add_zero], hf k hk⟩
          exact ⟨this.law, fun _ => this⟩
        · refine ⟨⟨by rw [hb]; omega, fun h => ?_, fun _ _ => by rw [hb]; simp⟩, fun h => (h rfl).elim⟩
          rw [hc'] at h; cases h

theorem construct_at {T : TOps α} {s : St α} {i : Nat} {a : Src α} : At s (construct T s i a).2 i ∧
    ((construct T s i a).1 = .unit → (construct T s i a).2.born i = s.born i + 1) ∧
    ((construct T s i a).1 = .thrown → (construct T s i a).2.full i = false) := by
  obtain ⟨h1, h2, h3⟩ := tNew_at (T := T) (s := s) (i := i) (a := a)
  unfold construct
  split
  · rename_i s1 e
    rw [e] at h1 h2
    have q : ∀ k, Quiet s1 (s1.setInit i true) k := fun k => ⟨rfl, full_setInit⟩
    exact ⟨fun k => ⟨(h1 k).1.then (q k), fun hk => ((h1 k).2 hk).trans (q k)⟩, fun _ => (h2 rfl).2, by simp⟩
  · exact ⟨h1, fun h => (h2 h).2, fun h => (h3 h).2⟩

theorem destroy_at {s : St α} {i : Nat} : At s (destroy s i).2 i ∧ (destroy s i).2.hist = s.hist := by
  unfold destroy
  split
  · unfold tDel
    split
    · rename_i s1 e
      split at e
      · cases e
      · cases e
        refine ⟨fun k => ?_, rfl⟩
        have hf : St.full (St.setInit { s.setCell i none with died := s.died + 1 } i false) k =
            if k = i ∧ i < s.vars.length then false else s.full k := by
          rw [full_setInit]
          show (s.setCell i none).full k = _
          rw [full_setCell]; rfl
        have hb : St.born (St.setInit { s.setCell i none with died := s.died + 1 } i false) k = s.born k := rfl
        refine ⟨⟨by rw [hb]; exact Nat.le_refl _, fun _ _ => hb, fun h h' => ?_⟩, fun hk => ⟨hb, by rw [hf, if_neg (by simp [hk])]⟩⟩
        rw [hf] at h'
        split at h'
        · cases h'
        · rw [h] at h'; cases h'
    · refine ⟨?_, ?_⟩ <;> split
      · exact .of_quiet fun _ => .rfl
      · rename_i hne _ _ he; rw [he] at hne; exact (hne _ rfl).elim
      · rfl
      · rename_i hne _ _ he; rw [he] at hne; exact (hne _ rfl).elim
  · exact ⟨.of_quiet fun _ => .rfl, rfl⟩

theorem assign_at {T : TOps α} {s : St α} {i j : Nat} {a : Src α} : At s (assign T s i j a).2 i ∧
    (i = j → ∀ k, Quiet s (assign T s i j a).2 k) := by
  unfold assign
  split
  · rename_i h
    split
    · exact ⟨.of_quiet fun _ => quiet_tAssign, fun _ _ => quiet_tAssign⟩
    · rename_i h'
      exact ⟨destroy_at.1, by rintro rfl; exact (h' h).elim⟩
  · rename_i h
    split
    · rename_i h'
      exact ⟨construct_at.1, by rintro rfl; exact (h h').elim⟩
    · exact ⟨.of_quiet fun _ => .rfl, fun _ _ => .rfl⟩

theorem assignOther_at {T : TOps α} {s : St α} {i : Nat} {x : Option α} : At s (assignOther T s i x).2 i := by
  unfold assignOther
  split <;> split
  · exact .of_quiet fun _ => quiet_tAssign
  · exact destroy_at.1
  · exact construct_at.1
  · exact .of_quiet fun _ => .rfl

theorem assignVal_at {T : TOps α} {s : St α} {i : Nat} {a : Src α} : At s (assignVal T s i a).2 i := by
  unfold assignVal
  split
  · exact .of_quiet fun _ => quiet_tAssign
  · exact construct_at.1

theorem emplace_at {T : TOps α} {s : St α} {i : Nat} {a : Src α} : (∀ k, k ≠ i → Quiet s (emplace T s i a).2 k) ∧
    s.born i ≤ (emplace T s i a).2.born i ∧
    ((emplace T s i a).1 = .unit → s.born i < (emplace T s i a).2.born i) ∧
    ((emplace T s i a).1 = .thrown → (emplace T s i a).2.full i = false) := by
  obtain ⟨h1, h2⟩ := destroy_at (s := s) (i := i)
  unfold emplace
  split
  · rename_i s1 e
    rw [e] at h1 h2
    obtain ⟨h3, h4, h5⟩ := construct_at (T := T) (s := s1) (i := i) (a := a)
    have hb : s1.born i = s.born i := by unfold St.born; rw [h2]
    exact ⟨fun k hk => ((h1 k).2 hk).trans ((h3 k).2 hk), by have := (h3 i).1.1; omega, fun h => by have := h4 h; omega, h5⟩
  · rename_i hne
    refine ⟨fun k hk => (h1 k).2 hk, (h1 i).1.1, fun h => (hne (destroy s i).2 (by rw [← h])).elim, fun h => ?_⟩
    exfalso
    revert h
    unfold destroy tDel
    split
    · split
      · simp
      · split <;> simp
    · simp

/-- Adding or dropping variables past `k`. -/
theorem quiet_take {s : St α} {n k : Nat} (hk : k < n) : Quiet s { s with vars := s.vars.take n } k := by
  refine ⟨rfl, ?_⟩
  simp only [St.full, St.obj]
  rw [List.getElem?_take_of_lt hk]

theorem quiet_more {s : St α} {k : Nat} (hk : k < s.vars.length) : Quiet s s.more k := by
  refine ⟨rfl, ?_⟩
  simp only [St.full, St.obj, St.more]
  rw [List.getElem?_append_left hk]

theorem ctor_at {s : St α} {body : St α → Nat → Res α × St α} {k : Nat} (hk : k < s.vars.length)
    (hb : Quiet s.more (body s.more s.vars.length).2 k) : Quiet s (ctor s body).2 k := by
  have q := (quiet_more hk).trans hb
  unfold ctor
  show Quiet s (ctor.finish _ (body s.more s.vars.length)).2 k
  generalize body s.more s.vars.length = p at q
  obtain ⟨r, s1⟩ := p
  unfold ctor.finish
  split
  · rename_i e; cases e; exact q
  · rename_i e; cases e; exact q.trans (quiet_take hk)

theorem unwind_at {r : Res α} {s : St α} {n k : Nat} (hk : k < n) : Quiet s (unwind r s n).2 k := by
  have h := (destroy_at (s := s) (i := n)).1 k
  unfold unwind
  split
  · rename_i s1 e
    rw [e] at h
    exact (h.2 (by omega)).trans (quiet_take hk)
  · exact h.2 (by omega)

theorem moveCtor_at {T : TOps α} {s : St α} {j k : Nat} (hk : k < s.vars.length) : Quiet s (moveCtor T s j).2 k := by
  unfold moveCtor
  apply ctor_at hk
  split
  · exact (construct_at.1 k).2 (by omega)
  · exact .rfl

theorem swap_at {T : TOps α} {s : St α} {i j k : Nat} (hk : k < s.vars.length) :
    Law s (swap T s i j).2 k ∧ (k ≠ i → k ≠ j → Quiet s (swap T s i j).2 k) := by
  have h1 := moveCtor_at (T := T) (j := i) hk
  unfold swap
  simp only
  split
  · rename_i s1 e1
    rw [e1] at h1
    obtain ⟨h2, h2'⟩ := assign_at (T := T) (s := s1) (i := i) (j := j) (a := .moveOf j)
    split
    · rename_i s2 e2
      rw [e2] at h2 h2'
      obtain ⟨h3, -⟩ := assign_at (T := T) (s := s2) (i := j) (j := s.vars.length) (a := .moveOf s.vars.length)
      have key : ∀ s3, At s2 s3 j → Law s s3 k ∧ (k ≠ i → k ≠ j → Quiet s s3 k) := by
        intro s3 h3
        refine ⟨?_, fun hi hj => (h1.trans ((h2 k).2 hi)).trans ((h3 k).2 hj)⟩
        rcases Nat.decEq k i with hi | rfl
        · exact (h1.trans ((h2 k).2 hi)).then (h3 k).1
        · rcases Nat.decEq k j with hj | rfl
          · exact (h1.then (h2 k).1).then ((h3 k).2 hj)
          · exact (h1.trans (h2' rfl k)).then (h3 k).1
      split
      · rename_i s3 e3
        rw [e3] at h3
        have q := unwind_at (r := .unit) (s := s3) hk
        exact ⟨(key s3 h3).1.then q, fun hi hj => ((key s3 h3).2 hi hj).trans q⟩
      · rename_i s3 e3
        rw [e3] at h3
        have q := unwind_at (r := .thrown) (s := s3) hk
        exact ⟨(key s3 h3).1.then q, fun hi hj => ((key s3 h3).2 hi hj).trans q⟩
      · exact key _ h3
    · rename_i s2 e2
      rw [e2] at h2
      have q := unwind_at (r := .thrown) (s := s2) hk
      exact ⟨(h1.then (h2 k).1).then q, fun hi _ => (h1.trans ((h2 k).2 hi)).trans q⟩
    · exact ⟨h1.then (h2 k).1, fun hi _ => h1.trans ((h2 k).2 hi)⟩
  · exact ⟨h1.law, fun _ _ => h1⟩

theorem quiet_fetch {T : TOps α} {s : St α} {a : Src α} {k : Nat} : Quiet s (fetch T s a).2 k := by
  unfold fetch
  split
  · exact .rfl
  · rename_i v hv
    have hp : s.pop.2.look a = some v := by cases a <;> exact hv
    split
    · rename_i x y s1 e
      obtain rfl : s.pop.2 = s1 := by rw [e]
      exact quiet_pop.trans (quiet_leave hp)
    · rename_i s1 e
      obtain rfl : s.pop.2 = s1 := by rw [e]
      exact quiet_pop.trans (quiet_leave hp)

theorem dtor_at {s s1 : St α} {i k : Nat} (h : At s s1 i) : Law s { s1 with vars := s1.vars.set i none } k := by
  have hb : St.born { s1 with vars := s1.vars.set i none } k = s1.born k := rfl
  rcases Nat.decEq k i with hk | rfl
  · refine ((h k).2 hk |>.trans ⟨hb, ?_⟩).law
    simp only [St.full, St.obj]
    rw [List.getElem?_set_ne (Ne.symm hk)]
  · have hf : St.full { s1 with vars := s1.vars.set k none } k = false := by
      simp only [St.full, St.obj, List.getElem?_set_self']
      cases s1.vars[k]? <;> simp
    refine ⟨by rw [hb]; exact (h k).1.1, fun _ h' => ?_, fun _ h' => ?_⟩ <;> (rw [hf] at h'; cases h')

/-- Only `emplace` replaces an object. -/
theorem step_law {T : TOps α} {s s' : St α} {o : Op α} {r : Res α} {k : Nat} (h : step T s o = some (r, s')) (hk : k < s.vars.length)
    (ho : o.replaces k = false) : Law s s' k := by
  unfold step at h
  split at h
  case isFalse => cases h
  injection h with h
  have hc : ∀ {p : Res α × St α}, p = (r, s') → Law s p.2 k → Law s s' k := by rintro _ rfl h; exact h
  cases o with
  | mkNone => exact hc h (ctor_at hk .rfl).law
  | mkVal a => exact hc h (ctor_at hk ((construct_at.1 k).2 (by omega))).law
  | mkIf c a =>
    refine hc h (ctor_at hk ?_).law
    cases c
    · exact .rfl
    · exact (construct_at.1 k).2 (by omega)
  | mkOther x =>
    refine hc h (ctor_at hk ?_).law
    cases x
    · exact .rfl
    · exact (construct_at.1 k).2 (by omega)
  | copy j =>
    refine hc h (ctor_at hk ?_).law
    split
    · exact (construct_at.1 k).2 (by omega)
    · exact .rfl
  | move j => exact hc h (moveCtor_at hk).law
  | dtor i =>
    have h1 := (destroy_at (s := s) (i := i)).1
    simp only at h
    split at h
    · rename_i s1 e
      cases h
      rw [e] at h1
      exact dtor_at h1
    · rw [h] at h1
      exact (h1 k).1
  | copyAssign i j => exact hc h (assign_at.1 k).1
  | moveAssign i j => exact hc h (assign_at.1 k).1
  | assignOther i x => exact hc h (assignOther_at k).1
  | assignVal i a => exact hc h (assignVal_at k).1
  | reset i => exact hc h (destroy_at.1 k).1
  | emplace i a =>
    refine hc h (emplace_at.1 k ?_).law
    rintro rfl
    simp [Op.replaces] at ho
  | swap i j => exact hc h (swap_at hk).1
  | store i a => exact hc h quiet_tAssign.law
  | has i | get i => cases h; exact Quiet.rfl.law
  | value i =>
    simp only at h
    split at h <;> (cases h; exact Quiet.rfl.law)
  | valueOr i v =>
    simp only at h
    split at h <;> exact hc h quiet_fetch.law
  | take i =>
    simp only at h
    split at h
    · exact hc h quiet_fetch.law
    · cases h; exact Quiet.rfl.law
  | takeOr i v =>
    simp only at h
    split at h <;> exact hc h quiet_fetch.law

/-- And it does. -/
theorem step_new {T : TOps α} {s s' : St α} {o : Op α} {r : Res α} {k : Nat} (ok : s.Ok) (h : step T s o = some (r, s')) (hr : r ≠ .ub)
    (ho : o.replaces k = true) : s.born k ≤ s'.born k ∧ (s'.full k = true → s.born k < s'.born k) := by
  cases o <;> simp only [Op.replaces, Bool.false_eq_true, beq_iff_eq] at ho
  rename_i i a
  subst ho
  have hs := (step_spec ok h).2
  unfold step at h
  split at h
  case isFalse => cases h
  injection h with h
  simp only at h
  obtain ⟨-, h1, h2, h3⟩ := emplace_at (T := T) (s := s) (i := i) (a := a)
  rw [h] at h1 h2 h3
  refine ⟨h1, fun hf => ?_⟩
  rcases hs with hs | ⟨rfl, -⟩
  · refine h2 ?_
    simp only [Spec.next] at hs
    split at hs
    · exact (hr (congrArg Prod.fst hs)).elim
    · split at hs
      · exact congrArg Prod.fst hs
      · exact (hr (congrArg Prod.fst hs)).elim
  · rw [h3 rfl] at hf; cases hf

/-! ### The model does what the specification says -/

/-- What a reference names in the specification. -/
def RSt.place (s : RSt α) : Ref → Option Place
  | .inside i k => if s.s.full i = true ∧ s.s.born i = k then some (.inside i) else none
  | .outside j => if (s.outs[j]?.join).isSome then some (.outside j) else none
  | .null => none

/-- The state of the specification that a state stands for. -/
def RSt.view (s : RSt α) : RSpec α := ⟨s.s.abs, s.outs, s.refs.map s.place⟩

/-- What is true between operations. -/
structure RSt.Ok (s : RSt α) : Prop where
  ok : s.s.Ok
  refs : ∀ i k, Ref.inside i k ∈ s.refs → i < s.s.vars.length ∧ k ≤ s.s.born i
  outs : ∀ j, Ref.outside j ∈ s.refs → j < s.outs.length

theorem cell_look {s : St α} {i : Nat} : (s.obj i).cell = s.abs.look (.copyOf i) := by
  simp only [St.obj, St.abs, Spec.look, List.getElem?_map]
  rcases s.vars[i]? with _ | _ | o <;> rfl

theorem full_look {s : St α} {i : Nat} : s.full i = (s.abs.look (.copyOf i)).isSome := by
  unfold St.full; rw [cell_look]

theorem init_look {s : St α} (ok : s.Ok) {i : Nat} (h : s.exist [i] = true) : (s.obj i).init = (s.abs.look (.copyOf i)).isSome := by
  obtain ⟨c, hc⟩ := exist_at h (i := i) (by simp)
  rw [init_of ok.good hc, (look_copy hc).1]

theorem exist_lt {s : St α} {i : Nat} (h : s.exist [i] = true) : i < s.vars.length := by
  obtain ⟨c, hc⟩ := exist_at h (i := i) (by simp)
  have := (List.getElem?_eq_some_iff.1 hc).1
  rwa [abs_len] at this

theorem store_len {T : TOps α} {m : Spec α} {i : Nat} {a : Src α} {v : α} : (m.store T i a v).length = m.length := by
  unfold Spec.store
  split <;> simp [leave_len]

/-- Variables are numbered in the order of their construction. -/
theorem step_len {T : TOps α} {s s' : St α} {o : Op α} {r : Res α} (ok : s.Ok) (h : step T s o = some (r, s')) :
    s.vars.length ≤ s'.vars.length := by
  rw [← abs_len s, ← abs_len s']
  rcases (step_spec ok h).2 with h | ⟨-, h⟩
  · have : s'.abs = (s.abs.next T o).2 := by rw [← h]
    rw [this]
    cases o <;> simp only [Spec.next]
    all_goals (repeat' split) <;> simp [leave_len, store_len]
  · cases o <;> simp only [Spec.threw] at h
    case emplace => obtain ⟨m1, h1, h2⟩ := h; rw [h2, List.length_set, h1.1]; exact Nat.le_refl _
    case mkVal => exact Nat.le_of_eq h.1.symm
    all_goals first
      | exact Nat.le_of_eq h.1.symm
      | (rw [h]; exact Nat.le_refl _)

theorem place_keep {T : TOps α} {s : RSt α} (ok : s.Ok) {o : Op α} {r : Res α} {s' : St α} (h : step T s.s o = some (r, s')) (hr : r ≠ .ub)
    {x : Ref} (hx : x ∈ s.refs) : ({ s with s := s' } : RSt α).place x = keep o s'.abs (s.place x) := by
  cases x with
  | null => rfl
  | outside j => simp only [RSt.place]; split <;> rfl
  | inside i k =>
    obtain ⟨hi, hk⟩ := ok.refs i k hx
    simp only [RSt.place]
    cases ho : o.replaces i with
    | true =>
      obtain ⟨h1, h2⟩ := step_new ok.ok h hr ho
      rw [if_neg]
      · split <;> simp [keep, ho]
      · rintro ⟨h3, h4⟩
        have := h2 h3
        omega
    | false =>
      obtain ⟨h1, h2, h3⟩ := step_law h hi ho
      by_cases hf : s'.full i = true
      · have hn : (s'.abs.look (.copyOf i)).isNone = false := by
          rw [full_look] at hf
          cases hl : s'.abs.look (.copyOf i) with
          | none => rw [hl] at hf; cases hf
          | some => rfl
        cases hf' : s.s.full i with
        | true =>
          have := h2 hf' hf
          rw [this]
          simp only [hf, true_and]
          split <;> simp [keep, ho, hn]
        | false =>
          have := h3 hf' hf
          rw [if_neg (by omega), if_neg (by simp)]
          rfl
      · have hn : (s'.abs.look (.copyOf i)).isNone = true := by
          rw [full_look] at hf
          cases hl : s'.abs.look (.copyOf i) with
          | none => rfl
          | some => rw [hl] at hf; exact (hf rfl).elim
        rw [if_neg (fun h => hf h.1)]
        split <;> simp [keep, hn]

theorem view_op {T : TOps α} {s : RSt α} (ok : s.Ok) {o : Op α} {r : Res α} {s' : St α} (h : step T s.s o = some (r, s')) (hr : r ≠ .ub) :
    ({ s with s := s' } : RSt α).view = ⟨s'.abs, s.outs, s.view.refs.map (keep o s'.abs)⟩ := by
  simp only [RSt.view, List.map_map]
  congr 1
  exact List.map_congr_left fun x hx => place_keep ok h hr hx

theorem op_ok {T : TOps α} {s : RSt α} (ok : s.Ok) {o : Op α} {r : Res α} {s' : St α} (h : step T s.s o = some (r, s')) (hr : r ≠ .ub) :
    ({ s with s := s' } : RSt α).Ok where
  ok := (step_spec ok.ok h).1
  refs i k hx := by
    obtain ⟨h1, h2⟩ := ok.refs i k hx
    refine ⟨Nat.lt_of_lt_of_le h1 (step_len ok.ok h), Nat.le_trans h2 ?_⟩
    cases ho : o.replaces i with
    | true => exact (step_new ok.ok h hr ho).1
    | false => exact (step_law h h1 ho).1
  outs := ok.outs

theorem op_view {T : TOps α} {s : RSt α} (ok : s.Ok) {o : Op α} {r : Res α} {s' : St α} (h : step T s.s o = some (r, s')) :
    (r ≠ .ub → ({ s with s := s' } : RSt α).Ok) ∧ RSpec.Step T s.view (.op o) r ({ s with s := s' } : RSt α).view := by
  refine ⟨op_ok ok h, ?_⟩
  by_cases hr : r = .ub
  · subst hr
    refine .opUb ?_
    rcases (step_spec ok.ok h).2 with h1 | ⟨h1, -⟩
    · show (s.s.abs.next T o).1 = .ub
      rw [← h1]
    · cases h1
  · rw [view_op ok h hr]
    rcases (step_spec ok.ok h).2 with h1 | ⟨rfl, h1⟩
    · exact .op h1.symm hr
    · exact .threw h1

/-- A new reference. -/
theorem hold_ok {s : RSt α} (ok : s.Ok) {x : Ref} (hx : ∀ i k, x = .inside i k → i < s.s.vars.length ∧ k ≤ s.s.born i)
    (hj : ∀ j, x = .outside j → j < s.outs.length) : ({ s with refs := s.refs ++ [x] } : RSt α).Ok where
  ok := ok.ok
  refs i k h := by
    rcases List.mem_append.1 h with h | h
    · exact ok.refs i k h
    · exact hx i k (List.mem_singleton.1 h).symm
  outs j h := by
    rcases List.mem_append.1 h with h | h
    · exact ok.outs j h
    · exact hj j (List.mem_singleton.1 h).symm

theorem hold_view {s : RSt α} {x : Ref} :
    ({ s with refs := s.refs ++ [x] } : RSt α).view = ⟨s.view.vals, s.view.outs, s.view.refs ++ [s.place x]⟩ := by
  simp only [RSt.view, List.map_append, List.map_cons, List.map_nil]
  rfl

theorem fs_ok {s : RSt α} (ok : s.Ok) {fs : List (Fault α)} : ({ s with s.fs := fs } : RSt α).Ok :=
  ⟨⟨ok.ok.good, ok.ok.acct⟩, ok.refs, ok.outs⟩

theorem fs_view {s : RSt α} {fs : List (Fault α)} : ({ s with s.fs := fs } : RSt α).view = s.view := by
  simp only [RSt.view]
  congr 1

theorem out_lt {l : List (Option α)} {j : Nat} (h : (l[j]?.join).isSome = true) : j < l.length := by
  refine Nat.lt_of_not_le fun hl => ?_
  simp [List.getElem?_eq_none hl] at h

theorem putOut_spec {T : TOps α} {s : RSt α} (ok : s.Ok) {j : Nat} {v : α} (hj : (s.outs[j]?.join).isSome = true) :
    (s.putOut j v).1 ≠ .ub ∧ (s.putOut j v).2.Ok ∧ RSpec.Step T s.view (.put j v) (s.putOut j v).1 (s.putOut j v).2.view := by
  have okp : ∀ x, ({ s with s := s.s.pop.2, outs := s.outs.set j (some x) } : RSt α).Ok := fun x =>
    ⟨Ok.pop ok.ok, ok.refs, fun k hk => by simpa using ok.outs k hk⟩
  have vw : ∀ x, ({ s with s := s.s.pop.2, outs := s.outs.set j (some x) } : RSt α).view = ⟨s.view.vals, s.outs.set j (some x), s.view.refs⟩ := by
    intro x
    simp only [RSt.view]
    congr 1
    refine List.map_congr_left fun y _ => ?_
    cases y with
    | null | inside => rfl
    | outside k =>
      simp only [RSt.place, List.getElem?_set]
      split
      · rename_i e; subst e
        rw [if_pos (out_lt hj), if_pos hj]
        rfl
      · rfl
  unfold RSt.putOut
  split
  · rename_i x y s1 e
    obtain rfl : s.s.pop.2 = s1 := by rw [e]
    exact ⟨by simp, okp _, by rw [vw]; exact .putThrew⟩
  · rename_i s1 e
    obtain rfl : s.s.pop.2 = s1 := by rw [e]
    exact ⟨by simp, okp _, by rw [vw]; exact .put⟩

theorem refs_view {s : RSt α} {r : Nat} {x : Ref} (h : s.refs[r]? = some x) : s.view.refs[r]? = some (s.place x) := by
  simp only [RSt.view, List.getElem?_map, h, Option.map_some]

theorem look_full {s : St α} {i : Nat} {x : α} (h : s.abs.look (.copyOf i) = some x) : s.full i = true := by
  rw [full_look, h]; rfl

theorem rstep_spec {T : TOps α} {s s' : RSt α} {o : ROp α} {r : Res α} (ok : s.Ok) (h : rstep T s o = some (r, s')) :
    (r ≠ .ub → s'.Ok) ∧ RSpec.Step T s.view o r s'.view := by
  cases o with
  | op o =>
    simp only [rstep, Option.map_eq_some_iff] at h
    obtain ⟨⟨r1, s1⟩, h1, h2⟩ := h
    cases h2
    exact op_view ok h1
  | new v =>
    cases h
    refine ⟨fun _ => ⟨ok.ok, ok.refs, fun j hj => ?_⟩, ?_⟩
    · simpa using Nat.lt_succ_of_lt (ok.outs j hj)
    · have : ({ s with outs := s.outs ++ [some v] } : RSt α).view = ⟨s.view.vals, s.view.outs ++ [some v], s.view.refs⟩ := by
        simp only [RSt.view]
        congr 1
        refine List.map_congr_left fun y hy => ?_
        cases y with
        | null | inside => rfl
        | outside k => simp only [RSt.place]; rw [List.getElem?_append_left (ok.outs k hy)]
      rw [this]; exact .new
  | del j =>
    simp only [rstep] at h
    split at h
    · rename_i hj
      cases h
      refine ⟨fun _ => ⟨ok.ok, ok.refs, fun k hk => by simpa using ok.outs k hk⟩, ?_⟩
      have : ({ s with outs := s.outs.set j none } : RSt α).view =
          ⟨s.view.vals, s.view.outs.set j none, s.view.refs.map fun x => if x = some (.outside j) then none else x⟩ := by
        simp only [RSt.view, List.map_map]
        congr 1
        refine List.map_congr_left fun y hy => ?_
        cases y with
        | null => rfl
        | inside i k => simp only [RSt.place, Function.comp]; split <;> simp
        | outside k =>
          simp only [RSt.place, Function.comp, List.getElem?_set]
          by_cases e : j = k
          · subst e
            simp [out_lt hj]
          · simp only [e, if_false]
            split <;> simp [Ne.symm e]
      rw [this]; exact .del
    · cases h
  | put j v =>
    simp only [rstep] at h
    split at h
    · rename_i hj
      injection h with h
      have := putOut_spec (T := T) ok (v := v) hj
      rw [h] at this
      exact ⟨fun _ => this.2.1, this.2.2⟩
    · cases h
  | hold i =>
    simp only [rstep] at h
    split at h
    · rename_i he
      split at h
      · rename_i hf
        cases h
        refine ⟨fun _ => hold_ok ok (by rintro _ _ ⟨⟩; exact ⟨exist_lt he, Nat.le_refl _⟩) (by rintro _ ⟨⟩), ?_⟩
        rw [hold_view]
        simp only [RSt.place, hf, true_and, if_true]
        rw [full_look] at hf
        obtain ⟨x, hx⟩ := Option.isSome_iff_exists.1 hf
        exact .hold hx
      · rename_i hf
        cases h
        refine ⟨fun h => (h rfl).elim, .holdUb ?_⟩
        rw [full_look] at hf
        exact Option.not_isSome_iff_eq_none.1 hf
    · cases h
  | holdValue i =>
    simp only [rstep] at h
    split at h
    · rename_i he
      rw [init_look ok.ok he] at h
      split at h
      · rename_i hf
        cases h
        refine ⟨fun _ => hold_ok ok (by rintro _ _ ⟨⟩; exact ⟨exist_lt he, Nat.le_refl _⟩) (by rintro _ ⟨⟩), ?_⟩
        rw [hold_view]
        simp only [RSt.place, full_look, hf, true_and, if_true]
        obtain ⟨x, hx⟩ := Option.isSome_iff_exists.1 hf
        exact .holdValue hx
      · rename_i hf
        cases h
        exact ⟨fun _ => ok, .holdBad (Option.not_isSome_iff_eq_none.1 hf)⟩
    · cases h
  | holdPtr i =>
    simp only [rstep] at h
    split at h
    · rename_i he
      rw [init_look ok.ok he] at h
      cases h
      refine ⟨fun _ => hold_ok ok ?_ ?_, ?_⟩
      · intro a b e
        split at e <;> cases e
        exact ⟨exist_lt he, Nat.le_refl _⟩
      · intro j e
        split at e <;> cases e
      · rw [hold_view]
        have : s.place (if (s.s.abs.look (.copyOf i)).isSome = true then .inside i (s.s.born i) else .null) =
            (s.view.vals.look (.copyOf i)).map fun _ => .inside i := by
          show _ = (s.s.abs.look (.copyOf i)).map _
          cases hl : s.s.abs.look (.copyOf i) <;> simp [RSt.place, full_look, hl]
        rw [this]; exact .holdPtr
    · cases h
  | holdOr i j =>
    simp only [rstep] at h
    split at h
    · rename_i he
      rw [Bool.and_eq_true] at he
      rw [init_look ok.ok he.1] at h
      cases h
      refine ⟨fun _ => hold_ok ok ?_ ?_, ?_⟩
      · intro a b e
        split at e <;> cases e
        exact ⟨exist_lt he.1, Nat.le_refl _⟩
      · intro j e
        split at e <;> cases e
        exact out_lt he.2
      · rw [hold_view]
        have : s.place (if (s.s.abs.look (.copyOf i)).isSome = true then .inside i (s.s.born i) else .outside j) =
            some (if (s.view.vals.look (.copyOf i)).isSome then .inside i else .outside j) := by
          show _ = some (if (s.s.abs.look (.copyOf i)).isSome then _ else _)
          cases hl : s.s.abs.look (.copyOf i) <;> simp [RSt.place, full_look, hl, he.2]
        rw [this]; exact .holdOr
    · cases h
  | read r =>
    simp only [rstep] at h
    split at h
    · cases h
    · rename_i e
      cases h
      exact ⟨fun h => (h rfl).elim, .readUb (refs_view e)⟩
    · rename_i j e
      cases h
      refine ⟨fun _ => ok, ?_⟩
      have hv := refs_view e
      simp only [RSt.place] at hv
      cases hj : s.outs[j]?.join with
      | none => rw [hj] at hv; exact .readUb hv
      | some x =>
        rw [hj] at hv
        refine .readOut hv ?_
        show s.outs[j]? = _
        rcases h0 : s.outs[j]? with _ | _ | y <;> rw [h0] at hj <;> cases hj
        rfl
    · rename_i i k e
      cases h
      refine ⟨fun _ => ok, ?_⟩
      have hv := refs_view e
      simp only [RSt.place, full_look] at hv
      rw [cell_look]
      split
      · rename_i hb
        cases hl : s.s.abs.look (.copyOf i) with
        | none =>
          rw [hl] at hv
          exact .readUb (by simpa using hv)
        | some x =>
          rw [hl] at hv
          exact .readIn (by simpa [hb] using hv) hl
      · rename_i hb
        exact .readUb (by simpa [hb] using hv)
  | write r v =>
    simp only [rstep] at h
    split at h
    · cases h
    · rename_i e
      cases h
      exact ⟨fun h => (h rfl).elim, .writeUb (refs_view e)⟩
    · rename_i j e
      have hv := refs_view e
      simp only [RSt.place] at hv
      injection h with h
      split at h
      · rename_i hj
        rw [if_pos hj] at hv
        have := putOut_spec (T := T) ok (v := v) hj
        rw [h] at this
        exact ⟨fun _ => this.2.1, .writeOut hv this.2.2⟩
      · rename_i hj
        rw [if_neg hj] at hv
        cases h
        exact ⟨fun h => (h rfl).elim, .writeUb hv⟩
    · rename_i i k e
      have hv := refs_view e
      simp only [RSt.place] at hv
      injection h with h
      split at h
      · rename_i hb
        cases h
        by_cases hf : s.s.full i = true
        · rw [if_pos ⟨hf, hb⟩] at hv
          have hs : step T s.s (.store i (.lit v)) = some (tAssign T s.s i (.lit v)) := by
            unfold step
            rw [if_pos]
            have : (s.s.vars[i]?.join).isSome = true := by
              simp only [St.full, St.obj] at hf
              cases hj : s.s.vars[i]?.join with
              | none => rw [hj] at hf; cases hf
              | some => rfl
            simp [St.exist, Op.vars, Src.vars, this]
          obtain ⟨h1, h2⟩ := op_view ok hs
          refine ⟨h1, .writeIn hv h2 ?_⟩
          obtain ⟨x, hx⟩ := Option.isSome_iff_exists.1 hf
          show (tAssign T s.s i (.lit v)).1 ≠ .ub
          unfold tAssign
          rw [hx]
          simp only [St.look]
          split
          · simp
          · split <;> simp
        · rw [if_neg (fun h => hf h.1)] at hv
          have : (tAssign T s.s i (.lit v)).1 = .ub := by
            unfold tAssign
            cases hc : (s.s.obj i).cell with
            | none => rfl
            | some x => exact (hf (by simp [St.full, hc])).elim
          rw [this]
          exact ⟨fun h => (h rfl).elim, .writeUb hv⟩
      · rename_i hb
        cases h
        rw [if_neg (fun h => hb h.2)] at hv
        exact ⟨fun h => (h rfl).elim, .writeUb hv⟩

theorem rrun_spec {T : TOps α} {l : List (ROp α × List (Fault α))} {s s' : RSt α} {rs : List (Res α)} (ok : s.Ok)
    (h : rrun T s l = some (rs, s')) : (.ub ∉ rs → s'.Ok) ∧ RSpec.Run T s.view (l.map Prod.fst) rs s'.view := by
  induction l generalizing s rs with
  | nil => cases h; exact ⟨fun _ => ok, .nil⟩
  | cons p l ih =>
    obtain ⟨o, fs⟩ := p
    unfold rrun at h
    split at h
    · cases h
    · rename_i s1 e
      cases h
      have := (rstep_spec (fs_ok ok) e).2
      rw [fs_view] at this
      exact ⟨by simp, .ub this⟩
    · rename_i r s1 hne e
      simp only [Option.map_eq_some_iff, Prod.mk.injEq] at h
      obtain ⟨q, h3, rfl, rfl⟩ := h
      have hr : r ≠ .ub := fun h => hne (by rw [h])
      obtain ⟨h4, h5⟩ := rstep_spec (fs_ok ok) e
      rw [fs_view] at h5
      obtain ⟨h6, h7⟩ := ih (h4 hr) h3
      exact ⟨fun h => h6 fun h' => h (List.mem_cons_of_mem _ h'), .step h5 hr h7⟩

theorem rinit_ok : (RSt.init : RSt α).Ok := ⟨none_ok, by simp [RSt.init], by simp [RSt.init]⟩

/-- C68: whatever a program does with its `optional`s and with references it keeps to what is inside of them, each result is what the
specification says: a reference is another name of its optional's value until the optional becomes empty, is destroyed or `emplace` is
called, and a reference from `get_value_or` of an empty optional is a name of the argument. Assigning, moving from and swapping keep
every reference to an optional that is engaged before and after. -/
theorem C68 {T : TOps α} {l : List (ROp α × List (Fault α))} {s : RSt α} {rs : List (Res α)} (h : rrun T RSt.init l = some (rs, s)) :
    RSpec.Run T ⟨[], [], []⟩ (l.map Prod.fst) rs s.view := (rrun_spec rinit_ok h).2

/-! ### How long a reference is good -/

/-- The operation replaces the object in `i` even if there is one. -/
def ROp.replaces (i : Nat) : ROp α → Bool
  | .op o => o.replaces i
  | _ => false

theorem putOut_same {s : RSt α} {j : Nat} {v : α} : (s.putOut j v).2.refs = s.refs ∧ ∀ k, Quiet s.s (s.putOut j v).2.s k := by
  unfold RSt.putOut
  split
  · rename_i x y s1 e
    obtain rfl : s.s.pop.2 = s1 := by rw [e]
    exact ⟨rfl, fun _ => quiet_pop⟩
  · rename_i s1 e
    obtain rfl : s.s.pop.2 = s1 := by rw [e]
    exact ⟨rfl, fun _ => quiet_pop⟩

theorem rstep_law {T : TOps α} {s s' : RSt α} {o : ROp α} {r : Res α} (h : rstep T s o = some (r, s')) :
    (∃ l, s'.refs = s.refs ++ l) ∧ ∀ i, i < s.s.vars.length → o.replaces i = false → Law s.s s'.s i := by
  have same : ∀ {s' : RSt α}, s'.refs = s.refs → s'.s = s.s →
      (∃ l, s'.refs = s.refs ++ l) ∧ ∀ i, i < s.s.vars.length → o.replaces i = false → Law s.s s'.s i :=
    fun h1 h2 => ⟨⟨[], by rw [h1, List.append_nil]⟩, fun i _ _ => by rw [h2]; exact Quiet.rfl.law⟩
  have keep : ∀ {s' : RSt α} {x : Ref}, s'.refs = s.refs ++ [x] → s'.s = s.s →
      (∃ l, s'.refs = s.refs ++ l) ∧ ∀ i, i < s.s.vars.length → o.replaces i = false → Law s.s s'.s i :=
    fun h1 h2 => ⟨⟨_, h1⟩, fun i _ _ => by rw [h2]; exact Quiet.rfl.law⟩
  cases o with
  | op o =>
    simp only [rstep, Option.map_eq_some_iff] at h
    obtain ⟨⟨r1, s1⟩, h1, h2⟩ := h
    cases h2
    exact ⟨⟨[], by simp⟩, fun i hi ho => step_law h1 hi ho⟩
  | new v => cases h; exact same rfl rfl
  | del j =>
    simp only [rstep] at h
    split at h <;> cases h
    exact same rfl rfl
  | put j v =>
    simp only [rstep] at h
    split at h
    · injection h with h
      have := putOut_same (s := s) (j := j) (v := v)
      rw [h] at this
      exact ⟨⟨[], by rw [this.1, List.append_nil]⟩, fun i _ _ => (this.2 i).law⟩
    · cases h
  | hold i | holdValue i =>
    simp only [rstep] at h
    split at h
    · split at h <;> cases h
      · exact keep rfl rfl
      · exact same rfl rfl
    · cases h
  | holdPtr i | holdOr i j =>
    simp only [rstep] at h
    split at h <;> cases h
    exact keep rfl rfl
  | read r =>
    simp only [rstep] at h
    split at h <;> cases h <;> exact same rfl rfl
  | write r v =>
    simp only [rstep] at h
    split at h
    · cases h
    · cases h; exact same rfl rfl
    · injection h with h
      split at h
      · rename_i j _ _
        have := putOut_same (s := s) (j := j) (v := v)
        rw [h] at this
        exact ⟨⟨[], by rw [this.1, List.append_nil]⟩, fun i _ _ => (this.2 i).law⟩
      · cases h; exact same rfl rfl
    · injection h with h
      split at h <;> cases h
      · exact ⟨⟨[], by simp⟩, fun i _ _ => quiet_tAssign.law⟩
      · exact same rfl rfl

theorem rrun_cons {T : TOps α} {o : ROp α} {fs : List (Fault α)} {l : List (ROp α × List (Fault α))} {s s' : RSt α} {rs : List (Res α)}
    (h : rrun T s ((o, fs) :: l) = some (rs, s')) (hu : .ub ∉ rs) : ∃ r rs1 s1, rstep T { s with s.fs := fs } o = some (r, s1) ∧ r ≠ .ub ∧
      rrun T s1 l = some (rs1, s') ∧ .ub ∉ rs1 ∧ rs = r :: rs1 := by
  unfold rrun at h
  split at h
  · cases h
  · cases h; simp at hu
  · rename_i r s1 hne e
    simp only [Option.map_eq_some_iff, Prod.mk.injEq] at h
    obtain ⟨q, h3, rfl, rfl⟩ := h
    refine ⟨r, q.1, s1, e, fun h => hne (by rw [h]), h3, fun h => hu (List.mem_cons_of_mem _ h), rfl⟩

/-- C68: a reference to the value of optional `i` is good as long as `i` stays engaged and `emplace` is not called on it, whatever else
happens: reading through it gives the value that `i` has at that time. -/
theorem C68_stays {T : TOps α} {l l' : List (ROp α × List (Fault α))} {s s1 s2 : RSt α} {rs rs' : List (Res α)} {i : Nat}
    (hr : rrun T RSt.init l = some (rs, s)) (hu : .ub ∉ rs) (hh : rstep T s (.hold i) = some (.unit, s1))
    (hr' : rrun T s1 l' = some (rs', s2)) (hu' : .ub ∉ rs') (he : ∀ p ∈ l', ∀ a, p.1 ≠ .op (.emplace i a))
    (hf : ∀ a b rs3 s3, l' = a ++ b → rrun T s1 a = some (rs3, s3) → (s3.s.abs.look (.copyOf i)).isSome) :
    ∃ x, s2.s.abs.look (.copyOf i) = some x ∧ rstep T s2 (.read s.refs.length) = some (.val x, s2) := by
  have ok := (rrun_spec rinit_ok hr).1 hu
  have ok1 := (rstep_spec ok hh).1 (by simp)
  have h1 : s1.refs[s.refs.length]? = some (.inside i (s1.s.born i)) ∧ i < s1.s.vars.length := by
    simp only [rstep] at hh
    split at hh
    · rename_i hx
      split at hh <;> cases hh
      exact ⟨by simp, exist_lt hx⟩
    · cases hh
  have key : ∀ {l' : List (ROp α × List (Fault α))} {s1 : RSt α} {rs' k} {r : Nat}, s1.Ok → s1.refs[r]? = some (.inside i k) →
      i < s1.s.vars.length → s1.s.born i = k → rrun T s1 l' = some (rs', s2) → .ub ∉ rs' → (∀ p ∈ l', ∀ a, p.1 ≠ .op (.emplace i a)) →
      (∀ a b rs3 s3, l' = a ++ b → rrun T s1 a = some (rs3, s3) → (s3.s.abs.look (.copyOf i)).isSome) →
      s2.refs[r]? = some (.inside i k) ∧ s2.s.born i = k ∧ (s2.s.abs.look (.copyOf i)).isSome := by
    intro l'
    induction l' with
    | nil =>
      intro s1 rs' k r ok1 h1 h2 h3 hr' hu' he hf
      have f1 := hf [] [] [] s1 rfl rfl
      cases hr'
      exact ⟨h1, h3, f1⟩
    | cons p l' ih =>
      intro s1 rs' k r ok1 h1 h2 h3 hr' hu' he hf
      obtain ⟨o, fs⟩ := p
      obtain ⟨x, rs1, s3, e1, e2, e3, e4, rfl⟩ := rrun_cons hr' hu'
      have ho : o.replaces i = false := by
        cases o with
        | op o =>
          cases o <;> try rfl
          rename_i j a
          have := he _ List.mem_cons_self a
          show (j == i) = false
          rw [beq_eq_false_iff_ne]
          rintro rfl
          exact this rfl
        | _ => rfl
      obtain ⟨⟨l3, h4⟩, h5⟩ := rstep_law e1
      have ok3 := (rstep_spec (fs_ok ok1) e1).1 e2
      have f1 := hf [] _ [] s1 rfl rfl
      have f3 : (s3.s.abs.look (.copyOf i)).isSome := hf [(o, fs)] l' [x] s3 rfl (by
        unfold rrun
        rw [e1]
        cases x <;> first | rfl | exact (e2 rfl).elim)
      have h6 : s3.s.born i = k := by
        rw [(h5 i h2 ho).2.1 (by rw [← f1]; exact full_look) (by rw [full_look]; exact f3)]
        exact h3
      have h7 : s3.refs[r]? = some (.inside i k) := by
        rw [h4, List.getElem?_append_left (List.getElem?_eq_some_iff.1 h1).1]
        exact h1
      refine ih ok3 h7 (ok3.refs i k (List.mem_of_getElem? h7)).1 h6 e3 e4 (fun p hp => he p (List.mem_cons_of_mem _ hp)) ?_
      intro a b rs4 s4 e5 e6
      refine hf ((o, fs) :: a) b (x :: rs4) s4 (by rw [e5]; rfl) ?_
      unfold rrun
      rw [e1]
      simp only [e6]
      cases x <;> first | rfl | exact (e2 rfl).elim
  obtain ⟨h3, h4, h5⟩ := key ok1 h1.1 h1.2 rfl hr' hu' he hf
  obtain ⟨x, hx⟩ := Option.isSome_iff_exists.1 h5
  refine ⟨x, hx, ?_⟩
  simp only [rstep, h3, h4, if_true, cell_look, hx, Option.elim_some]

/-- C68: and no longer: once `i` is empty or gone, or `emplace` was called on it, the reference must never be used again, even if `i` is
engaged again. -/
theorem C68_ends {T : TOps α} {l l' : List (ROp α × List (Fault α))} {s s1 s2 : RSt α} {rs rs' : List (Res α)} {i r k : Nat} {o : Op α}
    {x : Res α} (hr : rrun T RSt.init l = some (rs, s)) (hu : .ub ∉ rs) (hi : s.refs[r]? = some (.inside i k))
    (hh : rstep T s (.op o) = some (x, s1)) (hx : x ≠ .ub) (ho : (∃ a, o = .emplace i a) ∨ s1.s.abs.look (.copyOf i) = none)
    (hr' : rrun T s1 l' = some (rs', s2)) (hu' : .ub ∉ rs') : rstep T s2 (.read r) = some (.ub, s2) := by
  have ok := (rrun_spec rinit_ok hr).1 hu
  have ok1 := (rstep_spec ok hh).1 hx
  have hk := (ok.refs i k (List.mem_of_getElem? hi)).2
  have hi1 : s1.refs[r]? = some (.inside i k) := by
    obtain ⟨⟨l3, h4⟩, -⟩ := rstep_law hh
    rw [h4, List.getElem?_append_left (List.getElem?_eq_some_iff.1 hi).1]
    exact hi
  have d1 : s1.s.full i = true → k < s1.s.born i := by
    intro hf
    rcases ho with ⟨a, rfl⟩ | ho
    · simp only [rstep, Option.map_eq_some_iff] at hh
      obtain ⟨⟨r1, s3⟩, h1, h2⟩ := hh
      cases h2
      have := (step_new ok.ok h1 hx (k := i) (by simp [Op.replaces])).2 hf
      show k < s3.born i
      omega
    · rw [full_look, ho] at hf; cases hf
  have key : ∀ {l' : List (ROp α × List (Fault α))} {s1 : RSt α} {rs'}, s1.Ok → s1.refs[r]? = some (.inside i k) →
      (s1.s.full i = true → k < s1.s.born i) → rrun T s1 l' = some (rs', s2) → .ub ∉ rs' →
      s2.refs[r]? = some (.inside i k) ∧ (s2.s.full i = true → k < s2.s.born i) := by
    intro l'
    induction l' with
    | nil => intro s1 rs' _ h1 h2 h _; cases h; exact ⟨h1, h2⟩
    | cons p l' ih =>
      intro s1 rs' ok1 h1 h2 hr' hu'
      obtain ⟨o, fs⟩ := p
      obtain ⟨x, rs1, s3, e1, e2, e3, e4, rfl⟩ := rrun_cons hr' hu'
      obtain ⟨⟨l3, h4⟩, h5⟩ := rstep_law e1
      obtain ⟨h6, h7⟩ := ok1.refs i k (List.mem_of_getElem? h1)
      have h8 : s3.refs[r]? = some (.inside i k) := by
        rw [h4, List.getElem?_append_left (List.getElem?_eq_some_iff.1 h1).1]
        exact h1
      refine ih ((rstep_spec (fs_ok ok1) e1).1 e2) h8 (fun hf => ?_) e3 e4
      cases ho : o.replaces i with
      | false =>
        obtain ⟨a1, a2, a3⟩ := h5 i h6 ho
        cases hf1 : s1.s.full i with
        | true => exact Nat.lt_of_lt_of_le (h2 hf1) a1
        | false => exact Nat.lt_of_le_of_lt h7 (a3 hf1 hf)
      | true =>
        cases o with
        | op o =>
          simp only [rstep, Option.map_eq_some_iff] at e1
          obtain ⟨⟨r1, s4⟩, b1, b2⟩ := e1
          cases b2
          exact Nat.lt_of_le_of_lt h7 ((step_new (fs_ok ok1).ok b1 e2 ho).2 hf)
        | _ => cases ho
  obtain ⟨h1, h2⟩ := key ok1 hi1 d1 hr' hu'
  simp only [rstep, h1]
  split
  · rename_i hb
    cases hc : (s2.s.obj i).cell with
    | none => rfl
    | some y =>
      have := h2 (by simp [St.full, hc])
      omega
  · rfl

/-- C68: only a name that does not exist stops a program. -/
theorem C68_total {T : TOps α} {s : RSt α} {o : ROp α} : (rstep T s o).isSome ↔ match o with
    | .op o => ∀ i ∈ o.vars, (s.s.vars[i]?.join).isSome
    | .new _ => True
    | .del j | .put j _ => (s.outs[j]?.join).isSome
    | .hold i | .holdValue i | .holdPtr i => (s.s.vars[i]?.join).isSome
    | .holdOr i j => (s.s.vars[i]?.join).isSome ∧ (s.outs[j]?.join).isSome
    | .read r | .write r _ => r < s.refs.length := by
  cases o with
  | op o =>
    have : s.s.exist o.vars = true ↔ ∀ i ∈ o.vars, (s.s.vars[i]?.join).isSome := List.all_eq_true
    simp only [rstep, Option.isSome_map, step]
    rw [← this]
    split <;> simp_all
  | new => simp [rstep]
  | del | put => simp only [rstep]; split <;> simp_all
  | hold | holdValue | holdPtr | holdOr =>
    simp only [rstep, St.exist, List.all_cons, List.all_nil, Bool.and_true]
    split <;> simp_all
  | read r | write r =>
    simp only [rstep]
    cases h : s.refs[r]? with
    | none => simpa using h
    | some x =>
      have := (List.getElem?_eq_some_iff.1 h).1
      cases x <;> simpa using this

/-! ### Examples -/

namespace Kept

/-- Strings; a moved-from string is "", a self-move leaves nothing. -/
def T : TOps String := ⟨fun _ => "", fun _ => ""⟩

/-- The results of a program in which no operation of `T` throws. -/
def results (l : List (ROp String)) : Option (List (Res String)) := (rrun T RSt.init (l.map fun o => (o, []))).map (·.1)

-- a reference stays with its variable through assignments, a swap and a move from it, and stores through it are seen
example : results [.op (.mkVal (.lit "a")), .op (.mkVal (.lit "b")), .hold 0, .op (.assignVal 0 (.lit "c")), .read 0, .op (.copyAssign 0 1),
    .read 0, .op (.assignVal 0 (.lit "d")), .op (.swap 0 1), .read 0, .op (.get 1), .write 0 "e", .op (.get 0), .op (.move 0), .read 0] =
    some [.unit, .unit, .unit, .unit, .val "c", .unit, .val "b", .unit, .unit, .val "b", .val "d", .unit, .val "e", .unit, .val ""] := by
  decide +kernel
-- `reset`, `emplace`, a swap with an empty optional and the end of the variable are the end of a reference, also if there is a value again
example : results [.op (.mkVal (.lit "a")), .hold 0, .op (.reset 0), .op (.assignVal 0 (.lit "b")), .op (.get 0), .read 0] =
    some [.unit, .unit, .unit, .unit, .val "b", .ub] := by decide +kernel
example : results [.op (.mkVal (.lit "a")), .hold 0, .op (.emplace 0 (.lit "b")), .op (.get 0), .read 0] =
    some [.unit, .unit, .unit, .val "b", .ub] := by decide +kernel
example : results [.op (.mkVal (.lit "a")), .op .mkNone, .hold 0, .op (.swap 0 1), .op (.swap 0 1), .op (.get 0), .read 0] =
    some [.unit, .unit, .unit, .unit, .unit, .val "a", .ub] := by decide +kernel
example : results [.op (.mkVal (.lit "a")), .hold 0, .op (.dtor 0), .read 0] = some [.unit, .unit, .unit, .ub] := by decide +kernel
-- `get_value_or`: of an engaged optional, of an empty one, and of an empty one with an argument that is gone when the reference is read
example : results [.op (.mkVal (.lit "a")), .new "x", .holdOr 0 0, .write 0 "b", .op (.get 0), .op (.reset 0), .holdOr 0 0, .put 0 "y", .read 1,
    .op (.assignVal 0 (.lit "c")), .read 1, .del 0, .read 1] =
    some [.unit, .unit, .unit, .unit, .val "b", .unit, .unit, .unit, .val "y", .unit, .val "y", .unit, .ub] := by decide +kernel
-- `value()` and `get_ptr()` of an empty optional
example : results [.op .mkNone, .holdValue 0, .holdPtr 0, .op (.assignVal 0 (.lit "a")), .holdPtr 0, .read 1, .read 0] =
    some [.unit, .badAccess, .bool false, .unit, .bool true, .val "a", .ub] := by decide +kernel
-- an assignment that throws leaves the reference good, an `emplace` that throws does not
example : (rrun T RSt.init [(.op (.mkVal (.lit "a")), []), (.hold 0, []), (.op (.assignVal 0 (.lit "b")), [some ("half", "?")]), (.read 0, []),
    (.op (.emplace 0 (.lit "c")), [some ("?", "?")]), (.read 0, [])]).map (·.1) =
    some [.unit, .unit, .thrown, .val "half", .thrown, .ub] := by decide +kernel

/-- The state after a program that does not stop. -/
def after (l : List (ROp String)) : RSt String := ((rrun T RSt.init (l.map fun o => (o, []))).map (·.2)).getD RSt.init

-- `C68_stays` applies: the optional is assigned to and swapped with another
example : ∃ x, (after [.op (.mkVal (.lit "a")), .op (.mkVal (.lit "b")), .hold 0, .op (.assignVal 0 (.lit "c")), .op (.swap 0 1)]).s.abs.look
      (.copyOf 0) = some x ∧
    rstep T (after [.op (.mkVal (.lit "a")), .op (.mkVal (.lit "b")), .hold 0, .op (.assignVal 0 (.lit "c")), .op (.swap 0 1)]) (.read 0) =
      some (.val x, after [.op (.mkVal (.lit "a")), .op (.mkVal (.lit "b")), .hold 0, .op (.assignVal 0 (.lit "c")), .op (.swap 0 1)]) := by
  refine C68_stays (s := after [.op (.mkVal (.lit "a")), .op (.mkVal (.lit "b"))])
    (s1 := after [.op (.mkVal (.lit "a")), .op (.mkVal (.lit "b")), .hold 0])
    (l := [(.op (.mkVal (.lit "a")), []), (.op (.mkVal (.lit "b")), [])]) (rs := [.unit, .unit])
    (l' := [(.op (.assignVal 0 (.lit "c")), []), (.op (.swap 0 1), [])]) (rs' := [.unit, .unit]) (i := 0)
    (by decide +kernel) (by decide) (by decide +kernel) (by decide +kernel) (by decide) (by simp) ?_
  intro a b rs s e h
  match a, e with
  | [], _ => cases h; decide +kernel
  | [x], e => simp only [List.singleton_append, List.cons.injEq] at e; obtain ⟨rfl, -⟩ := e; cases h; decide +kernel
  | [x, y], e =>
    simp only [List.cons_append, List.nil_append, List.cons.injEq] at e; obtain ⟨rfl, rfl, -⟩ := e; cases h; decide +kernel
  | x :: y :: z :: a, e => simp at e

-- `C68_ends` applies: `reset`, then there is a value again
example : rstep T (after [.op (.mkVal (.lit "a")), .hold 0, .op (.reset 0), .op (.assignVal 0 (.lit "b"))]) (.read 0) =
    some (.ub, after [.op (.mkVal (.lit "a")), .hold 0, .op (.reset 0), .op (.assignVal 0 (.lit "b"))]) :=
  C68_ends (s := after [.op (.mkVal (.lit "a")), .hold 0]) (s1 := after [.op (.mkVal (.lit "a")), .hold 0, .op (.reset 0)])
    (l := [(.op (.mkVal (.lit "a")), []), (.hold 0, [])]) (rs := [.unit, .unit]) (l' := [(.op (.assignVal 0 (.lit "b")), [])])
    (rs' := [.unit]) (i := 0) (k := 1) (o := .reset 0) (x := .unit) (by decide +kernel) (by decide) (by decide +kernel) (by decide +kernel)
    (by decide) (.inr (by decide +kernel)) (by decide +kernel) (by decide)

end Kept

/-! ### Scalars -/

namespace Sc

/-- Reading through a reference to `m_storage` of variable `i` (686-704): the `T` is there as long as the variable is. -/
def load (s : St α) (i : Nat) : Res α := (s[i]?.join).elim .ub fun o => .val o.store

theorem step_alive {d : α} {s s' : St α} {o : Op α} {f : Bool} {r : Res α} {i : Nat} (h : step d s o f = some (r, s'))
    (hi : (s[i]?.join).isSome = true) (ho : o ≠ .dtor i) : (s'[i]?.join).isSome = true := by
  have hl : i < s.length := by
    refine Nat.lt_of_not_le fun hl => ?_
    simp [List.getElem?_eq_none hl] at hi
  have app : ∀ x, ((s ++ x)[i]?.join).isSome = true := fun x => by rw [List.getElem?_append_left hl]; exact hi
  have set1 : ∀ {l : St α} {k x}, (l[i]?.join).isSome = true → ((l.set k (some x))[i]?.join).isSome = true := by
    intro l k x h
    rw [List.getElem?_set]
    split
    · split
      · rfl
      · rename_i e hn; subst e
        rw [List.getElem?_eq_none (by omega)] at h; cases h
    · exact h
  unfold step at h
  split at h
  case isFalse => cases h
  injection h with h
  cases o with
  | dtor k =>
    cases h
    rw [List.getElem?_set_ne (by rintro rfl; exact ho rfl)]
    exact hi
  | _ =>
    simp only at h
    repeat' split at h
    all_goals first
      | (cases h; exact hi)
      | (cases h; exact app _)
      | (cases h; exact set1 hi)
      | (cases h; exact set1 (set1 hi))

end Sc

/-- C68 for scalars: a reference into an optional is good until the end of the optional, even if it is emptied or `emplace` is called,
and it gives the value whenever there is one. -/
theorem C68_scalar {d : α} {l : List (Op α × Bool)} {s s' : Sc.St α} {rs : List (Res α)} {i : Nat} (h : Sc.run d s l = some (rs, s'))
    (hi : (s[i]?.join).isSome = true) (hd : ∀ p ∈ l, p.1 ≠ .dtor i) :
    Sc.load s' i ≠ .ub ∧ ∀ v, s'.abs.look (.copyOf i) = some v → Sc.load s' i = .val v := by
  have key : (s'[i]?.join).isSome = true := by
    induction l generalizing s rs with
    | nil => cases h; exact hi
    | cons p l ih =>
      obtain ⟨o, f⟩ := p
      unfold Sc.run at h
      split at h
      · cases h
      · rename_i r s1 e
        simp only [Option.map_eq_some_iff, Prod.mk.injEq] at h
        obtain ⟨q, h3, rfl, rfl⟩ := h
        exact ih h3 (Sc.step_alive e hi (hd _ List.mem_cons_self)) fun p hp => hd p (List.mem_cons_of_mem _ hp)
  obtain ⟨o, ho⟩ := Option.isSome_iff_exists.1 key
  refine ⟨by simp [Sc.load, ho], fun v hv => ?_⟩
  simp only [Sc.load, ho, Option.elim_some]
  simp only [Spec.look, Sc.St.abs, List.getElem?_map] at hv
  rcases hs : s'[i]? with _ | _ | x <;> rw [hs] at ho hv <;> cases ho
  simp only [Option.map_some, Option.join_some, Sc.Obj.abs] at hv
  split at hv <;> cases hv
  rfl

-- after `reset` the reference still reads the old value, and after an assignment the new one
example : (Sc.run (0 : Int) [] [(.mkVal (.lit 7), false), (.reset 0, false)]).map (fun p => Sc.load p.2 0) = some (.val 7) ∧
    (Sc.run (0 : Int) [] [(.mkVal (.lit 7), false), (.reset 0, false), (.emplace 0 (.lit 3), false)]).map (fun p => Sc.load p.2 0) =
      some (.val 3) := by decide +kernel

end Verif.Opt
