/-!
# `slot` objects and property C31

signals.hpp:677-754 (`slot_state`), 768-1045 (`slot_func`, `slot_pmf`, `slot_pmf_tracked`), 1249-1409 (`slot`).

A program works with any number of `slot` variables and of listeners made from them by `connect`. The listeners are slot objects too,
owned by a signal; that a signal forgets a listener is the subject of `Machine`, here a listener is simply another variable.
-/

namespace Verif.SlotObj

/-- A `slot_impl`: the callable (a value that a call may change), the tracked object if there is one, and `slot_state` (677-754)
without the index, which only signals use. -/
structure Impl (α : Type) where
  val : α
  obj : Option Nat
  conn : Bool
  blk : Bool
deriving DecidableEq, Repr

/-- A `slot` variable: destroyed, or `m_pImpl` (null or an address) and whether `m_pSignal` is non-null (1407-1408). -/
inductive Var where
  | gone
  | var (p : Option Nat) (sig : Bool)
deriving DecidableEq, Repr

/-- The objects on the heap (`none`: deleted; addresses are not reused), the variables, the tracked objects that are gone. -/
structure St (α : Type) where
  heap : List (Option (Impl α))
  vars : List Var
  dead : List Nat
deriving DecidableEq, Repr

/-- Operations of a program. `fails`: the copy constructor of the callable throws, should it be called. -/
inductive Op (α β : Type) where
  /-- `slot()` (1256) -/
  | mkEmpty
  /-- `slot(f)`, `slot(f, p)` (1262-1281); `obj`: the object `p` tracks. -/
  | mk (v : α) (obj : Option Nat)
  /-- `slot(const slot&)` (1284) -/
  | copy (j : Nat) (fails : Bool)
  /-- `signal::connect(slot)`: `slot(const slot&, signal_base*)` (1284, 1691) -/
  | connect (j : Nat) (fails : Bool)
  /-- `slot b(a)`, `auto b = a` with a variable `a` that is not `const`. Here the template (1263) is a better match than the copy
  constructor: it makes a `slot_func` that holds a slot, which it has to copy from `a` (777) in the same way. -/
  | copyVar (j : Nat)
  /-- `slot(slot&&)` (1296) -/
  | move (j : Nat)
  /-- `operator=(slot&&)` (1315) -/
  | moveAssign (i j : Nat)
  | dtor (i : Nat)
  /-- 1368, 1374, 1352 -/
  | block (i : Nat) | unblock (i : Nat) | disconnect (i : Nat)
  /-- 1325, 1347, 1363 -/
  | test (i : Nat) | connected (i : Nat) | blocked (i : Nat)
  /-- `operator()` (1381) -/
  | call (i : Nat) (x : β)
  /-- the last owner of a tracked object lets go of it -/
  | expire (o : Nat)
deriving Repr

/-- What an operation gives back. -/
inductive Res (ρ : Type) where
  | unit | bool (b : Bool)
  /-- the `optional` that a call returns -/
  | out (r : Option ρ)
  | thrown
  /-- null was dereferenced, or an object deleted twice or used after it was deleted -/
  | ub
  /-- endless recursion -/
  | diverges
deriving DecidableEq, Repr

variable {α β ρ : Type}

/-- The variables that must exist. -/
def Op.vars : Op α β → List Nat
  | .mkEmpty | .mk _ _ | .expire _ => []
  | .copy j _ | .connect j _ | .copyVar j | .move j => [j]
  | .moveAssign i j => [i, j]
  | .dtor i | .block i | .unblock i | .disconnect i | .test i | .connected i | .blocked i | .call i _ => [i]

/-- `connected()`, virtual: 720-723, and 944-947, 1005-1008 for tracked objects. -/
def Impl.connected (c : Impl α) (dead : List Nat) : Bool :=
  match c.obj with
  | none => c.conn
  | some o => !dead.contains o && c.conn

/-! ### The code -/

/-- `clone()` (780, 857, 949): a new object, equal to `*p`. `some none`: the copy threw. `none`: undefined. -/
def St.clone (s : St α) (p : Option Nat) (fails : Bool) : Option (Option (St α × Nat)) :=
  match p with
  | none => none
  | some a =>
      match s.heap[a]? with
      | some (some c) => some (if fails then none else some ({ s with heap := s.heap ++ [some c] }, s.heap.length))
      | _ => none

/-- `delete p` by a `unique_ptr`. -/
def St.free (s : St α) (p : Option Nat) : Option (St α) :=
  match p with
  | none => some s
  | some a =>
      match s.heap[a]? with
      | some (some _) => some { s with heap := s.heap.set a none }
      | _ => none

/-- The fields of variable `i`. -/
def St.ptr (s : St α) (i : Nat) : Option Nat := match s.vars[i]? with | some (.var p _) => p | _ => none
def St.sig (s : St α) (i : Nat) : Bool := match s.vars[i]? with | some (.var _ g) => g | _ => false

/-- `if (m_pImpl) m_pImpl->...` -/
def St.onImpl (s : St α) (i : Nat) (null : Res ρ) (f : Impl α → Res ρ × Impl α) : Res ρ × St α :=
  match s.ptr i with
  | none => (null, s)
  | some a =>
      match s.heap[a]? with
      | some (some c) => ((f c).1, { s with heap := s.heap.set a (some (f c).2) })
      | _ => (.ub, s)

/-- `operator()` of the implementation (795, 873, 965-980). The void versions (832, 916, 1026-1040) do the same. -/
def Impl.call (ap : α → β → ρ × α) (dead : List Nat) (c : Impl α) (x : β) : Res ρ × Impl α :=
  match c.obj with
  | none => (.out (some (ap c.val x).1), { c with val := (ap c.val x).2 })
  | some o =>
      if dead.contains o then (.out none, { c with conn := false })
      else if c.connected dead then (.out (some (ap c.val x).1), { c with val := (ap c.val x).2 })
      else (.out none, c)

/-- `slot(const slot& copy, signal_base* signal)` (1284-1287); `g`: a signal was given. -/
def copyCtor (s : St α) (j : Nat) (g fails : Bool) : Res ρ × St α :=
  match s.clone (s.ptr j) fails with
  | none => (.ub, s)
  | some none => (.thrown, s)
  | some (some (s', a)) => (.unit, { s' with vars := s'.vars ++ [.var (some a) (g || s.sig j)] })

/-- One operation; `ap` calls a callable: its result and the callable afterwards. `none`: a variable that does not exist is named. -/
def step (ap : α → β → ρ × α) (s : St α) (o : Op α β) : Option (Res ρ × St α) :=
  if o.vars.all fun i => match s.vars[i]? with | some (.var _ _) => true | _ => false then
    some <| match o with
      | .mkEmpty => (.unit, { s with vars := s.vars ++ [.var none false] })
      | .mk v ob =>
          (.unit, { s with heap := s.heap ++ [some ⟨v, ob, true, false⟩], vars := s.vars ++ [.var (some s.heap.length) false] })
      | .copy j f => copyCtor s j false f
      | .connect j f => copyCtor s j true f
      | .copyVar _ => (.diverges, s)
      | .move j => (.unit, { s with vars := s.vars.set j (.var none false) ++ [.var (s.ptr j) (s.sig j)] })
      | .moveAssign i j =>
          -- `m_pImpl = std::move(other.m_pImpl)`: release the other, take over, delete the old one; then the signals
          let p := s.ptr j
          let s1 := { s with vars := s.vars.set j (.var none (s.sig j)) }
          let s2 := { s1 with vars := s1.vars.set i (.var p (s1.sig i)) }
          match s2.free (s1.ptr i) with
          | none => (.ub, s)
          | some s3 =>
              let s4 := { s3 with vars := s3.vars.set i (.var (s3.ptr i) (s3.sig j)) }
              (.unit, { s4 with vars := s4.vars.set j (.var (s4.ptr j) false) })
      | .dtor i =>
          match s.free (s.ptr i) with
          | none => (.ub, s)
          | some s => (.unit, { s with vars := s.vars.set i .gone })
      | .block i => s.onImpl i .unit fun c => (.unit, { c with blk := true })
      | .unblock i => s.onImpl i .unit fun c => (.unit, { c with blk := false })
      | .disconnect i =>
          if s.sig i then s.onImpl i (.bool false) fun c => (.bool c.conn, { c with conn := false })
          else (.bool false, s)
      | .test i => (.bool (s.ptr i).isSome, s)
      | .connected i => s.onImpl i (.bool false) fun c => (.bool (c.connected s.dead), c)
      | .blocked i => s.onImpl i (.bool false) fun c => (.bool c.blk, c)
      | .call i x =>
          -- `if (!blocked() && connected()) return (*m_pImpl)(...); return {};`
          s.onImpl i (.out none) fun c => if !c.blk && c.connected s.dead then c.call ap s.dead x else (.out none, c)
      | .expire o => (.unit, { s with dead := o :: s.dead })
  else none

/-! ### Specification: every slot has its own callable and its own flags -/

/-- What a variable holds: its callable with the flags, and whether it is a listener of a signal. -/
abbrev Slot (α : Type) := Option (Impl α) × Bool

/-- The slot variables of the program (`none`: destroyed) and the tracked objects that are gone. -/
structure Spec (α : Type) where
  slots : List (Option (Slot α))
  dead : List Nat

/-- The content of variable `i`; storing to it; a new variable. -/
def Spec.at (m : Spec α) (i : Nat) : Slot α := (m.slots[i]?.join).getD (none, false)
def Spec.put (m : Spec α) (i : Nat) (x : Option (Slot α)) : Spec α := { m with slots := m.slots.set i x }
def Spec.new (m : Spec α) (x : Slot α) : Spec α := { m with slots := m.slots ++ [some x] }

/-- It can be called: not blocked, not disconnected, its object not gone. -/
def Spec.ready (m : Spec α) (c : Impl α) : Bool := !c.blk && c.conn && c.obj.all fun o => !m.dead.contains o

/-- What the operations mean. -/
def Spec.next (ap : α → β → ρ × α) (m : Spec α) : Op α β → Res ρ × Spec α
  | .mkEmpty => (.unit, m.new (none, false))
  | .mk v ob => (.unit, m.new (some ⟨v, ob, true, false⟩, false))
  | .copy j f =>
      match m.at j with
      | (none, _) => (.ub, m)
      | (some c, g) => if f then (.thrown, m) else (.unit, m.new (some c, g))
  | .connect j f =>
      match m.at j with
      | (none, _) => (.ub, m)
      | (some c, _) => if f then (.thrown, m) else (.unit, m.new (some c, true))
  | .copyVar _ => (.diverges, m)
  | .move j => (.unit, (m.put j (some (none, false))).new (m.at j))
  | .moveAssign i j =>
      if i = j then (.unit, m.put i (some ((m.at i).1, false)))
      else (.unit, (m.put j (some (none, false))).put i (some (m.at j)))
  | .dtor i => (.unit, m.put i none)
  | .block i => (.unit, m.put i (some ((m.at i).1.map fun c => { c with blk := true }, (m.at i).2)))
  | .unblock i => (.unit, m.put i (some ((m.at i).1.map fun c => { c with blk := false }, (m.at i).2)))
  | .disconnect i =>
      match m.at i with
      | (some c, true) => (.bool c.conn, m.put i (some (some { c with conn := false }, true)))
      | _ => (.bool false, m)
  | .test i => (.bool (m.at i).1.isSome, m)
  | .connected i => (.bool ((m.at i).1.any fun c => c.conn && c.obj.all fun o => !m.dead.contains o), m)
  | .blocked i => (.bool ((m.at i).1.any fun c => c.blk), m)
  | .call i x =>
      match m.at i with
      | (some c, g) =>
          if m.ready c then (.out (some (ap c.val x).1), m.put i (some (some { c with val := (ap c.val x).2 }, g)))
          else (.out none, m)
      | _ => (.out none, m)
  | .expire o => (.unit, { m with dead := o :: m.dead })

/-! ### Proof -/

/-- Pointers point to objects, different variables to different ones, and every object belongs to a variable. -/
structure St.Ok (s : St α) : Prop where
  valid : ∀ {i a : Nat} {g : Bool}, s.vars[i]? = some (.var (some a) g) → ∃ c, s.heap[a]? = some (some c)
  uniq : ∀ {i j a : Nat} {g g' : Bool}, s.vars[i]? = some (.var (some a) g) → s.vars[j]? = some (.var (some a) g') → i = j
  owned : ∀ {a : Nat} {c : Impl α}, s.heap[a]? = some (some c) → ∃ (i : Nat) (g : Bool), s.vars[i]? = some (.var (some a) g)

/-- What the specification says a variable holds. -/
def Var.abs (heap : List (Option (Impl α))) : Var → Option (Slot α)
  | .gone => none
  | .var none g => some (none, g)
  | .var (some a) g => some (heap[a]?.join, g)

/-- The state of the specification that a state stands for. -/
def St.abs (s : St α) : Spec α := ⟨s.vars.map (Var.abs s.heap), s.dead⟩

theorem set_same {γ : Type} {l : List γ} {i : Nat} {x : γ} (h : l[i]? = some x) : l.set i x = l := by
  obtain ⟨h1, h2⟩ := List.getElem?_eq_some_iff.1 h
  rw [← h2, List.set_getElem_self]

theorem map_heap_app {s : St α} (ok : s.Ok) (x : Option (Impl α)) :
    s.vars.map (Var.abs (s.heap ++ [x])) = s.vars.map (Var.abs s.heap) := by
  apply List.map_congr_left
  intro v hv
  cases v with
  | gone => rfl
  | var p g =>
    cases p with
    | none => rfl
    | some a =>
      obtain ⟨i, hi⟩ := List.getElem?_of_mem hv
      obtain ⟨c, hc⟩ := ok.valid hi
      simp only [Var.abs]
      rw [List.getElem?_append_left (List.getElem?_eq_some_iff.1 hc).1]

theorem map_heap_set {s : St α} (ok : s.Ok) {i a : Nat} {g : Bool} (h : s.vars[i]? = some (.var (some a) g)) (x : Option (Impl α)) :
    s.vars.map (Var.abs (s.heap.set a x)) = (s.vars.map (Var.abs s.heap)).set i (some (x, g)) := by
  obtain ⟨c, hc⟩ := ok.valid h
  have ha := (List.getElem?_eq_some_iff.1 hc).1
  have hi := (List.getElem?_eq_some_iff.1 h).1
  apply List.ext_getElem?
  intro k
  rw [List.getElem?_set, List.getElem?_map]
  split
  · rename_i e; subst e
    rw [h]; simp [Var.abs, hi, ha]
  · rename_i hne
    rw [List.getElem?_map]
    cases hv : s.vars[k]? with
    | none => rfl
    | some v =>
      cases v with
      | gone => rfl
      | var p g' =>
        cases p with
        | none => rfl
        | some b =>
          have : a ≠ b := by rintro rfl; exact hne (ok.uniq h hv)
          simp only [Option.map_some, Var.abs]
          rw [List.getElem?_set_ne this]

theorem at_abs {s : St α} {i : Nat} {p : Option Nat} {g : Bool} (h : s.vars[i]? = some (.var p g)) :
    s.abs.at i = (p.bind fun a => s.heap[a]?.join, g) ∧ s.ptr i = p ∧ s.sig i = g := by
  refine ⟨?_, by simp [St.ptr, h], by simp [St.sig, h]⟩
  cases p <;> simp [Spec.at, St.abs, h, Var.abs]

/-- Changing the object of one variable in place. -/
theorem onImpl_spec {s : St α} (ok : s.Ok) {i : Nat} {p : Option Nat} {g : Bool} (h : s.vars[i]? = some (.var p g)) (null : Res ρ)
    (f : Impl α → Res ρ × Impl α) :
    (s.onImpl i null f).2.Ok ∧ (s.onImpl i null f).1 = ((s.abs.at i).1.elim null fun c => (f c).1) ∧
    (s.onImpl i null f).2.abs = s.abs.put i (some ((s.abs.at i).1.map fun c => (f c).2, g)) := by
  obtain ⟨h1, h2, h3⟩ := at_abs h
  have hi := (List.getElem?_eq_some_iff.1 h).1
  cases p with
  | none =>
    have e : s.onImpl i null f = (null, s) := by simp [St.onImpl, h2]
    rw [e, h1]
    refine ⟨ok, rfl, ?_⟩
    simp only [Spec.put, Option.bind_none, Option.map_none]
    have : s.abs.slots.set i (some (none, g)) = s.abs.slots := set_same (by simp [St.abs, h, Var.abs])
    rw [this]
  | some a =>
    obtain ⟨c, hc⟩ := ok.valid h
    have ha := (List.getElem?_eq_some_iff.1 hc).1
    have e : s.onImpl i null f = ((f c).1, { s with heap := s.heap.set a (some (f c).2) }) := by simp [St.onImpl, h2, hc]
    rw [e, h1]
    simp only [Option.bind_some, hc, Option.join_some, Option.elim_some, Option.map_some]
    refine ⟨⟨?_, ok.uniq, ?_⟩, True.intro, ?_⟩
    · intro k b g' hk
      by_cases hab : a = b
      · subst hab; exact ⟨(f c).2, List.getElem?_set_self ha⟩
      · simp only [List.getElem?_set_ne hab]; exact ok.valid hk
    · intro b d hb
      simp only [List.getElem?_set] at hb
      split at hb
      · rename_i e; subst e; exact ⟨i, g, h⟩
      · exact ok.owned hb
    · simp only [St.abs, Spec.put, map_heap_set ok h]

/-- A new object for a new variable. -/
theorem new_ok {s : St α} (ok : s.Ok) (c : Impl α) (g : Bool) :
    ({ s with heap := s.heap ++ [some c], vars := s.vars ++ [.var (some s.heap.length) g] } : St α).Ok := by
  have old : ∀ {i a : Nat} {g' : Bool}, (s.vars ++ [Var.var (some s.heap.length) g])[i]? = some (.var (some a) g') →
      (s.vars[i]? = some (.var (some a) g') ∧ a < s.heap.length) ∨ (i = s.vars.length ∧ a = s.heap.length) := by
    intro i a g' hi
    rw [List.getElem?_append] at hi
    split at hi
    · obtain ⟨c, hc⟩ := ok.valid hi
      exact .inl ⟨hi, (List.getElem?_eq_some_iff.1 hc).1⟩
    · rename_i hge
      rw [List.getElem?_singleton] at hi
      split at hi
      · injection hi with hi; injection hi with hi _; injection hi with hi
        exact .inr ⟨by omega, hi.symm⟩
      · cases hi
  refine ⟨fun hi => ?_, fun hi hj => ?_, fun ha => ?_⟩
  · rcases old hi with ⟨h1, h2⟩ | ⟨-, rfl⟩
    · obtain ⟨d, hd⟩ := ok.valid h1
      exact ⟨d, by simp only; rw [List.getElem?_append_left h2, hd]⟩
    · exact ⟨c, by simp⟩
  · rcases old hi with ⟨h1, h2⟩ | ⟨rfl, rfl⟩ <;> rcases old hj with ⟨h3, h4⟩ | ⟨h3, h4⟩
    · exact ok.uniq h1 h3
    · omega
    · omega
    · exact h3.symm
  · rename_i a d
    simp only [List.getElem?_append] at ha
    split at ha
    · obtain ⟨i, g', hi⟩ := ok.owned ha
      exact ⟨i, g', by simp only; rw [List.getElem?_append_left (List.getElem?_eq_some_iff.1 hi).1, hi]⟩
    · rename_i hge
      rw [List.getElem?_singleton] at ha
      split at ha
      · have : a = s.heap.length := by omega
        subst this
        exact ⟨s.vars.length, g, by simp⟩
      · cases ha

theorem copy_spec {s : St α} (ok : s.Ok) {j : Nat} {p : Option Nat} {g : Bool} (h : s.vars[j]? = some (.var p g)) (g' f : Bool) :
    (copyCtor (ρ := ρ) s j g' f).2.Ok ∧
    ((copyCtor (ρ := ρ) s j g' f).1, (copyCtor (ρ := ρ) s j g' f).2.abs) =
      match (s.abs.at j).1 with
      | none => (.ub, s.abs)
      | some c => if f then (.thrown, s.abs) else (.unit, s.abs.new (some c, g' || g)) := by
  obtain ⟨h1, h2, h3⟩ := at_abs h
  cases p with
  | none =>
    have e : copyCtor (ρ := ρ) s j g' f = (.ub, s) := by simp [copyCtor, h2, St.clone]
    rw [e, h1]; exact ⟨ok, rfl⟩
  | some a =>
    obtain ⟨c, hc⟩ := ok.valid h
    rw [h1]
    simp only [Option.bind_some, hc, Option.join_some]
    cases f with
    | true =>
      have e : copyCtor (ρ := ρ) s j g' true = (.thrown, s) := by simp [copyCtor, h2, St.clone, hc]
      rw [e]; exact ⟨ok, rfl⟩
    | false =>
      have e : copyCtor (ρ := ρ) s j g' false =
          (.unit, { s with heap := s.heap ++ [some c], vars := s.vars ++ [.var (some s.heap.length) (g' || g)] }) := by
        simp [copyCtor, h2, h3, St.clone, hc]
      rw [e]
      refine ⟨new_ok ok c _, ?_⟩
      simp [St.abs, Spec.new, map_heap_app ok, Var.abs]

theorem free_spec {s : St α} (ok : s.Ok) {i : Nat} {p : Option Nat} {g : Bool} (h : s.vars[i]? = some (.var p g)) :
    ∃ heap, (∀ vars, ({ s with vars := vars } : St α).free p = some { s with vars := vars, heap := heap }) ∧
    s.vars.map (Var.abs heap) = (s.vars.map (Var.abs s.heap)).set i (some (none, g)) ∧
    (∀ b, p ≠ some b → heap[b]? = s.heap[b]?) ∧ ∀ a c, p = some a → heap[a]? ≠ some (some c) := by
  cases p with
  | none =>
    refine ⟨s.heap, fun _ => rfl, (set_same (by simp [h, Var.abs])).symm, fun _ _ => rfl, nofun⟩
  | some a =>
    obtain ⟨c, hc⟩ := ok.valid h
    refine ⟨s.heap.set a none, fun _ => by simp [St.free, hc], map_heap_set ok h none, ?_, ?_⟩
    · intro b hb
      rw [List.getElem?_set_ne]; rintro rfl; exact hb rfl
    · rintro _ d ⟨⟩
      rw [List.getElem?_set_self (List.getElem?_eq_some_iff.1 hc).1]; simp

/-- Existing variables. -/
theorem exist_var {s : St α} {l : List Nat} (h : (l.all fun i => match s.vars[i]? with | some (.var _ _) => true | _ => false) = true)
    {i : Nat} (hi : i ∈ l) : ∃ p g, s.vars[i]? = some (.var p g) := by
  have := List.all_eq_true.1 h i hi
  split at this
  · exact ⟨_, _, by assumption⟩
  · cases this

theorem put_self {m : Spec α} {i : Nat} {x : Slot α} (h : m.slots[i]? = some (some x)) : m.put i (some x) = m := by
  simp only [Spec.put, set_same h]

theorem slot_at {s : St α} {i : Nat} {p : Option Nat} {g : Bool} (h : s.vars[i]? = some (.var p g)) :
    s.abs.slots[i]? = some (some (s.abs.at i)) ∧ (s.abs.at i).2 = g := by
  rw [(at_abs h).1]
  cases p <;> simp [St.abs, h, Var.abs]

theorem ready_iff (s : St α) (c : Impl α) : s.abs.ready c = (!c.blk && c.connected s.dead) := by
  unfold Spec.ready Impl.connected
  have : s.abs.dead = s.dead := rfl
  rw [this]
  cases c.obj with
  | none => simp
  | some o => cases c.blk <;> cases c.conn <;> simp

theorem connected_iff (s : St α) (c : Impl α) : (c.conn && c.obj.all fun o => !s.abs.dead.contains o) = c.connected s.dead := by
  unfold Impl.connected
  have : s.abs.dead = s.dead := rfl
  rw [this]
  cases c.obj with
  | none => simp
  | some o => simp [Bool.and_comm]

/-- Variable `i` owns the object at `a`; there is an object at `a`. -/
def St.Has (s : St α) (i a : Nat) : Prop := ∃ g, s.vars[i]? = some (.var (some a) g)
def St.Live (s : St α) (a : Nat) : Prop := ∃ c, s.heap[a]? = some (some c)

/-- Variable `k` has got the pointer that variable `f k` had; objects that nobody has any more are deleted. -/
theorem St.Ok.re {s s' : St α} (ok : s.Ok) (f : Nat → Option Nat) (inj : ∀ {k l x}, f k = some x → f l = some x → k = l)
    (hp : ∀ k a, s'.Has k a ↔ ∃ x, f k = some x ∧ s.Has x a)
    (hl : ∀ a, s'.Live a ↔ s.Live a ∧ ∃ k x, f k = some x ∧ s.Has x a) : s'.Ok := by
  refine ⟨fun hi => ?_, fun hi hj => ?_, fun ha => ?_⟩
  · obtain ⟨x, h1, g, h2⟩ := (hp _ _).1 ⟨_, hi⟩
    exact (hl _).2 ⟨ok.valid h2, _, x, h1, g, h2⟩
  · obtain ⟨x, h1, g, h2⟩ := (hp _ _).1 ⟨_, hi⟩
    obtain ⟨y, h3, g', h4⟩ := (hp _ _).1 ⟨_, hj⟩
    have := ok.uniq h2 h4
    subst this
    exact inj h1 h3
  · obtain ⟨-, k, x, h1, h2⟩ := (hl _).1 ⟨_, ha⟩
    obtain ⟨g, h3⟩ := (hp k _).2 ⟨x, h1, h2⟩
    exact ⟨k, g, h3⟩

/-- The pointers of the variables: what `set` and `++` do to them. -/
theorem has_set {l : List Var} {i k a : Nat} {p : Option Nat} {g : Bool} (hi : i < l.length) :
    (∃ g', (l.set i (.var p g))[k]? = some (.var (some a) g')) ↔
      if k = i then p = some a else ∃ g', l[k]? = some (.var (some a) g') := by
  by_cases e : k = i
  · subst e
    rw [if_pos rfl, List.getElem?_set_self hi]
    constructor
    · rintro ⟨g', h⟩; cases h; rfl
    · rintro rfl; exact ⟨g, rfl⟩
  · rw [if_neg e, List.getElem?_set_ne (Ne.symm e)]

theorem has_app {l : List Var} {k a : Nat} {p : Option Nat} {g : Bool} :
    (∃ g', (l ++ [.var p g])[k]? = some (.var (some a) g')) ↔
      if k = l.length then p = some a else ∃ g', l[k]? = some (.var (some a) g') := by
  by_cases e : k = l.length
  · subst e
    simp
  · rw [if_neg e]
    by_cases h : k < l.length
    · rw [List.getElem?_append_left h]
    · have h1 : l[k]? = none := List.getElem?_eq_none (by omega)
      have h2 : (l ++ [Var.var p g])[k]? = none := List.getElem?_eq_none (by simp; omega)
      rw [h1, h2]

theorem has_ptr {s : St α} {i a : Nat} {p : Option Nat} {g : Bool} (h : s.vars[i]? = some (.var p g)) : s.Has i a ↔ p = some a := by
  unfold St.Has
  rw [h]
  constructor
  · rintro ⟨g', e⟩; cases e; rfl
  · rintro rfl; exact ⟨g, rfl⟩

/-- Every operation does what the specification says. -/
theorem step_spec {ap : α → β → ρ × α} {s s' : St α} {o : Op α β} {r : Res ρ} (ok : s.Ok) (h : step ap s o = some (r, s')) :
    s'.Ok ∧ (r, s'.abs) = s.abs.next ap o := by
  unfold step at h
  split at h
  case isFalse => cases h
  rename_i hex
  injection h with h
  have viaImpl : ∀ {i : Nat} {p : Option Nat} {g : Bool} {null : Res ρ} {f : Impl α → Res ρ × Impl α},
      s.vars[i]? = some (.var p g) → s.onImpl i null f = (r, s') →
      s'.Ok ∧ r = ((s.abs.at i).1.elim null fun c => (f c).1) ∧
        s'.abs = s.abs.put i (some ((s.abs.at i).1.map fun c => (f c).2, g)) := by
    intro i p g null f h1 h2
    have := onImpl_spec ok h1 null f
    rw [h2] at this
    exact this
  cases o with
  | mkEmpty =>
    cases h
    refine ⟨ok.re (fun k => some k) (fun h1 h2 => by simp at h1 h2; omega) (fun k a => ?_) (fun a => ?_),
      by simp [St.abs, Spec.next, Spec.new, Var.abs]⟩
    · unfold St.Has
      rw [has_app]
      split
      · rename_i e; subst e; simp
      · simp
    · refine ⟨fun h1 => ⟨h1, ?_⟩, fun h1 => h1.1⟩
      obtain ⟨c, hc⟩ := h1
      obtain ⟨i, g, hi⟩ := ok.owned hc
      exact ⟨i, i, rfl, g, hi⟩
  | mk v ob =>
    cases h
    refine ⟨new_ok ok _ _, by simp [St.abs, Spec.next, Spec.new, Var.abs, map_heap_app ok]⟩
  | copy j f =>
    obtain ⟨p, g, hj⟩ := exist_var hex (i := j) (by simp [Op.vars])
    obtain ⟨h1, h2⟩ := copy_spec (ρ := ρ) ok hj false f
    simp only at h
    rw [h] at h1 h2
    refine ⟨h1, h2.trans ?_⟩
    simp only [Spec.next]
    have e : s.abs.at j = ((s.abs.at j).1, g) := by rw [← (slot_at hj).2]
    rw [e]
    cases (s.abs.at j).1 <;> rfl
  | connect j f =>
    obtain ⟨p, g, hj⟩ := exist_var hex (i := j) (by simp [Op.vars])
    obtain ⟨h1, h2⟩ := copy_spec (ρ := ρ) ok hj true f
    simp only at h
    rw [h] at h1 h2
    refine ⟨h1, h2.trans ?_⟩
    simp only [Spec.next]
    have e : s.abs.at j = ((s.abs.at j).1, g) := by rw [← (slot_at hj).2]
    rw [e]
    cases (s.abs.at j).1 <;> rfl
  | copyVar j => cases h; exact ⟨ok, rfl⟩
  | move j =>
    obtain ⟨p, g, hj⟩ := exist_var hex (i := j) (by simp [Op.vars])
    have hlt := (List.getElem?_eq_some_iff.1 hj).1
    cases h
    obtain ⟨h1, h2, h3⟩ := at_abs hj
    refine ⟨ok.re (fun k => if k = s.vars.length then some j else if k = j then none else some k) ?_ (fun k a => ?_) (fun a => ?_), ?_⟩
    · intro k l x hk hl
      split at hk <;> split at hl <;> (try split at hk) <;> (try split at hl) <;> simp at hk hl <;> omega
    · have := has_ptr (a := a) hj
      unfold St.Has
      rw [has_app, List.length_set, h2]
      split
      · simp only [Option.some.injEq, exists_eq_left']; rw [← this]; rfl
      · rw [has_set hlt]
        split
        · simp
        · simp
    · refine ⟨fun h1 => ⟨h1, ?_⟩, fun h1 => h1.1⟩
      obtain ⟨c, hc⟩ := h1
      obtain ⟨i, g, hi⟩ := ok.owned hc
      have hi' := (List.getElem?_eq_some_iff.1 hi).1
      by_cases e : i = j
      · subst e; exact ⟨s.vars.length, i, by simp, g, hi⟩
      · exact ⟨i, i, by rw [if_neg (by omega), if_neg e], g, hi⟩
    · simp only [Spec.next, h2, h3, St.abs, List.map_append, List.map_set, Spec.new, Spec.put, List.map_cons, List.map_nil]
      rw [show (⟨s.vars.map (Var.abs s.heap), s.dead⟩ : Spec α) = s.abs from rfl, h1]
      cases p <;> rfl
  | moveAssign i j =>
    obtain ⟨p, g, hi⟩ := exist_var hex (i := i) (by simp [Op.vars])
    obtain ⟨q, g', hj⟩ := exist_var hex (i := j) (by simp [Op.vars])
    have li := (List.getElem?_eq_some_iff.1 hi).1
    have lj := (List.getElem?_eq_some_iff.1 hj).1
    obtain ⟨-, i2, i3⟩ := at_abs hi
    obtain ⟨j1, j2, j3⟩ := at_abs hj
    by_cases e : i = j
    · subst e
      rw [hi] at hj; cases hj
      simp only [St.ptr, St.sig, hi, List.getElem?_set_self li, List.set_set, St.free] at h
      simp at h
      obtain ⟨rfl, rfl⟩ := h
      refine ⟨ok.re some (fun h1 h2 => by simp at h1 h2; omega) (fun k a => ?_) (fun a => ?_), ?_⟩
      · have := has_ptr (a := a) hi
        unfold St.Has
        rw [has_set li]
        split
        · rename_i e; subst e; simp only [Option.some.injEq, exists_eq_left']; rw [← this]; rfl
        · simp
      · refine ⟨fun h1 => ⟨h1, ?_⟩, fun h1 => h1.1⟩
        obtain ⟨c, hc⟩ := h1
        obtain ⟨i, g, hi⟩ := ok.owned hc
        exact ⟨i, i, rfl, g, hi⟩
      · simp only [Spec.next, if_true, St.abs, List.map_set, Spec.put]
        rw [show (⟨s.vars.map (Var.abs s.heap), s.dead⟩ : Spec α) = s.abs from rfl, j1]
        cases p <;> rfl
    · obtain ⟨heap, f1, f2, f3, f4⟩ := free_spec ok hi
      have hi' : (s.vars.set j (Var.var none g'))[i]? = some (.var p g) := by rw [List.getElem?_set_ne (Ne.symm e), hi]
      have p1 : ({ s with vars := s.vars.set j (.var none g') } : St α).ptr i = p := by simp only [St.ptr, hi']
      have g1 : ({ s with vars := s.vars.set j (.var none g') } : St α).sig i = g := by simp only [St.sig, hi']
      simp only [j2, j3, p1, g1, f1] at h
      have li' : i < (s.vars.set j (Var.var none g')).length := by simpa using li
      have r1 : ((s.vars.set j (Var.var none g')).set i (.var q g))[i]? = some (.var q g) := List.getElem?_set_self li'
      have r2 : ((s.vars.set j (Var.var none g')).set i (.var q g))[j]? = some (.var none g') := by
        rw [List.getElem?_set_ne e, List.getElem?_set_self lj]
      have r3 : ((s.vars.set j (Var.var none g')).set i (.var q g'))[j]? = some (.var none g') := by
        rw [List.getElem?_set_ne e, List.getElem?_set_self lj]
      simp only [St.ptr, St.sig, r1, r2, List.set_set, r3] at h
      cases h
      have other : ∀ {b}, q = some b → p ≠ some b := by
        rintro b rfl rfl; exact e (ok.uniq hi hj)
      refine ⟨ok.re (fun k => if k = j then none else if k = i then some j else some k) ?_ (fun k a => ?_) (fun a => ?_), ?_⟩
      · intro k l x hk hl
        split at hk <;> split at hl <;> (try split at hk) <;> (try split at hl) <;> simp at hk hl <;> omega
      · have := has_ptr (a := a) hj
        unfold St.Has
        rw [has_set (by simpa using lj)]
        split
        · simp
        · rw [has_set li']
          split
          · simp only [Option.some.injEq, exists_eq_left']; rw [← this]; rfl
          · rw [has_set lj, if_neg (by assumption)]; simp
      · constructor
        · rintro ⟨c, hc⟩
          have hne : p ≠ some a := fun hp => f4 a c hp hc
          simp only [f3 a hne] at hc
          refine ⟨⟨c, hc⟩, ?_⟩
          obtain ⟨k, gk, hk⟩ := ok.owned hc
          by_cases ek : k = j
          · subst ek; exact ⟨i, k, by simp [e], gk, hk⟩
          · refine ⟨k, k, ?_, gk, hk⟩
            rw [if_neg ek, if_neg]
            rintro rfl
            rw [hi] at hk; cases hk; exact hne rfl
        · rintro ⟨⟨c, hc⟩, k, x, hx, gx, h4⟩
          refine ⟨c, ?_⟩
          simp only
          rw [f3 a, hc]
          rintro rfl
          have := ok.uniq hi h4
          subst this
          split at hx
          · cases hx
          · split at hx
            · injection hx with hx; exact e hx.symm
            · injection hx with hx; contradiction
      · simp only [Spec.next, e, if_false, Prod.mk.injEq, true_and, Spec.put]
        have hq : Var.abs heap (.var q g') = some (s.abs.at j) := by
          rw [j1]
          cases q with
          | none => rfl
          | some b => simp only [Var.abs, Option.bind_some]; rw [f3 b (other rfl)]
        simp only [St.abs, List.map_set, f2, hq]
        congr 1
        rw [List.set_comm _ _ e, List.set_set, List.set_comm _ _ e, List.set_set]
        rfl
  | dtor i =>
    obtain ⟨p, g, hi⟩ := exist_var hex (i := i) (by simp [Op.vars])
    have li := (List.getElem?_eq_some_iff.1 hi).1
    obtain ⟨heap, f1, f2, f3, f4⟩ := free_spec ok hi
    have f1' : s.free p = some { s with heap := heap } := f1 s.vars
    simp only [(at_abs hi).2.1, f1'] at h
    cases h
    refine ⟨ok.re (fun k => if k = i then none else some k) ?_ (fun k a => ?_) (fun a => ?_), ?_⟩
    · intro k l x hk hl
      split at hk <;> split at hl <;> simp at hk hl <;> omega
    · unfold St.Has
      by_cases ek : k = i
      · subst ek; simp [li]
      · simp only [List.getElem?_set_ne (Ne.symm ek), ek, if_false]; simp
    · constructor
      · rintro ⟨c, hc⟩
        have hne : p ≠ some a := fun hp => f4 a c hp hc
        simp only [f3 a hne] at hc
        refine ⟨⟨c, hc⟩, ?_⟩
        obtain ⟨k, gk, hk⟩ := ok.owned hc
        refine ⟨k, k, ?_, gk, hk⟩
        rw [if_neg]
        rintro rfl
        rw [hi] at hk; cases hk; exact hne rfl
      · rintro ⟨⟨c, hc⟩, k, x, hx, gx, h4⟩
        refine ⟨c, ?_⟩
        simp only
        rw [f3 a, hc]
        rintro rfl
        have := ok.uniq hi h4
        subst this
        split at hx
        · cases hx
        · injection hx with hx; contradiction
    · simp only [Spec.next, Spec.put, St.abs, List.map_set, f2, List.set_set]; rfl
  | block i =>
    obtain ⟨p, g, hi⟩ := exist_var hex (i := i) (by simp [Op.vars])
    obtain ⟨h1, h2, h3⟩ := viaImpl hi h
    refine ⟨h1, ?_⟩
    rw [h2, h3]
    simp only [Spec.next, (slot_at hi).2]
    cases (s.abs.at i).1 <;> rfl
  | unblock i =>
    obtain ⟨p, g, hi⟩ := exist_var hex (i := i) (by simp [Op.vars])
    obtain ⟨h1, h2, h3⟩ := viaImpl hi h
    refine ⟨h1, ?_⟩
    rw [h2, h3]
    simp only [Spec.next, (slot_at hi).2]
    cases (s.abs.at i).1 <;> rfl
  | disconnect i =>
    obtain ⟨p, g, hi⟩ := exist_var hex (i := i) (by simp [Op.vars])
    have e : s.abs.at i = ((s.abs.at i).1, g) := by rw [← (slot_at hi).2]
    have e0 := (slot_at hi).1
    simp only [(at_abs hi).2.2] at h
    cases g with
    | false =>
      simp only [Bool.false_eq_true, if_false] at h
      cases h
      refine ⟨ok, ?_⟩
      simp only [Spec.next]
      rw [e]
      cases (s.abs.at i).1 <;> rfl
    | true =>
      simp only [if_true] at h
      obtain ⟨h1, h2, h3⟩ := viaImpl hi h
      refine ⟨h1, ?_⟩
      rw [h2, h3]
      simp only [Spec.next]
      rw [e] at e0 ⊢
      cases hc : (s.abs.at i).1 with
      | none => rw [hc] at e0; simp [put_self e0]
      | some c => rfl
  | test i =>
    obtain ⟨p, g, hi⟩ := exist_var hex (i := i) (by simp [Op.vars])
    cases h
    refine ⟨ok, ?_⟩
    simp only [Spec.next, (at_abs hi).1, (at_abs hi).2.1]
    cases p with
    | none => rfl
    | some a =>
      obtain ⟨c, hc⟩ := ok.valid hi
      simp [hc]
  | connected i =>
    obtain ⟨p, g, hi⟩ := exist_var hex (i := i) (by simp [Op.vars])
    obtain ⟨h1, h2, h3⟩ := viaImpl hi h
    have e0 := (slot_at hi).1
    have e : s.abs.at i = ((s.abs.at i).1, g) := by rw [← (slot_at hi).2]
    refine ⟨h1, ?_⟩
    rw [h2, h3]
    simp only [Spec.next]
    rw [e] at e0
    cases hc : (s.abs.at i).1 with
    | none => rw [hc] at e0; simp [put_self e0]
    | some c => rw [hc] at e0; simp only [Option.map_some, put_self e0, Option.elim_some, Option.any_some, connected_iff]
  | blocked i =>
    obtain ⟨p, g, hi⟩ := exist_var hex (i := i) (by simp [Op.vars])
    obtain ⟨h1, h2, h3⟩ := viaImpl hi h
    have e0 := (slot_at hi).1
    have e : s.abs.at i = ((s.abs.at i).1, g) := by rw [← (slot_at hi).2]
    refine ⟨h1, ?_⟩
    rw [h2, h3]
    simp only [Spec.next]
    rw [e] at e0
    cases hc : (s.abs.at i).1 with
    | none => rw [hc] at e0; simp [put_self e0]
    | some c => rw [hc] at e0; simp only [Option.map_some, put_self e0, Option.elim_some, Option.any_some]
  | call i x =>
    obtain ⟨p, g, hi⟩ := exist_var hex (i := i) (by simp [Op.vars])
    obtain ⟨h1, h2, h3⟩ := viaImpl hi h
    have e0 := (slot_at hi).1
    have e : s.abs.at i = ((s.abs.at i).1, g) := by rw [← (slot_at hi).2]
    refine ⟨h1, ?_⟩
    rw [h2, h3]
    simp only [Spec.next]
    rw [e] at e0 ⊢
    cases hc : (s.abs.at i).1 with
    | none => rw [hc] at e0; simp [put_self e0]
    | some c =>
      rw [hc] at e0
      simp only [ready_iff, Option.elim_some, Option.map_some]
      cases hr : (!c.blk && c.connected s.dead) with
      | false => simp [put_self e0]
      | true =>
        simp only [if_true]
        have hcon : c.connected s.dead = true := by simp at hr; exact hr.2
        have : c.call ap s.dead x = (.out (some (ap c.val x).1), { c with val := (ap c.val x).2 }) := by
          unfold Impl.call
          cases ho : c.obj with
          | none => rfl
          | some o =>
            have hd : s.dead.contains o = false := by
              unfold Impl.connected at hcon; rw [ho] at hcon; simp at hcon ⊢; exact hcon.1
            simp only [hd, hcon, if_true, Bool.false_eq_true, if_false]
        rw [this]
  | expire o => cases h; exact ⟨⟨ok.valid, ok.uniq, ok.owned⟩, rfl⟩

/-! ### Whole programs -/

/-- The program is over: undefined behaviour or endless recursion. -/
def Res.stops : Res ρ → Bool
  | .ub | .diverges => true
  | _ => false

/-- A program run from state `s`. -/
def run (ap : α → β → ρ × α) (s : St α) : List (Op α β) → Option (List (Res ρ) × St α)
  | [] => some ([], s)
  | o :: l =>
      match step ap s o with
      | none => none
      | some (r, s') => if r.stops then some ([r], s') else (run ap s' l).map fun p => (r :: p.1, p.2)

/-- The same according to the specification. -/
def Spec.run (ap : α → β → ρ × α) (m : Spec α) : List (Op α β) → List (Res ρ) × Spec α
  | [] => ([], m)
  | o :: l => if (m.next ap o).1.stops then ([(m.next ap o).1], (m.next ap o).2)
      else ((m.next ap o).1 :: (Spec.run ap (m.next ap o).2 l).1, (Spec.run ap (m.next ap o).2 l).2)

/-- Before the program starts. -/
def St.init : St α := ⟨[], [], []⟩

theorem init_ok : (St.init : St α).Ok := ⟨fun h => by simp [St.init] at h, fun h => by simp [St.init] at h, fun h => by simp [St.init] at h⟩

theorem run_spec {ap : α → β → ρ × α} {l : List (Op α β)} {s s' : St α} {rs : List (Res ρ)} (ok : s.Ok)
    (h : run ap s l = some (rs, s')) : s'.Ok ∧ (rs, s'.abs) = s.abs.run ap l := by
  induction l generalizing s rs with
  | nil => cases h; exact ⟨ok, rfl⟩
  | cons o l ih =>
    unfold run at h
    unfold Spec.run
    split at h
    · cases h
    · rename_i r s1 e
      obtain ⟨h1, h2⟩ := step_spec ok e
      rw [← h2]
      split at h
      · rename_i hs
        cases h
        exact ⟨h1, by simp only [hs, if_true]⟩
      · rename_i hs
        simp only [Option.map_eq_some_iff, Prod.mk.injEq] at h
        obtain ⟨q, h3, rfl, rfl⟩ := h
        obtain ⟨h4, h5⟩ := ih h1 h3
        refine ⟨h4, ?_⟩
        simp only [hs]
        rw [← h5]
        simp

/-- C31: whatever a program does with slots and listeners, all results and states are as if every slot object had its own callable and
its own flags. -/
theorem C31 {ap : α → β → ρ × α} {l : List (Op α β)} {s : St α} {rs : List (Res ρ)} (h : run ap St.init l = some (rs, s)) :
    (rs, s.abs) = Spec.run ap ⟨[], []⟩ l := (run_spec init_ok h).2

/-- C31: every implementation object that has not been deleted belongs to exactly one slot, and every slot that is not empty has
one; so nothing leaks and nothing is used after it was deleted. -/
theorem C31_memory {ap : α → β → ρ × α} {l : List (Op α β)} {s : St α} {rs : List (Res ρ)} (h : run ap St.init l = some (rs, s)) :
    (∀ (a : Nat) (c : Impl α), s.heap[a]? = some (some c) → ∃ i, ∀ k : Nat, (∃ g, s.vars[k]? = some (.var (some a) g)) ↔ k = i) ∧
    ∀ (i a : Nat) (g : Bool), s.vars[i]? = some (.var (some a) g) → ∃ c, s.heap[a]? = some (some c) := by
  have ok := (run_spec init_ok h).1
  refine ⟨fun a c hc => ?_, fun i a g hi => ok.valid hi⟩
  obtain ⟨i, g, hi⟩ := ok.owned hc
  exact ⟨i, fun k => ⟨fun ⟨_, hk⟩ => ok.uniq hk hi, fun e => ⟨g, e ▸ hi⟩⟩⟩

/-- C31: when all slots are gone, so are all the objects. -/
theorem C31_end {ap : α → β → ρ × α} {l : List (Op α β)} {s : St α} {rs : List (Res ρ)} (h : run ap St.init l = some (rs, s))
    (all : ∀ v ∈ s.vars, v = .gone) : ∀ c ∈ s.heap, c = none := by
  intro c hc
  cases c with
  | none => rfl
  | some c =>
    obtain ⟨a, ha⟩ := List.getElem?_of_mem hc
    obtain ⟨i, hi⟩ := (C31_memory h).1 a c ha
    obtain ⟨g, hg⟩ := (hi i).2 rfl
    cases all _ (List.mem_of_getElem? hg)

-- a slot, a copy and a listener; after their destruction three objects have been made and deleted
example : run (ρ := Nat) (fun n x => (n + x, n + 1)) St.init [.mk 1 none, .copy 0 false, .connect 1 false, .moveAssign 0 1, .dtor 0, .dtor 1, .dtor 2] =
    some ([.unit, .unit, .unit, .unit, .unit, .unit, .unit], ⟨[none, none, none], [.gone, .gone, .gone], []⟩) := rfl

/-- C31: an operation on some slots (and listeners) changes nothing about any other one. -/
theorem C31_independent {ap : α → β → ρ × α} {l : List (Op α β)} {s s' : St α} {rs : List (Res ρ)} {o : Op α β} {r : Res ρ}
    (h : run ap St.init l = some (rs, s)) (h' : step ap s o = some (r, s')) {k : Nat} (hk : k < s.vars.length) (ho : k ∉ o.vars) :
    s'.abs.slots[k]? = s.abs.slots[k]? := by
  have h2 := (step_spec (run_spec init_ok h).1 h').2
  have e : s'.abs = (s.abs.next ap o).2 := congrArg Prod.snd h2
  have hlen : k < s.abs.slots.length := by simpa [St.abs] using hk
  have new : ∀ {m : Spec α} {x}, k < m.slots.length → (m.new x).slots[k]? = m.slots[k]? := by
    intro m x hm; simp only [Spec.new]; rw [List.getElem?_append_left hm]
  have put : ∀ {m : Spec α} {i x}, k ≠ i → (m.put i x).slots[k]? = m.slots[k]? := by
    intro m i x hi; simp only [Spec.put]; rw [List.getElem?_set_ne (Ne.symm hi)]
  rw [e]
  cases o with
  | mkEmpty => exact new hlen
  | mk v ob => exact new hlen
  | copy j f =>
    simp only [Spec.next]
    split
    · rfl
    · split
      · rfl
      · exact new hlen
  | connect j f =>
    simp only [Spec.next]
    split
    · rfl
    · split
      · rfl
      · exact new hlen
  | copyVar j => rfl
  | move j =>
    simp only [Op.vars, List.mem_singleton] at ho
    simp only [Spec.next]
    rw [new (by simpa [Spec.put] using hlen), put ho]
  | moveAssign i j =>
    simp only [Op.vars, List.mem_cons, not_or] at ho
    simp only [Spec.next]
    split
    · exact put ho.1
    · rw [put ho.1, put ho.2.1]
  | dtor i | block i | unblock i =>
    simp only [Op.vars, List.mem_singleton] at ho
    exact put ho
  | disconnect i =>
    simp only [Op.vars, List.mem_singleton] at ho
    simp only [Spec.next]
    split
    · exact put ho
    · rfl
  | test i | connected i | blocked i => rfl
  | call i x =>
    simp only [Op.vars, List.mem_singleton] at ho
    simp only [Spec.next]
    split
    · split
      · exact put ho
      · rfl
    · rfl
  | expire o => rfl

/-- C31: copying a slot or connecting it makes a new slot object with an equal callable and the same flags, and leaves the source as it
was (unless the source is empty, or copying the callable throws). -/
theorem C31_copy {ap : α → β → ρ × α} {l : List (Op α β)} {s s' : St α} {rs : List (Res ρ)} {j : Nat} {b : Bool}
    (h : run ap St.init l = some (rs, s))
    (h' : step ap s (if b then .connect j false else .copy j false) = some (.unit, s')) :
    ∃ c g, s.abs.slots[j]? = some (some (some c, g)) ∧ s'.abs.slots = s.abs.slots ++ [some (some c, b || g)] := by
  have ok := (run_spec init_ok h).1
  have h2 := (step_spec ok h').2
  have hj : ∃ p g, s.vars[j]? = some (.var p g) := by
    cases b <;> simp only [if_true, Bool.false_eq_true, if_false] at h' <;> unfold step at h' <;> split at h'
    · rename_i hex; exact exist_var hex (by simp [Op.vars])
    · cases h'
    · rename_i hex; exact exist_var hex (by simp [Op.vars])
    · cases h'
  obtain ⟨p, g, hj⟩ := hj
  obtain ⟨h3, h4⟩ := slot_at hj
  cases hc : (s.abs.at j).1 with
  | none =>
    have e : s.abs.at j = (none, g) := by rw [← hc, ← h4]
    cases b <;> simp [Spec.next, e] at h2
  | some c =>
    have e : s.abs.at j = (some c, g) := by rw [← hc, ← h4]
    refine ⟨c, g, by rw [h3, e], ?_⟩
    cases b <;> simp [Spec.next, e] at h2 <;> rw [h2] <;> rfl

-- a counter as callable: slot 0 is connected twice and copied while blocked, then all are called and blocked on their own
/-- A callable that counts its calls. -/
def tick (n : Nat) (_ : Unit) : Nat × Nat := (n, n + 1)
example : (run tick St.init [.mk 5 none, .connect 0 false, .block 0, .copy 0 false, .connect 0 false, .call 1 (), .call 1 (), .call 2 (),
    .unblock 3, .call 3 (), .disconnect 3, .call 3 (), .call 1 (), .blocked 0, .disconnect 0, .connected 0, .mkEmpty, .test 4,
    .copy 4 false]).map Prod.fst =
    some [.unit, .unit, .unit, .unit, .unit, .out (some 5), .out (some 6), .out none, .unit, .out (some 5), .bool true, .out none,
      .out (some 7), .bool true, .bool false, .bool true, .unit, .bool false, .ub] := by decide

/-! ### Which constructor copies a slot -/

/-- The constructors of `slot` that can take one slot as argument: the template (1263), the copy constructor (1284), the move
constructor (1296). -/
inductive Ctor where
  | template | copy | move
deriving DecidableEq, Repr

/-- Type and value category of an expression of type `slot`, or of a reference parameter: `const` or not, lvalue or rvalue. -/
structure Cat where
  const : Bool
  rvalue : Bool
deriving DecidableEq, Repr

/-- The type of the parameter, if the constructor can be called with such an argument. `Func&&` becomes exactly the type of the
argument; `const slot&` takes everything; `slot&&` takes non-const rvalues. -/
def Ctor.param (a : Cat) : Ctor → Option Cat
  | .template => some a
  | .copy => some ⟨true, false⟩
  | .move => if a.rvalue && !a.const then some ⟨false, true⟩ else none

/-- Overload resolution for an argument `a`: `c` is better than `d` if it binds an rvalue reference to an rvalue and `d` does not, or
is the same but less `const`, or is the same and not a template. -/
def Ctor.better (a : Cat) (c d : Ctor) : Bool :=
  match c.param a, d.param a with
  | some p, some q =>
      if a.rvalue && (p.rvalue != q.rvalue) then p.rvalue
      else if p.const != q.const then !p.const
      else decide (c ≠ .template ∧ d = .template)
  | some _, none => true
  | none, _ => false

/-- The constructor that is called: better than all others. -/
def pick (a : Cat) : Option Ctor := [Ctor.template, .copy, .move].find? fun c => [Ctor.template, .copy, .move].all fun d => c = d || c.better a d

/-- The constructors that run, one inside the other, if at most `n` of them fit on the stack. The template creates a `slot_func` whose
`m_Func`, a `slot`, is initialised with the same expression (777, 814). -/
def build : Nat → Cat → Option (List Ctor)
  | 0, _ => none
  | n + 1, a =>
      match pick a with
      | some .template => (build n a).map (Ctor.template :: ·)
      | some c => some [c]
      | none => none

/-- C51 is false: copying a slot variable that is not `const` never ends, however large the stack. -/
theorem C51_false (n : Nat) : build n ⟨false, false⟩ = none := by
  induction n with
  | zero => rfl
  | succ n ih =>
    have : pick ⟨false, false⟩ = some .template := by decide
    simp only [build, this, ih, Option.map_none]

/-- C51 is false too for rvalues that are `const`, such as what a function returning `const slot` gives. -/
theorem C51_const_rvalue_false (n : Nat) : build n ⟨true, true⟩ = none := by
  induction n with
  | zero => rfl
  | succ n ih =>
    have : pick ⟨true, true⟩ = some .template := by decide
    simp only [build, this, ih, Option.map_none]

/-- C51 is false for an empty slot: copying it dereferences null. -/
theorem C51_empty_false (ap : α → β → ρ × α) : ∃ l : List (Op α β), ∃ s, run (ρ := ρ) ap St.init l = some ([.unit, .ub], s) :=
  ⟨[.mkEmpty, .copy 0 false], ⟨[], [.var none false], []⟩, rfl⟩

/-- C51, what is left: a `const` lvalue is copied by the copy constructor, a temporary is moved by the move constructor; and by
`C31_copy` the copy of a slot that is not empty is a slot with the same callable and flags. -/
theorem C51_partial (n : Nat) : build (n + 1) ⟨true, false⟩ = some [.copy] ∧ build (n + 1) ⟨false, true⟩ = some [.move] := by
  have h1 : pick ⟨true, false⟩ = some .copy := by decide
  have h2 : pick ⟨false, true⟩ = some .move := by decide
  simp [build, h1, h2]

end Verif.SlotObj
