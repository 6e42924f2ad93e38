/-!
# `cow_ptr` and property C18

signals.hpp:511-671. A `cow_ptr<T>` is a `shared_ptr<T>` that is cloned before it is written through.
-/

namespace Verif.Cow

/-- A `cow_ptr` variable: destroyed, null, or pointing to the object at an address.
`std::shared_ptr` is used through its specification: `use_count()` is the number of handles that point to the object, the
object exists as long as that is not zero. -/
inductive Handle where
  | gone | null | ptr (a : Nat)
deriving DecidableEq, Repr

variable {α : Type}

/-- Objects (never reused addresses) and the handles, in the order of their creation. -/
structure St (α : Type) where
  cells : List α
  hs : List Handle
deriving Repr

/-- `m_Ptr.use_count()`. -/
def St.useCount (s : St α) (a : Nat) : Nat := s.hs.count (.ptr a)

/-- Operations of a program on its `cow_ptr` variables. `fails` says whether the copy constructor of `T` throws, should it be
called. A `T*` handed to the library is a fresh object (`some v`) or null (`none`): a pointer that something else owns would be
deleted twice, as for `shared_ptr`. Control blocks can be allocated: where they cannot, the program ends (521-523 is `noexcept`), see `Verif.ctlFail`. -/
inductive Op (α : Type) where
  /-- `cow_ptr()` (518), `cow_ptr(T*)` (521), `make_cow` (661-671) -/
  | make (v : Option α)
  /-- `cow_ptr(const cow_ptr&)` (525) -/
  | copy (j : Nat)
  /-- `cow_ptr(cow_ptr&&)` (529) -/
  | move (j : Nat)
  /-- `operator=(const cow_ptr&)` (534) -/
  | copyAssign (i j : Nat)
  /-- `operator=(cow_ptr&&)` (545) -/
  | moveAssign (i j : Nat)
  /-- `operator=(T*)` (552) -/
  | ptrAssign (i : Nat) (v : Option α)
  /-- `~cow_ptr` (519) -/
  | dtor (i : Nat)
  /-- `operator*() const` (568), `read()` (615), reading through `operator->() const`, `operator const T*`, `data() const` -/
  | read (i : Nat)
  /-- `operator*()` (560), `write()` (621), and a store of `v` through the reference -/
  | write (i : Nat) (v : α) (fails : Bool)
  /-- `operator->()` (575), `operator T*()` (590), `data()` (603) without using the result -/
  | touch (i : Nat) (fails : Bool)
  /-- `explicit operator bool` (641) -/
  | test (i : Nat)
deriving Repr

/-- What an operation gives back. -/
inductive Res (α : Type) where
  | unit | val (v : α) | bool (b : Bool) | thrown
  /-- null was dereferenced -/
  | ub
deriving DecidableEq, Repr

/-- `cow_ptr(T*)`: a new owner of a new object, or null. -/
def St.alloc (s : St α) : Option α → St α × Handle
  | none => (s, .null)
  | some v => ({ s with cells := s.cells ++ [v] }, .ptr s.cells.length)

/-- `detach()` (647-655) on handle `i`, which is `h`. `none`: the copy constructor of `T` was called and threw, in which case
nothing has been assigned. -/
def St.detach (s : St α) (i : Nat) (h : Handle) (fails : Bool) : Option (St α × Handle) :=
  match h with
  | .ptr a =>
      if 1 < s.useCount a then
        if fails then none
        else
          let (s, h) := s.alloc s.cells[a]?
          some ({ s with hs := s.hs.set i h }, h)
      else some (s, .ptr a)
  | h => some (s, h)

/-- One operation. `none`: the program used a variable that does not exist (any more), which it must not. -/
def step (s : St α) : Op α → Option (Res α × St α)
  | .make v =>
      let (s, h) := s.alloc v
      some (.unit, { s with hs := s.hs ++ [h] })
  | .copy j =>
      match s.hs[j]? with
      | none | some .gone => none
      | some h => some (.unit, { s with hs := s.hs ++ [h] })
  | .move j =>
      match s.hs[j]? with
      | none | some .gone => none
      | some h => some (.unit, { s with hs := s.hs.set j .null ++ [h] })
  | .copyAssign i j =>
      match s.hs[i]?, s.hs[j]? with
      | none, _ | some .gone, _ | _, none | _, some .gone => none
      | some _, some h => some (.unit, if i ≠ j then { s with hs := s.hs.set i h } else s)
  | .moveAssign i j =>
      -- `shared_ptr(std::move(r)).swap(*this)`: empties the source first, so a self move changes nothing
      match s.hs[i]?, s.hs[j]? with
      | none, _ | some .gone, _ | _, none | _, some .gone => none
      | some _, some h => some (.unit, { s with hs := (s.hs.set j .null).set i h })
  | .ptrAssign i v =>
      match s.hs[i]? with
      | none | some .gone => none
      | some _ =>
          let (s, h) := s.alloc v
          some (.unit, { s with hs := s.hs.set i h })
  | .dtor i =>
      match s.hs[i]? with
      | none | some .gone => none
      | some _ => some (.unit, { s with hs := s.hs.set i .gone })
  | .read i =>
      match s.hs[i]? with
      | none | some .gone => none
      | some .null => some (.ub, s)
      | some (.ptr a) => some ((s.cells[a]?).elim .ub .val, s)
  | .write i v fails =>
      match s.hs[i]? with
      | none | some .gone => none
      | some h =>
          match s.detach i h fails with
          | none => some (.thrown, s)
          | some (s', .ptr a) => some (.unit, { s' with cells := s'.cells.set a v })
          | some (s', _) => some (.ub, s')
  | .touch i fails =>
      match s.hs[i]? with
      | none | some .gone => none
      | some h =>
          match s.detach i h fails with
          | none => some (.thrown, s)
          | some (s', _) => some (.unit, s')
  | .test i =>
      match s.hs[i]? with
      | none | some .gone => none
      | some .null => some (.bool false, s)
      | some (.ptr _) => some (.bool true, s)

/-- A program run from the start; stops at undefined behaviour. -/
def run (s : St α) : List (Op α) → Option (List (Res α) × St α)
  | [] => some ([], s)
  | o :: os =>
      match step s o with
      | none => none
      | some (.ub, s') => some ([.ub], s')
      | some (r, s') => (run s' os).map fun p => (r :: p.1, p.2)

/-- Before the program starts. -/
def St.init : St α := ⟨[], []⟩

/-! ### Specification: every variable holds its own value or nothing -/

/-- The private content of a variable. -/
inductive Slot (α : Type) where
  | gone | nothing | own (v : α)
deriving DecidableEq, Repr

/-- The content of a variable made from a pointer, which may be null. -/
def Slot.of : Option α → Slot α
  | none => .nothing
  | some v => .own v

/-- The variables of a program. -/
abbrev Spec (α : Type) := List (Slot α)

/-- `m` holds variable `i`, which has content `x`. -/
def Spec.has (m : Spec α) (i : Nat) (x : Slot α) : Prop := m[i]? = some x ∧ x ≠ .gone

/-- What each operation means if every variable has a private value. -/
inductive Spec.Step : Spec α → Op α → Res α → Spec α → Prop where
  | make {m v} : Step m (.make v) .unit (m ++ [.of v])
  | copy {m : Spec α} {j x} : m.has j x → Step m (.copy j) .unit (m ++ [x])
  | move {m : Spec α} {j x} : m.has j x → Step m (.move j) .unit (m.set j .nothing ++ [x])
  | copyAssign {m : Spec α} {i j x y} : m.has i x → m.has j y → Step m (.copyAssign i j) .unit (m.set i y)
  | moveAssign {m : Spec α} {i j x y} : m.has i x → m.has j y → i ≠ j →
      Step m (.moveAssign i j) .unit ((m.set j .nothing).set i y)
  | selfMove {m : Spec α} {i x} : m.has i x → Step m (.moveAssign i i) .unit m
  | ptrAssign {m : Spec α} {i x v} : m.has i x → Step m (.ptrAssign i v) .unit (m.set i (.of v))
  | dtor {m : Spec α} {i x} : m.has i x → Step m (.dtor i) .unit (m.set i .gone)
  | read {m : Spec α} {i v} : m.has i (.own v) → Step m (.read i) (.val v) m
  | readNull {m : Spec α} {i} : m.has i .nothing → Step m (.read i) .ub m
  | write {m : Spec α} {i x v f} : m.has i (.own x) → Step m (.write i v f) .unit (m.set i (.own v))
  | writeNull {m : Spec α} {i v f} : m.has i .nothing → Step m (.write i v f) .ub m
  | writeThrow {m : Spec α} {i x v} : m.has i (.own x) → Step m (.write i v true) .thrown m
  | touch {m : Spec α} {i x f} : m.has i x → Step m (.touch i f) .unit m
  | touchThrow {m : Spec α} {i x} : m.has i (.own x) → Step m (.touch i true) .thrown m
  | testNo {m : Spec α} {i} : m.has i .nothing → Step m (.test i) (.bool false) m
  | testYes {m : Spec α} {i v} : m.has i (.own v) → Step m (.test i) (.bool true) m

/-- A run of the specification, up to undefined behaviour. -/
inductive Spec.Run : Spec α → List (Op α) → List (Res α) → Spec α → Prop where
  | nil {m} : Run m [] [] m
  | cons {m o r m' os rs m''} : r ≠ .ub → Step m o r m' → Run m' os rs m'' → Run m (o :: os) (r :: rs) m''
  | ub {m o m' os} : Step m o .ub m' → Run m (o :: os) [.ub] m'

/-! ### Refinement -/

/-- The value behind a handle. -/
def St.slot (s : St α) : Handle → Slot α
  | .gone => .gone
  | .null => .nothing
  | .ptr a => .of s.cells[a]?

/-- The state of the specification that a state stands for. -/
def St.abs (s : St α) : Spec α := s.hs.map s.slot

/-- Every pointer points to an object. -/
def St.Ok (s : St α) : Prop := ∀ a, Handle.ptr a ∈ s.hs → a < s.cells.length

theorem St.abs_get (s : St α) (i : Nat) : s.abs[i]? = (s.hs[i]?).map s.slot := by simp [St.abs]

theorem slot_ne_gone {s : St α} {h : Handle} (hh : h ≠ .gone) : s.slot h ≠ .gone := by
  cases h with
  | gone => exact absurd rfl hh
  | null => simp [St.slot]
  | ptr a => simp only [St.slot]; cases s.cells[a]? <;> simp [Slot.of]

theorem St.has {s : St α} {i : Nat} {h : Handle} (e : s.hs[i]? = some h) (hh : h ≠ .gone) : s.abs.has i (s.slot h) :=
  ⟨by rw [s.abs_get, e]; rfl, slot_ne_gone hh⟩

theorem St.has_ptr {s : St α} {i a : Nat} (ok : s.Ok) (e : s.hs[i]? = some (.ptr a)) :
    ∃ v, s.cells[a]? = some v ∧ s.abs.has i (.own v) := by
  have hlt := ok a (List.mem_of_getElem? e)
  refine ⟨s.cells[a], by simp [hlt], ?_⟩
  have := St.has e (by simp)
  simpa [St.slot, hlt, Slot.of] using this

/-- More objects do not change what the old handles mean. -/
theorem slot_append {s : St α} {v : α} {h : Handle} (ok : ∀ a, h = .ptr a → a < s.cells.length) (hs : List Handle) :
    (⟨s.cells ++ [v], hs⟩ : St α).slot h = s.slot h := by
  cases h with
  | gone => rfl
  | null => rfl
  | ptr a => simp [St.slot, List.getElem?_append_left (ok a rfl)]

theorem map_slot_append {s : St α} {v : α} {l : List Handle} (ok : ∀ a, Handle.ptr a ∈ l → a < s.cells.length) (hs : List Handle) :
    l.map (⟨s.cells ++ [v], hs⟩ : St α).slot = l.map s.slot :=
  List.map_congr_left fun h hh => slot_append (fun a e => ok a (e ▸ hh)) hs

theorem alloc_spec {s s' : St α} {v : Option α} {h : Handle} (ok : s.Ok) (e : s.alloc v = (s', h)) :
    s'.hs = s.hs ∧ s'.slot h = .of v ∧ h ≠ .gone ∧ (∀ a, h = .ptr a → a < s'.cells.length) ∧ s.cells.length ≤ s'.cells.length ∧
      ∀ h' hs', (∀ a, h' = .ptr a → a < s.cells.length) → (⟨s'.cells, hs'⟩ : St α).slot h' = s.slot h' := by
  cases v with
  | none =>
    simp only [St.alloc, Prod.mk.injEq] at e
    obtain ⟨rfl, rfl⟩ := e
    exact ⟨rfl, rfl, by simp, by simp, Nat.le_refl _, fun h' hs' _ => by cases h' <;> rfl⟩
  | some v =>
    simp only [St.alloc, Prod.mk.injEq] at e
    obtain ⟨rfl, rfl⟩ := e
    refine ⟨rfl, by simp [St.slot, Slot.of], by simp, by simp, by simp, fun h' hs' ok' => slot_append ok' hs'⟩

theorem St.Ok.at {s : St α} (ok : s.Ok) {i : Nat} {h : Handle} (e : s.hs[i]? = some h) : ∀ a, h = .ptr a → a < s.cells.length :=
  fun _ ea => ok _ (ea ▸ List.mem_of_getElem? e)

theorem mem_set_or {l : List Handle} {i : Nat} {x y : Handle} (h : x ∈ l.set i y) : x ∈ l ∨ x = y :=
  List.mem_or_eq_of_mem_set h

/-- Writing through a pointer nobody else has changes only the one variable. -/
theorem write_sole {s : St α} {i a : Nat} {v : α} (ok : s.Ok) (e : s.hs[i]? = some (.ptr a)) (hc : s.useCount a ≤ 1) :
    ({ s with cells := s.cells.set a v } : St α).abs = s.abs.set i (.own v) := by
  have hlt := ok.at e a rfl
  apply List.ext_getElem?
  intro k
  rw [St.abs_get, List.getElem?_set, St.abs_get]
  have hil : i < s.abs.length := by simp [St.abs]; exact (List.getElem?_eq_some_iff.1 e).1
  by_cases hk : i = k
  · subst hk
    simp only [e, Option.map_some, St.slot, if_true, if_pos hil]
    rw [List.getElem?_set_self hlt]; rfl
  · rw [if_neg hk]
    cases ek : s.hs[k]? with
    | none => rfl
    | some h =>
      simp only [Option.map_some, Option.some.injEq]
      cases h with
      | gone => rfl
      | null => rfl
      | ptr b =>
        have hab : a ≠ b := by
          rintro rfl
          have h2 : 2 ≤ s.hs.count (.ptr a) := by
            obtain ⟨hi, ei⟩ := List.getElem?_eq_some_iff.1 e
            obtain ⟨hk', ek'⟩ := List.getElem?_eq_some_iff.1 ek
            have : ∀ {i k : Nat} (hi : i < s.hs.length) (hk : k < s.hs.length), i < k → s.hs[i] = .ptr a → s.hs[k] = .ptr a →
                2 ≤ s.hs.count (.ptr a) := by
              intro i k hi hk hik ei ek
              have h1 : s.hs = s.hs.take k ++ s.hs.drop k := (List.take_append_drop k s.hs).symm
              rw [h1, List.count_append]
              have m1 : Handle.ptr a ∈ s.hs.take k := List.mem_iff_getElem.2 ⟨i, by simp; omega, by simpa using ei⟩
              have m2 : Handle.ptr a ∈ s.hs.drop k := List.mem_iff_getElem.2 ⟨0, by simp; omega, by simpa using ek⟩
              have := List.count_pos_iff.2 m1
              have := List.count_pos_iff.2 m2
              omega
            rcases Nat.lt_or_gt_of_ne hk with h | h
            · exact this hi hk' h ei ek'
            · exact this hk' hi h ek' ei
          unfold St.useCount at hc
          omega
        simp only [St.slot]
        rw [List.getElem?_set_ne hab]

/-- `detach` does not change the value of any variable; afterwards the pointer, if there is one, is not shared. -/
theorem detach_spec {s s' : St α} {i : Nat} {h h' : Handle} {f : Bool} (ok : s.Ok) (e : s.hs[i]? = some h)
    (hd : s.detach i h f = some (s', h')) :
    s'.Ok ∧ s'.hs[i]? = some h' ∧ s'.abs = s.abs ∧ ∀ a, h' = .ptr a → s'.useCount a ≤ 1 := by
  unfold St.detach at hd
  split at hd
  · rename_i a
    split at hd
    · split at hd
      · cases hd
      · have hlt := ok.at e a rfl
        have hi := (List.getElem?_eq_some_iff.1 e).1
        simp only [St.alloc, List.getElem?_eq_getElem hlt, Option.some.injEq, Prod.mk.injEq] at hd
        obtain ⟨rfl, rfl⟩ := hd
        have fresh : Handle.ptr s.cells.length ∉ s.hs := fun hm => by have := ok _ hm; omega
        refine ⟨?_, by simp [hi], ?_, ?_⟩
        · intro b hb
          rcases mem_set_or hb with hb | hb
          · have := ok b hb; simp; omega
          · injection hb with hb; subst hb; simp
        · apply List.ext_getElem?
          intro k
          rw [St.abs_get, St.abs_get]
          simp only [List.getElem?_set]
          by_cases hk : i = k
          · subst hk
            simp only [if_true, hi, Option.map_some, e, St.slot]
            simp [hlt]
          · rw [if_neg hk]
            cases ek : s.hs[k]? with
            | none => rfl
            | some x =>
              simp only [Option.map_some, Option.some.injEq]
              exact slot_append (ok.at ek) _
        · intro b hb
          injection hb with hb; subst hb
          unfold St.useCount
          simp only
          rw [List.count_set hi, List.count_eq_zero.2 fresh]
          split <;> split <;> omega
    · rename_i hc
      simp only [Option.some.injEq, Prod.mk.injEq] at hd
      obtain ⟨rfl, rfl⟩ := hd
      exact ⟨ok, e, rfl, fun b hb => by injection hb with hb; subst hb; omega⟩
  · rename_i hne
    simp only [Option.some.injEq, Prod.mk.injEq] at hd
    obtain ⟨rfl, rfl⟩ := hd
    exact ⟨ok, e, rfl, fun b hb => (hne b hb).elim⟩

theorem set_self {l : List (Slot α)} {i : Nat} {x : Slot α} (h : l[i]? = some x) : l.set i x = l := by
  obtain ⟨hi, e⟩ := List.getElem?_eq_some_iff.1 h
  rw [← e, List.set_getElem_self]

/-- Every operation does what the specification says. -/
theorem step_spec {s s' : St α} {o : Op α} {r : Res α} (ok : s.Ok) (h : step s o = some (r, s')) :
    s'.Ok ∧ Spec.Step s.abs o r s'.abs := by
  have mapset : ∀ (l : List Handle) (i : Nat) (x : Handle), (l.set i x).map s.slot = (l.map s.slot).set i (s.slot x) := by
    intro l i x; rw [List.map_set]
  cases o with
  | make v =>
    simp only [step] at h
    rcases e : s.alloc v with ⟨s1, x⟩
    rw [e] at h
    simp only [Option.some.injEq, Prod.mk.injEq] at h
    obtain ⟨rfl, rfl⟩ := h
    obtain ⟨h1, h2, h3, h4, h5, h6⟩ := alloc_spec ok e
    refine ⟨?_, ?_⟩
    · intro a ha
      rcases List.mem_append.1 ha with ha | ha
      · rw [h1] at ha; exact Nat.lt_of_lt_of_le (ok a ha) h5
      · simp at ha; exact h4 a ha.symm
    · have : (⟨s1.cells, s1.hs ++ [x]⟩ : St α).abs = s.abs ++ [.of v] := by
        simp only [St.abs, List.map_append, h1, List.map_cons, List.map_nil]
        congr 1
        · exact List.map_congr_left fun y hy => h6 y _ fun a ea => ok a (ea ▸ hy)
        · rw [← h2]; cases x <;> rfl
      rw [this]; exact .make
  | copy j =>
    simp only [step] at h
    split at h
    · cases h
    · cases h
    · rename_i x hx e
      simp only [Option.some.injEq, Prod.mk.injEq] at h
      obtain ⟨rfl, rfl⟩ := h
      refine ⟨?_, ?_⟩
      · intro a ha
        rcases List.mem_append.1 ha with ha | ha
        · exact ok a ha
        · simp at ha; exact ok.at e a ha.symm
      · have : (⟨s.cells, s.hs ++ [x]⟩ : St α).abs = s.abs ++ [s.slot x] := by
          simp only [St.abs, List.map_append, List.map_cons, List.map_nil]; rfl
        rw [this]; exact .copy (St.has e hx)
  | move j =>
    simp only [step] at h
    split at h
    · cases h
    · cases h
    · rename_i x hx e
      simp only [Option.some.injEq, Prod.mk.injEq] at h
      obtain ⟨rfl, rfl⟩ := h
      refine ⟨?_, ?_⟩
      · intro a ha
        rcases List.mem_append.1 ha with ha | ha
        · rcases mem_set_or ha with ha | ha
          · exact ok a ha
          · cases ha
        · simp at ha; exact ok.at e a ha.symm
      · have : (⟨s.cells, s.hs.set j .null ++ [x]⟩ : St α).abs = s.abs.set j .nothing ++ [s.slot x] := by
          simp only [St.abs, List.map_append, List.map_cons, List.map_nil]
          rw [List.map_set]; rfl
        rw [this]; exact .move (St.has e hx)
  | copyAssign i j =>
    simp only [step] at h
    split at h <;> try (cases h; done)
    rename_i x y hx hy e1 e2
    simp only [Option.some.injEq, Prod.mk.injEq] at h
    obtain ⟨rfl, rfl⟩ := h
    have g1 := St.has e1 (by rintro rfl; simp_all)
    have g2 := St.has e2 (by rintro rfl; simp_all)
    by_cases hij : i = j
    · subst hij
      simp only [ne_eq, not_true_eq_false, if_false]
      refine ⟨ok, ?_⟩
      have : s.abs.set i (s.slot y) = s.abs := set_self g2.1
      have k := Spec.Step.copyAssign g1 g2
      rwa [this] at k
    · simp only [ne_eq, hij, not_false_eq_true, if_true]
      refine ⟨?_, ?_⟩
      · intro a ha
        rcases mem_set_or ha with ha | ha
        · exact ok a ha
        · exact ok.at e2 a ha.symm
      · have : (⟨s.cells, s.hs.set i y⟩ : St α).abs = s.abs.set i (s.slot y) := by
          simp only [St.abs]; rw [List.map_set]; rfl
        rw [this]; exact .copyAssign g1 g2
  | moveAssign i j =>
    simp only [step] at h
    split at h <;> try (cases h; done)
    rename_i x y hx hy e1 e2
    simp only [Option.some.injEq, Prod.mk.injEq] at h
    obtain ⟨rfl, rfl⟩ := h
    have g1 := St.has e1 (by rintro rfl; simp_all)
    have g2 := St.has e2 (by rintro rfl; simp_all)
    refine ⟨?_, ?_⟩
    · intro a ha
      rcases mem_set_or ha with ha | ha
      · rcases mem_set_or ha with ha | ha
        · exact ok a ha
        · cases ha
      · exact ok.at e2 a ha.symm
    · have : (⟨s.cells, (s.hs.set j .null).set i y⟩ : St α).abs = (s.abs.set j .nothing).set i (s.slot y) := by
        simp only [St.abs]; rw [List.map_set, List.map_set]; rfl
      rw [this]
      by_cases hij : i = j
      · subst hij
        rw [List.set_set, set_self g2.1]; exact .selfMove g1
      · exact .moveAssign g1 g2 hij
  | ptrAssign i v =>
    simp only [step] at h
    split at h
    · cases h
    · cases h
    · rename_i y hy e1
      rcases e : s.alloc v with ⟨s1, x⟩
      rw [e] at h
      simp only [Option.some.injEq, Prod.mk.injEq] at h
      obtain ⟨rfl, rfl⟩ := h
      obtain ⟨h1, h2, h3, h4, h5, h6⟩ := alloc_spec ok e
      refine ⟨?_, ?_⟩
      · intro a ha
        rcases mem_set_or ha with ha | ha
        · rw [h1] at ha; exact Nat.lt_of_lt_of_le (ok a ha) h5
        · exact h4 a ha.symm
      · have : (⟨s1.cells, s1.hs.set i x⟩ : St α).abs = s.abs.set i (.of v) := by
          simp only [St.abs, h1]
          rw [List.map_set]
          rw [List.map_congr_left fun y hy => h6 y _ fun a ea => ok a (ea ▸ hy), ← h2]
          cases x <;> rfl
        rw [this]; exact .ptrAssign (St.has e1 hy)
  | dtor i =>
    simp only [step] at h
    split at h
    · cases h
    · cases h
    · rename_i y hy e1
      simp only [Option.some.injEq, Prod.mk.injEq] at h
      obtain ⟨rfl, rfl⟩ := h
      refine ⟨?_, ?_⟩
      · intro a ha
        rcases mem_set_or ha with ha | ha
        · exact ok a ha
        · cases ha
      · have : (⟨s.cells, s.hs.set i .gone⟩ : St α).abs = s.abs.set i .gone := by
          simp only [St.abs]; rw [List.map_set]; rfl
        rw [this]; exact .dtor (St.has e1 hy)
  | read i =>
    simp only [step] at h
    split at h
    · cases h
    · cases h
    · rename_i e
      simp only [Option.some.injEq, Prod.mk.injEq] at h
      obtain ⟨rfl, rfl⟩ := h
      exact ⟨ok, .readNull (St.has e (by simp))⟩
    · rename_i a e
      obtain ⟨v, h1, h2⟩ := St.has_ptr ok e
      rw [h1] at h
      simp only [Option.elim_some, Option.some.injEq, Prod.mk.injEq] at h
      obtain ⟨rfl, rfl⟩ := h
      exact ⟨ok, .read h2⟩
  | write i v f =>
    simp only [step] at h
    split at h
    · cases h
    · cases h
    · rename_i x hx e
      split at h
      · rename_i hd
        simp only [Option.some.injEq, Prod.mk.injEq] at h
        obtain ⟨rfl, rfl⟩ := h
        unfold St.detach at hd
        split at hd
        · split at hd
          · split at hd
            · rename_i hf
              subst hf
              obtain ⟨u, -, h2⟩ := St.has_ptr ok e
              exact ⟨ok, .writeThrow h2⟩
            · cases hd
          · cases hd
        · cases hd
      · rename_i s1 a hd
        simp only [Option.some.injEq, Prod.mk.injEq] at h
        obtain ⟨rfl, rfl⟩ := h
        obtain ⟨ok1, e1, ha, hc⟩ := detach_spec ok e hd
        obtain ⟨u, -, h2⟩ := St.has_ptr ok1 e1
        refine ⟨?_, ?_⟩
        · intro b hb
          have := ok1 b hb; simpa using this
        · rw [write_sole ok1 e1 (hc a rfl), ha]
          rw [ha] at h2
          exact .write h2
      · rename_i s1 x1 hx1 hd
        simp only [Option.some.injEq, Prod.mk.injEq] at h
        obtain ⟨rfl, rfl⟩ := h
        obtain ⟨ok1, e1, ha, -⟩ := detach_spec ok e hd
        refine ⟨ok1, ?_⟩
        have hn : x = .null := by
          cases x with
          | gone => exact (hx rfl).elim
          | null => rfl
          | ptr a =>
            exfalso
            obtain ⟨u, -, h2⟩ := St.has_ptr ok e
            rw [← ha] at h2
            have h3 := h2.1
            rw [St.abs_get, e1] at h3
            cases x1 with
            | gone => simp [St.slot] at h3
            | null => simp [St.slot] at h3
            | ptr b => exact hx1 b rfl
        subst hn
        rw [ha]
        exact .writeNull (St.has e (by simp))
  | touch i f =>
    simp only [step] at h
    split at h
    · cases h
    · cases h
    · rename_i x hx e
      split at h
      · rename_i hd
        simp only [Option.some.injEq, Prod.mk.injEq] at h
        obtain ⟨rfl, rfl⟩ := h
        unfold St.detach at hd
        split at hd
        · split at hd
          · split at hd
            · rename_i hf
              subst hf
              obtain ⟨u, -, h2⟩ := St.has_ptr ok e
              exact ⟨ok, .touchThrow h2⟩
            · cases hd
          · cases hd
        · cases hd
      · rename_i s1 x1 hd
        simp only [Option.some.injEq, Prod.mk.injEq] at h
        obtain ⟨rfl, rfl⟩ := h
        obtain ⟨ok1, e1, ha, -⟩ := detach_spec ok e hd
        rw [ha]
        exact ⟨ok1, .touch (St.has e hx)⟩
  | test i =>
    simp only [step] at h
    split at h
    · cases h
    · cases h
    · rename_i e
      simp only [Option.some.injEq, Prod.mk.injEq] at h
      obtain ⟨rfl, rfl⟩ := h
      exact ⟨ok, .testNo (St.has e (by simp))⟩
    · rename_i a e
      simp only [Option.some.injEq, Prod.mk.injEq] at h
      obtain ⟨rfl, rfl⟩ := h
      obtain ⟨v, h1, h2⟩ := St.has_ptr ok e
      exact ⟨ok, .testYes h2⟩

theorem run_ok {s s' : St α} {os : List (Op α)} {rs : List (Res α)} (ok : s.Ok) (h : run s os = some (rs, s')) :
    s'.Ok ∧ Spec.Run s.abs os rs s'.abs := by
  induction os generalizing s rs with
  | nil =>
    simp only [run, Option.some.injEq, Prod.mk.injEq] at h
    obtain ⟨rfl, rfl⟩ := h
    exact ⟨ok, .nil⟩
  | cons o os ih =>
    simp only [run] at h
    split at h
    · cases h
    · rename_i s1 e
      simp only [Option.some.injEq, Prod.mk.injEq] at h
      obtain ⟨rfl, rfl⟩ := h
      obtain ⟨h1, h2⟩ := step_spec ok e
      exact ⟨h1, .ub h2⟩
    · rename_i r s1 hr e
      cases e2 : run s1 os with
      | none => rw [e2] at h; cases h
      | some p =>
        rw [e2] at h
        simp only [Option.map_some, Option.some.injEq, Prod.mk.injEq] at h
        obtain ⟨rfl, rfl⟩ := h
        obtain ⟨h1, h2⟩ := step_spec ok e
        obtain ⟨h3, h4⟩ := ih h1 (rs := p.1) (by rw [e2])
        exact ⟨h3, .cons hr h2 h4⟩

/-- C18: whatever a program does with any number of `cow_ptr` variables, every result (values read, null tests, exceptions,
undefined behaviour) is one it could have seen if each variable held a private value. -/
theorem C18 {os : List (Op α)} {rs : List (Res α)} {s : St α} (h : run St.init os = some (rs, s)) :
    Spec.Run [] os rs s.abs := (run_ok (s := .init) (fun _ h => by cases h) h).2

/-- C18: the only undefined operation is to dereference a variable that holds nothing. -/
theorem C18_ub {m m' : Spec α} {o : Op α} (h : Spec.Step m o .ub m') :
    ∃ i, m[i]? = some .nothing ∧ (o = .read i ∨ ∃ v f, o = .write i v f) := by
  cases h with
  | readNull h => exact ⟨_, h.1, .inl rfl⟩
  | writeNull h => exact ⟨_, h.1, .inr ⟨_, _, rfl⟩⟩

/-- C18: an operation is possible exactly if the variables it names exist, so `C18` is not vacuous for any program that keeps to
this rule. -/
theorem C18_total (s : St α) (o : Op α)
    (ok : ∀ i, i ∈ (match o with
      | .make _ => ([] : List Nat)
      | .copy j | .move j => [j]
      | .copyAssign i j | .moveAssign i j => [i, j]
      | .ptrAssign i _ | .dtor i | .read i | .write i _ _ | .touch i _ | .test i => [i]) →
        ∃ x, s.abs.has i x) : (step s o).isSome = true := by
  have get : ∀ {i}, (∃ x, s.abs.has i x) → ∃ h, s.hs[i]? = some h ∧ h ≠ .gone := by
    rintro i ⟨x, h1, h2⟩
    rw [s.abs_get] at h1
    cases e : s.hs[i]? with
    | none => rw [e] at h1; cases h1
    | some h => rw [e] at h1; exact ⟨h, rfl, by rintro rfl; simp [St.slot] at h1; exact h2 h1.symm⟩
  cases o with
  | make v => rfl
  | copy j =>
    obtain ⟨h, e, hg⟩ := get (ok j (by simp))
    simp only [step, e]; cases h <;> simp at hg ⊢
  | move j =>
    obtain ⟨h, e, hg⟩ := get (ok j (by simp))
    simp only [step, e]; cases h <;> simp at hg ⊢
  | copyAssign i j =>
    obtain ⟨h, e, hg⟩ := get (ok i (by simp))
    obtain ⟨h', e', hg'⟩ := get (ok j (by simp))
    simp only [step, e, e']; cases h <;> cases h' <;> simp at hg hg' ⊢
  | moveAssign i j =>
    obtain ⟨h, e, hg⟩ := get (ok i (by simp))
    obtain ⟨h', e', hg'⟩ := get (ok j (by simp))
    simp only [step, e, e']; cases h <;> cases h' <;> simp at hg hg' ⊢
  | ptrAssign i v =>
    obtain ⟨h, e, hg⟩ := get (ok i (by simp))
    simp only [step, e]; cases h <;> simp at hg ⊢
  | dtor i =>
    obtain ⟨h, e, hg⟩ := get (ok i (by simp))
    simp only [step, e]; cases h <;> simp at hg ⊢
  | read i =>
    obtain ⟨h, e, hg⟩ := get (ok i (by simp))
    simp only [step, e]; cases h <;> simp at hg ⊢
  | write i v f =>
    obtain ⟨h, e, hg⟩ := get (ok i (by simp))
    simp only [step, e]
    cases h with
    | gone => simp at hg
    | null => split <;> rfl
    | ptr a => split <;> rfl
  | touch i f =>
    obtain ⟨h, e, hg⟩ := get (ok i (by simp))
    simp only [step, e]
    cases h with
    | gone => simp at hg
    | null => split <;> rfl
    | ptr a => split <;> rfl
  | test i =>
    obtain ⟨h, e, hg⟩ := get (ok i (by simp))
    simp only [step, e]; cases h <;> simp at hg ⊢

/-- C18: no operation makes an object, except that pointers to new objects are taken over, and that a write (or an access that allows
one) copies the object if it is shared; then it is this variable that gets the copy, and no other variable is touched. -/
theorem C18_copies {os : List (Op α)} {rs : List (Res α)} {s s' : St α} {o : Op α} {r : Res α} (hr : run St.init os = some (rs, s))
    (h : step s o = some (r, s')) :
    s'.cells.length = s.cells.length ∨ s'.cells.length = s.cells.length + 1 ∧
      ((∃ v, o = .make (some v)) ∨ (∃ i v, o = .ptrAssign i (some v)) ∨
        ∃ i a, ((∃ v, o = .write i v false) ∨ o = .touch i false) ∧ s.hs[i]? = some (.ptr a) ∧ 1 < s.useCount a ∧
          s'.hs = s.hs.set i (.ptr s.cells.length)) := by
  have ok := (run_ok (s := .init) (fun _ h => by cases h) hr).1
  have det : ∀ {i h f}, s.hs[i]? = some h → ∀ {s' h'}, s.detach i h f = some (s', h') → s'.cells.length = s.cells.length ∨
      s'.cells.length = s.cells.length + 1 ∧ f = false ∧ s'.hs = s.hs.set i (.ptr s.cells.length) ∧
        ∃ a, h = .ptr a ∧ 1 < s.useCount a := by
    intro i h f e s' h' hd
    unfold St.detach at hd
    split at hd
    · rename_i a
      split at hd
      · rename_i hc
        split at hd
        · cases hd
        · rename_i hf
          have hlt := ok.at e a rfl
          simp only [St.alloc, List.getElem?_eq_getElem hlt, Option.some.injEq, Prod.mk.injEq] at hd
          obtain ⟨rfl, rfl⟩ := hd
          exact .inr ⟨by simp, by simpa using hf, rfl, a, rfl, hc⟩
      · cases hd; exact .inl rfl
    · cases hd; exact .inl rfl
  cases o with
  | make v =>
    cases v <;> simp only [step, St.alloc, Option.some.injEq, Prod.mk.injEq] at h <;> obtain ⟨-, rfl⟩ := h
    · exact .inl rfl
    · exact .inr ⟨by simp, .inl ⟨_, rfl⟩⟩
  | ptrAssign i v =>
    simp only [step] at h
    split at h
    · cases h
    · cases h
    · cases v <;> simp only [St.alloc, Option.some.injEq, Prod.mk.injEq] at h <;> obtain ⟨-, rfl⟩ := h
      · exact .inl rfl
      · exact .inr ⟨by simp, .inr (.inl ⟨_, _, rfl⟩)⟩
  | write i v f =>
    simp only [step] at h
    split at h
    · cases h
    · cases h
    · rename_i h0 _ e
      split at h
      · cases h; exact .inl rfl
      · rename_i s1 a hd
        cases h
        rcases det e hd with h1 | ⟨h1, rfl, h2, b, rfl, h3⟩
        · exact .inl (by simpa using h1)
        · exact .inr ⟨by simpa using h1, .inr (.inr ⟨i, b, .inl ⟨v, rfl⟩, e, h3, h2⟩)⟩
      · rename_i s1 h1 _ hd
        cases h
        rcases det e hd with h1 | ⟨h1, rfl, h2, b, rfl, h3⟩
        · exact .inl (by simpa using h1)
        · exact .inr ⟨by simpa using h1, .inr (.inr ⟨i, b, .inl ⟨v, rfl⟩, e, h3, h2⟩)⟩
  | touch i f =>
    simp only [step] at h
    split at h
    · cases h
    · cases h
    · rename_i h0 _ e
      split at h
      · cases h; exact .inl rfl
      · rename_i s1 h1 hd
        cases h
        rcases det e hd with h1 | ⟨h1, rfl, h2, b, rfl, h3⟩
        · exact .inl h1
        · exact .inr ⟨h1, .inr (.inr ⟨i, b, .inr rfl, e, h3, h2⟩)⟩
  | copyAssign i j =>
    simp only [step] at h
    split at h <;> cases h
    split <;> exact .inl rfl
  | copy j | move j | dtor j | read j | test j => simp only [step] at h; split at h <;> cases h <;> exact .inl rfl
  | moveAssign i j => simp only [step] at h; split at h <;> cases h <;> exact .inl rfl

/-- C18: an operation throws only where it has to copy a shared object; it changes nothing then. -/
theorem C18_throws {s s' : St α} {o : Op α} (h : step s o = some (.thrown, s')) :
    s' = s ∧ ∃ i a, ((∃ v, o = .write i v true) ∨ o = .touch i true) ∧ s.hs[i]? = some (.ptr a) ∧ 1 < s.useCount a := by
  have det : ∀ {i h f}, s.detach i h f = none → f = true ∧ ∃ a, h = .ptr a ∧ 1 < s.useCount a := by
    intro i h f hd
    unfold St.detach at hd
    split at hd
    · rename_i a
      split at hd
      · rename_i hc
        split at hd
        · rename_i hf; exact ⟨by simpa using hf, a, rfl, hc⟩
        · cases hd
      · cases hd
    · cases hd
  cases o with
  | write i v f =>
    simp only [step] at h
    split at h
    · cases h
    · cases h
    · rename_i h0 _ e
      split at h
      · rename_i hd
        cases h
        obtain ⟨rfl, a, rfl, hc⟩ := det hd
        exact ⟨rfl, i, a, .inl ⟨v, rfl⟩, e, hc⟩
      · cases h
      · cases h
  | touch i f =>
    simp only [step] at h
    split at h
    · cases h
    · cases h
    · rename_i h0 _ e
      split at h
      · rename_i hd
        cases h
        obtain ⟨rfl, a, rfl, hc⟩ := det hd
        exact ⟨rfl, i, a, .inr rfl, e, hc⟩
      · cases h
  | read j =>
    simp only [step] at h
    split at h
    · cases h
    · cases h
    · cases h
    · rename_i a _
      cases ea : s.cells[a]? <;> rw [ea] at h <;> cases h
  | make v => simp only [step] at h; cases h
  | ptrAssign i v => simp only [step] at h; split at h <;> cases h
  | copyAssign i j => simp only [step] at h; split at h <;> cases h
  | copy j | move j | dtor j | test j => simp only [step] at h; split at h <;> cases h
  | moveAssign i j => simp only [step] at h; split at h <;> cases h

/-- C18 is about accesses through the handles. A reference that `write()` returned and the program kept is not separated by later
copies: here handle 1 is a copy of handle 0, and a store through the reference obtained from handle 0 before changes what
handle 1 reads. -/
theorem C18_kept_reference_false : ∃ (os : List (Op Nat)) (rs : List (Res Nat)) (s : St Nat) (a : Nat),
    run St.init os = some (rs, s) ∧ s.hs[0]? = some (.ptr a) ∧
    step s (.read 1) = some (.val 5, s) ∧
    step { s with cells := s.cells.set a 6 } (.read 1) = some (.val 6, { s with cells := s.cells.set a 6 }) :=
  ⟨[.make (some 4), .write 0 5 false, .copy 0], [.unit, .unit, .unit], ⟨[5], [.ptr 0, .ptr 0]⟩, 0, rfl, rfl, rfl, rfl⟩

-- four handles, two of them shared: writes are private, a moved-from handle is null, reading it is undefined behaviour
example : run St.init [.make (some 1), .copy 0, .copy 1, .write 1 2 false, .read 0, .read 1, .read 2, .move 1, .write 0 9 true,
    .copyAssign 0 3, .test 1, .read 0, .touch 3 false, .write 3 7 false, .read 0, .read 1] =
    some ([.unit, .unit, .unit, .unit, .val 1, .val 2, .val 1, .unit, .thrown, .unit, .bool false, .val 2, .unit, .unit, .val 2, .ub],
      ⟨[1, 2, 7], [.ptr 1, .null, .ptr 0, .ptr 2]⟩) := rfl

end Verif.Cow
