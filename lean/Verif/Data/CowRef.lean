import Verif.Data.Cow

/-!
# `cow_ptr`: comparisons and kept references, properties C64 and C65

signals.hpp:511-658. `operator==` (627-631) compares pointers, not values. `operator*()`, `operator->()`, `operator T*()`, `data()` and
`write()` (560, 575, 590, 603, 621) hand out a reference into the object, which the program may keep.
-/

namespace Verif.Cow

variable {α : Type}

/-- The variables of `Verif.Cow.St` and the references that the program keeps, in the order in which it got them: addresses of objects.
Simplification: a reference refers to the whole object. -/
structure RSt (α : Type) where
  s : St α
  refs : List Nat
deriving Repr

/-- Operations of a program. -/
inductive ROp (α : Type) where
  /-- an operation that keeps no reference, see `Op` -/
  | op (o : Op α)
  /-- `auto& r = *p`, `p.write()`, `*p.operator->()`, `*p.data()` (560, 575, 590, 603, 621), keeping the reference -/
  | hold (i : Nat) (fails : Bool)
  /-- `p == q` (627-631); `p != q` (633-637) is its negation -/
  | eq (i j : Nat)
  /-- reading through a reference kept -/
  | load (r : Nat)
  /-- `r = v` -/
  | store (r : Nat) (v : α)
deriving Repr

/-- One operation. `none`: the program used a variable or reference that does not exist. A reference to an object that nobody owns
dangles. -/
def rstep (s : RSt α) : ROp α → Option (Res α × RSt α)
  | .op o => (step s.s o).map fun x => (x.1, { s with s := x.2 })
  | .hold i f =>
      match s.s.hs[i]? with
      | none | some .gone => none
      | some h =>
          match s.s.detach i h f with
          | none => some (.thrown, s)
          | some (s', .ptr a) => some (.unit, ⟨s', s.refs ++ [a]⟩)
          | some (s', _) => some (.ub, { s with s := s' })
  | .eq i j =>
      match s.s.hs[i]?, s.s.hs[j]? with
      | none, _ | some .gone, _ | _, none | _, some .gone => none
      | some x, some y => some (.bool (x == y), s)
  | .load r =>
      match s.refs[r]? with
      | none => none
      | some a => if s.s.useCount a = 0 then some (.ub, s) else some ((s.s.cells[a]?).elim .ub .val, s)
  | .store r v =>
      match s.refs[r]? with
      | none => none
      | some a => if s.s.useCount a = 0 then some (.ub, s) else some (.unit, { s with s.cells := s.s.cells.set a v })

/-- A program; it stops at undefined behaviour. -/
def rrun (s : RSt α) : List (ROp α) → Option (List (Res α) × RSt α)
  | [] => some ([], s)
  | o :: os =>
      match rstep s o with
      | none => none
      | some (.ub, s') => some ([.ub], s')
      | some (r, s') => (rrun s' os).map fun p => (r :: p.1, p.2)

/-- Before the program starts. -/
def RSt.init : RSt α := ⟨.init, []⟩

/-! ### Specification: values, who shares with whom, and what a reference is tied to. There are no addresses in it. -/

/-- `vals`: what the variables hold. `same i j`: they share an object. `tied r i`: reference `r` is to the object of variable `i`. -/
structure View (α : Type) where
  vals : Spec α
  same : Nat → Nat → Prop
  tied : Nat → Nat → Prop
  refs : Nat

/-- After operation `o` with result `r` variable `x` has what variable `y` had before. What no variable had before is new. A write
gives its variable something new exactly if another variable shares what it has. -/
def Came (V : View α) : Op α → Res α → Nat → Nat → Prop
  | .make _, _, x, y => x ≠ V.vals.length ∧ x = y
  | .copy j, _, x, y => x = V.vals.length ∧ y = j ∨ x ≠ V.vals.length ∧ x = y
  | .move j, _, x, y => x = V.vals.length ∧ y = j ∨ x ≠ V.vals.length ∧ x ≠ j ∧ x = y
  | .copyAssign i j, _, x, y => x = i ∧ y = j ∨ x ≠ i ∧ x = y
  | .moveAssign i j, _, x, y => x = i ∧ y = j ∨ x ≠ i ∧ x ≠ j ∧ x = y
  | .ptrAssign i _, _, x, y => x ≠ i ∧ x = y
  | .dtor i, _, x, y => x ≠ i ∧ x = y
  | .write i _ _, .unit, x, y => x = y ∧ (x = i → ∀ z, z ≠ i → ¬ V.same z i)
  | .touch i _, .unit, x, y => x = y ∧ (x = i → ∀ z, z ≠ i → ¬ V.same z i)
  | _, _, x, y => x = y

/-- The view after operation `o` with result `r`, which makes `vals` of the values. -/
def View.after (V : View α) (o : Op α) (r : Res α) (vals : Spec α) : View α where
  vals := vals
  same x y := (x = y ∧ ∃ v, vals[x]? = some (.own v)) ∨ ∃ x0 y0, Came V o r x x0 ∧ Came V o r y y0 ∧ V.same x0 y0
  tied k x := ∃ x0, Came V o r x x0 ∧ V.tied k x0
  refs := V.refs

/-- What each operation means. -/
inductive View.Step : View α → ROp α → Res α → View α → Prop where
  | op {V : View α} {o r m} : Spec.Step V.vals o r m → Step V (.op o) r (V.after o r m)
  | hold {V V' : View α} {i v f} : V.vals.has i (.own v) → V' = V.after (.touch i f) .unit V.vals →
      Step V (.hold i f) .unit { V' with refs := V.refs + 1, tied := fun k x => k = V.refs ∧ x = i ∨ k ≠ V.refs ∧ V'.tied k x }
  | holdThrow {V : View α} {i v} : V.vals.has i (.own v) → Step V (.hold i true) .thrown V
  | holdNull {V : View α} {i f} : V.vals.has i .nothing → Step V (.hold i f) .ub V
  | eq {V : View α} {i j x y b} : V.vals.has i x → V.vals.has j y →
      (b = true ↔ x = .nothing ∧ y = .nothing ∨ V.same i j) → Step V (.eq i j) (.bool b) V
  | load {V : View α} {r i v} : V.tied r i → V.vals.has i (.own v) → Step V (.load r) (.val v) V
  | loadDangling {V : View α} {r} : r < V.refs → (∀ i, ¬ V.tied r i) → Step V (.load r) .ub V
  | store {V : View α} {r i v m} : V.tied r i → m.length = V.vals.length → (∀ j, V.tied r j → m[j]? = some (.own v)) →
      (∀ j, ¬ V.tied r j → m[j]? = V.vals[j]?) → Step V (.store r v) .unit { V with vals := m }
  | storeDangling {V : View α} {r v} : r < V.refs → (∀ i, ¬ V.tied r i) → Step V (.store r v) .ub V

/-- A run of the specification, up to undefined behaviour. -/
inductive View.Run : View α → List (ROp α) → List (Res α) → View α → Prop where
  | nil {V} : Run V [] [] V
  | cons {V o r V' os rs V''} : r ≠ .ub → Step V o r V' → Run V' os rs V'' → Run V (o :: os) (r :: rs) V''
  | ub {V o V' os} : Step V o .ub V' → Run V (o :: os) [.ub] V'

/-- Before the program starts. -/
def View.init : View α := ⟨[], fun _ _ => False, fun _ _ => False, 0⟩

/-! ### Proof -/

/-- The specification's view of a state. -/
def RSt.view (s : RSt α) : View α where
  vals := s.s.abs
  same x y := ∃ a, s.s.hs[x]? = some (.ptr a) ∧ s.s.hs[y]? = some (.ptr a)
  tied r x := ∃ a, s.refs[r]? = some a ∧ s.s.hs[x]? = some (.ptr a)
  refs := s.refs.length

/-- Pointers and references point to objects that exist or existed. -/
structure RSt.Ok (s : RSt α) : Prop where
  ok : s.s.Ok
  refs : ∀ a ∈ s.refs, a < s.s.cells.length

theorem View.ext {V W : View α} (h1 : V.vals = W.vals) (h2 : ∀ x y, V.same x y ↔ W.same x y) (h3 : ∀ r x, V.tied r x ↔ W.tied r x)
    (h4 : V.refs = W.refs) : V = W := by
  cases V; cases W
  simp only at h1 h4
  subst h1; subst h4
  congr
  · funext x y; exact propext (h2 x y)
  · funext x y; exact propext (h3 x y)

/-- A pointer is counted twice iff another variable has it too. -/
theorem useCount_iff {s : St α} {i a : Nat} (e : s.hs[i]? = some (.ptr a)) :
    1 < s.useCount a ↔ ∃ y, y ≠ i ∧ s.hs[y]? = some (.ptr a) := by
  obtain ⟨hi, ei⟩ := List.getElem?_eq_some_iff.1 e
  have split : s.hs = s.hs.take i ++ .ptr a :: s.hs.drop (i + 1) := by
    rw [← ei, List.getElem_cons_drop, List.take_append_drop]
  have hc : s.useCount a = (s.hs.take i).count (.ptr a) + (s.hs.drop (i + 1)).count (.ptr a) + 1 := by
    unfold St.useCount
    conv => lhs; rw [split]
    rw [List.count_append, List.count_cons_self]; omega
  rw [hc]
  constructor
  · intro h
    have : 0 < (s.hs.take i).count (.ptr a) ∨ 0 < (s.hs.drop (i + 1)).count (.ptr a) := by omega
    rcases this with h | h
    · obtain ⟨k, hk, ek⟩ := List.mem_iff_getElem.1 (List.count_pos_iff.1 h)
      rw [List.getElem_take] at ek
      simp only [List.length_take] at hk
      exact ⟨k, by omega, List.getElem?_eq_some_iff.2 ⟨by omega, ek⟩⟩
    · obtain ⟨k, hk, ek⟩ := List.mem_iff_getElem.1 (List.count_pos_iff.1 h)
      rw [List.getElem_drop] at ek
      simp only [List.length_drop] at hk
      exact ⟨i + 1 + k, by omega, List.getElem?_eq_some_iff.2 ⟨by omega, ek⟩⟩
  · rintro ⟨y, hy, ey⟩
    obtain ⟨hy', ey'⟩ := List.getElem?_eq_some_iff.1 ey
    rcases Nat.lt_or_gt_of_ne hy with h | h
    · have : Handle.ptr a ∈ s.hs.take i := List.mem_iff_getElem.2 ⟨y, by simp; omega, by simpa using ey'⟩
      have := List.count_pos_iff.2 this
      omega
    · have : Handle.ptr a ∈ s.hs.drop (i + 1) :=
        List.mem_iff_getElem.2 ⟨y - (i + 1), by simp; omega, by
          rw [List.getElem_drop]
          have : i + 1 + (y - (i + 1)) = y := by omega
          simp only [this]; exact ey'⟩
      have := List.count_pos_iff.2 this
      omega

theorem useCount_zero {s : St α} {a : Nat} : s.useCount a = 0 ↔ ∀ i : Nat, s.hs[i]? ≠ some (Handle.ptr a) := by
  unfold St.useCount
  rw [List.count_eq_zero]
  constructor
  · intro h i e; exact h (List.mem_of_getElem? e)
  · intro h m
    obtain ⟨i, hi⟩ := List.mem_iff_getElem?.1 m
    exact h i hi

/-- `detach` either does nothing, and then no other variable has the pointer, or gives the variable a pointer to a new object, and then
another one has the old pointer. -/
theorem detach_cases {s s' : St α} {i : Nat} {h h' : Handle} {f : Bool} (ok : s.Ok) (e : s.hs[i]? = some h)
    (hd : s.detach i h f = some (s', h')) :
    (s' = s ∧ h' = h ∧ ∀ a, h = .ptr a → ∀ y, y ≠ i → s.hs[y]? ≠ some (.ptr a)) ∨
    ∃ a v, h = .ptr a ∧ (∃ y, y ≠ i ∧ s.hs[y]? = some (.ptr a)) ∧ h' = .ptr s.cells.length ∧
      s' = ⟨s.cells ++ [v], s.hs.set i (.ptr s.cells.length)⟩ := by
  unfold St.detach at hd
  split at hd
  · rename_i a
    split at hd
    · rename_i hc
      split at hd
      · cases hd
      · have hlt := ok.at e a rfl
        simp only [St.alloc, List.getElem?_eq_getElem hlt, Option.some.injEq, Prod.mk.injEq] at hd
        obtain ⟨rfl, rfl⟩ := hd
        exact .inr ⟨a, _, rfl, (useCount_iff e).1 hc, rfl, rfl⟩
    · rename_i hc
      cases hd
      refine .inl ⟨rfl, rfl, ?_⟩
      rintro b hb y hy ey
      cases hb
      exact hc ((useCount_iff e).2 ⟨y, hy, ey⟩)
  · rename_i hne
    cases hd
    exact .inl ⟨rfl, rfl, fun a ha => (hne a ha).elim⟩

/-- What an operation does to the pointers: `c` says from where they come. -/
structure Moves (s s' : St α) (c : Nat → Nat → Prop) : Prop where
  len : s.cells.length ≤ s'.cells.length
  fwd : ∀ x x0, c x x0 → ∀ a, s.hs[x0]? = some (.ptr a) → s'.hs[x]? = some (.ptr a)
  bwd : ∀ x a, s'.hs[x]? = some (.ptr a) → (∃ x0, c x x0 ∧ s.hs[x0]? = some (.ptr a)) ∨
      s.cells.length ≤ a ∧ ∀ y, s'.hs[y]? = some (.ptr a) → y = x

/-- The handle of one variable is replaced by a null or new one. -/
theorem moves_new {s s' : St α} {i : Nat} {h : Handle} (ok : s.Ok) (hl : s.cells.length ≤ s'.cells.length)
    (hh : s'.hs = s.hs.set i h) (hn : ∀ a, h = .ptr a → s.cells.length ≤ a) : Moves s s' fun x y => x ≠ i ∧ x = y := by
  refine ⟨hl, ?_, ?_⟩
  · rintro x _ ⟨h1, rfl⟩ a ha
    rw [hh, List.getElem?_set_ne (Ne.symm h1)]; exact ha
  · intro x a ha
    rw [hh, List.getElem?_set] at ha
    split at ha
    · rename_i e
      subst e
      split at ha
      · cases ha
        refine .inr ⟨hn a rfl, fun y hy => ?_⟩
        rw [hh, List.getElem?_set] at hy
        split at hy
        · rename_i e; exact e.symm
        · have := ok.at hy a rfl; have := hn a rfl; omega
      · cases ha
    · rename_i e
      exact .inl ⟨x, ⟨Ne.symm e, rfl⟩, ha⟩

/-- Nothing happens to the handles. -/
theorem moves_id {s s' : St α} (hl : s.cells.length ≤ s'.cells.length) (hh : s'.hs = s.hs) : Moves s s' fun x y => x = y :=
  ⟨hl, by rintro x _ rfl a ha; rw [hh]; exact ha, fun x a ha => .inl ⟨x, rfl, by rw [← hh]; exact ha⟩⟩

theorem Moves.congr {s s' : St α} {c d : Nat → Nat → Prop} (h : Moves s s' c) (hd : ∀ x y, c x y ↔ d x y) : Moves s s' d :=
  ⟨h.len, fun x x0 hx => h.fwd x x0 ((hd _ _).2 hx), fun x a ha => (h.bwd x a ha).imp (fun ⟨x0, h1, h2⟩ => ⟨x0, (hd _ _).1 h1, h2⟩) id⟩

/-- `detach`, perhaps with a store after it. -/
theorem moves_detach {s : RSt α} {s' s'' : St α} {i : Nat} {h h' : Handle} {f : Bool} (ok : s.s.Ok) (e : s.s.hs[i]? = some h)
    (hd : s.s.detach i h f = some (s', h')) (h1 : s''.hs = s'.hs) (h2 : s''.cells.length = s'.cells.length) :
    Moves s.s s'' fun x y => x = y ∧ (x = i → ∀ z, z ≠ i → ¬ s.view.same z i) := by
  rcases detach_cases ok e hd with ⟨rfl, -, h3⟩ | ⟨a, v, rfl, ⟨y, hy, ey⟩, -, rfl⟩
  · refine (moves_id (by omega) h1).congr fun x y => ⟨fun h => ⟨h, ?_⟩, fun h => h.1⟩
    rintro rfl z hz ⟨a, h4, h5⟩
    rw [e] at h5
    exact h3 a (by simpa using h5) z hz h4
  · refine (moves_new ok (by rw [h2]; simp) h1 (by simp)).congr fun x z => ⟨?_, ?_⟩
    · rintro ⟨h3, rfl⟩; exact ⟨rfl, fun h => absurd h h3⟩
    · rintro ⟨rfl, h3⟩
      refine ⟨?_, rfl⟩
      rintro rfl
      exact h3 rfl y hy ⟨a, ey, e⟩

theorem moves_step {s : RSt α} (ok : s.s.Ok) {o : Op α} {r : Res α} {s' : St α} (h : step s.s o = some (r, s')) :
    Moves s.s s' (Came s.view o r) := by
  have hlen : s.view.vals.length = s.s.hs.length := by simp [RSt.view, St.abs]
  cases o with
  | make v =>
    have key : ∀ {c x}, s.s.alloc v = (c, x) → s.s.cells.length ≤ c.cells.length ∧ c.hs = s.s.hs ∧ ∀ a, x = .ptr a → a = s.s.cells.length := by
      intro c x e
      cases v <;> simp only [St.alloc, Prod.mk.injEq] at e <;> obtain ⟨rfl, rfl⟩ := e <;> simp
    simp only [step] at h
    rcases e : s.s.alloc v with ⟨c, x⟩
    rw [e] at h
    cases h
    obtain ⟨h1, h2, h3⟩ := key e
    refine ⟨h1, ?_, ?_⟩
    · rintro x1 _ ⟨hx, rfl⟩ a ha
      have := (List.getElem?_eq_some_iff.1 ha).1
      simp only [h2, List.getElem?_append_left this, ha]
    · intro x1 a ha
      simp only [h2] at ha
      by_cases hx : x1 < s.s.hs.length
      · rw [List.getElem?_append_left hx] at ha
        exact .inl ⟨x1, ⟨by rw [hlen]; omega, rfl⟩, ha⟩
      · have hx1 : x1 = s.s.hs.length := by
          have := (List.getElem?_eq_some_iff.1 ha).1
          simp at this; omega
        subst hx1
        simp only [List.getElem?_concat_length, Option.some.injEq] at ha
        have := h3 a ha
        subst this
        refine .inr ⟨Nat.le_refl _, fun y hy => ?_⟩
        simp only [h2] at hy
        by_cases hy' : y < s.s.hs.length
        · rw [List.getElem?_append_left hy'] at hy
          have := ok.at hy _ rfl; omega
        · have := (List.getElem?_eq_some_iff.1 hy).1
          simp at this; omega
  | copy j =>
    simp only [step] at h
    split at h
    · cases h
    · cases h
    · rename_i x hx e
      cases h
      refine ⟨Nat.le_refl _, ?_, ?_⟩
      · rintro x1 x0 (⟨hx1, rfl⟩ | ⟨hx1, rfl⟩) a ha
        · rw [hx1, hlen]; simp only [List.getElem?_concat_length]; rw [← e]; exact ha
        · have := (List.getElem?_eq_some_iff.1 ha).1
          simp only [List.getElem?_append_left this, ha]
      · intro x1 a ha
        by_cases hx1 : x1 < s.s.hs.length
        · rw [List.getElem?_append_left hx1] at ha
          exact .inl ⟨x1, .inr ⟨by rw [hlen]; omega, rfl⟩, ha⟩
        · have hx1 : x1 = s.s.hs.length := by
            have := (List.getElem?_eq_some_iff.1 ha).1
            simp at this; omega
          subst hx1
          simp only [List.getElem?_concat_length] at ha
          exact .inl ⟨j, .inl ⟨hlen.symm, rfl⟩, by rw [e]; exact ha⟩
  | move j =>
    simp only [step] at h
    split at h
    · cases h
    · cases h
    · rename_i x hx e
      cases h
      refine ⟨Nat.le_refl _, ?_, ?_⟩
      · rintro x1 x0 (⟨hx1, rfl⟩ | ⟨hx1, hx2, rfl⟩) a ha
        · rw [hx1, hlen]
          have : (s.s.hs.set x0 .null).length = s.s.hs.length := by simp
          rw [← this]
          simp only [List.getElem?_concat_length]; rw [← e]; exact ha
        · have h1 := (List.getElem?_eq_some_iff.1 ha).1
          have : x1 < (s.s.hs.set j .null).length := by simpa using h1
          simp only [List.getElem?_append_left this]
          rw [List.getElem?_set_ne (Ne.symm hx2)]; exact ha
      · intro x1 a ha
        by_cases hx1 : x1 < s.s.hs.length
        · rw [List.getElem?_append_left (by simpa using hx1), List.getElem?_set] at ha
          split at ha
          · split at ha <;> cases ha
          · rename_i hj
            exact .inl ⟨x1, .inr ⟨by rw [hlen]; omega, Ne.symm hj, rfl⟩, ha⟩
        · have hx1 : x1 = (s.s.hs.set j .null).length := by
            have := (List.getElem?_eq_some_iff.1 ha).1
            simp at this ⊢; omega
          subst hx1
          simp only [List.getElem?_concat_length] at ha
          exact .inl ⟨j, .inl ⟨by rw [hlen]; simp, rfl⟩, by rw [e]; exact ha⟩
  | copyAssign i j =>
    simp only [step] at h
    split at h <;> try (cases h; done)
    rename_i x y hx hy e1 e2
    cases h
    have hi := (List.getElem?_eq_some_iff.1 e1).1
    by_cases hij : i = j
    · subst hij
      simp only [ne_eq, not_true_eq_false, if_false]
      refine (moves_id (Nat.le_refl _) rfl).congr fun x y => ⟨?_, ?_⟩
      · rintro rfl
        by_cases hx : x = i
        · exact .inl ⟨hx, hx⟩
        · exact .inr ⟨hx, rfl⟩
      · rintro (⟨rfl, rfl⟩ | ⟨-, rfl⟩) <;> rfl
    · simp only [ne_eq, hij, not_false_eq_true, if_true]
      refine ⟨Nat.le_refl _, ?_, ?_⟩
      · rintro x1 x0 (⟨rfl, rfl⟩ | ⟨hx1, rfl⟩) a ha
        · rw [e2] at ha; simp only [List.getElem?_set_self hi]; exact ha
        · simp only [List.getElem?_set_ne (Ne.symm hx1)]; exact ha
      · intro x1 a ha
        simp only [List.getElem?_set, hi, if_true] at ha
        split at ha
        · rename_i hx1
          subst hx1
          exact .inl ⟨j, .inl ⟨rfl, rfl⟩, by rw [e2]; exact ha⟩
        · rename_i hx1
          exact .inl ⟨x1, .inr ⟨Ne.symm hx1, rfl⟩, ha⟩
  | moveAssign i j =>
    simp only [step] at h
    split at h <;> try (cases h; done)
    rename_i x y hx hy e1 e2
    cases h
    have hi := (List.getElem?_eq_some_iff.1 e1).1
    have hi' : i < (s.s.hs.set j .null).length := by simpa using hi
    refine ⟨Nat.le_refl _, ?_, ?_⟩
    · rintro x1 x0 (⟨rfl, rfl⟩ | ⟨hx1, hx2, rfl⟩) a ha
      · rw [e2] at ha; simp only [List.getElem?_set_self hi']; exact ha
      · simp only [List.getElem?_set_ne (Ne.symm hx1), List.getElem?_set_ne (Ne.symm hx2)]; exact ha
    · intro x1 a ha
      simp only [List.getElem?_set (l := s.s.hs.set j .null), hi', if_true] at ha
      split at ha
      · rename_i hx1
        subst hx1
        exact .inl ⟨j, .inl ⟨rfl, rfl⟩, by rw [e2]; exact ha⟩
      · rename_i hx1
        rw [List.getElem?_set] at ha
        split at ha
        · split at ha <;> cases ha
        · rename_i hx2
          exact .inl ⟨x1, .inr ⟨Ne.symm hx1, Ne.symm hx2, rfl⟩, ha⟩
  | ptrAssign i v =>
    simp only [step] at h
    split at h
    · cases h
    · cases h
    · cases v with
      | none =>
        simp only [St.alloc, Option.some.injEq, Prod.mk.injEq] at h
        obtain ⟨rfl, rfl⟩ := h
        exact moves_new ok (Nat.le_refl _) rfl (by simp)
      | some v =>
        simp only [St.alloc, Option.some.injEq, Prod.mk.injEq] at h
        obtain ⟨rfl, rfl⟩ := h
        exact moves_new ok (by simp) rfl (by simp)
  | dtor i =>
    simp only [step] at h
    split at h
    · cases h
    · cases h
    · cases h
      exact moves_new ok (Nat.le_refl _) rfl (by simp)
  | read i =>
    simp only [step] at h
    have : s' = s.s := by
      split at h <;> cases h <;> rfl
    subst this
    exact moves_id (Nat.le_refl _) rfl
  | test i =>
    simp only [step] at h
    have : s' = s.s := by
      split at h <;> cases h <;> rfl
    subst this
    exact moves_id (Nat.le_refl _) rfl
  | write i v f =>
    simp only [step] at h
    split at h
    · cases h
    · cases h
    · rename_i x hx e
      split at h
      · cases h; exact moves_id (Nat.le_refl _) rfl
      · rename_i s1 a hd
        cases h
        exact moves_detach ok e hd rfl (by simp)
      · rename_i s1 x1 hx1 hd
        cases h
        rcases detach_cases ok e hd with ⟨rfl, -, -⟩ | ⟨a, v, -, -, rfl, -⟩
        · exact moves_id (Nat.le_refl _) rfl
        · exact (hx1 _ rfl).elim
  | touch i f =>
    simp only [step] at h
    split at h
    · cases h
    · cases h
    · rename_i x hx e
      split at h
      · cases h; exact moves_id (Nat.le_refl _) rfl
      · rename_i s1 x1 hd
        cases h
        exact moves_detach ok e hd rfl rfl

/-- The view of the state after an operation that moves pointers around as `Came` says. -/
theorem view_after {s : RSt α} (ok : s.Ok) {o : Op α} {r : Res α} {s' : St α} (ok' : s'.Ok) (M : Moves s.s s' (Came s.view o r)) :
    (⟨s', s.refs⟩ : RSt α).view = s.view.after o r s'.abs := by
  have own : ∀ {x a : Nat}, s'.hs[x]? = some (Handle.ptr a) → ∃ v, s'.abs[x]? = some (Slot.own v) := by
    intro x a e
    obtain ⟨v, -, h2⟩ := St.has_ptr ok' e
    exact ⟨v, h2.1⟩
  refine View.ext rfl ?_ ?_ rfl
  · intro x y
    constructor
    · rintro ⟨a, h1, h2⟩
      rcases M.bwd x a h1 with ⟨x0, c1, e1⟩ | ⟨-, h3⟩
      · rcases M.bwd y a h2 with ⟨y0, c2, e2⟩ | ⟨h3, -⟩
        · exact .inr ⟨x0, y0, c1, c2, a, e1, e2⟩
        · have := ok.ok.at e1 a rfl; omega
      · exact .inl ⟨(h3 y h2).symm, own h1⟩
    · rintro (⟨rfl, v, hv⟩ | ⟨x0, y0, c1, c2, a, e1, e2⟩)
      · rw [St.abs_get] at hv
        cases e : s'.hs[x]? with
        | none => rw [e] at hv; cases hv
        | some h =>
          cases h with
          | ptr a => exact ⟨a, e, e⟩
          | gone => rw [e] at hv; simp [St.slot] at hv
          | null => rw [e] at hv; simp [St.slot] at hv
      · exact ⟨a, M.fwd _ _ c1 a e1, M.fwd _ _ c2 a e2⟩
  · intro k x
    constructor
    · rintro ⟨a, h1, h2⟩
      rcases M.bwd x a h2 with ⟨x0, c1, e1⟩ | ⟨h3, -⟩
      · exact ⟨x0, c1, a, h1, e1⟩
      · have := ok.refs a (List.mem_of_getElem? h1); omega
    · rintro ⟨x0, c1, a, h1, e1⟩
      exact ⟨a, h1, M.fwd _ _ c1 a e1⟩

theorem has_null {s : St α} {i : Nat} (e : s.hs[i]? = some .null) : s.abs.has i .nothing := St.has e (by simp)

/-- Every operation does what the specification says. -/
theorem rstep_spec {s s' : RSt α} {o : ROp α} {r : Res α} (ok : s.Ok) (h : rstep s o = some (r, s')) :
    s'.Ok ∧ View.Step s.view o r s'.view := by
  cases o with
  | op o =>
    simp only [rstep, Option.map_eq_some_iff, Prod.mk.injEq, Prod.exists] at h
    obtain ⟨r1, s1, h1, rfl, rfl⟩ := h
    obtain ⟨ok1, h2⟩ := step_spec ok.ok h1
    have M := moves_step ok.ok h1
    refine ⟨⟨ok1, fun a ha => Nat.lt_of_lt_of_le (ok.refs a ha) M.len⟩, ?_⟩
    rw [view_after ok ok1 M]
    exact .op h2
  | hold i f =>
    simp only [rstep] at h
    split at h
    · cases h
    · cases h
    · rename_i x hx e
      split at h
      · rename_i hd
        cases h
        refine ⟨ok, ?_⟩
        unfold St.detach at hd
        split at hd
        · split at hd
          · split at hd
            · rename_i hf
              subst hf
              obtain ⟨u, -, h2⟩ := St.has_ptr ok.ok e
              exact .holdThrow h2
            · cases hd
          · cases hd
        · cases hd
      · rename_i s1 a hd
        cases h
        obtain ⟨ok1, e1, ha, -⟩ := detach_spec ok.ok e hd
        have M := moves_detach (s := s) (s'' := s1) ok.ok e hd rfl rfl
        obtain ⟨v, -, h2⟩ := St.has_ptr ok1 e1
        refine ⟨⟨ok1, fun b hb => ?_⟩, ?_⟩
        · rcases List.mem_append.1 hb with hb | hb
          · exact Nat.lt_of_lt_of_le (ok.refs b hb) M.len
          · simp at hb; subst hb; exact ok1.at e1 _ rfl
        · have hv := view_after (o := .touch i f) (r := .unit) ok ok1 M
          have sole := (detach_spec ok.ok e hd).2.2.2 a rfl
          have : (⟨s1, s.refs ++ [a]⟩ : RSt α).view =
              { s.view.after (.touch i f) .unit s.view.vals with
                refs := s.view.refs + 1
                tied := fun k x => k = s.view.refs ∧ x = i ∨ k ≠ s.view.refs ∧ (s.view.after (.touch i f) .unit s.view.vals).tied k x } := by
            have hva : s1.abs = s.view.vals := ha
            rw [hva] at hv
            rw [← hv]
            refine View.ext ?_ (fun x y => Iff.rfl) ?_ (by simp [RSt.view])
            · rfl
            · intro k x
              simp only [RSt.view]
              by_cases hk : k = s.refs.length
              · subst hk
                simp only [true_and, ne_eq, not_true_eq_false, false_and, or_false, List.getElem?_concat_length, Option.some.injEq, exists_eq_left']
                constructor
                · intro hx
                  rcases Nat.decEq x i with hne | rfl
                  · have := (useCount_iff e1).2 ⟨x, hne, hx⟩; omega
                  · rfl
                · rintro rfl; exact e1
              · simp only [hk, false_and, false_or, ne_eq, not_false_eq_true, true_and]
                by_cases hlt : k < s.refs.length
                · rw [List.getElem?_append_left hlt]
                · have : (s.refs ++ [a])[k]? = none := by
                    apply List.getElem?_eq_none; simp; omega
                  have h0 : s.refs[k]? = none := by apply List.getElem?_eq_none; omega
                  rw [this, h0]
          rw [this]
          exact .hold (by rw [show s.view.vals = s1.abs from ha.symm]; exact h2) rfl
      · rename_i s1 x1 hx1 hd
        cases h
        rcases detach_cases ok.ok e hd with ⟨rfl, rfl, -⟩ | ⟨a, v, -, -, rfl, -⟩
        · refine ⟨ok, ?_⟩
          cases x1 with
          | gone => exact (hx rfl).elim
          | null => exact .holdNull (has_null e)
          | ptr a => exact (hx1 a rfl).elim
        · exact (hx1 _ rfl).elim
  | eq i j =>
    simp only [rstep] at h
    split at h <;> try (cases h; done)
    rename_i x y hx hy e1 e2
    cases h
    refine ⟨ok, ?_⟩
    have hxg : x ≠ .gone := by rintro rfl; simp_all
    have hyg : y ≠ .gone := by rintro rfl; simp_all
    refine .eq (St.has e1 hxg) (St.has e2 hyg) ?_
    simp only [beq_iff_eq]
    constructor
    · rintro rfl
      cases x with
      | gone => exact (hxg rfl).elim
      | null => exact .inl ⟨rfl, rfl⟩
      | ptr a => exact .inr ⟨a, e1, e2⟩
    · rintro (⟨h1, h2⟩ | ⟨a, h1, h2⟩)
      · have nul : ∀ {i : Nat} {h : Handle}, s.s.hs[i]? = some h → s.s.slot h = .nothing → h = .null := by
          intro i h e hs
          cases h with
          | gone => cases hs
          | null => rfl
          | ptr a =>
            obtain ⟨v, h1, -⟩ := St.has_ptr ok.ok e
            simp [St.slot, h1, Slot.of] at hs
        rw [nul e1 h1, nul e2 h2]
      · rw [e1] at h1; rw [e2] at h2
        cases h1; cases h2; rfl
  | load r0 =>
    simp only [rstep] at h
    split at h
    · cases h
    · rename_i a ea
      have hlt : r0 < s.view.refs := (List.getElem?_eq_some_iff.1 ea).1
      split at h
      · rename_i hc
        cases h
        refine ⟨ok, .loadDangling hlt ?_⟩
        rintro i ⟨b, h1, h2⟩
        rw [ea] at h1; cases h1
        exact useCount_zero.1 hc i h2
      · rename_i hc
        obtain ⟨i, hi⟩ := List.mem_iff_getElem?.1 (List.count_pos_iff.1 (Nat.pos_of_ne_zero hc))
        obtain ⟨v, h1, h2⟩ := St.has_ptr ok.ok hi
        rw [h1] at h
        cases h
        exact ⟨ok, .load ⟨a, ea, hi⟩ h2⟩
  | store r0 v =>
    simp only [rstep] at h
    split at h
    · cases h
    · rename_i a ea
      have hlt : r0 < s.view.refs := (List.getElem?_eq_some_iff.1 ea).1
      split at h
      · rename_i hc
        cases h
        refine ⟨ok, .storeDangling hlt ?_⟩
        rintro i ⟨b, h1, h2⟩
        rw [ea] at h1; cases h1
        exact useCount_zero.1 hc i h2
      · rename_i hc
        cases h
        obtain ⟨i, hi⟩ := List.mem_iff_getElem?.1 (List.count_pos_iff.1 (Nat.pos_of_ne_zero hc))
        have ha := ok.ok.at hi a rfl
        refine ⟨⟨fun b hb => by simpa using ok.ok b hb, fun b hb => by simpa using ok.refs b hb⟩, ?_⟩
        refine View.Step.store (V := s.view) ⟨a, ea, hi⟩ (by simp [RSt.view, St.abs]) ?_ ?_
        · rintro j ⟨b, h1, h2⟩
          rw [ea] at h1; cases h1
          rw [St.abs_get]
          simp [h2, St.slot, ha, Slot.of]
        · intro j hj
          simp only [RSt.view]
          rw [St.abs_get, St.abs_get]
          cases ej : s.s.hs[j]? with
          | none => rfl
          | some x =>
            simp only [Option.map_some, Option.some.injEq]
            cases x with
            | gone => rfl
            | null => rfl
            | ptr b =>
              have hab : a ≠ b := by rintro rfl; exact hj ⟨a, ea, ej⟩
              simp only [St.slot]; rw [List.getElem?_set_ne hab]

theorem rrun_ok {s s' : RSt α} {os : List (ROp α)} {rs : List (Res α)} (ok : s.Ok) (h : rrun s os = some (rs, s')) :
    s'.Ok ∧ View.Run s.view os rs s'.view := by
  induction os generalizing s rs with
  | nil =>
    simp only [rrun, Option.some.injEq, Prod.mk.injEq] at h
    obtain ⟨rfl, rfl⟩ := h
    exact ⟨ok, .nil⟩
  | cons o os ih =>
    simp only [rrun] at h
    split at h
    · cases h
    · rename_i s1 e
      simp only [Option.some.injEq, Prod.mk.injEq] at h
      obtain ⟨rfl, rfl⟩ := h
      obtain ⟨h1, h2⟩ := rstep_spec ok e
      exact ⟨h1, .ub h2⟩
    · rename_i r s1 hr e
      cases e2 : rrun s1 os with
      | none => rw [e2] at h; cases h
      | some p =>
        rw [e2] at h
        simp only [Option.map_some, Option.some.injEq, Prod.mk.injEq] at h
        obtain ⟨rfl, rfl⟩ := h
        obtain ⟨h1, h2⟩ := rstep_spec ok e
        obtain ⟨h3, h4⟩ := ih h1 (rs := p.1) (by rw [e2])
        exact ⟨h3, .cons hr h2 h4⟩

theorem init_ok : (RSt.init : RSt α).Ok := ⟨fun _ h => (by cases h), fun _ h => (by cases h)⟩

theorem init_view : (RSt.init : RSt α).view = View.init := by
  refine View.ext rfl ?_ ?_ rfl
  · intro x y; constructor
    · rintro ⟨a, h, -⟩; simp [RSt.init, St.init] at h
    · exact False.elim
  · intro x y; constructor
    · rintro ⟨a, h, -⟩; simp [RSt.init] at h
    · exact False.elim

/-- C64: whatever a program does with any number of `cow_ptr` variables and references into them, every result is one that the
specification allows: `p == q` says whether both are null or share an object, and they share an object iff one got it from the other, or
both from a third, and neither was written to since while it was shared. -/
theorem C64 {os : List (ROp α)} {rs : List (Res α)} {s : RSt α} (h : rrun RSt.init os = some (rs, s)) :
    ∃ V, View.Run View.init os rs V ∧ V.vals = s.s.abs :=
  ⟨s.view, by rw [← init_view]; exact (rrun_ok init_ok h).2, rfl⟩

/-- C64: an operation is possible exactly if what it names exists. -/
theorem C64_total (s : RSt α) (o : ROp α)
    (ok : match o with
      | .op o => (step s.s o).isSome = true
      | .hold i _ => ∃ x, s.s.abs.has i x
      | .eq i j => (∃ x, s.s.abs.has i x) ∧ ∃ x, s.s.abs.has j x
      | .load r | .store r _ => r < s.refs.length) : (rstep s o).isSome = true := by
  have get : ∀ {i}, (∃ x, s.s.abs.has i x) → ∃ h, s.s.hs[i]? = some h ∧ h ≠ .gone := by
    rintro i ⟨x, h1, h2⟩
    rw [s.s.abs_get] at h1
    cases e : s.s.hs[i]? with
    | none => rw [e] at h1; cases h1
    | some h => rw [e] at h1; exact ⟨h, rfl, by rintro rfl; simp [St.slot] at h1; exact h2 h1.symm⟩
  cases o with
  | op o => simpa [rstep] using ok
  | hold i f =>
    obtain ⟨h, e, hg⟩ := get ok
    simp only [rstep, e]
    cases h with
    | gone => simp at hg
    | null => split <;> rfl
    | ptr a => split <;> rfl
  | eq i j =>
    obtain ⟨h, e, hg⟩ := get ok.1
    obtain ⟨h', e', hg'⟩ := get ok.2
    simp only [rstep, e, e']; cases h <;> cases h' <;> simp at hg hg' ⊢
  | load r =>
    simp only [rstep, List.getElem?_eq_getElem ok]; split <;> rfl
  | store r v =>
    simp only [rstep, List.getElem?_eq_getElem ok]; split <;> rfl

/-- C64: variables that compare equal hold the same value, or both nothing. -/
theorem C64_value {s s' : RSt α} {i j : Nat} (h : rstep s (.eq i j) = some (.bool true, s')) : s.s.abs[i]? = s.s.abs[j]? := by
  simp only [rstep] at h
  split at h <;> try (cases h; done)
  rename_i x y hx hy e1 e2
  simp only [Option.some.injEq, Prod.mk.injEq, Res.bool.injEq, beq_iff_eq] at h
  rw [St.abs_get, St.abs_get, e1, e2, h.1]

/-- C64: a copy compares equal to what it was made from. -/
theorem C64_copy {s s' : RSt α} {j : Nat} {r : Res α} (h : rstep s (.op (.copy j)) = some (r, s')) :
    rstep s' (.eq j s.s.abs.length) = some (.bool true, s') := by
  simp only [rstep, step] at h
  have hl : s.s.abs.length = s.s.hs.length := by simp [St.abs]
  rw [hl]
  split at h
  · cases h
  · cases h
  · rename_i x hx e
    cases h
    have hj := (List.getElem?_eq_some_iff.1 e).1
    simp only [rstep, List.getElem?_append_left hj, e, List.getElem?_concat_length]
    cases x <;> simp at hx ⊢

/-- C64: after a write a variable compares equal to no other. -/
theorem C64_write {os : List (ROp α)} {rs : List (Res α)} {s s' : RSt α} (hr : rrun RSt.init os = some (rs, s)) {i k : Nat} {v : α} {f : Bool}
    (h : rstep s (.op (.write i v f)) = some (.unit, s')) (hk : k ≠ i) {r : Res α} {s'' : RSt α} (he : rstep s' (.eq i k) = some (r, s'')) :
    r = .bool false := by
  have ok := (rrun_ok init_ok hr).1
  simp only [rstep, Option.map_eq_some_iff, Prod.mk.injEq, Prod.exists] at h
  obtain ⟨r1, s1, h1, rfl, rfl⟩ := h
  simp only [step] at h1
  split at h1
  · cases h1
  · cases h1
  · rename_i x hx e
    split at h1
    · cases h1
    · rename_i s2 a hd
      cases h1
      obtain ⟨ok2, e2, -, hc⟩ := detach_spec ok.ok e hd
      have hc := hc a rfl
      simp only [rstep, e2] at he
      split at he <;> try (cases he; done)
      rename_i x y hx' hy e3 e4
      cases e3
      cases he
      simp only [Res.bool.injEq, beq_eq_false_iff_ne]
      rintro rfl
      have := (useCount_iff e2).2 ⟨k, hk, e4⟩
      omega
    · cases h1

/-! ### C65 -/

/-- The variables whose pointer an operation copies or changes otherwise than through `detach`. -/
def ROp.rebinds : ROp α → List Nat
  | .op (.copy j) | .op (.move j) => [j]
  | .op (.copyAssign i j) | .op (.moveAssign i j) => [i, j]
  | .op (.ptrAssign i _) | .op (.dtor i) => [i]
  | _ => []

/-- Variable `i` is the only one to have pointer `a`. -/
def Sole (s : St α) (i a : Nat) : Prop := s.hs[i]? = some (.ptr a) ∧ ∀ y : Nat, s.hs[y]? = some (.ptr a) → y = i

theorem Moves.sole {s s' : St α} {c : Nat → Nat → Prop} (M : Moves s s' c) (ok : s.Ok) {i a : Nat} (h : Sole s i a) (hi : c i i)
    (hc : ∀ x, c x i → x = i) : Sole s' i a := by
  refine ⟨M.fwd i i hi a h.1, fun y hy => ?_⟩
  rcases M.bwd y a hy with ⟨x0, c1, e1⟩ | ⟨h1, -⟩
  · have := h.2 x0 e1
    subst this
    exact hc y c1
  · have := ok.at h.1 a rfl; omega

theorem sole_step {s s' : RSt α} {o : ROp α} {r : Res α} {i a : Nat} (ok : s.Ok) (h : rstep s o = some (r, s')) (hs : Sole s.s i a)
    (ho : i ∉ o.rebinds) : Sole s'.s i a := by
  have hlt := (List.getElem?_eq_some_iff.1 hs.1).1
  have hlen : s.view.vals.length = s.s.hs.length := by simp [RSt.view, St.abs]
  have alone : ∀ z, z ≠ i → ¬ s.view.same z i := by
    rintro z hz ⟨b, h1, h2⟩
    rw [hs.1] at h2; cases h2
    exact hz (hs.2 z h1)
  have det : ∀ {j : Nat} {f : Bool} {x h' : Handle} {s1 : St α}, s.s.hs[j]? = some x → s.s.detach j x f = some (s1, h') → Sole s1 i a := by
    intro j f x h' s1 e hd
    refine (moves_detach ok.ok e hd rfl rfl).sole ok.ok hs ⟨rfl, ?_⟩ fun y hy => hy.1
    rintro rfl; exact alone
  cases o with
  | op o =>
    simp only [rstep, Option.map_eq_some_iff, Prod.mk.injEq, Prod.exists] at h
    obtain ⟨r1, s1, h1, rfl, rfl⟩ := h
    refine (moves_step ok.ok h1).sole ok.ok hs ?_ ?_
    · cases o <;> simp only [ROp.rebinds, List.mem_cons, List.not_mem_nil, or_false, not_or] at ho
      case make => exact ⟨by omega, rfl⟩
      case copy => exact .inr ⟨by omega, rfl⟩
      case move => exact .inr ⟨by omega, ho, rfl⟩
      case copyAssign => exact .inr ⟨ho.1, rfl⟩
      case moveAssign => exact .inr ⟨ho.1, ho.2, rfl⟩
      case ptrAssign => exact ⟨ho, rfl⟩
      case dtor => exact ⟨ho, rfl⟩
      case write => cases r1 <;> first | exact ⟨rfl, by rintro rfl; exact alone⟩ | exact rfl
      case touch => cases r1 <;> first | exact ⟨rfl, by rintro rfl; exact alone⟩ | exact rfl
      all_goals exact rfl
    · intro x hx
      cases o <;> simp only [ROp.rebinds, List.mem_cons, List.not_mem_nil, or_false, not_or] at ho
      case make => exact hx.2
      case copy => rcases hx with ⟨-, h⟩ | ⟨-, h⟩ <;> first | exact h | exact absurd h ho
      case move => rcases hx with ⟨-, h⟩ | ⟨-, -, h⟩ <;> first | exact h | exact absurd h ho
      case copyAssign => rcases hx with ⟨-, h⟩ | ⟨-, h⟩ <;> first | exact h | exact absurd h ho.2
      case moveAssign => rcases hx with ⟨-, h⟩ | ⟨-, -, h⟩ <;> first | exact h | exact absurd h ho.2
      case ptrAssign => exact hx.2
      case dtor => exact hx.2
      case write => cases r1 <;> first | exact hx | exact hx.1
      case touch => cases r1 <;> first | exact hx | exact hx.1
      all_goals exact hx
  | hold j f =>
    simp only [rstep] at h
    split at h
    · cases h
    · cases h
    · rename_i x hx e
      split at h
      · cases h; exact hs
      · rename_i hd; cases h; exact det e hd
      · rename_i hd; cases h; exact det e hd
  | eq => simp only [rstep] at h; split at h <;> cases h; exact hs
  | load =>
    simp only [rstep] at h
    split at h
    · cases h
    · split at h <;> cases h <;> exact hs
  | store =>
    simp only [rstep] at h
    split at h
    · cases h
    · split at h <;> cases h <;> exact hs

/-- References are only added. -/
theorem refs_step {s s' : RSt α} {o : ROp α} {r : Res α} (h : rstep s o = some (r, s')) : ∃ l, s'.refs = s.refs ++ l := by
  cases o with
  | op o =>
    simp only [rstep, Option.map_eq_some_iff, Prod.mk.injEq, Prod.exists] at h
    obtain ⟨r1, s1, h1, rfl, rfl⟩ := h
    exact ⟨[], by simp⟩
  | hold j f =>
    simp only [rstep] at h
    split at h
    · cases h
    · cases h
    · split at h <;> cases h
      · exact ⟨[], by simp⟩
      · exact ⟨_, rfl⟩
      · exact ⟨[], by simp⟩
  | eq => simp only [rstep] at h; split at h <;> cases h; exact ⟨[], by simp⟩
  | load =>
    simp only [rstep] at h
    split at h
    · cases h
    · split at h <;> cases h <;> exact ⟨[], by simp⟩
  | store =>
    simp only [rstep] at h
    split at h
    · cases h
    · split at h <;> cases h <;> exact ⟨[], by simp⟩

theorem sole_run {s s' : RSt α} {os : List (ROp α)} {rs : List (Res α)} {i a : Nat} (ok : s.Ok) (h : rrun s os = some (rs, s'))
    (hs : Sole s.s i a) (ho : ∀ o ∈ os, i ∉ o.rebinds) : Sole s'.s i a ∧ ∃ l, s'.refs = s.refs ++ l := by
  induction os generalizing s rs with
  | nil =>
    simp only [rrun, Option.some.injEq, Prod.mk.injEq] at h
    obtain ⟨rfl, rfl⟩ := h
    exact ⟨hs, [], by simp⟩
  | cons o os ih =>
    have ho1 := ho o (by simp)
    simp only [rrun] at h
    split at h
    · cases h
    · rename_i s1 e
      cases h
      exact ⟨sole_step ok e hs ho1, refs_step e⟩
    · rename_i r s1 hr e
      cases e2 : rrun s1 os with
      | none => rw [e2] at h; cases h
      | some p =>
        rw [e2] at h
        cases h
        obtain ⟨h3, l, h4⟩ := ih (rstep_spec ok e).1 e2 (sole_step ok e hs ho1) fun o h => ho o (by simp [h])
        obtain ⟨l', h5⟩ := refs_step e
        exact ⟨h3, l' ++ l, by rw [h4, h5, List.append_assoc]⟩

/-- C65, as long as the variable is not copied, moved, assigned to or destroyed: whatever else happens after a reference was got from
variable `i`, reading through the reference gives the value of `i`, and storing through it is a write to `i` and to no other variable.
Without the condition this is false, see `C65_false`. -/
theorem C65_partial {os os' : List (ROp α)} {rs rs' : List (Res α)} {s s1 s2 : RSt α} {i : Nat} {f : Bool} {v : α}
    (hr : rrun RSt.init os = some (rs, s)) (hh : rstep s (.hold i f) = some (.unit, s1)) (hr' : rrun s1 os' = some (rs', s2))
    (ho : ∀ o ∈ os', i ∉ o.rebinds) :
    (∃ x, s2.s.abs[i]? = some (.own x) ∧ rstep s2 (.load s.refs.length) = some (.val x, s2)) ∧
    ∃ s3, rstep s2 (.store s.refs.length v) = some (.unit, s3) ∧ s3.s.abs = s2.s.abs.set i (.own v) := by
  have ok := (rrun_ok init_ok hr).1
  have ok1 := (rstep_spec ok hh).1
  have ok2 := (rrun_ok ok1 hr').1
  have key : ∃ a, Sole s1.s i a ∧ s1.refs = s.refs ++ [a] := by
    simp only [rstep] at hh
    split at hh
    · cases hh
    · cases hh
    · rename_i x hx e
      split at hh
      · cases hh
      · rename_i s1 a hd
        cases hh
        obtain ⟨-, e1, -, hc⟩ := detach_spec ok.ok e hd
        refine ⟨a, ⟨e1, fun y hy => ?_⟩, rfl⟩
        rcases Nat.decEq y i with hne | rfl
        · have := (useCount_iff e1).2 ⟨y, hne, hy⟩
          have := hc a rfl
          omega
        · rfl
      · cases hh
  obtain ⟨a, hs, hrefs⟩ := key
  obtain ⟨hs2, l, hl⟩ := sole_run ok1 hr' hs ho
  have hra : s2.refs[s.refs.length]? = some a := by rw [hl, hrefs]; simp
  have hc : s2.s.useCount a ≠ 0 := fun h => useCount_zero.1 h i hs2.1
  obtain ⟨x, h1, h2⟩ := St.has_ptr ok2.ok hs2.1
  have hc1 : s2.s.useCount a ≤ 1 := by
    refine Nat.le_of_not_lt fun h => ?_
    obtain ⟨y, hy, ey⟩ := (useCount_iff hs2.1).1 h
    exact hy (hs2.2 y ey)
  refine ⟨⟨x, h2.1, ?_⟩, ⟨⟨s2.s.cells.set a v, s2.s.hs⟩, s2.refs⟩, ?_, write_sole (v := v) ok2.ok hs2.1 hc1⟩
  · simp only [rstep, hra, if_neg hc, h1, Option.elim_some]
  · simp only [rstep, hra, if_neg hc]

/-- The program `auto p = make_cow<int>(1); auto& r = p.write(); auto q = p; r = 5;` -/
def leak : List (ROp Int) := [.op (.make (some 1)), .hold 0 false, .op (.copy 0), .store 0 5]

/-- C65 is false: after a copy the reference writes to both. -/
theorem C65_false : ¬ ∀ (s s' : RSt Int) (v : Int) (i : Nat) (f : Bool) (s0 s1 : RSt Int)
    (os0 os' : List (ROp Int)) (rs0 rs' : List (Res Int)), rrun RSt.init os0 = some (rs0, s0) → rstep s0 (.hold i f) = some (.unit, s1) →
      rrun s1 os' = some (rs', s) → rstep s (.store s0.refs.length v) = some (.unit, s') →
      ∀ j, j ≠ i → s'.s.abs[j]? = s.s.abs[j]? := by
  intro h
  have := h ⟨⟨[1], [.ptr 0, .ptr 0]⟩, [0]⟩ ⟨⟨[5], [.ptr 0, .ptr 0]⟩, [0]⟩ 5 0 false ⟨⟨[1], [.ptr 0]⟩, []⟩ ⟨⟨[1], [.ptr 0]⟩, [0]⟩
    [.op (.make (some 1))] [.op (.copy 0)] [.unit] [.unit] rfl rfl rfl rfl 1 (by decide)
  revert this
  decide +kernel

-- the other variable is read afterwards: 5, though nobody ever wrote to it
example : (rrun RSt.init (leak ++ [.op (.read 1)])).map (·.1) = some [.unit, .unit, .unit, .unit, .val 5] := by decide +kernel
-- had the program called `write()` again it would have been safe
example : (rrun RSt.init ([.op (.make (some 1)), .hold 0 false, .op (.copy 0), .op (.write 0 5 false), .op (.read 1), .load 0] :
    List (ROp Int))).map (·.1) = some [.unit, .unit, .unit, .unit, .val 1, .val 1] := by decide +kernel
-- a reference dangles when its variable is gone
example : (rrun RSt.init ([.op (.make (some 1)), .hold 0 false, .op (.dtor 0), .load 0] : List (ROp Int))).map (·.1) =
    some [.unit, .unit, .unit, .ub] := by decide +kernel
-- `C65_partial` applies: the reference survives writes to its variable, and copies of others
example : (rrun RSt.init ([.op (.make (some 1)), .op (.copy 0), .hold 1 false, .op (.copy 0), .op (.write 1 7 false), .load 0, .store 0 5,
    .op (.read 0), .op (.read 1), .op (.read 2)] : List (ROp Int))).map (·.1) =
    some [.unit, .unit, .unit, .unit, .unit, .val 7, .unit, .val 1, .val 5, .val 1] := by decide +kernel

-- the tests of the repository (tests/cow_tests.cpp:32-52): copies are equal, a write separates one of three
example : (rrun RSt.init ([.op (.make (some 1)), .op (.copy 0), .op (.copy 1), .eq 0 1, .eq 0 2, .op (.write 1 5 false), .eq 0 1, .eq 0 2,
    .eq 1 2] : List (ROp Int))).map (·.1) =
    some [.unit, .unit, .unit, .bool true, .bool true, .unit, .bool false, .bool true, .bool false] := by decide +kernel
-- equal values are not enough, and a write through `operator*` separates even if it stores the same value
example : (rrun RSt.init ([.op (.make (some 1)), .op (.make (some 1)), .eq 0 1, .op (.copy 0), .op (.write 2 1 false), .eq 0 2,
    .op (.make none), .op (.make none), .eq 3 4] : List (ROp Int))).map (·.1) =
    some [.unit, .unit, .bool false, .unit, .unit, .bool false, .unit, .unit, .bool true] := by decide +kernel

end Verif.Cow
