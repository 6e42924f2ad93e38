/-!
# Relational operators of `opt::optional` and properties C34, C35

optional.hpp:1211-1536. The operators of `T` are arbitrary functions here: nothing forces a C++ type to make `!=` the negation of
`==`, or `<=` that of `>`. They are taken to be pure and not to throw.
-/

namespace Verif.OptCmp

/-- The six relational operators. -/
inductive Cmp where
  | eq | ne | lt | le | gt | ge
deriving DecidableEq, Repr

/-- The relational operators of a type. -/
abbrev Rel (α : Type) := Cmp → α → α → Bool

variable {α : Type}

/-! ### The code -/

/-- `operator==(optional<T> const&, optional<T> const&)` (1212-1216) -/
def eqOO (R : Rel α) (x y : Option α) : Bool :=
  match x, y with
  | some a, some b => R .eq a b
  | _, _ => x.isSome == y.isSome

/-- `operator<(optional<T> const&, optional<T> const&)` (1224-1228) -/
def ltOO (R : Rel α) (x y : Option α) : Bool :=
  match y with
  | none => false
  | some b => match x with
    | none => true
    | some a => R .lt a b

/-- All six with two optionals (1211-1246). -/
def oo (R : Rel α) : Rel (Option α)
  | .eq, x, y => eqOO R x y
  | .ne, x, y => !eqOO R x y
  | .lt, x, y => ltOO R x y
  | .gt, x, y => ltOO R y x
  | .le, x, y => !ltOO R y x
  | .ge, x, y => !ltOO R x y

/-- `optional<T>` and `nullopt` (1248-1251, 1260-1263, 1272-1275, 1284-1287, 1296-1299, 1308-1311) -/
def on (c : Cmp) (x : Option α) : Bool :=
  match c with
  | .eq => !x.isSome
  | .ne => x.isSome
  | .lt => false
  | .le => !x.isSome
  | .gt => x.isSome
  | .ge => true

/-- `nullopt` and `optional<T>` (1254-1257, 1266-1269, 1278-1281, 1290-1293, 1302-1305, 1314-1317) -/
def no (c : Cmp) (x : Option α) : Bool :=
  match c with
  | .eq => !x.isSome
  | .ne => x.isSome
  | .lt => x.isSome
  | .le => true
  | .gt => false
  | .ge => !x.isSome

/-- `optional<T>` and `T` (1319-1389); the overloads for `optional<T&>` and `optional<T const&>` (1392-1536) are the same. -/
def ov (R : Rel α) (c : Cmp) (x : Option α) (v : α) : Bool :=
  match x with
  | some a => R c a v
  | none => match c with
    | .eq => false
    | .ne => true
    | .lt => true
    | .gt => false
    | .ge => false
    | .le => true

/-- `T` and `optional<T>` (1325-1389, likewise). -/
def vo (R : Rel α) (c : Cmp) (v : α) (x : Option α) : Bool :=
  match x with
  | some a => R c v a
  | none => match c with
    | .eq => false
    | .ne => true
    | .gt => true
    | .lt => false
    | .le => false
    | .ge => true

/-! ### Specification -/

/-- The six operators are those of a total order. -/
structure Total (R : Rel α) : Prop where
  eq : ∀ a b, R .eq a b = true ↔ a = b
  irrefl : ∀ a, R .lt a a = false
  trans : ∀ a b c, R .lt a b = true → R .lt b c = true → R .lt a c = true
  total : ∀ a b, R .lt a b = true ∨ a = b ∨ R .lt b a = true
  ne : ∀ a b, R .ne a b = true ↔ a ≠ b
  gt : ∀ a b, R .gt a b = true ↔ R .lt b a = true
  le : ∀ a b, R .le a b = true ↔ R .lt a b = true ∨ a = b
  ge : ∀ a b, R .ge a b = true ↔ R .lt b a = true ∨ a = b

theorem Total.asymm {R : Rel α} (h : Total R) {a b : α} (h1 : R .lt a b = true) : R .lt b a = false := by
  cases h2 : R .lt b a with
  | false => rfl
  | true => rw [← h.irrefl a]; exact (h.trans a b a h1 h2).symm

theorem Total.not_lt {R : Rel α} (h : Total R) (a b : α) : R .lt b a = false ↔ R .lt a b = true ∨ a = b := by
  constructor
  · intro h1
    rcases h.total a b with h2 | h2 | h2
    · exact .inl h2
    · exact .inr h2
    · rw [h1] at h2; cases h2
  · rintro (h1 | rfl)
    · exact h.asymm h1
    · exact h.irrefl a

/-- C34: over a totally ordered type the operators on optionals are those of a total order. -/
theorem C34_total {R : Rel α} (h : Total R) : Total (oo R) where
  eq x y := by cases x <;> cases y <;> simp [oo, eqOO, h.eq]
  irrefl x := by cases x <;> simp [oo, ltOO, h.irrefl]
  trans x y z := by
    cases x <;> cases y <;> cases z <;> simp [oo, ltOO]
    exact h.trans _ _ _
  total x y := by
    cases x <;> cases y <;> simp [oo, ltOO]
    exact h.total _ _
  ne x y := by
    have : eqOO R x y = true ↔ x = y := by cases x <;> cases y <;> simp [eqOO, h.eq]
    simp only [oo, Bool.not_eq_true', ← Bool.not_eq_true, this]
  gt x y := by simp [oo]
  le x y := by
    cases x <;> cases y <;> simp [oo, ltOO, h.not_lt]
  ge x y := by
    cases x <;> cases y <;> simp [oo, ltOO]
    rw [h.not_lt]
    constructor <;> rintro (h | h) <;> simp [h]

/-- C34: a disengaged optional is below every engaged one. -/
theorem C34_least (R : Rel α) (v : α) : oo R .lt none (some v) = true ∧ oo R .lt (some v) none = false := ⟨rfl, rfl⟩

/-- C34: comparing with `nullopt` is comparing with a disengaged optional. -/
theorem C34_nullopt (R : Rel α) (c : Cmp) (x : Option α) : on c x = oo R c x none ∧ no c x = oo R c none x := by
  cases c <;> cases x <;> exact ⟨rfl, rfl⟩

/-- C34: comparing with a value of a totally ordered type is comparing with an optional that holds it. -/
theorem C34_value {R : Rel α} (h : Total R) (c : Cmp) (x : Option α) (v : α) :
    ov R c x v = oo R c x (some v) ∧ vo R c v x = oo R c (some v) x := by
  have bb : ∀ {p q : Bool}, (p = true ↔ q = true) → p = q := by intro p q; cases p <;> cases q <;> simp
  have hne : ∀ a b, R .ne a b = !R .eq a b := fun a b => bb (by rw [h.ne, Bool.not_eq_true', ← Bool.not_eq_true, h.eq])
  have hgt : ∀ a b, R .gt a b = R .lt b a := fun a b => bb (h.gt a b)
  have hle : ∀ a b, R .le a b = !R .lt b a := fun a b => bb (by rw [h.le, Bool.not_eq_true', h.not_lt])
  have hge : ∀ a b, R .ge a b = !R .lt a b := fun a b => bb (by
    rw [h.ge, Bool.not_eq_true', h.not_lt]; constructor <;> rintro (h | h) <;> simp [h])
  cases x <;> cases c <;> simp [ov, vo, oo, eqOO, ltOO, hne, hgt, hle, hge]

/-- The integers. -/
def intRel : Rel Int
  | .eq, a, b => a == b
  | .ne, a, b => a != b
  | .lt, a, b => decide (a < b)
  | .le, a, b => decide (a ≤ b)
  | .gt, a, b => decide (b < a)
  | .ge, a, b => decide (b ≤ a)

-- the integers are totally ordered
theorem intRel_total : Total intRel where
  eq a b := by simp [intRel]
  irrefl a := by simp [intRel]
  trans a b c := by simp [intRel]; omega
  total a b := by simp [intRel]; omega
  ne a b := by simp [intRel]
  gt a b := by simp [intRel]
  le a b := by simp [intRel]; omega
  ge a b := by simp [intRel]; omega

-- so the optional integers are: a concrete use of C34
example : Total (oo intRel) := C34_total intRel_total
example : oo intRel .le (some (-3)) none = false ∧ oo intRel .lt none (some (-3)) = true ∧ ov intRel .ge none 4 = false := by decide

/-! ### Types that are not totally ordered -/

/-- Numbers and NaN (`none`), compared as `float`s are. -/
def nanRel : Rel (Option Int)
  | .ne, a, b => match a, b with | some a, some b => a != b | _, _ => true
  | c, a, b => match a, b with | some a, some b => intRel c a b | _, _ => false

/-- C35 is false: with `x = NaN`, `optional(x) <= optional(1)` and `optional(x) >= optional(1)` although neither `x <= 1` nor
`x >= 1`; so comparing with the value `1` gives another answer than comparing with an optional that holds `1`. -/
theorem C35_false : ∃ (α : Type) (R : Rel α) (a b : α),
    oo R .le (some a) (some b) ≠ R .le a b ∧ oo R .ge (some a) (some b) ≠ R .ge a b ∧
    ov R .le (some a) b ≠ oo R .le (some a) (some b) :=
  ⟨Option Int, nanRel, none, some 1, by decide⟩

/-- C35 is false for `!=` too, if a type's `!=` is not the negation of its `==`. -/
theorem C35_ne_false : ∃ (α : Type) (R : Rel α) (a b : α), oo R .ne (some a) (some b) ≠ R .ne a b :=
  ⟨Unit, fun _ _ _ => true, (), (), by decide⟩

/-- C35 for `==` and `<`, for every type; for the others it holds exactly where the type's operator is expressed by these. Missing:
`!=`, `<=`, `>`, `>=` for every type, which is false. -/
theorem C35_partial (R : Rel α) (a b : α) :
    oo R .eq (some a) (some b) = R .eq a b ∧ oo R .lt (some a) (some b) = R .lt a b ∧
    (oo R .ne (some a) (some b) = R .ne a b ↔ R .ne a b = !R .eq a b) ∧
    (oo R .gt (some a) (some b) = R .gt a b ↔ R .gt a b = R .lt b a) ∧
    (oo R .le (some a) (some b) = R .le a b ↔ R .le a b = !R .lt b a) ∧
    (oo R .ge (some a) (some b) = R .ge a b ↔ R .ge a b = !R .lt a b) :=
  ⟨rfl, rfl, eq_comm, eq_comm, eq_comm, eq_comm⟩

/-- C35: the mixed forms, of an optional with a value, do agree with the value's operators, for every type. -/
theorem C35_mixed_partial (R : Rel α) (c : Cmp) (a b : α) : ov R c (some a) b = R c a b ∧ vo R c a (some b) = R c a b := ⟨rfl, rfl⟩

/-- C35: of totally ordered types it is true. -/
theorem C35_total_partial {R : Rel α} (h : Total R) (c : Cmp) (a b : α) : oo R c (some a) (some b) = R c a b :=
  ((C34_value h c (some a) b).1).symm

end Verif.OptCmp
