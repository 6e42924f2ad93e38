/-!
# How `connect(pmf, p)` and the later call choose the object

`connect(pmf, p)` is accepted if `is_invocable_r<R, Func, Ptr, Args...>` holds; the decision is made by `result_of_memfun` and
`result_of_memobj`. The call is made later, by `invoke_helper<Type Base::*>`, on the copy of `p` kept in the slot. Both are modelled as
functions from types to the object on which the member is accessed, or `none` for "ill-formed". The member belongs to a class `C`; the
other parameters of a member function and its result play the same part on both sides and are left out.
-/

namespace Verif.Dispatch

/-- `const` or not, lvalue or rvalue. -/
structure Cat where
  const : Bool
  rvalue : Bool
deriving DecidableEq, Repr

/-- The types `p` may have. -/
inductive Ty where
  /-- `C` or a class derived from it -/
  | cls
  /-- `C`, if it is a union: `std::is_base_of<C, C>` is false -/
  | union
  /-- a class that has nothing to do with `C` and has no `operator*`, such as `std::weak_ptr` -/
  | other
  /-- `U*`, `std::shared_ptr<U>`, `std::unique_ptr<U>` with `U` const or not: `operator*` gives an lvalue -/
  | ptr (const : Bool) (to : Ty)
  /-- like `std::optional<U>`: `operator*` gives an expression of its own constness and value category -/
  | opt (to : Ty)
  /-- `std::reference_wrapper<U>` with `U` const or not -/
  | refw (const : Bool) (to : Ty)
deriving DecidableEq, Repr

/-- The ref-qualifier of a member function. -/
inductive Ref where
  | none | lvalue | rvalue
deriving DecidableEq, Repr

/-- A pointer to member: to a function with its qualifiers, or to data. -/
inductive Mem where
  | fn (const : Bool) (ref : Ref)
  | data
deriving DecidableEq, Repr

/-- `e.*m` (called, for a function) is well formed for an object expression `e` of category `k`. -/
def Mem.accepts : Mem → Cat → Bool
  | .data, _ => true
  | .fn c r, k => (c || !k.const) && match r with
      | .none => true
      | .lvalue => !k.rvalue
      | .rvalue => k.rvalue

/-- `std::is_base_of<C, T>`. -/
def Ty.isBase : Ty → Bool
  | .cls => true
  | _ => false

/-- `T` is `C` or derived from it: it has the member. -/
def Ty.hasMember : Ty → Bool
  | .cls | .union => true
  | _ => false

/-- How the object is reached from `p`: by `get()` of a reference wrapper, by `*`. -/
inductive Hop where
  | get | star
deriving DecidableEq, Repr

/-- An expression: type, category, and how it was obtained from `p`. -/
structure Expr where
  ty : Ty
  cat : Cat
  path : List Hop
deriving DecidableEq, Repr

/-- `*e`. -/
def Expr.star (e : Expr) : Option Expr :=
  match e.ty with
  | .ptr c u => some ⟨u, ⟨c, false⟩, e.path ++ [.star]⟩
  | .opt u => some ⟨u, e.cat, e.path ++ [.star]⟩
  | _ => none

/-- Accessing the member `m` of `e`: the object, if it is well formed. -/
def Expr.member (m : Mem) (e : Expr) : Option Expr := if e.ty.hasMember && m.accepts e.cat then some e else none

/-- `inv_unwrap` (signals.hpp:177-190). -/
def unwrap (e : Expr) : Expr :=
  match e.ty with
  | .refw c u => ⟨u, ⟨c, false⟩, e.path ++ [.get]⟩
  | _ => e

/-- The object `e.*m` or `(*e).*m` is tried on: `result_of_memfun` (328-336) asks `is_base_of`, `result_of_memobj` (312-320) also takes
the class itself. -/
def memRef : Mem → Ty → Bool
  | .fn _ _, t => t.isBase
  | .data, t => t.isBase || t.hasMember

/-- The constraint of `connect(pmf, p)`, `connect_scoped(pmf, p)`, `disconnect(pmf, p)` (1711-1714, 1742-1745, 1770-1773,
`result_of_impl` 341-359): `p` is an
expression of type `t` and category `k`. -/
def trait (m : Mem) (t : Ty) (k : Cat) : Option Expr :=
  let e := unwrap ⟨t, k, []⟩
  if memRef m e.ty then e.member m else e.star.bind (Expr.member m)

/-- `invoke_helper<Type Base::*>::get` (457-482). -/
def get (e : Expr) : Option Expr :=
  if e.ty.isBase then some e else
  match e.ty with
  | .refw c u => some ⟨u, ⟨c, false⟩, e.path ++ [.get]⟩
  | _ => e.star

/-- The call in `slot_pmf::operator()` (873, 916) on `m_Ptr`, or in `slot_pmf_tracked::operator()` (976, 1036) on the local `sp`: an lvalue,
not const, of the type of `p` without reference and cv (for `slot_pmf_tracked`: of the `shared_ptr` type that `lock()` gives, which is
the type of `p` if `p` is a `shared_ptr`). -/
def call (m : Mem) (t : Ty) : Option Expr := (get ⟨t, ⟨false, false⟩, []⟩).bind (Expr.member m)

/-- C48 is false: with `X* q`, `connect(&X::f, std::ref(q))` is accepted, but the call is `q.*f`, which is ill-formed. -/
theorem C48_false : ∃ m t k, (trait m t k).isSome ∧ call m t = none :=
  ⟨.fn false .none, .refw false (.ptr false .cls), ⟨false, true⟩, by decide⟩

/-- C48 is false: with `int U::*` of a union, `connect(&U::i, u)` is accepted, but the call is `(*u).*i`. -/
theorem C48_union_false : (trait .data .union ⟨false, false⟩).isSome ∧ call .data .union = none := by decide

/-- C48 is false: `connect(&X::f, X())` with a `&&`-qualified `f` is accepted, but the call is made on an lvalue. -/
theorem C48_rvalue_false : (trait (.fn false .rvalue) .cls ⟨false, true⟩).isSome ∧ call (.fn false .rvalue) .cls = none := by decide

/-- The cases in which the constraint and the call disagree. -/
inductive Bad : Mem → Ty → Cat → Prop where
  /-- a reference wrapper to something that must be dereferenced -/
  | refw : u.hasMember = false → Bad m (.refw c u) k
  /-- member data of a union -/
  | union : Bad .data .union k
  /-- a member function for rvalues -/
  | rvalue : k.rvalue = true → Bad (.fn c .rvalue) t k

/-- C48, where it is true: the call is well formed and they reach the same object in the same way: same type, same `get()` and `*`; if the object is
not part of the copy kept in the slot, with the same constness too. Missing: the cases of `Bad`, where it is false. -/
theorem C48_same_partial {m : Mem} {t : Ty} {k : Cat} {e : Expr} (h : trait m t k = some e) (hb : ¬ Bad m t k) :
    ∃ e', call m t = some e' ∧ e'.ty = e.ty ∧ e'.path = e.path ∧ (e'.cat = e.cat ∨ e'.cat = ⟨false, false⟩ ∧ e.cat = k) := by
  have e1 : m.accepts k = true → ¬ (∃ c, m = .fn c .rvalue ∧ k.rvalue = true) → m.accepts ⟨false, false⟩ = true := by
    intro h1 h2
    cases m with
    | data => rfl
    | fn c r =>
      cases r with
      | none => simp [Mem.accepts]
      | lvalue => simp [Mem.accepts]
      | rvalue =>
        simp only [Mem.accepts, Bool.and_eq_true] at h1
        exact (h2 ⟨c, rfl, h1.2⟩).elim
  have e2 : ¬ (∃ c, m = .fn c .rvalue ∧ k.rvalue = true) := by
    rintro ⟨c, rfl, hk⟩; exact hb (.rvalue hk)
  cases t with
  | cls =>
    simp only [trait, unwrap, memRef] at h
    have h : Expr.member m ⟨.cls, k, []⟩ = some e := by cases m <;> simpa [Ty.isBase] using h
    simp only [Expr.member, Ty.hasMember, Bool.true_and] at h
    split at h
    · rename_i ha
      cases h
      exact ⟨⟨.cls, ⟨false, false⟩, []⟩, by simp [call, get, Ty.isBase, Expr.member, Ty.hasMember, e1 ha e2], rfl, rfl, .inr ⟨rfl, rfl⟩⟩
    · cases h
  | union =>
    cases m with
    | data => exact (hb .union).elim
    | fn c r => simp [trait, unwrap, memRef, Ty.isBase, Expr.star] at h
  | other => cases m <;> simp [trait, unwrap, memRef, Ty.isBase, Ty.hasMember, Expr.star] at h
  | ptr c u =>
    have h : Expr.member m ⟨u, ⟨c, false⟩, [.star]⟩ = some e := by
      cases m <;> simpa [trait, unwrap, memRef, Ty.isBase, Ty.hasMember, Expr.star] using h
    exact ⟨e, by simpa [call, get, Ty.isBase, Expr.star] using h, rfl, rfl, .inl rfl⟩
  | opt u =>
    have h : Expr.member m ⟨u, k, [.star]⟩ = some e := by
      cases m <;> simpa [trait, unwrap, memRef, Ty.isBase, Ty.hasMember, Expr.star] using h
    simp only [Expr.member] at h
    split at h
    · rename_i ha
      cases h
      simp only [Bool.and_eq_true] at ha
      exact ⟨⟨u, ⟨false, false⟩, [.star]⟩, by simp [call, get, Ty.isBase, Expr.star, Expr.member, ha.1, e1 ha.2 e2], rfl, rfl,
        .inr ⟨rfl, rfl⟩⟩
    · cases h
  | refw c u =>
    cases hu : u.hasMember with
    | false => exact (hb (.refw hu)).elim
    | true =>
      have h : Expr.member m ⟨u, ⟨c, false⟩, [.get]⟩ = some e := by
        have h : (if memRef m u = true then Expr.member m ⟨u, ⟨c, false⟩, [.get]⟩
            else (Expr.star ⟨u, ⟨c, false⟩, [.get]⟩).bind (Expr.member m)) = some e := h
        by_cases hm : memRef m u = true
        · rwa [if_pos hm] at h
        · rw [if_neg hm] at h
          cases u <;> simp [Expr.star, Ty.hasMember] at h hu
      exact ⟨e, by simpa [call, get, Ty.isBase] using h, rfl, rfl, .inl rfl⟩

/-- C48, exactly where it is true: if the constraint accepts, the call is well formed except in the three cases of `Bad`. -/
theorem C48_partial {m : Mem} {t : Ty} {k : Cat} (h : (trait m t k).isSome) : (call m t).isSome ↔ ¬ Bad m t k := by
  constructor
  · intro h2 hb
    cases hb with
    | refw hu =>
      rename_i u c
      cases u <;> simp_all [call, get, Ty.isBase, Ty.hasMember, Expr.member]
    | union => cases h2
    | rvalue hk =>
      cases t with
      | refw c u => cases u <;> simp_all [trait, unwrap, memRef, Ty.isBase, Ty.hasMember, Expr.member, Expr.star, Mem.accepts]
      | _ => simp_all [call, get, trait, unwrap, memRef, Ty.isBase, Ty.hasMember, Expr.member, Expr.star, Mem.accepts]
  · intro hb
    obtain ⟨e, h⟩ := Option.isSome_iff_exists.1 h
    obtain ⟨e', h', _⟩ := C48_same_partial h hb
    rw [h']; rfl

-- a pointer to const and a const function; a reference wrapper to an object; a copy of an object
example : trait (.fn true .none) (.ptr true .cls) ⟨false, true⟩ = some ⟨.cls, ⟨true, false⟩, [.star]⟩ ∧
    call (.fn true .none) (.ptr true .cls) = some ⟨.cls, ⟨true, false⟩, [.star]⟩ := by decide
example : trait (.fn false .none) (.refw false .cls) ⟨false, true⟩ = some ⟨.cls, ⟨false, false⟩, [.get]⟩ := by decide
example : trait .data .cls ⟨true, false⟩ = some ⟨.cls, ⟨true, false⟩, []⟩ ∧ call .data .cls = some ⟨.cls, ⟨false, false⟩, []⟩ := by decide
example : ¬ Bad (.fn true .none) (.ptr true .cls) ⟨false, true⟩ := nofun

end Verif.Dispatch
