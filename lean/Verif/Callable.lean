/-!
# Callables stored in slots, and slot equality

Model of `slot_func`, `slot_pmf`, `slot_pmf_tracked` as *data* and of their `equals`
members, `try_equals` and the slot `operator==` (`/repo/signals.hpp` 417-438, 767-1045,
1330-1345).  What a callable does when it is invoked is chosen by the environment (see
`Machine`), so only what takes part in comparison and lifetime is stored.
-/

namespace Verif

/-- How a forwarding-reference parameter `Func&&` / `Ptr&&` was spelled by the caller: the deduced
template argument is `T` for an rvalue, `T&` for an lvalue, `T const&` for a const lvalue, `T const` for a
const rvalue, and for a function named without `&` it is a reference to function type, which decays to the
same pointer type (signals.hpp:1263, 1270, 1701, 1714, 1761, 1773). -/
inductive Qual where
  | rvalue | lref | clref | crvalue | fref
deriving DecidableEq, Repr

/-- A template argument of `slot_func` / `slot_pmf` / `slot_pmf_tracked`: the decayed type
(`base`, with its static trait `is_equality_comparable<decay_t<..>>::value`, signals.hpp:123-142)
and the way it was deduced. Two C++ types are the same type iff these records are equal. -/
structure CTy where
  base : Nat
  cmp : Bool
  qual : Qual
deriving DecidableEq, Repr

/-- The user-supplied `operator==` of each decayed type; `none`: it throws. An arbitrary (pure) function: nothing is
assumed about it. Simplification: it cannot call back into the library. -/
structure Env where
  eq : Nat → Nat → Nat → Option Bool

/-- What a slot implementation object holds.
* `func`: `slot_func<R, Func, Args...>` with member `m_Func` (signals.hpp:767-839)
* `pmf`: `slot_pmf<R, Func, Ptr, Args...>` with `m_Ptr`, `m_Func` (843-925)
* `tracked`: `slot_pmf_tracked<R, Func, WeakPtr, Args...>`; the weak pointer's value is the
  tracked object (930-1045). -/
inductive Callable where
  | func (fty : CTy) (f : Nat)
  | pmf (fty pty : CTy) (f p : Nat)
  | tracked (fty wty : CTy) (f obj : Nat)
deriving DecidableEq, Repr

/-- The tracked object, if the callable is a tracked member function. -/
def Callable.obj? : Callable → Option Nat
  | .tracked _ _ _ o => some o
  | _ => none

/-- `try_equals<T>::equals` (signals.hpp:419-438); `none` is an exception, thrown by the user's `==` or a
`not_comparable_exception`. -/
def tryEquals (E : Env) (ty : CTy) (a b : Nat) : Option Bool :=
  if ty.cmp then E.eq ty.base a b else none

/-- `a && b` where either operand may throw (`none`); `b` is evaluated only if `a` is true. -/
def andAlso : Option Bool → Option Bool → Option Bool
  | some true, b => b
  | some false, _ => some false
  | none, _ => none

/-- `slot_impl::equals` of the three implementations (signals.hpp:785-793, 862-871, 954-963; the
`void` specialisations at 822-830, 905-914, 1015-1024 have the same text). The `dynamic_cast`
succeeds iff the dynamic types agree, i.e. same class template and same template arguments; `&&`
short-circuits, so the function is compared only if the pointers were equal. -/
def Callable.equals (E : Env) : Callable → Callable → Option Bool
  | .func ty a, .func ty' b =>
      if ty = ty' then tryEquals E ty a b else some false
  | .pmf fty pty f p, .pmf fty' pty' f' p' =>
      if fty = fty' ∧ pty = pty' then
        andAlso (tryEquals E pty p p') (tryEquals E fty f f')
      else some false
  | .tracked fty wty f o, .tracked fty' wty' f' o' =>
      if fty = fty' ∧ wty = wty' then
        andAlso (tryEquals E wty o o') (tryEquals E fty f f')
      else some false
  | _, _ => some false

/-- Slot `operator==` (signals.hpp:1331-1339); an empty slot (`m_pImpl == nullptr`) is `none`. -/
def slotEq (E : Env) : Option Callable → Option Callable → Option Bool
  | some a, some b => Callable.equals E a b
  | none, none => some true
  | _, _ => some false

end Verif
