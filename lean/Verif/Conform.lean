import Verif.Demo
import Verif.Spec
import Verif.Data.Cow

/-!
# The repository's own tests and example programs, run on the model

These are tests of the model, not proofs about it: each test of `/repo/tests` (and each program of `/repo/examples`) that is about what is modelled, with the
assertions that it makes. Tests of several threads are not here: what they test for one schedule is a theorem for all of them (C21, C56, C62).
-/

namespace Verif.Conform

/-- What the listeners of a program compute: the value returned for a callable and the arguments. -/
abbrev Ans := Callable → List Int → Int

/-- The values that the listeners visited by emission `e` have given its combiner, in order. -/
def given (log : List Event) (e : EmId) : List (Option Int) :=
  (log.reverse.filterMap fun
    | .exit e' _ r => if e' = e then some r else none
    | .skip e' _ _ => if e' = e then some none else none
    | _ => none)

/-- The next thing that happens on a thread whose user code consists of listeners `ans` that call nothing and a combiner `comb`. -/
def next (ans : Ans) (comb : List (Option Int) → Option Int) (w : World) (t : Tid) : Label :=
  match w.stacks t with
  | .call s (.body _) :: .emit m _ :: _ =>
      .ret t (ans (w.slots s).fn (m.args.map (·.val)))
  | .emit m (.iter b _ _) :: _ =>
      if m.comb = .custom then
        if (given w.log m.e).length < (w.blks b).length then .call t (.combDeref (given w.log m.e).length)
        else .call t (.combDone (comb (given w.log m.e)))
      else .run t
  | _ => .run t

/-- The thread goes on until the call has returned. -/
def settle (E : Env) (ans : Ans) (comb : List (Option Int) → Option Int) (t : Tid) : Nat → World → Option World
  | 0, _ => none
  | n + 1, w => if w.stacks t = [] then some w else (step E w (next ans comb w t)).bind (settle E ans comb t n)

/-- The calls that a single-threaded program makes, one after the other. -/
def prog (E : Env) (ans : Ans) (comb : List (Option Int) → Option Int) : List Api → World → Option World
  | [], w => some w
  | a :: as, w => ((step E w (.call 0 a)).bind (settle E ans comb 0 100)).bind (prog E ans comb as)

/-- Whatever such a program does is an execution of the machine. -/
theorem settle_reach {E : Env} {ans : Ans} {comb : List (Option Int) → Option Int} {t : Tid} {n : Nat} {w w' : World} (h : Reachable E w)
    (hs : settle E ans comb t n w = some w') : Reachable E w' := by
  induction n generalizing w with
  | zero => cases hs
  | succ n ih =>
    simp only [settle] at hs
    split at hs
    · cases hs; exact h
    · obtain ⟨w1, h1, h2⟩ := Option.bind_eq_some_iff.1 hs
      obtain ⟨k, hk⟩ := h
      exact ih ⟨k, hk.tail _ trivial h1⟩ h2

theorem prog_reach {E : Env} {ans : Ans} {comb : List (Option Int) → Option Int} {as : List Api} {w w' : World} (h : Reachable E w)
    (hs : prog E ans comb as w = some w') : Reachable E w' := by
  induction as generalizing w with
  | nil => cases hs; exact h
  | cons a as ih =>
    simp only [prog] at hs
    obtain ⟨w2, h2, h3⟩ := Option.bind_eq_some_iff.1 hs
    obtain ⟨w1, h1, h2⟩ := Option.bind_eq_some_iff.1 h2
    obtain ⟨k, hk⟩ := h
    exact ih (settle_reach ⟨k, hk.tail _ trivial h1⟩ h2) h3

/-- What calls returned, oldest first: the result of an emission, the number of listeners removed, whether `disconnect()` succeeded. -/
inductive Out where
  | emitted (r : Option Int)
  | erased (n : Option Nat)
  | discd (b : Bool)
deriving DecidableEq, Repr

def outs (w : World) : List Out :=
  w.log.reverse.filterMap fun
    | .done _ r => some (.emitted r)
    | .eraseRet _ _ _ n => some (.erased n)
    | .discRet _ _ b => some (.discd b)
    | _ => none

/-- How often a listener has been called. -/
def calls (w : World) : Nat := w.log.countP fun
  | .enter _ _ _ => true
  | _ => false

def max (l : List (Option Int)) : Option Int :=
  some (((l.filterMap id).foldl (fun m x => match m with | none => some x | some y => some (if y < x then x else y)) none).getD 0)

/-- Run a program with one signal, number 0, and look at the world at its end. -/
def main (void : Bool) (ans : Ans) (as : List Api) (p : World → Bool) : Bool :=
  match prog Demo.E0 ans max (.newSig void :: as) (World.init 1) with
  | some w => w.ub = none && p w
  | none => false

/-- `&f` -/
def fptr (f : Nat) : Callable := .func ⟨0, true, .rvalue⟩ f
/-- an object of a class with `operator==`, passed as an lvalue -/
def fobj (f : Nat) : Callable := .func ⟨1, true, .lref⟩ f
/-- an object of a class without `operator==` -/
def hello : Callable := .func ⟨2, false, .rvalue⟩ 0
/-- `&Class::f` and a `shared_ptr` to object `o`, of type `Class` -/
def tracked (f o : Nat) : Callable := .tracked ⟨3, true, .rvalue⟩ ⟨4, false, .lref⟩ f o

def con (c : Callable) (x : Var) : Api := .connect 0 c [] true false (.conn x)
def scon (c : Callable) (x : Var) : Api := .connect 0 c [] true false (.scoped x)
def emit : Api := .emit 0 .lastValue []
def emitMax : Api := .emit 0 .custom []

/-- `id`: the callable returns its own number -/
def ident : Ans
  | .func _ f, _ => f
  | .pmf _ _ f _, _ => f
  | .tracked _ _ f _, _ => f

/-! ### tests/signal_tests.cpp -/

-- VoidFunc (12-46)
example : main true ident [con (fptr 1) 0, con (fptr 2) 1, con (fptr 2) 2, emit, .sigDisconnect 0 (some (fptr 1)), .sigDisconnect 0 (some (fptr 2)), emit]
    (fun w => outs w == [.emitted none, .erased (some 1), .erased (some 2), .emitted none] && calls w == 3) = true := by decide +kernel

-- VoidConnection (48-75)
example : main true ident [con (fptr 1) 1, con (fptr 2) 2, emit, .disconnect (.conn 1), .disconnect (.conn 2), .disconnect (.conn 1), .disconnect (.conn 2), emit]
    (fun w => outs w == [.emitted none, .discd true, .discd true, .discd false, .discd false, .emitted none] && calls w == 2) = true := by decide +kernel

-- VoidScopedConnection (77-96)
example : main true ident [scon (fptr 1) 1, scon (fptr 2) 2, emit, .scopedDtor 2, .scopedDtor 1, emit]
    (fun w => outs w == [.emitted none, .discd true, .discd true, .emitted none] && calls w == 2 && w.listOf 0 == []) = true := by decide +kernel

-- TestCounter (98-123)
example : main true ident [con (fptr 1) 0, con (fptr 1) 0, con (fptr 1) 0, emit] (fun w => calls w == 3) = true := by decide +kernel
example : main true ident [con (fptr 1) 0, con (fptr 1) 0, con (fptr 1) 0, emit, .sigDisconnect 0 (some (fptr 1)), emit]
    (fun w => outs w == [.emitted none, .erased (some 3), .emitted none] && calls w == 3) = true := by decide +kernel

-- TestConnectionBlocking (125-158)
example : main true ident [con (fptr 1) 1, con (fptr 1) 2, con (fptr 1) 3, emit, .block (.conn 1), .block (.conn 2), emit] (fun w => calls w == 4) = true := by
  decide +kernel
example : main true ident
    [con (fptr 1) 1, con (fptr 1) 2, con (fptr 1) 3, emit, .block (.conn 1), .block (.conn 2), emit, .unblock (.conn 1), .unblock (.conn 2), emit]
    (fun w => calls w == 7) = true := by decide +kernel

-- DefaultArguments (160-186): a lambda without captures converts to a function pointer and so has an `==`
example : main true ident [con (fobj 5) 0, emit, .sigDisconnect 0 (some (fobj 5)), emit] (fun w => calls w == 1) = true := by decide +kernel

-- PointerToMemberFunctionTracked (203-223)
example : main true ident [.objNew, con (tracked 1 0) 0, emit, .objDrop 0, emit]
    (fun w => outs w == [.emitted none, .emitted none] && calls w == 1 && w.objs 0 == 0 && !w.objAlive 0) = true := by decide +kernel

-- ZeroArgs (416-480)
example : main false ident
    [con (fobj 2) 2, con (fobj 72) 72, con (fobj 62) 62, con (fobj 42) 42, emitMax,
     .sigDisconnect 0 (some (fobj 72)), emitMax, .disconnect (.conn 72), emitMax, con (fobj 63) 63, emitMax,
     .sigDisconnect 0 (some (fobj 63)), .sigDisconnect 0 (some (fobj 62)), emitMax, .disconnect (.conn 42), emitMax, .disconnect (.conn 2), emitMax]
    (fun w => outs w == [.emitted (some 72), .erased (some 1), .emitted (some 62), .discd false, .emitted (some 62), .emitted (some 63),
      .erased (some 1), .erased (some 1), .emitted (some 42), .discd true, .emitted (some 2), .discd true, .emitted (some 0)]) = true := by decide +kernel

-- OneArg (482-493)
example : main false (fun c a => match c, a with | .func _ 0, [x] => -x | .func _ _, [x] => 2 * x | _, _ => 0)
    [con (fptr 0) 0, con (fptr 1) 1, .emit 0 .custom [⟨1, false, false⟩], .emit 0 .custom [⟨-1, false, false⟩]]
    (fun w => outs w == [.emitted (some 2), .emitted (some 1)]) = true := by decide +kernel

-- ConnectSlot (495-516): the slot is connected and disconnected by its callable
example : main true ident [con (fptr 1) 0, emit, .sigDisconnect 0 (some (fptr 1)), emit]
    (fun w => outs w == [.emitted none, .erased (some 1), .emitted none] && calls w == 1) = true := by decide +kernel

/-! ### tests/connection_tests.cpp -/

/-- `connected()` of `connection` variable `x` -/
def up (w : World) (x : Var) : Bool := w.connConnected (w.cv x)
/-- `connected()` of `scoped_connection` variable `x` -/
def sup (w : World) (x : Var) : Bool := w.connConnected (w.hval (.scoped x))

-- Swap (6-25)
example : main true ident [con (fptr 1) 1] (fun w => up w 1 && !up w 2) = true := by decide +kernel
example : main true ident [con (fptr 1) 1, .connSwap 1 2] (fun w => !up w 1 && up w 2) = true := by decide +kernel
example : main true ident [con (fptr 1) 1, .connSwap 1 2, .connSwap 1 2] (fun w => up w 1 && !up w 2) = true := by decide +kernel

-- Release (27-56)
def release1 : List Api := [scon (fptr 1) 0, .scopedRelease 1 0, .scopedDtor 0]
example : main true ident [scon (fptr 1) 0] (fun w => sup w 0) = true := by decide +kernel
example : main true ident release1 (fun w => up w 1) = true := by decide +kernel
def release2 : List Api := release1 ++ [.scopedOfConn 0 1, .scopedRelease 1 0]
example : main true ident (release1 ++ [.scopedOfConn 0 1]) (fun w => sup w 0) = true := by decide +kernel
example : main true ident release2 (fun w => up w 1 && !sup w 0) = true := by decide +kernel
-- `scoped = c2` makes a temporary `scoped_connection` and moves it
def release3 : List Api := release2 ++
  [.disconnect (.conn 1), con (fptr 1) 2, .scopedOfConn 1 2, .scopedMoveAssign 0 1, .scopedDtor 1, .scopedDtor 0]
example : main true ident release3 (fun w => !up w 2) = true := by decide +kernel

-- Move (58-101)
def move1 : List Api := [con (fptr 1) 9, .scopedOfConn 0 9, .connMove 1 (.scoped 0)]
example : main true ident move1 (fun w => !sup w 0) = true := by decide +kernel
example : main true ident (move1 ++ [.scopedDtor 0]) (fun w => up w 1) = true := by decide +kernel
def move2 : List Api := move1 ++ [.scopedDtor 0, .scopedOfConn 1 1, .scopedMoveCtor 2 1]
example : main true ident move2 (fun w => !sup w 1 && sup w 2 && up w 1) = true := by decide +kernel
example : main true ident (move2 ++ [.scopedDtor 2, .scopedDtor 1]) (fun w => !up w 1) = true := by decide +kernel
def move3 : List Api := move2 ++ [.scopedDtor 2, .scopedDtor 1, con (fptr 1) 1, .scopedNew 1, .scopedOfConn 2 1, .scopedMoveAssign 1 2]
example : main true ident move3 (fun w => !sup w 2 && sup w 1 && up w 1) = true := by decide +kernel
example : main true ident (move3 ++ [.scopedDtor 2, .scopedDtor 1]) (fun w => !up w 1) = true := by decide +kernel

/-! ### tests/slot_tests.cpp -/

-- DeadSlot (276-284): `signal_type::connect` of a slot whose object has expired
example : main false ident [.objNew, .objDrop 0, con (tracked 1 0) 0] (fun w => !up w 0) = true := by decide +kernel

-- NullSlot (207-230)
example : slotEq Demo.E0 none none = some true := by decide
example : slotEq Demo.E0 (some (fptr 1)) (some (fptr 1)) = some true := by decide

/-! ### examples -/

-- disconnect_slots: product, quotient, sum, difference of 5 and 3; the quotient is 1
def arith : Ans
  | .func _ 0, [x, y] => x * y
  | .func _ 1, [x, y] => x / y
  | .func _ 2, [x, y] => x + y
  | .func _ 3, [x, y] => x - y
  | .tracked _ _ 0 _, [x, y] => x * y
  | .tracked _ _ 1 _, [x, y] => x / y
  | .tracked _ _ 2 _, [x, y] => x + y
  | .tracked _ _ 3 _, [x, y] => x - y
  | _, _ => 0
def emit53 : Api := .emit 0 .lastValue [⟨5, false, false⟩, ⟨3, false, false⟩]
example : main false arith [con (fptr 0) 0, con (fptr 1) 1, con (fptr 2) 2, con (fptr 3) 3, emit53, .sigDisconnect 0 (some (fptr 3)), emit53,
      .sigDisconnect 0 (some (fptr 0)), emit53, .sigDisconnect 0 (some (fptr 1)), emit53, .sigDisconnect 0 (some (fptr 2)), emit53]
    (fun w => outs w == [.emitted (some 2), .erased (some 1), .emitted (some 8), .erased (some 1), .emitted (some 1), .erased (some 1), .emitted (some 8),
      .erased (some 1), .emitted none]) = true := by decide +kernel

-- connection_management
example : main false arith [.objNew, con (tracked 0 0) 0, con (tracked 2 0) 1, con (tracked 1 0) 2, con (tracked 3 0) 3, emit53, .objDrop 0, emit53]
    (fun w => outs w == [.emitted (some 2), .emitted none]) = true := by decide +kernel

-- blocked_slots
example : main true ident [con hello 0, emit, .blockerOf 0 (.conn 0), emit, .blockerDtor 0, emit] (fun w => calls w == 2) = true := by decide +kernel
example : main true ident [con hello 0, emit, .blockerOf 0 (.conn 0), emit] (fun w => calls w == 1) = true := by decide +kernel

-- connections
example : main true ident [con hello 0, emit, .disconnect (.conn 0), emit] (fun w => calls w == 1) = true := by decide +kernel

-- maximum_value
example : main false arith [con (fptr 0) 0, con (fptr 1) 1, con (fptr 2) 2, con (fptr 3) 3, .emit 0 .custom [⟨5, false, false⟩, ⟨3, false, false⟩]]
    (fun w => outs w == [.emitted (some 15)]) = true := by decide +kernel

-- scoped_connection
example : main true ident [scon hello 0, emit, .scopedDtor 0, emit] (fun w => calls w == 1) = true := by decide +kernel

/-! ### tests/cow_tests.cpp -/

-- BasicTests (15-30); `operator==` compares addresses
example : Cow.run Cow.St.init [.make (some 1), .copy 0, .read 0, .read 1, .write 1 2 false, .read 0, .read 1] =
    some ([.unit, .unit, .val 1, .val 1, .unit, .val 1, .val 2], ⟨[1, 2], [.ptr 0, .ptr 1]⟩) := rfl

end Verif.Conform
