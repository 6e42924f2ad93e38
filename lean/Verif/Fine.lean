import Verif.Machine

/-!
# The machine, statement by statement

`Verif/Machine.lean` does in one step what `add_slot`, `remove_slot` and `erase` do to a signal's list between two calls of user code or library
synchronisation: `push_back` together with the stored position, and `std::swap`, the stored position and `pop_back` together. Here every one of these
statements is a step of its own, and so is the assignment of the copied vector to `m_Ptr`. Other threads run in between and find the list half
modified, if they look.

What the code keeps in local variables between these statements (the reference returned by `write()`, the position read by `remove_slot`) is kept in
`Half`. Everything else is as in `Verif/Machine.lean`. Line numbers refer to `/repo/signals.hpp`.
-/

namespace Verif

/-- How far a thread has got between the statements of an update, and its local variables.

The vector `b` is the one that `write()` returned a reference to (1801, 1812, 1829), the position `i` is the local variable `i` of `remove_slot` (1812) or
`erase` (1831-1840). -/
inductive Half where
  | idle
  /-- 649: the vector was found shared and has yet to be copied -/
  | lcl (i : Nat)
  /-- 653: the copy `b` has been made; `m_Ptr` still points to the old vector -/
  | made (b : BlkId) (i : Nat)
  /-- `write()` has returned -/
  | ref (b : BlkId) (i : Nat)
  /-- 1803: the position is stored, `push_back` has yet to be done -/
  | stored (b : BlkId)
  /-- 1836: the listener compares equal, `swap` has yet to be done -/
  | matched (b : BlkId)
  /-- 1816, 1838: swapped, the position of the listener moved to `i` has yet to be stored -/
  | swapped (b : BlkId) (i : Nat)
  /-- 1817, 1839: the position is stored, `pop_back` has yet to be done -/
  | indexed (b : BlkId) (i : Nat)
deriving DecidableEq, Repr

/-- The memory of the program and where each thread is within an update. -/
structure FWorld where
  w : World
  half : Tid → Half

namespace FWorld

/-- Before the program starts, with `n` threads. -/
def init (n : Nat) : FWorld := ⟨World.init n, fun _ => .idle⟩

/-- Thread `t` has changed the memory to `w` and got to `h`. -/
def put (f : FWorld) (t : Tid) (w : World) (h : Half) : FWorld := ⟨w, upd f.half t h⟩

end FWorld

/-- `cow_ptr::write` up to the test of the reference count (649). If there is nothing to copy `write()` returns. -/
def fineTest (f : FWorld) (t : Tid) (g : SigId) (i : Nat) (clone write : List Frame) : FWorld :=
  match (f.w.sigs g).list with
  | none => f.put t (f.w.setUB .nullList) .idle
  | some b => if f.w.shared g b then f.put t (f.w.setStack t clone) (.lcl i) else f.put t (f.w.setStack t write) (.ref b i)

/-- `new T(*m_Ptr)` (653). -/
def fineCopy (f : FWorld) (t : Tid) (g : SigId) (i : Nat) (next : List Frame) : FWorld :=
  match (f.w.sigs g).list with
  | none => f.put t (f.w.setUB .nullList) .idle
  | some b => f.put t ({ f.w.setBlk f.w.nBlks (f.w.blks b) with nBlks := f.w.nBlks + 1 }.setStack t next) (.made f.w.nBlks i)

/-- `*this = cow_ptr(…)` (653), and `write()` returns. -/
def finePoint (f : FWorld) (t : Tid) (g : SigId) (b : BlkId) (i : Nat) : FWorld :=
  f.put t (f.w.setList g (some b)) (.ref b i)

/-- `std::swap(slots[i], slots.back())` (1816, 1838). Past the end it is undefined. -/
def fineSwap (f : FWorld) (t : Tid) (b : BlkId) (i : Nat) : FWorld :=
  if (f.w.blks b).length ≤ i then f.put t (f.w.setUB .outOfRange) .idle else
  f.put t (f.w.setBlk b (Vec.swap (f.w.blks b) i ((f.w.blks b).length - 1))) (.swapped b i)

/-- `slots[i]->index() = i` (1817, 1839). Past the end it is undefined. -/
def fineIndex (f : FWorld) (t : Tid) (b : BlkId) (i : Nat) : Option FWorld :=
  match (f.w.blks b)[i]? with
  | some s => some (f.put t (f.w.setIndex s i) (.indexed b i))
  | none => some (f.put t (f.w.setUB .outOfRange) .idle)

/-- `slots.pop_back()` (1818, 1840); the history notes which listener it was. On an empty vector it is undefined. -/
def finePop (f : FWorld) (t : Tid) (b : BlkId) (next : List Frame) (h : Half) (ev : SlotId → Event) : Option FWorld :=
  match (f.w.blks b).getLast? with
  | some v => some (f.put t (((f.w.setBlk b (f.w.blks b).dropLast).setStack t next).emitEv (ev v)) h)
  | none => some (f.put t (f.w.setUB .outOfRange) .idle)

/-- The library advances thread `t` by one statement. -/
def runFine (E : Env) (f : FWorld) (t : Tid) : Option FWorld :=
  match f.w.stacks t with
  -- `add_slot` (1798-1805)
  | .add g s d .detach :: rest => some (fineTest f t g 0 (.add g s d .clone :: rest) (.add g s d .write :: rest))
  | .add g s d .clone :: rest =>
      match f.half t with
      | .lcl i => some (fineCopy f t g i (.add g s d .write :: rest))
      | _ => none
  | .add g s d .write :: rest =>
      match f.half t with
      | .made b i => some (finePoint f t g b i)
      | .ref b _ => some (f.put t (f.w.setIndex s (f.w.blks b).length) (.stored b))
      | .stored b => some (f.put t (((f.w.setBlk b (f.w.blks b ++ [s])).setStack t (.add g s d .unlock :: rest)).emitEv (.added g s)) .idle)
      | _ => none
  -- `erase` (1826-1849)
  | .erase g tgt .detach :: rest => some (fineTest f t g 0 (.erase g tgt .clone :: rest) (.erase g tgt (.scan 0 0) :: rest))
  | .erase g tgt .clone :: rest =>
      match f.half t with
      | .lcl i => some (fineCopy f t g i (.erase g tgt (.scan 0 0) :: rest))
      | _ => none
  | .erase g tgt (.scan i cnt) :: rest =>
      match f.half t with
      | .made b j => some (finePoint f t g b j)
      | .ref b _ =>
          match (f.w.blks b)[i]? with
          | none => some (f.put t (f.w.setStack t (.erase g tgt (.unlock (some cnt)) :: rest)) .idle)
          | some s =>
              match slotEq E (some (f.w.slots s).fn) tgt with
              | none => some (f.put t (f.w.setStack t (.erase g tgt (.unlock none) :: rest)) .idle)
              | some true => some (f.put t f.w (.matched b))
              | some false => some (f.put t (f.w.setStack t (.erase g tgt (.scan (i + 1) cnt) :: rest)) (.ref b 0))
      | .matched b => some (fineSwap f t b i)
      | .swapped b j => fineIndex f t b j
      | .indexed b _ => finePop f t b (.erase g tgt (.scan i (cnt + 1)) :: rest) (.ref b 0) (.erased g)
      | _ => none
  -- `remove_slot` (1808-1820)
  | .disc s k (.crit g .detach) :: rest =>
      some (fineTest f t g (f.w.slots s).index (.disc s k (.crit g .clone) :: rest) (.disc s k (.crit g .write) :: rest))
  | .disc s k (.crit g .clone) :: rest =>
      match f.half t with
      | .lcl i => some (fineCopy f t g i (.disc s k (.crit g .write) :: rest))
      | _ => none
  | .disc s k (.crit g .write) :: rest =>
      match f.half t with
      | .made b i => some (finePoint f t g b i)
      | .ref b i =>
          if i < (f.w.blks b).length then some (fineSwap f t b i)
          else some (f.put t (f.w.setStack t (.disc s k (.crit g .unlock) :: rest)) .idle)
      | .swapped b i => fineIndex f t b i
      | .indexed b _ => finePop f t b (.disc s k (.crit g .unlock) :: rest) .idle (.removed g s)
      | _ => none
  -- as before
  | _ => (runTop E f.w t).map (f.put t · .idle)

/-- `std::bad_alloc` (see `allocFail`), from the copy of the vector (653) or from `push_back` (1804): then the position is stored already. In
`slot::disconnect` it ends the program, and the thread stays where it is. -/
def failFine (f : FWorld) (t : Tid) : Option FWorld :=
  match f.w.stacks t, f.half t with
  | .add _ _ _ .write :: _, .stored _ => (allocFail f.w t).map (f.put t · .idle)
  | .add _ _ _ .write :: _, _ => none
  | .disc _ _ _ :: _, h => (allocFail f.w t).map (f.put t · h)
  | _, _ => (allocFail f.w t).map (f.put t · .idle)

/-- The transition function. User code is as before, and so is the want of a control block (`ctlFail`): the copy of the vector and the constructor that ends
the program (653, 521-523) are one step, for nobody else sees the copy. -/
def stepFine (E : Env) (f : FWorld) (l : Label) : Option FWorld :=
  if f.w.ub.isSome then none
  else if l.tid < f.w.nThr then
    match l with
    | .run t => runFine E f t
    | .fail t => failFine f t
    | l => (step E f.w l).map fun w => ⟨w, f.half⟩
  else none

/-- Run a whole schedule. -/
def execFine (E : Env) (f : FWorld) : List Label → Option FWorld
  | [] => some f
  | l :: ls => match stepFine E f l with
    | some f' => execFine E f' ls
    | none => none

/-- Reachable from the initial world with any number of threads, any user code, any schedule. -/
def ReachableF (E : Env) (f : FWorld) : Prop := ∃ n ls, execFine E (.init n) ls = some f

end Verif
