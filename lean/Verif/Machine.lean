import Verif.Vec
import Verif.Callable

/-!
# The signal machine

A small-step, executable model of `signal`, the listeners it owns, `connection`,
`scoped_connection`, `connection_blocker` and tracked objects (`/repo/signals.hpp` 511-1867), for any
number of threads.

* User code (main program, listener bodies, user combiners) is arbitrary: whenever a thread
  is in user code any API call, return or throw is a possible next `Label`.
* Library code advances in small atomic steps `Label.run t`.
* Undefined behaviour is an outcome: the step sets `ub`, after which nothing is enabled.
* `log` is ghost history, newest event first. No step reads it.
-/

namespace Verif

-- Identifiers (just other names for `Nat`).
macro "SlotId" : term => `(Nat)
macro "BlkId" : term => `(Nat)
macro "SigId" : term => `(Nat)
macro "ObjId" : term => `(Nat)
macro "Tid" : term => `(Nat)
macro "EmId" : term => `(Nat)
macro "Var" : term => `(Nat)
-- Values returned by listeners; opaque tokens, the library never inspects them.
macro "Val" : term => `(Int)

/-- Function update. -/
def upd {α : Type} (f : Nat → α) (a : Nat) (v : α) : Nat → α := fun x => if x = a then v else f x

/-- One element of the argument tuple of a running emission (signals.hpp:1784). `movable` is
`true` for a by-value parameter of a type whose move leaves a changed source (e.g. `std::string`),
`false` for references and types whose move is a copy. `moved` says that it has been moved from. -/
structure Arg where
  val : Val
  movable : Bool
  moved : Bool
deriving DecidableEq, Repr

/-- The tuple after a listener whose `i`-th parameter consumes its argument iff `c[i]` has been
invoked with `std::forward<Args>(std::get<Is>(m_Args))...` (signals.hpp:1142, 1206, 797, 875, 976): for
by-value `Args` the forward is a move, so consumed movable elements are left moved-from. -/
def passArgs : List Bool → List Arg → List Arg
  | c :: cs, a :: as =>
      { a with moved := a.moved || (c && a.movable) } :: passArgs cs as
  | _, as => as

/-- A listener: a `slot<R(Args...)>` object together with its `slot_impl`
(signals.hpp:677-765, 1249-1409). `owner` is `m_pSignal`. `consume` tells which of
its parameters the callable takes by value (or moves from). -/
structure SlotRec where
  fn : Callable
  consume : List Bool
  index : Nat
  connected : Bool
  blocked : Bool
  owner : SigId
deriving Repr

/-- A `signal` object (signals.hpp:1864-1866). `list` is `m_Slots` (`none`: null `shared_ptr`, after
being moved from), `mutex` the owner of `m_SlotMutex`, `sblocked` is `m_Blocked`, `alive` says that the object is within
its lifetime, `isVoid` that `R` is `void`. -/
structure SigRec where
  list : Option BlkId
  mutex : Option Tid
  sblocked : Bool
  alive : Bool
  isVoid : Bool
deriving Repr

/-- Which combiner the signal type has: the default one, or an arbitrary user-written one. -/
inductive Comb where
  | lastValue | custom
deriving DecidableEq, Repr

/-- Position inside a critical section of `add_slot` / `remove_slot`: about to lock the mutex, to test `use_count()` in `detach` (649), to clone
the vector (653), to modify it, to unlock. -/
inductive CritPc where
  | wait | detach | clone | write | unlock
deriving DecidableEq, Repr

/-- Position inside the move constructor. -/
inductive MovPc where
  | wait | write | unlock
deriving DecidableEq, Repr

/-- Position inside `erase`. -/
inductive ErasePc where
  | wait | detach | clone
  | scan (i cnt : Nat)
  | unlock (r : Option Nat)
deriving DecidableEq, Repr

/-- Position inside `signal::operator()`. -/
inductive EmitPc where
  | start | wait | copy
  | unlock (b : Option BlkId)
  | iter (b : BlkId) (pos : Nat) (acc : Option Val)
deriving DecidableEq, Repr

/-- Position inside `slot::operator()` and the implementation's `operator()`. -/
inductive CallPc where
  | chkBlocked | chkConnected | invoke
  | lockObj (o : ObjId)
  | recheck (o : ObjId)
  | body (o : Option ObjId)
deriving DecidableEq, Repr

/-- Position inside `connection::disconnect`; at `drop` it has left
`remove_slot` of `g`, and all that is left is to destroy the local `shared_ptr` (1506). -/
inductive DiscPc where
  | exch
  | crit (g : SigId) (pc : CritPc)
  | drop (g : SigId)
deriving DecidableEq, Repr

/-- What the caller of `disconnect` does afterwards: nothing, or (in
`scoped_connection::operator=(scoped_connection&&)`) move the weak pointer of `y` into `x`. -/
inductive DiscK where
  | ret
  | assign (x y : Var)
deriving DecidableEq, Repr

/-- Where the connection returned by `connect` / `connect_scoped` is stored. -/
inductive Dest where
  | conn (x : Var)
  | scoped (x : Var)
deriving DecidableEq, Repr

/-- The fixed data of an activation of `signal::operator()`: emission number, signal, combiner and the
argument tuple `t` (1784). -/
structure Em where
  e : EmId
  g : SigId
  comb : Comb
  args : List Arg
deriving DecidableEq, Repr

/-- An activation of a library function on a thread's stack. -/
inductive Frame where
  /-- `signal::operator()` (1780-1792). -/
  | emit (m : Em) (pc : EmitPc)
  /-- `slot::operator()` on listener `s` (1381-1389), called by the emission in the frame below. -/
  | call (s : SlotId) (pc : CallPc)
  /-- `signal::connect` → `add_slot` (1689-1720, 1798-1805). -/
  | add (g : SigId) (s : SlotId) (dest : Dest) (pc : CritPc)
  /-- `signal::disconnect` → `erase` (1751-1778, 1826-1849). -/
  | erase (g : SigId) (tgt : Option Callable) (pc : ErasePc)
  /-- `connection::disconnect` → `slot::disconnect` → `remove_slot` (1504-1508, 1352-1361, 1808-1820). -/
  | disc (s : SlotId) (k : DiscK) (pc : DiscPc)
  /-- `signal::signal(signal&&)` (1670-1675): constructing `g'` from `g`. -/
  | mov (g' g : SigId) (pc : MovPc)
deriving DecidableEq, Repr

/-- Why an emission passed over a listener. -/
inductive Why where
  | blocked | notConnected | expired
deriving DecidableEq, Repr

/-- Ghost history. -/
inductive Event where
  /-- `connect` on `g` made listener `s` with these initial flags -/
  | created (g : SigId) (s : SlotId) (conn blk : Bool)
  /-- that `connect` returned on thread `t`; the listener is in `g`'s list -/
  | connRet (t : Tid) (g : SigId) (s : SlotId)
  /-- `block` (`c = true`) or `unblock` of listener `s`, by whatever handle or blocker -/
  | blockSet (s : SlotId) (c : Bool)
  /-- thread `t` started emission `m` -/
  | began (t : Tid) (m : Em)
  /-- emission `m` took its snapshot -/
  | snap (m : Em) (items : List SlotId)
  /-- the combiner of emission `e` dereferenced its iterator at position `i`, where `s` is -/
  | visit (e : EmId) (i : Nat) (s : SlotId)
  /-- emission `e` visited listener `s` without calling it -/
  | skip (e : EmId) (s : SlotId) (why : Why)
  /-- emission `e` calls the callable of `s`, which sees `args` -/
  | enter (e : EmId) (s : SlotId) (args : List Arg)
  /-- that call returned; the optional handed to the combiner is `r` -/
  | exit (e : EmId) (s : SlotId) (r : Option Val)
  /-- emission `e` returned `r` -/
  | done (e : EmId) (r : Option Val)
  /-- emission `e` returned at once because the signal was blocked -/
  | suppressed (e : EmId)
  /-- that call threw -/
  | threw (e : EmId) (s : SlotId)
  /-- an exception left emission `e` -/
  | aborted (e : EmId)
  | added (g : SigId) (s : SlotId)
  /-- `remove_slot` running for listener `req` took `victim` out of the list -/
  | removed (g : SigId) (req victim : SlotId)
  | erased (g : SigId) (s : SlotId)
  /-- `signal::disconnect` with the callable `tgt` returned `r` (`none`: it threw) -/
  | eraseRet (t : Tid) (g : SigId) (tgt : Option Callable) (r : Option Nat)
  /-- `m_Connected.exchange(false)` in `slot::disconnect` returned `b` -/
  | exch (s : SlotId) (b : Bool)
  /-- `connection::disconnect` returned `b` (`s`: what it was called on) -/
  | discRet (t : Tid) (s : Option SlotId) (b : Bool)
  | moved (g g' : SigId)
  | destroyed (g : SigId)
  /-- a `connect` (of listener `s`) or a `signal::disconnect` (`none`) on `g` threw `std::bad_alloc` -/
  | failed (t : Tid) (g : SigId) (s : Option SlotId)
deriving DecidableEq, Repr

/-- How an execution can end abnormally: undefined behaviour or `std::terminate`. -/
inductive UB where
  | nullList          -- `*m_Ptr` on a null `cow_ptr`
  | deadSignal        -- use of a signal outside its lifetime
  | lockedMutexDestroyed
  | noReturn          -- falling off the end of `signal::operator=(signal&&)`
  | endDeref          -- dereferencing the end iterator
  | outOfRange        -- `slots[i]` past the end, `back()` or `pop_back()` on an empty vector (see `Fine.lean`)
  | terminate         -- an exception left a `noexcept` function (not undefined: the program is terminated)
deriving DecidableEq, Repr

/-- The state of a program that uses the library: the objects of the library (listeners, vectors of listeners, signals), what the user
holds (owners of tracked objects, handles), the call stacks of the threads, how it ended if it ended abnormally, and the history
(newest event first; nothing the program does depends on it). Simplification: objects are numbered in order of creation and numbers are
not reused, so a record stays after the end of the lifetime of its object; that an object is used after that is detected by `slotAlive`,
`SigRec.alive` and the like. -/
structure World where
  slots : SlotId → SlotRec
  nSlots : Nat
  blks : BlkId → List SlotId
  nBlks : Nat
  sigs : SigId → SigRec
  nSigs : Nat
  /-- number of user-held owners of each tracked object -/
  objs : ObjId → Nat
  nObjs : Nat
  stacks : Tid → List Frame
  nThr : Nat
  nEm : Nat
  /-- `connection` variables: the weak pointer inside -/
  cv : Var → Option SlotId
  /-- `scoped_connection` variables; outer `none`: not within its lifetime -/
  sv : Var → Option (Option SlotId)
  /-- `connection_blocker` variables; outer `none`: not within its lifetime -/
  bv : Var → Option (Option SlotId)
  /-- the local `shared_ptr`s of threads that are inside a function of a handle -/
  pins : List SlotId
  ub : Option UB
  log : List Event

/-- The world before the program starts, with `n` threads. -/
def World.init (n : Nat) : World where
  slots := fun _ => ⟨.func ⟨0, false, .rvalue⟩ 0, [], 0, false, false, 0⟩
  nSlots := 0
  blks := fun _ => []
  nBlks := 0
  sigs := fun _ => ⟨none, none, false, false, false⟩
  nSigs := 0
  objs := fun _ => 0
  nObjs := 0
  stacks := fun _ => []
  nThr := n
  nEm := 0
  cv := fun _ => none
  sv := fun _ => none
  bv := fun _ => none
  pins := []
  ub := none
  log := []

namespace World

/-- The call stack of thread `t` is now `st`. -/
def setStack (w : World) (t : Tid) (st : List Frame) : World :=
  { w with stacks := upd w.stacks t st }

/-- Note `ev` in the history. -/
def emitEv (w : World) (ev : Event) : World := { w with log := ev :: w.log }

/-- The program ends abnormally. -/
def setUB (w : World) (u : UB) : World := { w with ub := some u }

/-- `m_SlotMutex` (1864) of signal `g` is held by `m`. -/
def setMutex (w : World) (g : SigId) (m : Option Tid) : World :=
  { w with sigs := upd w.sigs g { w.sigs g with mutex := m } }

/-- A store to `m_Ptr` (657) of `m_Slots` (1865) of signal `g`. -/
def setList (w : World) (g : SigId) (b : Option BlkId) : World :=
  { w with sigs := upd w.sigs g { w.sigs g with list := b } }

/-- Vector `b` is now `l`. -/
def setBlk (w : World) (b : BlkId) (l : List SlotId) : World :=
  { w with blks := upd w.blks b l }

/-- A store to `m_Index` (751) of listener `s`. -/
def setIndex (w : World) (s : SlotId) (i : Nat) : World :=
  { w with slots := upd w.slots s { w.slots s with index := i } }

/-- A store to `m_Connected` (752) of listener `s`. -/
def setConnected (w : World) (s : SlotId) (c : Bool) : World :=
  { w with slots := upd w.slots s { w.slots s with connected := c } }

/-- A store to `m_Blocked` (753) of listener `s`. -/
def setBlocked (w : World) (s : SlotId) (c : Bool) : World :=
  { w with slots := upd w.slots s { w.slots s with blocked := c } }

end World

/-! ### Ownership (the specification of `shared_ptr` / `weak_ptr`) -/

/-- Blocks (vectors) owned by a frame: `slots_copy` in `signal::operator()` (1787). -/
def Frame.blk? : Frame → Option BlkId
  | .emit _ (.iter b _ _) => some b
  | .emit _ (.unlock b) => b
  | _ => none

/-- Listener directly owned by a frame: the local `s` of `connect` until it is moved into the vector
(1691-1693), the local `s` of `connection::disconnect` (1506). -/
def Frame.slot? : Frame → Option SlotId
  | .add _ s _ .wait => some s
  | .add _ s _ .detach => some s
  | .add _ s _ .clone => some s
  | .add _ s _ .write => some s
  | .disc s _ _ => some s
  | _ => none

/-- Tracked object locked by a frame: `sp` in `slot_pmf_tracked::operator()` (967, 1028). -/
def Frame.obj? : Frame → Option ObjId
  | .call _ (.recheck o) => some o
  | .call _ (.body o) => o
  | _ => none

/-- Signal whose mutex the frame holds. -/
def Frame.locks : Frame → Option SigId
  | .emit m .copy => some m.g
  | .emit m (.unlock _) => some m.g
  | .add _ _ _ .wait => none
  | .add g _ _ _ => some g
  | .erase _ _ .wait => none
  | .erase g _ _ => some g
  | .disc _ _ (.crit _ .wait) => none
  | .disc _ _ (.crit g _) => some g
  | .mov _ _ .wait => none
  | .mov _ g _ => some g
  | _ => none

namespace World

/-- Some call in progress, on any thread, satisfies `p`. -/
def anyFrame (w : World) (p : Frame → Bool) : Bool :=
  (List.range w.nThr).any fun t => (w.stacks t).any p

/-- `m_Ptr.use_count() > 1` for signal `g`'s `m_Slots` pointing to block `b` (649): some other owner
exists, either another signal or a running emission. -/
def shared (w : World) (g : SigId) (b : BlkId) : Bool :=
  w.anyFrame (fun f => f.blk? == some b) ||
  (List.range w.nSigs).any fun g' => g' != g && (w.sigs g').list == some b

/-- Does listener `s` still have an owner (a signal's vector, a running emission's vector, or a local
`shared_ptr`)? Equivalently: `!weak.expired()`. -/
def slotAlive (w : World) (s : SlotId) : Bool :=
  ((List.range w.nSigs).any fun g =>
    match (w.sigs g).list with
    | some b => (w.blks b).contains s
    | none => false) ||
  (w.anyFrame fun f => f.slot? == some s ||
    match f.blk? with
    | some b => (w.blks b).contains s
    | none => false) ||
  w.pins.contains s

/-- Does the tracked object still have an owner? -/
def objAlive (w : World) (o : ObjId) : Bool :=
  decide (0 < w.objs o) || w.anyFrame fun f => f.obj? == some o

/-- The virtual `connected()` of the implementation: `slot_state::connected` (720-723), overridden in
`slot_pmf_tracked` (944-947, 1005-1008). -/
def slotConnected (w : World) (s : SlotId) : Bool :=
  (match (w.slots s).fn.obj? with
   | some o => w.objAlive o
   | none => true) && (w.slots s).connected

/-- `connection::valid` on a connection holding `h` (1493-1496). -/
def connValid (w : World) (h : Option SlotId) : Bool :=
  match h with
  | some s => w.slotAlive s
  | none => false

/-- `connection::connected` (1498-1502). -/
def connConnected (w : World) (h : Option SlotId) : Bool :=
  match h with
  | some s => w.slotAlive s && w.slotConnected s
  | none => false

/-- `connection::blocked` (1510-1514). -/
def connBlocked (w : World) (h : Option SlotId) : Bool :=
  match h with
  | some s => w.slotAlive s && (w.slots s).blocked
  | none => false

/-- `connection::block` (1516-1522) / `unblock` (1524-1530); also what `connection_blocker`'s constructor
(1452-1459) and `release` (1461-1467) do. -/
def connSetBlocked (w : World) (h : Option SlotId) (c : Bool) : World :=
  match h with
  | some s => if w.slotAlive s then (w.setBlocked s c).emitEv (.blockSet s c) else w
  | none => w

/-- The vector currently held by signal `g`. -/
def listOf (w : World) (g : SigId) : List SlotId :=
  match (w.sigs g).list with
  | some b => w.blks b
  | none => []

end World

/-! ### Library steps -/

/-- Leaving `connection::disconnect` with result `b`: the local `shared_ptr` is dropped (the frame is
popped) and the caller continues (1594-1595 for `scoped_connection` assignment; `weak_ptr` move leaves the source
empty, self-move leaves it unchanged). -/
def discReturn (w : World) (t : Tid) (rest : List Frame) (s : Option SlotId) (k : DiscK) (b : Bool) : World :=
  let w := (w.setStack t rest).emitEv (.discRet t s b)
  match k with
  | .ret => w
  | .assign x y =>
      if x = y then w
      else { w with sv := upd (upd w.sv x (w.sv y)) y (some none) }

/-- Entry of `connection::disconnect` (1506-1507): `m_Slot.lock()`. -/
def discStart (w : World) (t : Tid) (h : Option SlotId) (k : DiscK) : World :=
  match h with
  | some s =>
      if w.slotAlive s then w.setStack t (.disc s k .exch :: w.stacks t)
      else discReturn w t (w.stacks t) (some s) k false
  | none => discReturn w t (w.stacks t) none k false

/-- The second half of `cow_ptr::detach` (653) inside `m_Slots.write()`: clone the vector. It was shared when `use_count()` was tested, but
need not be any more: an emission gives up its snapshot without locking the mutex. -/
def cloneBlk (w : World) (g : SigId) (b : BlkId) : World :=
  { (w.setBlk w.nBlks (w.blks b)).setList g (some w.nBlks) with nBlks := w.nBlks + 1 }

/-- `lock_type lock(m_SlotMutex)`: waits (not enabled) while another owner holds it; the
continuation frame is pushed on success. -/
def acquire (w : World) (t : Tid) (g : SigId) (next : List Frame) : Option World :=
  if !(w.sigs g).alive then some (w.setUB .deadSignal)
  else match (w.sigs g).mutex with
    | some _ => none
    | none => some ((w.setMutex g (some t)).setStack t next)

/-- `slots[i]->index() = i` for the listener that the swap has put at position `i`, and the swap and
`pop_back` themselves (1816-1818, 1838-1840). -/
def removeAt (w : World) (b : BlkId) (i : Nat) : World :=
  match (Vec.swap (w.blks b) i ((w.blks b).length - 1))[i]? with
  | some s' => (w.setIndex s' i).setBlk b (Vec.swapPop (w.blks b) i)
  | none => w

/-- Hand the result of a listener to the combiner. Default combiner (signals.hpp:1628-1634): keep it
if engaged, advance. User combiner: it gets the value and decides later. -/
def deliver (comb : Comb) (b : BlkId) (pos : Nat) (acc r : Option Val) : EmitPc :=
  match comb with
  | .lastValue => .iter b (pos + 1) (if r.isSome then r else acc)
  | .custom => .iter b pos r

/-- One step of `signal::operator()` (1780-1792). -/
def runEmit (w : World) (t : Tid) (rest : List Frame) (m : Em) : EmitPc → Option World
  | .start =>                                     -- 1782: `if (m_Blocked) return {};`
      if !(w.sigs m.g).alive then some (w.setUB .deadSignal)
      else if (w.sigs m.g).sblocked then some ((w.setStack t rest).emitEv (.suppressed m.e))
      else some (w.setStack t (.emit m .wait :: rest))
  | .wait => acquire w t m.g (.emit m .copy :: rest)               -- 1860
  | .copy =>                                      -- 1861: `return m_Slots;`
      some (w.setStack t (.emit m (.unlock (w.sigs m.g).list) :: rest))
  | .unlock none => some (w.setUB .nullList)      -- 1788: `slots_copy.read()`
  | .unlock (some b) =>
      some (((w.setMutex m.g none).setStack t
        (.emit m (.iter b 0 none) :: rest)).emitEv (.snap m (w.blks b)))
  | .iter b pos acc =>                            -- 1628-1634, only the default combiner runs by itself
      match m.comb with
      | .custom => none
      | .lastValue =>
          match (w.blks b)[pos]? with
          | some s => some ((w.setStack t
              (.call s .chkBlocked :: .emit m (.iter b pos acc) :: rest)).emitEv (.visit m.e pos s))
          | none => some ((w.setStack t rest).emitEv (.done m.e acc))

/-- One step of `slot::operator()` (1381-1389) and of the implementation's `operator()`, called by the
emission `m` standing at position `pos` of block `b`.

* A skipped listener contributes a disengaged optional.
* When the callable is called (797, 834, 875, 918, 976, 1036) it sees the tuple's current contents, and its
  by-value parameters move out of the tuple.
* For a tracked member function the result of `lock()` (the object) is kept alive by the call. -/
def runCall (w : World) (t : Tid) (s : SlotId) (m : Em) (b : BlkId) (pos : Nat) (acc : Option Val)
    (rest : List Frame) : CallPc → Option World
  | .chkBlocked =>                                -- 1383: `!blocked()`
      if (w.slots s).blocked then
        some ((w.setStack t (.emit m (deliver m.comb b pos acc none) :: rest)).emitEv (.skip m.e s .blocked))
      else some (w.setStack t (.call s .chkConnected :: .emit m (.iter b pos acc) :: rest))
  | .chkConnected =>                              -- 1383: `connected()`
      if w.slotConnected s then
        match (w.slots s).fn.obj? with
        | some o => some (w.setStack t (.call s (.lockObj o) :: .emit m (.iter b pos acc) :: rest))
        | none => some (w.setStack t (.call s .invoke :: .emit m (.iter b pos acc) :: rest))
      else
        some ((w.setStack t (.emit m (deliver m.comb b pos acc none) :: rest)).emitEv (.skip m.e s .notConnected))
  | .invoke =>
      some ((w.setStack t (.call s (.body none) ::
        .emit { m with args := passArgs (w.slots s).consume m.args } (.iter b pos acc) :: rest)).emitEv
          (.enter m.e s m.args))
  | .lockObj o =>                                 -- 967-972, 1028-1034
      if w.objAlive o then
        some (w.setStack t (.call s (.recheck o) :: .emit m (.iter b pos acc) :: rest))
      else
        some (((w.setConnected s false).setStack t
          (.emit m (deliver m.comb b pos acc none) :: rest)).emitEv (.skip m.e s .expired))
  | .recheck o =>                                 -- 974, 1034
      if w.slotConnected s then
        some ((w.setStack t (.call s (.body (some o)) ::
          .emit { m with args := passArgs (w.slots s).consume m.args } (.iter b pos acc) :: rest)).emitEv
            (.enter m.e s m.args))
      else
        some ((w.setStack t (.emit m (deliver m.comb b pos acc none) :: rest)).emitEv (.skip m.e s .notConnected))
  | .body _ => none                               -- user code

/-- One step of `connect` / `add_slot` (1798-1805). -/
def runAdd (w : World) (t : Tid) (rest : List Frame) (g : SigId) (s : SlotId) (dest : Dest) :
    CritPc → Option World
  | .wait => acquire w t g (.add g s dest .detach :: rest)
  | .detach =>
      match (w.sigs g).list with
      | none => some (w.setUB .nullList)
      | some b => some (w.setStack t (.add g s dest (if w.shared g b then .clone else .write) :: rest))
  | .clone =>
      match (w.sigs g).list with
      | none => some (w.setUB .nullList)
      | some b => some ((cloneBlk w g b).setStack t (.add g s dest .write :: rest))
  | .write =>
      match (w.sigs g).list with
      | none => some (w.setUB .nullList)
      | some b =>
          some ((((w.setIndex s (w.blks b).length).setBlk b (w.blks b ++ [s])).setStack t
            (.add g s dest .unlock :: rest)).emitEv (.added g s))
  | .unlock =>
      let w := ((w.setMutex g none).setStack t rest).emitEv (.connRet t g s)
      match dest with
      | .conn x => some { w with cv := upd w.cv x (some s) }
      | .scoped x => some { w with sv := upd w.sv x (some (some s)) }

/-- One step of `erase` (1826-1849). -/
def runErase (E : Env) (w : World) (t : Tid) (rest : List Frame) (g : SigId) (tgt : Option Callable) :
    ErasePc → Option World
  | .wait => acquire w t g (.erase g tgt .detach :: rest)
  | .detach =>
      match (w.sigs g).list with
      | none => some (w.setUB .nullList)
      | some b => some (w.setStack t (.erase g tgt (if w.shared g b then .clone else .scan 0 0) :: rest))
  | .clone =>
      match (w.sigs g).list with
      | none => some (w.setUB .nullList)
      | some b => some ((cloneBlk w g b).setStack t (.erase g tgt (.scan 0 0) :: rest))
  | .scan i cnt =>
      match (w.sigs g).list with
      | none => some (w.setUB .nullList)
      | some b =>
          match (w.blks b)[i]? with
          | none => some (w.setStack t (.erase g tgt (.unlock (some cnt)) :: rest))
          | some s =>
              match slotEq E (some (w.slots s).fn) tgt with
              | none => some (w.setStack t (.erase g tgt (.unlock none) :: rest))
              | some true =>
                  some (((removeAt w b i).setStack t (.erase g tgt (.scan i (cnt + 1)) :: rest)).emitEv
                    (.erased g s))
              | some false => some (w.setStack t (.erase g tgt (.scan (i + 1) cnt) :: rest))
  | .unlock r => some (((w.setMutex g none).setStack t rest).emitEv (.eraseRet t g tgt r))

/-- One step of `connection::disconnect` → `slot::disconnect` → `remove_slot` (1504-1508, 1352-1361,
1808-1820). -/
def runDisc (w : World) (t : Tid) (rest : List Frame) (s : SlotId) (k : DiscK) : DiscPc → Option World
  | .exch =>                                      -- 1354, 727
      if (w.slots s).connected then
        some (((w.setConnected s false).setStack t
          (.disc s k (.crit (w.slots s).owner .wait) :: rest)).emitEv (.exch s true))
      else some (discReturn (w.emitEv (.exch s false)) t rest (some s) k false)
  | .crit g .wait => acquire w t g (.disc s k (.crit g .detach) :: rest)
  | .crit g .detach =>
      match (w.sigs g).list with
      | none => some (w.setUB .nullList)
      | some b => some (w.setStack t (.disc s k (.crit g (if w.shared g b then .clone else .write)) :: rest))
  | .crit g .clone =>
      match (w.sigs g).list with
      | none => some (w.setUB .nullList)
      | some b => some ((cloneBlk w g b).setStack t (.disc s k (.crit g .write) :: rest))
  | .crit g .write =>
      match (w.sigs g).list with
      | none => some (w.setUB .nullList)
      | some b =>
          match (w.blks b)[(w.slots s).index]? with
          | some v =>
              some (((removeAt w b (w.slots s).index).setStack t
                (.disc s k (.crit g .unlock) :: rest)).emitEv (.removed g s v))
          | none => some (w.setStack t (.disc s k (.crit g .unlock) :: rest))
  | .crit g .unlock => some ((w.setMutex g none).setStack t (.disc s k (.drop g) :: rest))
  | .drop _ => some (discReturn w t rest (some s) k true)

/-- One step of `signal::signal(signal&&)` (1670-1675). `g'` is the object under construction. -/
def runMov (w : World) (t : Tid) (rest : List Frame) (g' g : SigId) : MovPc → Option World
  | .wait => acquire w t g (.mov g' g .write :: rest)
  | .write =>
      some ((((w.setList g' (w.sigs g).list).setList g none).setStack t
        (.mov g' g .unlock :: rest)).emitEv (.moved g g'))
  | .unlock =>
      let w := (w.setMutex g none).setStack t rest
      some { w with sigs := upd w.sigs g' { w.sigs g' with alive := true } }

/-- The library advances thread `t` by one atomic step. (A `call` frame always sits on an emission frame that
is iterating, see `OkStk`.) -/
def runTop (E : Env) (w : World) (t : Tid) : Option World :=
  match w.stacks t with
  | .emit m pc :: rest => runEmit w t rest m pc
  | .call s pc :: .emit m (.iter b pos acc) :: rest => runCall w t s m b pos acc rest pc
  | .add g s dest pc :: rest => runAdd w t rest g s dest pc
  | .erase g tgt pc :: rest => runErase E w t rest g tgt pc
  | .disc s k pc :: rest => runDisc w t rest s k pc
  | .mov g' g pc :: rest => runMov w t rest g' g pc
  | _ => none

/-! ### User code -/

/-- A connection-like object: a `connection` variable or a `scoped_connection` variable. -/
inductive Handle where
  | conn (x : Var)
  | scoped (x : Var)
deriving DecidableEq, Repr

/-- The weak pointer inside a handle. -/
def World.hval (w : World) : Handle → Option SlotId
  | .conn x => w.cv x
  | .scoped x => (w.sv x).join

/-- The listener that the `weak_ptr` of a handle or of a `connection_blocker` refers to (1469, 1552). -/
def World.pval (w : World) : Handle ⊕ Var → Option SlotId
  | .inl h => w.hval h
  | .inr x => (w.bv x).join

/-- Everything user code can ask of the library. -/
inductive Api where
  | newSig (isVoid : Bool)
  | destroySig (g : SigId)
  | moveSig (g : SigId)
  | moveAssignSig (g g' : SigId)
  /-- `connect` / `connect_scoped`; `conn`/`blk` are the flags of the copied slot (`true`, `false` for a
  freshly wrapped callable). -/
  | connect (g : SigId) (fn : Callable) (consume : List Bool) (conn blk : Bool) (dest : Dest)
  | emit (g : SigId) (comb : Comb) (args : List Arg)
  | sigDisconnect (g : SigId) (tgt : Option Callable)
  | disconnect (h : Handle)
  | block (h : Handle)
  | unblock (h : Handle)
  -- connection objects
  | connCopy (x : Var) (h : Handle)
  | connMove (x : Var) (h : Handle)
  | connSwap (x y : Var)
  -- scoped_connection objects
  | scopedNew (x : Var)
  | scopedOfConn (x y : Var)
  | scopedMoveCtor (x y : Var)
  | scopedMoveAssign (x y : Var)
  | scopedRelease (y x : Var)
  | scopedSwap (x y : Var)
  | scopedDtor (x : Var)
  /-- `static_cast<connection&>(x) = h` -/
  | scopedBase (x : Var) (h : Handle)
  -- connection_blocker objects
  | blockerNew (x : Var)
  | blockerOf (x : Var) (h : Handle)
  | blockerMoveCtor (x y : Var)
  | blockerMoveAssign (x y : Var)
  | blockerSwap (x y : Var)
  | blockerDtor (x : Var)
  -- tracked objects
  | objNew
  | objShare (o : ObjId)
  | objDrop (o : ObjId)
  /-- the beginning and the end of the time that a function of a handle or of a blocker has a local `shared_ptr` to the listener -/
  | pin (h : Handle ⊕ Var)
  | unpin (s : SlotId)
  -- user combiner
  | combDeref (i : Nat)
  | combDone (v : Option Val)
  | combThrow
deriving DecidableEq, Repr

/-- Is the top of the stack user code: the main program, a listener body, or a user combiner? -/
def userCtx : List Frame → Bool
  | [] => true
  | .call _ (.body _) :: _ => true
  | .emit ⟨_, _, .custom, _⟩ (.iter _ _ _) :: _ => true
  | _ => false

/-- Move a weak pointer out of `h`, leaving it empty. -/
def World.clearHandle (w : World) : Handle → World
  | .conn x => { w with cv := upd w.cv x none }
  | .scoped x => { w with sv := upd w.sv x (some none) }

/-- An API call made by user code on thread `t`. -/
def userOp (w : World) (t : Tid) : Api → Option World
  -- 1658-1661
  | .newSig v => some
      { w with
        sigs := upd w.sigs w.nSigs ⟨some w.nBlks, none, false, true, v⟩
        nSigs := w.nSigs + 1
        blks := upd w.blks w.nBlks []
        nBlks := w.nBlks + 1 }
  -- 1662
  | .destroySig g =>
      if g < w.nSigs then
        if !(w.sigs g).alive then some (w.setUB .deadSignal)
        else if (w.sigs g).mutex.isSome then some (w.setUB .lockedMutexDestroyed)
        else
          let r := { w.sigs g with alive := false, list := none }
          some ({ w with sigs := upd w.sigs g r }.emitEv (.destroyed g))
      else none
  -- 1670-1671; the new object becomes usable when the constructor has finished
  | .moveSig g =>
      if g < w.nSigs then
        if !(w.sigs g).alive then some (w.setUB .deadSignal)
        else
          let w' := { w with
            sigs := upd w.sigs w.nSigs ⟨none, none, (w.sigs g).sblocked, false, (w.sigs g).isVoid⟩
            nSigs := w.nSigs + 1 }
          some (w'.setStack t (.mov w.nSigs g .wait :: w.stacks t))
      else none
  -- 1678-1686: control reaches the end of a non-void function
  | .moveAssignSig g g' =>
      if g < w.nSigs ∧ g' < w.nSigs then some (w.setUB .noReturn) else none
  -- 1689-1720: allocate the listener (copying the slot's flags, 688-692), then `add_slot`; a tracked
  -- object is named by a pointer to an object that exists or has existed
  | .connect g fn consume conn blk dest =>
      if g < w.nSigs ∧ ∀ o, fn.obj? = some o → o < w.nObjs then
        let w' := { w with
          slots := upd w.slots w.nSlots ⟨fn, consume, 0, conn, blk, g⟩
          nSlots := w.nSlots + 1 }
        some ((w'.setStack t (.add g w.nSlots dest .wait :: w.stacks t)).emitEv
          (.created g w.nSlots conn blk))
      else none
  -- 1780
  | .emit g comb args =>
      if g < w.nSigs then
        some (({ w with nEm := w.nEm + 1 }.setStack t
          (.emit ⟨w.nEm, g, comb, args⟩ .start :: w.stacks t)).emitEv (.began t ⟨w.nEm, g, comb, args⟩))
      else none
  -- 1751-1778
  | .sigDisconnect g tgt =>
      if g < w.nSigs then some (w.setStack t (.erase g tgt .wait :: w.stacks t)) else none
  -- 1504
  | .disconnect h => some (discStart w t (w.hval h) .ret)
  | .block h => some (w.connSetBlocked (w.hval h) true)
  | .unblock h => some (w.connSetBlocked (w.hval h) false)
  -- 1488-1491 (defaulted copy/move of the weak pointer; also from a `scoped_connection`)
  | .connCopy x h => some { w with cv := upd w.cv x (w.hval h) }
  | .connMove x h =>
      if h = .conn x then some w
      else
        let v := w.hval h
        let w := w.clearHandle h
        some { w with cv := upd w.cv x v }
  -- 1537-1540
  | .connSwap x y => some { w with cv := upd (upd w.cv x (w.cv y)) y (w.cv x) }
  -- 1570
  | .scopedNew x => if (w.sv x).isNone then some { w with sv := upd w.sv x (some none) } else none
  -- 1576-1578
  | .scopedOfConn x y =>
      if (w.sv x).isNone then some { w with sv := upd w.sv x (some (w.cv y)) } else none
  -- 1586-1588
  | .scopedMoveCtor x y =>
      match w.sv x, w.sv y with
      | none, some v => some { w with sv := upd (upd w.sv x (some v)) y (some none) }
      | _, _ => none
  -- 1592-1597
  | .scopedMoveAssign x y =>
      match w.sv x, w.sv y with
      | some v, some _ => some (discStart w t v (.assign x y))
      | _, _ => none
  -- 1599-1602
  | .scopedRelease y x =>
      match w.sv x with
      | some v => some { w with cv := upd w.cv y v, sv := upd w.sv x (some none) }
      | none => none
  -- 1610-1613, 1537-1540
  | .scopedSwap x y =>
      match w.sv x, w.sv y with
      | some v, some v' => some { w with sv := upd (upd w.sv x (some v')) y (some v) }
      | _, _ => none
  -- 1571-1574
  | .scopedDtor x =>
      match w.sv x with
      | some v => some (discStart { w with sv := upd w.sv x none } t v .ret)
      | none => none
  -- 1490: the assignment of the base class, which knows nothing of `disconnect()`
  | .scopedBase x h =>
      if (w.sv x).isSome then some { w with sv := upd w.sv x (some (w.hval h)) } else none
  -- 1425
  | .blockerNew x => if (w.bv x).isNone then some { w with bv := upd w.bv x (some none) } else none
  -- 1532-1535, 1452-1459
  | .blockerOf x h =>
      if (w.bv x).isNone then
        some ({ w with bv := upd w.bv x (some (w.hval h)) }.connSetBlocked (w.hval h) true)
      else none
  -- 1432-1434
  | .blockerMoveCtor x y =>
      match w.bv x, w.bv y with
      | none, some v => some { w with bv := upd (upd w.bv x (some v)) y (some none) }
      | _, _ => none
  -- 1437-1442
  | .blockerMoveAssign x y =>
      match w.bv x, w.bv y with
      | some v, some v' =>
          let w := w.connSetBlocked v false
          if x = y then some w
          else some { w with bv := upd (upd w.bv x (some v')) y (some none) }
      | _, _ => none
  -- 1444-1447
  | .blockerSwap x y =>
      match w.bv x, w.bv y with
      | some v, some v' => some { w with bv := upd (upd w.bv x (some v')) y (some v) }
      | _, _ => none
  -- 1426-1429
  | .blockerDtor x =>
      match w.bv x with
      | some v => some ({ w with bv := upd w.bv x none }.connSetBlocked v false)
      | none => none
  | .objNew => some { w with objs := upd w.objs w.nObjs 1, nObjs := w.nObjs + 1 }
  | .objShare o =>
      if w.objAlive o then some { w with objs := upd w.objs o (w.objs o + 1) } else none
  | .objDrop o =>
      if 0 < w.objs o then some { w with objs := upd w.objs o (w.objs o - 1) } else none
  -- 1454, 1463, 1500, 1512, 1518, 1526: `auto s = m_Slot.lock()` ...
  | .pin h => some { w with pins := ((w.pval h).filter w.slotAlive).toList ++ w.pins }
  -- ... and the end of the scope of `s`
  | .unpin s => if s ∈ w.pins then some { w with pins := w.pins.erase s } else none
  -- 1132-1143, 1196-1208 called by a user combiner on the iterator at position `i`
  | .combDeref i =>
      match w.stacks t with
      | .emit ⟨e, g, .custom, args⟩ (.iter b _ acc) :: rest =>
          match (w.blks b)[i]? with
          | some s => some ((w.setStack t
              (.call s .chkBlocked :: .emit ⟨e, g, .custom, args⟩ (.iter b i acc) :: rest)).emitEv
                (.visit e i s))
          | none => some (w.setUB .endDeref)
      | _ => none
  -- the user combiner returns
  | .combDone v =>
      match w.stacks t with
      | .emit ⟨e, _, .custom, _⟩ (.iter _ _ _) :: rest => some ((w.setStack t rest).emitEv (.done e v))
      | _ => none
  -- the user combiner throws
  | .combThrow =>
      match w.stacks t with
      | .emit ⟨e, _, .custom, _⟩ (.iter _ _ _) :: rest => some ((w.setStack t rest).emitEv (.aborted e))
      | _ => none

/-- What happens next. -/
inductive Label where
  | run (t : Tid)
  | call (t : Tid) (a : Api)
  /-- the running listener body on thread `t` returns `v` -/
  | ret (t : Tid) (v : Val)
  /-- the running listener body on thread `t` throws; `caught`: the user combiner catches it -/
  | throw (t : Tid) (caught : Bool)
  /-- an allocation that the library is about to make on thread `t` fails -/
  | fail (t : Tid)
  /-- ... when the new `shared_ptr` to a copied list needs its control block -/
  | ctl (t : Tid)
deriving DecidableEq, Repr

/-- The thread that makes the step. -/
def Label.tid : Label → Tid
  | .run t => t
  | .fail t => t
  | .ctl t => t
  | .call t _ => t
  | .ret t _ => t
  | .throw t _ => t

/-- A listener body returns: its result becomes an engaged optional, or a disengaged one for
`void` (797, 834, 919, 976, 1036-1039). -/
def userRet (w : World) (t : Tid) (v : Val) : Option World :=
  match w.stacks t with
  | .call s (.body _) :: .emit m (.iter b pos acc) :: rest =>
      let r := if (w.sigs m.g).isVoid then none else some v
      some ((w.setStack t (.emit m (deliver m.comb b pos acc r) :: rest)).emitEv (.exit m.e s r))
  | _ => none

/-- A listener body throws: the exception unwinds `slot::operator()` (no handler there). Uncaught, it
also leaves the combiner and `signal::operator()` (no handlers either), destroying the snapshot, and reaches the
user code that emitted. A user combiner may also catch it (`caught`) and go on. -/
def userThrow (w : World) (t : Tid) (caught : Bool) : Option World :=
  match w.stacks t with
  | .call s (.body _) :: .emit m (.iter b pos acc) :: rest =>
      if caught then
        match m.comb with
        | .custom => some ((w.setStack t
            (.emit m (deliver .custom b pos acc none) :: rest)).emitEv (.threw m.e s))
        | .lastValue => none
      else some (((w.setStack t rest).emitEv (.threw m.e s)).emitEv (.aborted m.e))
  | _ => none

/-- `std::bad_alloc`. The copy of a shared vector (653) needs memory, and so may `push_back` (1804). The exception releases the mutex
(`lock_type`) and leaves `connect` or `signal::disconnect`; the listener that `connect` made dies (the position stored in it, 1803, is not
recorded). But `slot::disconnect` is `noexcept` (1352), so there the program is terminated.

Allocations before the mutex is taken (the new listener, the temporary slot of `signal::disconnect`) are not recorded: when they fail the call has
no effect. -/
def allocFail (w : World) (t : Tid) : Option World :=
  match w.stacks t with
  | .add g s _ .clone :: rest =>
      match (w.sigs g).list with
      | some _ => some (((w.setMutex g none).setStack t rest).emitEv (.failed t g (some s)))
      | none => none
  | .add g s _ .write :: rest =>
      match (w.sigs g).list with
      | some _ => some (((w.setMutex g none).setStack t rest).emitEv (.failed t g (some s)))
      | none => none
  | .erase g _ .clone :: rest =>
      match (w.sigs g).list with
      | some _ => some (((w.setMutex g none).setStack t rest).emitEv (.failed t g none))
      | none => none
  | .disc _ _ (.crit g .clone) :: _ =>
      match (w.sigs g).list with
      | some _ => some (w.setUB .terminate)
      | none => none
  | _ => none

/-- `std::bad_alloc` again: the `shared_ptr` to the copy of the vector (653) needs memory for its control block. This happens inside
`cow_ptr(T*)`, which is `noexcept` (521), so whoever has to copy the list, the program is terminated. -/
def ctlFail (w : World) (t : Tid) : Option World :=
  match w.stacks t with
  | .add g _ _ .clone :: _ => if (w.sigs g).list.isSome then some (w.setUB .terminate) else none
  | .erase g _ .clone :: _ => if (w.sigs g).list.isSome then some (w.setUB .terminate) else none
  | .disc _ _ (.crit g .clone) :: _ => if (w.sigs g).list.isSome then some (w.setUB .terminate) else none
  | _ => none

/-- The transition function. -/
def step (E : Env) (w : World) (l : Label) : Option World :=
  if w.ub.isSome then none
  else if l.tid < w.nThr then
    match l with
    | .run t => runTop E w t
    | .call t a => if userCtx (w.stacks t) then userOp w t a else none
    | .ret t v => userRet w t v
    | .throw t c => userThrow w t c
    | .fail t => allocFail w t
    | .ctl t => ctlFail w t
  else none

/-- Run a whole schedule. -/
def exec (E : Env) (w : World) : List Label → Option World
  | [] => some w
  | l :: ls => match step E w l with
    | some w' => exec E w' ls
    | none => none

/-- `w'` can be reached from `w` by some schedule using only labels that satisfy `P`. -/
inductive Steps (E : Env) (P : Label → Prop) : World → World → Prop where
  | refl (w) : Steps E P w w
  | tail {w w' w''} (l : Label) : Steps E P w w' → P l → step E w' l = some w'' → Steps E P w w''

/-- Reachable from the initial world with any number of threads, any user code, any schedule. -/
def Reachable (E : Env) (w : World) : Prop := ∃ n, Steps E (fun _ => True) (World.init n) w

end Verif
