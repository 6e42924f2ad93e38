import Verif.Machine

/-!
# Memory accesses and happens-before

Which non-atomic shared memory each step of the machine reads and writes, which synchronisation it performs, and when two accesses race
(C++17 [intro.races]: they conflict, come from different threads, and neither happens before the other).

The operations of an execution form a trace. The atomic flags `m_Connected`, `m_Blocked` (752-753, 1866) cannot race; the reference
counts cannot either.
-/

namespace Verif

/-- Non-atomic memory shared between threads. -/
inductive Loc where
  /-- the pointer inside `m_Slots` of signal `g` (1865, 657) -/
  | ptr (g : SigId)
  /-- the vector `b`: size, capacity and elements -/
  | vec (b : BlkId)
  /-- `m_Index` of listener `s` (751) -/
  | idx (s : SlotId)
deriving DecidableEq, Repr

/-- Why a location is accessed. -/
inductive Site where
  /-- construction -/
  | init
  /-- a read inside a critical section -/
  | read
  /-- a read by an emission walking over its snapshot, outside any critical section -/
  | walk
  /-- a modification inside a critical section -/
  | update
  | destroy
deriving DecidableEq, Repr

/-- Is the access a write? -/
def Site.writes : Site → Bool
  | .init => true
  | .read => false
  | .walk => false
  | .update => true
  | .destroy => true

/-- What a step does to memory, in order. -/
inductive Mem where
  | acc (l : Loc) (k : Site)
  /-- lock the mutex of `g` -/
  | lock (g : SigId)
  /-- unlock the mutex of `g`, or (constructors) hand the new object `g` over -/
  | unlock (g : SigId)
  /-- give up a reference to vector `b`: a release, and an acquire for the `last` owner, who then frees the vector -/
  | drop (b : BlkId) (last : Bool)
  /-- `m_Ptr.use_count()` on vector `b` -/
  | count (b : BlkId)
  /-- an operation on an atomic flag of listener `s` -/
  | flag (s : SlotId)
deriving DecidableEq, Repr

/-- Parameters of the memory model: does `use_count()` acquire (it does not: `shared_ptr::use_count` is a relaxed load)? Do operations on
the flags of a listener synchronise (they may, being sequentially consistent)? -/
structure Sync where
  count : Bool
  flags : Bool
deriving DecidableEq, Repr

/-- A memory operation and the thread that does it. -/
abbrev Op := Tid × Mem

/-- An operation synchronises with a later one (of any thread).

* Unlocking a mutex, with locking it.
* Giving up a reference, with the decrement of the last owner, who frees the object: a decrement is an acquire-release operation, or a release
  followed by an acquire fence. With `use_count()` only if that acquires.
* Operations on the same flag, if they synchronise. -/
def Sync.edge (c : Sync) : Mem → Mem → Bool
  | .unlock g, .lock g' => g == g'
  | .drop b _, .drop b' last => b == b' && last
  | .drop b _, .count b' => b == b' && c.count
  | .flag s, .flag s' => s == s' && c.flags
  | _, _ => false

/-- Happens-before between positions of a trace: the order within each thread and synchronisation, and what follows from these. -/
inductive Before (c : Sync) (tr : List Op) : Nat → Nat → Prop where
  | seq {i j : Nat} {t : Tid} {o o' : Mem} (hij : i < j) (hi : tr[i]? = some (t, o)) (hj : tr[j]? = some (t, o')) : Before c tr i j
  | sync {i j : Nat} {t t' : Tid} {o o' : Mem} (hij : i < j) (hi : tr[i]? = some (t, o)) (hj : tr[j]? = some (t', o'))
      (he : c.edge o o' = true) : Before c tr i j
  | trans {i j k : Nat} (h1 : Before c tr i j) (h2 : Before c tr j k) : Before c tr i k

/-- The operations at positions `i` and `j` are a data race: accesses of two threads to one location, at least one of them a write, and
the earlier one does not happen before the later one. -/
structure Race (c : Sync) (tr : List Op) (i j : Nat) (l : Loc) (k k' : Site) : Prop where
  lt : i < j
  first : ∃ t t', t ≠ t' ∧ tr[i]? = some (t, .acc l k) ∧ tr[j]? = some (t', .acc l k')
  write : k.writes = true ∨ k'.writes = true
  free : ¬ Before c tr i j

/-- Some of the operations write `l`. -/
def writesTo (ops : List Mem) (l : Loc) : Prop := ∃ k, Site.writes k = true ∧ Mem.acc l k ∈ ops

/-! ### What the steps do -/

/-- Has vector `b` an owner? -/
def World.ownedB (w : World) (b : BlkId) : Bool :=
  w.anyFrame (fun f => f.blk? == some b) || (List.range w.nSigs).any fun g => (w.sigs g).list == some b

/-- An owner of vector `b` gives it up; `w'` is the world afterwards. The last one destroys it. -/
def dropFoot (w' : World) (b : BlkId) : List Mem :=
  if w'.ownedB b then [.drop b false] else [.drop b true, .acc (.vec b) .destroy]

/-- The test in `detach` (649). -/
def tstFoot (g : SigId) (b : BlkId) : List Mem := [.acc (.ptr g) .read, .count b]

/-- The clone in `detach` (653): copy the vector, point to the copy and drop the old one. -/
def detFoot (w w' : World) (g : SigId) (b : BlkId) : List Mem :=
  [.acc (.ptr g) .read, .acc (.vec b) .read, .acc (.vec w.nBlks) .init, .acc (.ptr g) .update] ++ dropFoot w' b

/-- Swap with the last element, store the position, pop (1816-1818, 1838-1840). -/
def remFoot (w : World) (b : BlkId) (i : Nat) : List Mem :=
  match (Vec.swap (w.blks b) i ((w.blks b).length - 1))[i]? with
  | some s' => [.acc (.idx s') .update, .acc (.vec b) .update]
  | none => []

/-- `add_slot` (1798-1805). -/
def addFoot (w w' : World) (g : SigId) (s : SlotId) : CritPc → List Mem
  | .wait => [.lock g]
  | .detach => match (w.sigs g).list with
    | some b => tstFoot g b
    | none => []
  | .clone => match (w.sigs g).list with
    | some b => detFoot w w' g b
    | none => []
  | .write => match (w.sigs g).list with
    | some b => [.acc (.idx s) .update, .acc (.vec b) .update]
    | none => []
  | .unlock => [.unlock g]

/-- `erase` (1826-1849). -/
def eraseFoot (E : Env) (w w' : World) (g : SigId) (tgt : Option Callable) : ErasePc → List Mem
  | .wait => [.lock g]
  | .detach => match (w.sigs g).list with
    | some b => tstFoot g b
    | none => []
  | .clone => match (w.sigs g).list with
    | some b => detFoot w w' g b
    | none => []
  | .scan i _ => match (w.sigs g).list with
    | some b => .acc (.vec b) .read ::
        match (w.blks b)[i]? with
        | some s => if slotEq E (some (w.slots s).fn) tgt = some true then remFoot w b i else []
        | none => []
    | none => []
  | .unlock _ => [.unlock g]

/-- `slot::disconnect` and `remove_slot` (1352-1361, 1808-1820); the position is read before `write()`. -/
def discFoot (w w' : World) (s : SlotId) : DiscPc → List Mem
  | .exch => [.flag s]
  | .crit g .wait => [.lock g]
  | .crit g .detach => match (w.sigs g).list with
    | some b => .acc (.idx s) .read :: tstFoot g b
    | none => []
  | .crit g .clone => match (w.sigs g).list with
    | some b => detFoot w w' g b
    | none => []
  | .crit g .write => match (w.sigs g).list with
    | some b => .acc (.vec b) .read :: remFoot w b (w.slots s).index
    | none => []
  | .crit g .unlock => [.unlock g]
  | .drop _ => []

/-- `signal::operator()` (1780-1792), with the default combiner (1628-1634). -/
def emitFoot (w w' : World) (m : Em) : EmitPc → List Mem
  | .start => []
  | .wait => [.lock m.g]
  | .copy => [.acc (.ptr m.g) .read]
  | .unlock none => []
  | .unlock (some b) => [.unlock m.g, .acc (.vec b) .walk]
  | .iter b pos _ => .acc (.vec b) .walk :: if pos < (w.blks b).length then [] else dropFoot w' b

/-- The move constructor (1670-1675). The new object is handed over as soon as its pointer is set: nobody else may use it before the
constructor has finished. -/
def movFoot (g' g : SigId) : MovPc → List Mem
  | .wait => [.lock g]
  | .write => [.acc (.ptr g) .read, .acc (.ptr g) .update, .acc (.ptr g') .init, .unlock g']
  | .unlock => [.unlock g]

/-- A step of library code on thread `t` from `w` to `w'`: what the innermost function of the library does. -/
def runFoot (E : Env) (w w' : World) (t : Tid) : List Mem :=
  match w.stacks t with
  | .emit m pc :: _ => emitFoot w w' m pc
  | .call s _ :: _ => [.flag s]
  | .add g s _ pc :: _ => addFoot w w' g s pc
  | .erase g tgt pc :: _ => eraseFoot E w w' g tgt pc
  | .disc s _ pc :: _ => discFoot w w' s pc
  | .mov g' g pc :: _ => movFoot g' g pc
  | [] => []

/-- The vector of the innermost emission. -/
def topBlk : List Frame → Option BlkId
  | .emit _ (.iter b _ _) :: _ => some b
  | .call _ _ :: .emit _ (.iter b _ _) :: _ => some b
  | _ => none

/-- Memory operations of API calls.

* A new signal (1658-1661) is handed over by its creator.
* Whoever destroys a signal (1662) must have waited for everybody else's last use of it: the `lock`.
* Setting `m_Blocked` through a handle is an atomic operation. -/
def userFoot (w w' : World) (t : Tid) : Api → List Mem
  | .newSig _ => [.acc (.vec w.nBlks) .init, .acc (.ptr w.nSigs) .init, .unlock w.nSigs]
  | .destroySig g =>
      if (w.sigs g).alive && (w.sigs g).mutex.isNone then
        .lock g :: .acc (.ptr g) .destroy :: match (w.sigs g).list with
          | some b => dropFoot w' b
          | none => []
      else []
  | .connect _ _ _ _ _ _ => [.acc (.idx w.nSlots) .init]
  | .block h => (w.hval h).toList.map .flag
  | .unblock h => (w.hval h).toList.map .flag
  | .blockerOf _ h => (w.hval h).toList.map .flag
  | .blockerMoveAssign x _ => (w.bv x).join.toList.map .flag
  | .blockerDtor x => (w.bv x).join.toList.map .flag
  | .combDeref _ => match topBlk (w.stacks t) with
    | some b => [.acc (.vec b) .walk]
    | none => []
  | .combDone _ => match topBlk (w.stacks t) with
    | some b => dropFoot w' b
    | none => []
  | .combThrow => match topBlk (w.stacks t) with
    | some b => dropFoot w' b
    | none => []
  | _ => []

/-- Memory operations of a critical section that runs out of memory: in the copy (650-653), whose source has been looked at, or in
`push_back` (1803-1804), after the position has been stored. -/
def failFoot (w : World) (t : Tid) : List Mem :=
  match w.stacks t with
  | .add g s _ .write :: _ => match (w.sigs g).list with
    | some b => [.acc (.idx s) .update, .acc (.vec b) .read, .unlock g]
    | none => []
  | .add g _ _ .clone :: _ | .erase g _ .clone :: _ => match (w.sigs g).list with
    | some b => [.acc (.ptr g) .read, .acc (.vec b) .read, .unlock g]
    | none => []
  | _ => []

/-- Memory operations of the step `l` from `w` to `w'`; nothing is recorded of a step into undefined behaviour. -/
def foot (E : Env) (w w' : World) (l : Label) : List Mem :=
  if w'.ub.isSome then []
  else match l with
    | .run t => runFoot E w w' t
    | .call t a => userFoot w w' t a
    | .ret _ _ => []
    | .fail t => failFoot w t
    | .ctl _ => []
    | .throw t caught => match topBlk (w.stacks t) with
      | some b => if caught then [] else dropFoot w' b
      | none => []

/-- Executions together with their memory operations, oldest first. -/
inductive Traced (E : Env) : World → List Op → Prop where
  | init (n : Nat) : Traced E (World.init n) []
  | step {w w' tr} (l : Label) (hr : Traced E w tr) (hs : step E w l = some w') :
      Traced E w' (tr ++ (foot E w w' l).map (l.tid, ·))

/-- Run a schedule, recording memory operations. -/
def execT (E : Env) (w : World) (tr : List Op) : List Label → Option (World × List Op)
  | [] => some (w, tr)
  | l :: ls => match step E w l with
    | some w' => execT E w' (tr ++ (foot E w w' l).map (l.tid, ·)) ls
    | none => none

end Verif
