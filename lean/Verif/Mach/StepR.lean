import Verif.Machine

/-!
# Inversion of `step`

`StepR E w t w'` lists every way the machine can go from `w` to `w'` by a step of thread `t`. It is proved
complete (`step_inv`) once; invariants are then proved by cases on it. Nothing here is specification.
-/

namespace Verif

def World.setH (w : World) (cv : Var → Option SlotId) (sv bv : Var → Option (Option SlotId)) : World :=
  { w with cv := cv, sv := sv, bv := bv }

/-- `s` is the target of some handle variable, or of a local pointer in a function of a handle. -/
def World.held (w : World) (s : SlotId) : Prop :=
  (∃ x, w.cv x = some s) ∨ (∃ x, w.sv x = some (some s)) ∨ (∃ x, w.bv x = some (some s)) ∨ s ∈ w.pins

/-- The handles after the step refer only to listeners the handles before the step referred to. -/
def World.heldSub (w : World) (cv : Var → Option SlotId) (sv bv : Var → Option (Option SlotId)) : Prop :=
  ∀ s, (w.setH cv sv bv).held s → w.held s

/-- Frames that are about to lock a mutex, the mutex, and the frame after that. -/
def Frame.acq : Frame → Option (SigId × Frame)
  | .emit m .wait => some (m.g, .emit m .copy)
  | .add g s d .wait => some (g, .add g s d .detach)
  | .erase g tgt .wait => some (g, .erase g tgt .detach)
  | .disc s k (.crit g .wait) => some (g, .disc s k (.crit g .detach))
  | .mov g' g .wait => some (g, .mov g' g .write)
  | _ => none

/-- Frames that are about to test `use_count()`, the signal, and the frame after that, depending on the outcome. -/
def Frame.tst (c : Bool) : Frame → Option (SigId × Frame)
  | .add g s d .detach => some (g, .add g s d (if c then .clone else .write))
  | .erase g tgt .detach => some (g, .erase g tgt (if c then .clone else .scan 0 0))
  | .disc s k (.crit g .detach) => some (g, .disc s k (.crit g (if c then .clone else .write)))
  | _ => none

/-- Frames that are about to clone the vector, the signal, and the frame after that. -/
def Frame.det : Frame → Option (SigId × Frame)
  | .add g s d .clone => some (g, .add g s d .write)
  | .erase g tgt .clone => some (g, .erase g tgt (.scan 0 0))
  | .disc s k (.crit g .clone) => some (g, .disc s k (.crit g .write))
  | _ => none

/-- The critical sections that allocate: the signal, and the listener being connected. -/
def Frame.allocs : Frame → Option (SigId × Option SlotId)
  | .add g s _ .clone => some (g, some s)
  | .add g s _ .write => some (g, some s)
  | .erase g _ .clone => some (g, none)
  | _ => none

theorem Frame.allocs_inv {f : Frame} {g : SigId} {s : Option SlotId} (h : f.allocs = some (g, s)) :
    (∃ s' dest pc, f = .add g s' dest pc ∧ s = some s') ∨ (∃ tgt, f = .erase g tgt .clone ∧ s = none) := by
  unfold Frame.allocs at h
  split at h
  · injection h with h; injection h with h1 h2; subst h1 h2; exact .inl ⟨_, _, _, rfl, rfl⟩
  · injection h with h; injection h with h1 h2; subst h1 h2; exact .inl ⟨_, _, _, rfl, rfl⟩
  · injection h with h; injection h with h1 h2; subst h1 h2; exact .inr ⟨_, rfl, rfl⟩
  · cases h

theorem Frame.allocs_locks {f : Frame} {g : SigId} {s : Option SlotId} (h : f.allocs = some (g, s)) : f.locks = some g := by
  unfold Frame.allocs at h
  split at h
  · injection h with h; injection h with h1 h2; subst h1; rfl
  · injection h with h; injection h with h1 h2; subst h1; rfl
  · injection h with h; injection h with h1 h2; subst h1; rfl
  · cases h

/-- What a step can do. -/
inductive StepR (E : Env) (w : World) (t : Tid) : World → Prop where
  | ub (u : UB) : StepR E w t (w.setUB u)
  -- user code that touches only handles, flags and objects
  | hand (cv sv bv) (hu : userCtx (w.stacks t) = true) (hs : w.heldSub cv sv bv) :
      StepR E w t (w.setH cv sv bv)
  | flag (s : SlotId) (c : Bool) (cv sv bv) (hu : userCtx (w.stacks t) = true)
      (hs : w.heldSub cv sv bv) (hh : w.held s) (ha : w.slotAlive s = true) :
      StepR E w t (((w.setH cv sv bv).setBlocked s c).emitEv (.blockSet s c))
  | objs (f : ObjId → Nat) (n : Nat) (hu : userCtx (w.stacks t) = true) (hn : w.nObjs ≤ n)
      (hd : ∀ o, o < w.nObjs → w.objAlive o = false → f o = 0) :
      StepR E w t { w with objs := f, nObjs := n }
  | pins (ps : List SlotId) (hu : userCtx (w.stacks t) = true)
      (hp : ∀ s ∈ ps, s ∈ w.pins ∨ (w.held s ∧ w.slotAlive s = true)) : StepR E w t { w with pins := ps }
  | newSig (v : Bool) (hu : userCtx (w.stacks t) = true) :
      StepR E w t
        { w with
          sigs := upd w.sigs w.nSigs ⟨some w.nBlks, none, false, true, v⟩
          nSigs := w.nSigs + 1
          blks := upd w.blks w.nBlks []
          nBlks := w.nBlks + 1 }
  | destroy (g : SigId) (hu : userCtx (w.stacks t) = true) (hg : g < w.nSigs)
      (ha : (w.sigs g).alive = true) (hm : (w.sigs g).mutex = none) :
      StepR E w t ({ w with
          sigs := upd w.sigs g { w.sigs g with alive := false, list := none } }.emitEv (.destroyed g))
  | movStart (g : SigId) (hu : userCtx (w.stacks t) = true) (hg : g < w.nSigs)
      (ha : (w.sigs g).alive = true) :
      StepR E w t (World.setStack
        { w with
          sigs := upd w.sigs w.nSigs ⟨none, none, (w.sigs g).sblocked, false, (w.sigs g).isVoid⟩
          nSigs := w.nSigs + 1 } t (.mov w.nSigs g .wait :: w.stacks t))
  | connStart (g : SigId) (fn : Callable) (consume : List Bool) (conn blk : Bool) (dest : Dest)
      (hu : userCtx (w.stacks t) = true) (hg : g < w.nSigs)
      (ho : ∀ o, fn.obj? = some o → o < w.nObjs) :
      StepR E w t ((World.setStack
        { w with
          slots := upd w.slots w.nSlots ⟨fn, consume, 0, conn, blk, g⟩
          nSlots := w.nSlots + 1 } t (.add g w.nSlots dest .wait :: w.stacks t)).emitEv
            (.created g w.nSlots conn blk))
  | emitStart (g : SigId) (comb : Comb) (args : List Arg)
      (hu : userCtx (w.stacks t) = true) (hg : g < w.nSigs) :
      StepR E w t ((World.setStack { w with nEm := w.nEm + 1 } t
        (.emit ⟨w.nEm, g, comb, args⟩ .start :: w.stacks t)).emitEv (.began t ⟨w.nEm, g, comb, args⟩))
  | eraseStart (g : SigId) (tgt : Option Callable)
      (hu : userCtx (w.stacks t) = true) (hg : g < w.nSigs) :
      StepR E w t (w.setStack t (.erase g tgt .wait :: w.stacks t))
  | discPush (s : SlotId) (k : DiscK) (cv sv bv) (hu : userCtx (w.stacks t) = true)
      (hs : w.heldSub cv sv bv) (hh : w.held s) (ha : w.slotAlive s = true) :
      StepR E w t ((w.setH cv sv bv).setStack t (.disc s k .exch :: w.stacks t))
  | discFail (h : Option SlotId) (cv sv bv) (hu : userCtx (w.stacks t) = true)
      (hs : w.heldSub cv sv bv) :
      StepR E w t ((w.setH cv sv bv).emitEv (.discRet t h false))
  -- locking and copy-on-write
  | acq (f f' : Frame) (rest : List Frame) (g : SigId) (hst : w.stacks t = f :: rest)
      (hf : f.acq = some (g, f')) (ha : (w.sigs g).alive = true) (hm : (w.sigs g).mutex = none) :
      StepR E w t ((w.setMutex g (some t)).setStack t (f' :: rest))
  | tst (f f' : Frame) (rest : List Frame) (g : SigId) (b : BlkId) (hst : w.stacks t = f :: rest)
      (hf : f.tst (w.shared g b) = some (g, f')) (hl : (w.sigs g).list = some b) :
      StepR E w t (w.setStack t (f' :: rest))
  | det (f f' : Frame) (rest : List Frame) (g : SigId) (b : BlkId) (hst : w.stacks t = f :: rest)
      (hf : f.det = some (g, f')) (hl : (w.sigs g).list = some b) :
      StepR E w t ((cloneBlk w g b).setStack t (f' :: rest))
  -- signal::operator()
  | emSupp (m : Em) (rest : List Frame) (hst : w.stacks t = .emit m .start :: rest)
      (ha : (w.sigs m.g).alive = true) (hb : (w.sigs m.g).sblocked = true) :
      StepR E w t ((w.setStack t rest).emitEv (.suppressed m.e))
  | emPass (m : Em) (rest : List Frame) (hst : w.stacks t = .emit m .start :: rest)
      (ha : (w.sigs m.g).alive = true) (hb : (w.sigs m.g).sblocked = false) :
      StepR E w t (w.setStack t (.emit m .wait :: rest))
  | emCopy (m : Em) (rest : List Frame) (hst : w.stacks t = .emit m .copy :: rest) :
      StepR E w t (w.setStack t (.emit m (.unlock (w.sigs m.g).list) :: rest))
  | emSnap (m : Em) (b : BlkId) (rest : List Frame)
      (hst : w.stacks t = .emit m (.unlock (some b)) :: rest) :
      StepR E w t (((w.setMutex m.g none).setStack t
        (.emit m (.iter b 0 none) :: rest)).emitEv (.snap m (w.blks b)))
  | emCall (m : Em) (b : BlkId) (pos pos' : Nat) (acc : Option Val) (s : SlotId) (rest : List Frame)
      (hst : w.stacks t = .emit m (.iter b pos acc) :: rest)
      (hp : m.comb = .lastValue → pos' = pos) (hs : (w.blks b)[pos']? = some s) :
      StepR E w t ((w.setStack t (.call s .chkBlocked :: .emit m (.iter b pos' acc) :: rest)).emitEv
        (.visit m.e pos' s))
  | emDone (m : Em) (b : BlkId) (pos : Nat) (acc r : Option Val) (rest : List Frame)
      (hst : w.stacks t = .emit m (.iter b pos acc) :: rest)
      (hp : m.comb = .lastValue → (w.blks b)[pos]? = none ∧ r = acc) :
      StepR E w t ((w.setStack t rest).emitEv (.done m.e r))
  | combThrow (m : Em) (b : BlkId) (pos : Nat) (acc : Option Val) (rest : List Frame)
      (hst : w.stacks t = .emit m (.iter b pos acc) :: rest) (hc : m.comb = .custom) :
      StepR E w t ((w.setStack t rest).emitEv (.aborted m.e))
  -- slot::operator()
  | callUnblk (s : SlotId) (m : Em) (b : BlkId) (pos : Nat) (acc : Option Val) (rest : List Frame)
      (hst : w.stacks t = .call s .chkBlocked :: .emit m (.iter b pos acc) :: rest)
      (hb : (w.slots s).blocked = false) :
      StepR E w t (w.setStack t (.call s .chkConnected :: .emit m (.iter b pos acc) :: rest))
  | callConn (s : SlotId) (m : Em) (b : BlkId) (pos : Nat) (acc : Option Val) (rest : List Frame)
      (hst : w.stacks t = .call s .chkConnected :: .emit m (.iter b pos acc) :: rest)
      (hc : w.slotConnected s = true) (ho : (w.slots s).fn.obj? = none) :
      StepR E w t (w.setStack t (.call s .invoke :: .emit m (.iter b pos acc) :: rest))
  | callConnT (s : SlotId) (m : Em) (b : BlkId) (pos : Nat) (acc : Option Val) (rest : List Frame)
      (o : ObjId) (hst : w.stacks t = .call s .chkConnected :: .emit m (.iter b pos acc) :: rest)
      (hc : w.slotConnected s = true) (ho : (w.slots s).fn.obj? = some o) :
      StepR E w t (w.setStack t (.call s (.lockObj o) :: .emit m (.iter b pos acc) :: rest))
  | callLock (s : SlotId) (m : Em) (b : BlkId) (pos : Nat) (acc : Option Val) (rest : List Frame)
      (o : ObjId) (hst : w.stacks t = .call s (.lockObj o) :: .emit m (.iter b pos acc) :: rest)
      (ho : w.objAlive o = true) :
      StepR E w t (w.setStack t (.call s (.recheck o) :: .emit m (.iter b pos acc) :: rest))
  | callSkip (s : SlotId) (pc : CallPc) (why : Why) (m : Em) (b : BlkId) (pos : Nat) (acc : Option Val)
      (rest : List Frame)
      (hst : w.stacks t = .call s pc :: .emit m (.iter b pos acc) :: rest)
      (hpc : (pc = .chkBlocked ∧ why = .blocked ∧ (w.slots s).blocked = true) ∨
        (pc = .chkConnected ∧ why = .notConnected ∧ w.slotConnected s = false) ∨
        (∃ o, pc = .recheck o ∧ why = .notConnected ∧ w.slotConnected s = false)) :
      StepR E w t ((w.setStack t (.emit m (deliver m.comb b pos acc none) :: rest)).emitEv
        (.skip m.e s why))
  | callExpired (s : SlotId) (o : ObjId) (m : Em) (b : BlkId) (pos : Nat) (acc : Option Val)
      (rest : List Frame)
      (hst : w.stacks t = .call s (.lockObj o) :: .emit m (.iter b pos acc) :: rest)
      (ho : w.objAlive o = false) :
      StepR E w t (((w.setConnected s false).setStack t
        (.emit m (deliver m.comb b pos acc none) :: rest)).emitEv (.skip m.e s .expired))
  | callEnter (s : SlotId) (pc : CallPc) (o : Option ObjId) (m : Em) (b : BlkId) (pos : Nat)
      (acc : Option Val) (rest : List Frame)
      (hst : w.stacks t = .call s pc :: .emit m (.iter b pos acc) :: rest)
      (hpc : (pc = .invoke ∧ o = none) ∨ ∃ x, pc = .recheck x ∧ o = some x ∧ w.slotConnected s = true) :
      StepR E w t ((w.setStack t (.call s (.body o) ::
        .emit { m with args := passArgs (w.slots s).consume m.args } (.iter b pos acc) :: rest)).emitEv
          (.enter m.e s m.args))
  | callRet (s : SlotId) (o : Option ObjId) (v : Val) (r : Option Val) (m : Em) (b : BlkId) (pos : Nat)
      (acc : Option Val) (rest : List Frame)
      (hst : w.stacks t = .call s (.body o) :: .emit m (.iter b pos acc) :: rest)
      (hr : r = if (w.sigs m.g).isVoid then none else some v) :
      StepR E w t ((w.setStack t (.emit m (deliver m.comb b pos acc r) :: rest)).emitEv (.exit m.e s r))
  | callCatch (s : SlotId) (o : Option ObjId) (m : Em) (b : BlkId) (pos : Nat)
      (acc : Option Val) (rest : List Frame)
      (hst : w.stacks t = .call s (.body o) :: .emit m (.iter b pos acc) :: rest)
      (hc : m.comb = .custom) :
      StepR E w t ((w.setStack t (.emit m (.iter b pos none) :: rest)).emitEv (.threw m.e s))
  | callThrow (s : SlotId) (o : Option ObjId) (m : Em) (b : BlkId) (pos : Nat)
      (acc : Option Val) (rest : List Frame)
      (hst : w.stacks t = .call s (.body o) :: .emit m (.iter b pos acc) :: rest) :
      StepR E w t (((w.setStack t rest).emitEv (.threw m.e s)).emitEv (.aborted m.e))
  -- add_slot
  | addWrite (g : SigId) (s : SlotId) (dest : Dest) (rest : List Frame) (b : BlkId)
      (hst : w.stacks t = .add g s dest .write :: rest) (hl : (w.sigs g).list = some b) :
      StepR E w t ((((w.setIndex s (w.blks b).length).setBlk b (w.blks b ++ [s])).setStack t
            (.add g s dest .unlock :: rest)).emitEv (.added g s))
  | addUnlock (g : SigId) (s : SlotId) (dest : Dest) (rest : List Frame) (cv sv bv)
      (hst : w.stacks t = .add g s dest .unlock :: rest)
      (hs : ∀ s', (w.setH cv sv bv).held s' → w.held s' ∨ s' = s) :
      StepR E w t ((((w.setMutex g none).setStack t rest).setH cv sv bv).emitEv (.connRet t g s))
  -- erase
  | eraseEnd (g : SigId) (tgt : Option Callable) (i cnt : Nat) (rest : List Frame) (b : BlkId)
      (hst : w.stacks t = .erase g tgt (.scan i cnt) :: rest) (hl : (w.sigs g).list = some b)
      (hi : (w.blks b)[i]? = none) :
      StepR E w t (w.setStack t (.erase g tgt (.unlock (some cnt)) :: rest))
  | eraseThrow (g : SigId) (tgt : Option Callable) (i cnt : Nat) (rest : List Frame) (b : BlkId)
      (s : SlotId)
      (hst : w.stacks t = .erase g tgt (.scan i cnt) :: rest) (hl : (w.sigs g).list = some b)
      (hi : (w.blks b)[i]? = some s) (he : slotEq E (some (w.slots s).fn) tgt = none) :
      StepR E w t (w.setStack t (.erase g tgt (.unlock none) :: rest))
  | eraseHit (g : SigId) (tgt : Option Callable) (i cnt : Nat) (rest : List Frame) (b : BlkId)
      (s : SlotId)
      (hst : w.stacks t = .erase g tgt (.scan i cnt) :: rest) (hl : (w.sigs g).list = some b)
      (hi : (w.blks b)[i]? = some s) (he : slotEq E (some (w.slots s).fn) tgt = some true) :
      StepR E w t (((removeAt w b i).setStack t (.erase g tgt (.scan i (cnt + 1)) :: rest)).emitEv
                    (.erased g s))
  | eraseMiss (g : SigId) (tgt : Option Callable) (i cnt : Nat) (rest : List Frame) (b : BlkId)
      (s : SlotId)
      (hst : w.stacks t = .erase g tgt (.scan i cnt) :: rest) (hl : (w.sigs g).list = some b)
      (hi : (w.blks b)[i]? = some s) (he : slotEq E (some (w.slots s).fn) tgt = some false) :
      StepR E w t (w.setStack t (.erase g tgt (.scan (i + 1) cnt) :: rest))
  | eraseUnlock (g : SigId) (tgt : Option Callable) (r : Option Nat) (rest : List Frame)
      (hst : w.stacks t = .erase g tgt (.unlock r) :: rest) :
      StepR E w t (((w.setMutex g none).setStack t rest).emitEv (.eraseRet t g tgt r))
  -- slot::disconnect, remove_slot
  | exchTrue (s : SlotId) (k : DiscK) (rest : List Frame)
      (hst : w.stacks t = .disc s k .exch :: rest) (hc : (w.slots s).connected = true) :
      StepR E w t (((w.setConnected s false).setStack t
          (.disc s k (.crit (w.slots s).owner .wait) :: rest)).emitEv (.exch s true))
  | exchFalse (s : SlotId) (k : DiscK) (rest : List Frame) (cv sv bv)
      (hst : w.stacks t = .disc s k .exch :: rest) (hc : (w.slots s).connected = false)
      (hs : w.heldSub cv sv bv) :
      StepR E w t ((((w.setStack t rest).setH cv sv bv).emitEv (.exch s false)).emitEv
        (.discRet t (some s) false))
  | discWrite (s v : SlotId) (k : DiscK) (rest : List Frame) (g : SigId) (b : BlkId)
      (hst : w.stacks t = .disc s k (.crit g .write) :: rest) (hl : (w.sigs g).list = some b)
      (hi : (w.blks b)[(w.slots s).index]? = some v) :
      StepR E w t (((removeAt w b (w.slots s).index).setStack t
                (.disc s k (.crit g .unlock) :: rest)).emitEv (.removed g s v))
  | discMiss (s : SlotId) (k : DiscK) (rest : List Frame) (g : SigId) (b : BlkId)
      (hst : w.stacks t = .disc s k (.crit g .write) :: rest) (hl : (w.sigs g).list = some b)
      (hi : (w.blks b)[(w.slots s).index]? = none) :
      StepR E w t (w.setStack t (.disc s k (.crit g .unlock) :: rest))
  | discUnlock (s : SlotId) (k : DiscK) (rest : List Frame) (g : SigId)
      (hst : w.stacks t = .disc s k (.crit g .unlock) :: rest) :
      StepR E w t ((w.setMutex g none).setStack t (.disc s k (.drop g) :: rest))
  | discDrop (s : SlotId) (k : DiscK) (rest : List Frame) (g : SigId) (cv sv bv)
      (hst : w.stacks t = .disc s k (.drop g) :: rest) (hs : w.heldSub cv sv bv) :
      StepR E w t (((w.setStack t rest).setH cv sv bv).emitEv (.discRet t (some s) true))
  -- move constructor
  | movWrite (g' g : SigId) (rest : List Frame) (hst : w.stacks t = .mov g' g .write :: rest) :
      StepR E w t ((((w.setList g' (w.sigs g).list).setList g none).setStack t
        (.mov g' g .unlock :: rest)).emitEv (.moved g g'))
  | movUnlock (g' g : SigId) (rest : List Frame) (hst : w.stacks t = .mov g' g .unlock :: rest) :
      StepR E w t (World.mk w.slots w.nSlots w.blks w.nBlks
        (upd (upd w.sigs g { w.sigs g with mutex := none }) g'
          { upd w.sigs g { w.sigs g with mutex := none } g' with alive := true })
        w.nSigs w.objs w.nObjs (upd w.stacks t rest) w.nThr w.nEm w.cv w.sv w.bv w.pins w.ub w.log)
  -- bad_alloc
  | fail (f : Frame) (rest : List Frame) (g : SigId) (s : Option SlotId) (hst : w.stacks t = f :: rest)
      (hf : f.allocs = some (g, s)) :
      StepR E w t (((w.setMutex g none).setStack t rest).emitEv (.failed t g s))

section helpers

theorem setH_self (w : World) : w.setH w.cv w.sv w.bv = w := rfl

theorem heldSub_self (w : World) : w.heldSub w.cv w.sv w.bv := fun _ h => h

theorem heldSub_of {w : World} {cv sv bv}
    (h1 : ∀ x s, cv x = some s → w.held s)
    (h2 : ∀ x s, sv x = some (some s) → w.held s)
    (h3 : ∀ x s, bv x = some (some s) → w.held s) : w.heldSub cv sv bv := by
  rintro s (⟨x, h⟩ | ⟨x, h⟩ | ⟨x, h⟩ | h)
  · exact h1 x s h
  · exact h2 x s h
  · exact h3 x s h
  · exact .inr (.inr (.inr h))

theorem held_cv {w : World} {x s} (h : w.cv x = some s) : w.held s := .inl ⟨x, h⟩
theorem held_sv {w : World} {x s} (h : w.sv x = some (some s)) : w.held s := .inr (.inl ⟨x, h⟩)
theorem held_bv {w : World} {x s} (h : w.bv x = some (some s)) : w.held s := .inr (.inr (.inl ⟨x, h⟩))

theorem held_hval {w : World} {h : Handle} {s} (hh : w.hval h = some s) : w.held s := by
  match h, hh with
  | .conn x, hh => exact held_cv hh
  | .scoped x, hh =>
    simp only [World.hval] at hh
    cases hx : w.sv x with
    | none => rw [hx] at hh; simp at hh
    | some v => rw [hx] at hh; simp at hh; subst hh; exact held_sv hx

theorem held_pval {w : World} {h : Handle ⊕ Var} {s} (hh : w.pval h = some s) : w.held s := by
  match h, hh with
  | .inl h, hh => exact held_hval hh
  | .inr x, hh =>
    simp only [World.pval] at hh
    cases hx : w.bv x with
    | none => rw [hx] at hh; simp at hh
    | some v => rw [hx] at hh; simp at hh; subst hh; exact held_bv hx

theorem upd_apply {α : Type} (f : Nat → α) (a : Nat) (v : α) (x : Nat) :
    upd f a v x = if x = a then v else f x := rfl

theorem acquire_inv {E : Env} {w w' : World} {t : Tid} {g : SigId} {f f' : Frame} {rest : List Frame}
    (hst : w.stacks t = f :: rest) (hf : f.acq = some (g, f'))
    (h : acquire w t g (f' :: rest) = some w') : StepR E w t w' := by
  unfold acquire at h
  split at h
  · injection h with h; subst h; exact .ub _
  · rename_i ha
    split at h
    · cases h
    · rename_i hm
      injection h with h; subst h
      exact .acq f f' rest g hst hf (by simpa using ha) hm

theorem discReturn_sub {w : World} {x y : Var} :
    w.heldSub w.cv (upd (upd w.sv x (w.sv y)) y (some none)) w.bv := by
  refine heldSub_of (fun x s h => held_cv h) ?_ (fun x s h => held_bv h)
  intro z s h
  simp only [upd_apply] at h
  split at h
  · simp at h
  · split at h
    · exact held_sv h
    · exact held_sv h

theorem discReturn_inv {w w0 : World} {t : Tid} {rest : List Frame} {s : Option SlotId} {k : DiscK} {b : Bool}
    {P : World → Prop} (hh : w0.cv = w.cv ∧ w0.sv = w.sv ∧ w0.bv = w.bv)
    (h : ∀ cv sv bv, w.heldSub cv sv bv →
      P (((w0.setStack t rest).setH cv sv bv).emitEv (.discRet t s b))) :
    P (discReturn w0 t rest s k b) := by
  obtain ⟨h1, h2, h3⟩ := hh
  unfold discReturn
  cases k with
  | ret =>
    have := h w.cv w.sv w.bv (heldSub_self w)
    rw [← h1, ← h2, ← h3] at this
    exact this
  | assign x y =>
    simp only
    split
    · have := h w.cv w.sv w.bv (heldSub_self w)
      rw [← h1, ← h2, ← h3] at this
      exact this
    · have := h w.cv (upd (upd w.sv x (w.sv y)) y (some none)) w.bv discReturn_sub
      rw [← h1, ← h2, ← h3] at this
      exact this

theorem runEmit_inv {E : Env} {w w' : World} {t : Tid} {rest : List Frame} {m : Em} {pc : EmitPc}
    (hst : w.stacks t = .emit m pc :: rest)
    (h : runEmit w t rest m pc = some w') : StepR E w t w' := by
  unfold runEmit at h
  split at h
  · split at h
    · injection h with h; subst h; exact .ub _
    · rename_i ha
      simp at ha
      split at h
      · injection h with h; subst h; exact .emSupp m rest hst ha (by assumption)
      · rename_i hb
        injection h with h; subst h; exact .emPass m rest hst ha (by simpa using hb)
  · exact acquire_inv hst rfl h
  · injection h with h; subst h; exact .emCopy m rest hst
  · injection h with h; subst h; exact .ub _
  · injection h with h; subst h; exact .emSnap m _ rest hst
  · split at h
    · cases h
    · rename_i hm
      split at h
      · injection h with h; subst h
        exact .emCall m _ _ _ _ _ rest hst (fun _ => rfl) (by assumption)
      · injection h with h; subst h
        exact .emDone m _ _ _ _ rest hst (fun _ => ⟨by assumption, rfl⟩)

theorem runCall_inv {E : Env} {w w' : World} {t : Tid} {rest : List Frame} {m : Em} {s b pos acc} {pc : CallPc}
    (hst : w.stacks t = .call s pc :: .emit m (.iter b pos acc) :: rest)
    (h : runCall w t s m b pos acc rest pc = some w') : StepR E w t w' := by
  unfold runCall at h
  split at h
  · split at h <;> rename_i hb <;> injection h with h <;> subst h
    · exact .callSkip s _ _ m b pos acc rest hst (.inl ⟨rfl, rfl, hb⟩)
    · exact .callUnblk s m b pos acc rest hst (by simpa using hb)
  · split at h
    · rename_i hc
      split at h <;> injection h with h <;> subst h
      · exact .callConnT s m b pos acc rest _ hst hc (by assumption)
      · exact .callConn s m b pos acc rest hst hc (by assumption)
    · rename_i hc
      injection h with h; subst h
      exact .callSkip s _ _ m b pos acc rest hst (.inr (.inl ⟨rfl, rfl, by simpa using hc⟩))
  · injection h with h; subst h
    exact .callEnter s _ _ m b pos acc rest hst (.inl ⟨rfl, rfl⟩)
  · split at h <;> rename_i ho <;> injection h with h <;> subst h
    · exact .callLock s m b pos acc rest _ hst ho
    · exact .callExpired s _ m b pos acc rest hst (by simpa using ho)
  · split at h <;> rename_i hc <;> injection h with h <;> subst h
    · exact .callEnter s _ _ m b pos acc rest hst (.inr ⟨_, rfl, rfl, hc⟩)
    · exact .callSkip s _ _ m b pos acc rest hst (.inr (.inr ⟨_, rfl, rfl, by simpa using hc⟩))
  · cases h

theorem runAdd_inv {E : Env} {w w' : World} {t : Tid} {rest : List Frame} {g s dest} {pc : CritPc}
    (hst : w.stacks t = .add g s dest pc :: rest)
    (h : runAdd w t rest g s dest pc = some w') : StepR E w t w' := by
  unfold runAdd at h
  split at h
  · exact acquire_inv hst rfl h
  · split at h <;> injection h with h <;> subst h
    · exact .ub _
    · exact .tst _ _ rest g _ hst rfl (by assumption)
  · split at h <;> injection h with h <;> subst h
    · exact .ub _
    · exact .det _ _ rest g _ hst rfl (by assumption)
  · split at h <;> injection h with h <;> subst h
    · exact .ub _
    · exact .addWrite g s dest rest _ hst (by assumption)
  · simp only at h
    split at h <;> injection h with h <;> subst h
    · rename_i x
      refine .addUnlock g s _ rest (upd w.cv x (some s)) w.sv w.bv hst ?_
      rintro s' (⟨z, h⟩ | ⟨z, h⟩ | ⟨z, h⟩ | h)
      · simp only [World.setH, upd_apply] at h
        split at h
        · injection h with h; exact .inr h.symm
        · exact .inl (held_cv h)
      · exact .inl (held_sv h)
      · exact .inl (held_bv h)
      · exact .inl (.inr (.inr (.inr h)))
    · rename_i x
      refine .addUnlock g s _ rest w.cv (upd w.sv x (some (some s))) w.bv hst ?_
      rintro s' (⟨z, h⟩ | ⟨z, h⟩ | ⟨z, h⟩ | h)
      · exact .inl (held_cv h)
      · simp only [World.setH, upd_apply] at h
        split at h
        · injection h with h; injection h with h; exact .inr h.symm
        · exact .inl (held_sv h)
      · exact .inl (held_bv h)
      · exact .inl (.inr (.inr (.inr h)))

theorem runErase_inv {E : Env} {w w' : World} {t : Tid} {rest : List Frame} {g tgt} {pc : ErasePc}
    (hst : w.stacks t = .erase g tgt pc :: rest)
    (h : runErase E w t rest g tgt pc = some w') : StepR E w t w' := by
  unfold runErase at h
  split at h
  · exact acquire_inv hst rfl h
  · split at h <;> injection h with h <;> subst h
    · exact .ub _
    · exact .tst _ _ rest g _ hst rfl (by assumption)
  · split at h <;> injection h with h <;> subst h
    · exact .ub _
    · exact .det _ _ rest g _ hst rfl (by assumption)
  · split at h
    · injection h with h; subst h; exact .ub _
    · split at h
      · injection h with h; subst h
        exact .eraseEnd g tgt _ _ rest _ hst (by assumption) (by assumption)
      · split at h <;> injection h with h <;> subst h
        · exact .eraseThrow g tgt _ _ rest _ _ hst (by assumption) (by assumption) (by assumption)
        · exact .eraseHit g tgt _ _ rest _ _ hst (by assumption) (by assumption) (by assumption)
        · exact .eraseMiss g tgt _ _ rest _ _ hst (by assumption) (by assumption) (by assumption)
  · injection h with h; subst h; exact .eraseUnlock g tgt _ rest hst

theorem runDisc_inv {E : Env} {w w' : World} {t : Tid} {rest : List Frame} {s k} {pc : DiscPc}
    (hst : w.stacks t = .disc s k pc :: rest)
    (h : runDisc w t rest s k pc = some w') : StepR E w t w' := by
  unfold runDisc at h
  split at h
  · split at h
    · injection h with h; subst h; exact .exchTrue s k rest hst (by assumption)
    · rename_i hc
      injection h with h; subst h
      refine discReturn_inv (w := w) (P := StepR E w t) ⟨rfl, rfl, rfl⟩ ?_
      intro cv sv bv hs
      exact .exchFalse s k rest cv sv bv hst (by simpa using hc) hs
  · exact acquire_inv hst rfl h
  · split at h <;> injection h with h <;> subst h
    · exact .ub _
    · exact .tst _ _ rest _ _ hst rfl (by assumption)
  · split at h <;> injection h with h <;> subst h
    · exact .ub _
    · exact .det _ _ rest _ _ hst rfl (by assumption)
  · split at h
    · injection h with h; subst h; exact .ub _
    · split at h <;> injection h with h <;> subst h
      · exact .discWrite s _ k rest _ _ hst (by assumption) (by assumption)
      · exact .discMiss s k rest _ _ hst (by assumption) (by assumption)
  · injection h with h; subst h; exact .discUnlock s k rest _ hst
  · injection h with h; subst h
    refine discReturn_inv (w := w) (P := StepR E w t) ⟨rfl, rfl, rfl⟩ ?_
    intro cv sv bv hs
    exact .discDrop s k rest _ cv sv bv hst hs

theorem runMov_inv {E : Env} {w w' : World} {t : Tid} {rest : List Frame} {g' g} {pc : MovPc}
    (hst : w.stacks t = .mov g' g pc :: rest)
    (h : runMov w t rest g' g pc = some w') : StepR E w t w' := by
  unfold runMov at h
  split at h
  · exact acquire_inv hst rfl h
  · injection h with h; subst h; exact .movWrite g' g rest hst
  · injection h with h; subst h; exact .movUnlock g' g rest hst

theorem runTop_inv {E : Env} {w w' : World} {t : Tid} (h : runTop E w t = some w') : StepR E w t w' := by
  unfold runTop at h
  split at h
  · exact runEmit_inv (by assumption) h
  · exact runCall_inv (by assumption) h
  · exact runAdd_inv (by assumption) h
  · exact runErase_inv (by assumption) h
  · exact runDisc_inv (by assumption) h
  · exact runMov_inv (by assumption) h
  · cases h

theorem discStart_inv {E : Env} {w : World} {t : Tid} {h : Option SlotId} {k : DiscK} {cv sv bv}
    (hu : userCtx (w.stacks t) = true) (hs : w.heldSub cv sv bv) (hh : ∀ s, h = some s → w.held s) :
    StepR E w t (discStart (w.setH cv sv bv) t h k) := by
  have fail : ∀ h', StepR E w t (discReturn (w.setH cv sv bv) t (w.stacks t) h' k false) := by
    intro h'
    refine discReturn_inv (w := w.setH cv sv bv) (P := StepR E w t) ⟨rfl, rfl, rfl⟩ ?_
    intro cv' sv' bv' hs'
    have := StepR.discFail (E := E) h' cv' sv' bv' hu (fun s hh => hs s (hs' s hh))
    have e : upd w.stacks t (w.stacks t) = w.stacks := by
      funext x; simp [upd]; intro h; rw [h]
    unfold World.setStack
    simp only [World.setH] at this ⊢
    rw [e]; exact this
  unfold discStart
  split
  · rename_i s
    split
    · rename_i ha
      exact .discPush s k cv sv bv hu hs (hh s rfl) ha
    · exact fail _
  · exact fail _

theorem connSetBlocked_inv {E : Env} {w : World} {t : Tid} {h : Option SlotId} {c : Bool} {cv sv bv}
    (hu : userCtx (w.stacks t) = true) (hs : w.heldSub cv sv bv) (hh : ∀ s, h = some s → w.held s) :
    StepR E w t ((w.setH cv sv bv).connSetBlocked h c) := by
  unfold World.connSetBlocked
  split
  · rename_i s
    split
    · rename_i ha
      exact .flag s c cv sv bv hu hs (hh s rfl) ha
    · exact .hand cv sv bv hu hs
  · exact .hand cv sv bv hu hs

theorem connSetBlocked_setH (w : World) (h : Option SlotId) (c : Bool) (cv sv bv) :
    (w.connSetBlocked h c).setH cv sv bv = (w.setH cv sv bv).connSetBlocked h c := by
  unfold World.connSetBlocked
  split
  · have : (w.setH cv sv bv).slotAlive = w.slotAlive := rfl
    rw [this]
    split <;> rfl
  · rfl

theorem held_pins {w : World} {ps : List SlotId} (hp : ∀ s ∈ ps, s ∈ w.pins ∨ (w.held s ∧ w.slotAlive s = true))
    {s : SlotId} (h : World.held { w with pins := ps } s) : w.held s := by
  rcases h with h | h | h | h
  · exact .inl h
  · exact .inr (.inl h)
  · exact .inr (.inr (.inl h))
  · rcases hp _ h with h | h
    · exact .inr (.inr (.inr h))
    · exact h.1

theorem objAlive_of_pos {w : World} {o : ObjId} (h : 0 < w.objs o) : w.objAlive o = true := by
  simp [World.objAlive, h]

theorem userOp_inv {E : Env} {w w' : World} {t : Tid} {a : Api} (hu : userCtx (w.stacks t) = true)
    (h : userOp w t a = some w') : StepR E w t w' := by
  have H : ∀ {cv sv bv}, w.heldSub cv sv bv → StepR E w t (w.setH cv sv bv) := fun hs => .hand _ _ _ hu hs
  cases a <;> simp only [userOp] at h
  case newSig v => injection h with h; subst h; exact .newSig v hu
  case destroySig g =>
    split at h
    · split at h
      · injection h with h; subst h; exact .ub _
      · split at h
        · injection h with h; subst h; exact .ub _
        · rename_i hg ha hm
          injection h with h; subst h
          exact .destroy g hu hg (by simpa using ha) (by simpa using hm)
    · cases h
  case moveSig g =>
    split at h
    · split at h
      · injection h with h; subst h; exact .ub _
      · rename_i hg ha
        injection h with h; subst h
        exact .movStart g hu hg (by simpa using ha)
    · cases h
  case moveAssignSig g g' =>
    split at h
    · injection h with h; subst h; exact .ub _
    · cases h
  case connect g fn consume conn blk dest =>
    split at h
    · injection h with h; subst h
      rename_i hg; exact .connStart g fn consume conn blk dest hu hg.1 hg.2
    · cases h
  case emit g comb args =>
    split at h
    · injection h with h; subst h
      exact .emitStart g comb args hu (by assumption)
    · cases h
  case sigDisconnect g tgt =>
    split at h
    · injection h with h; subst h
      exact .eraseStart g tgt hu (by assumption)
    · cases h
  case disconnect hd =>
    injection h with h; subst h
    exact discStart_inv hu (heldSub_self w) (fun s hs => held_hval hs)
  case block hd =>
    injection h with h; subst h
    exact connSetBlocked_inv hu (heldSub_self w) (fun s hs => held_hval hs)
  case unblock hd =>
    injection h with h; subst h
    exact connSetBlocked_inv hu (heldSub_self w) (fun s hs => held_hval hs)
  case connCopy x hd =>
    injection h with h; subst h
    refine H (cv := upd w.cv x (w.hval hd)) (sv := w.sv) (bv := w.bv)
      (heldSub_of ?_ (fun _ _ => held_sv) (fun _ _ => held_bv))
    intro z s hz
    simp only [upd_apply] at hz
    split at hz
    · exact held_hval hz
    · exact held_cv hz
  case connMove x hd =>
    split at h
    · injection h with h; subst h; exact H (heldSub_self w)
    · injection h with h; subst h
      match hd with
      | .conn y =>
        refine H (cv := upd (upd w.cv y none) x (w.cv y)) (sv := w.sv) (bv := w.bv)
          (heldSub_of ?_ (fun _ _ => held_sv) (fun _ _ => held_bv))
        intro z s hz
        simp only [upd_apply] at hz
        split at hz
        · exact held_cv hz
        · split at hz
          · cases hz
          · exact held_cv hz
      | .scoped y =>
        refine H (cv := upd w.cv x (w.hval (.scoped y))) (sv := upd w.sv y (some none)) (bv := w.bv)
          (heldSub_of ?_ ?_ (fun _ _ => held_bv))
        · intro z s hz
          simp only [upd_apply] at hz
          split at hz
          · exact held_hval hz
          · exact held_cv hz
        · intro z s hz
          simp only [upd_apply] at hz
          split at hz
          · simp at hz
          · exact held_sv hz
  case connSwap x y =>
    injection h with h; subst h
    refine H (cv := upd (upd w.cv x (w.cv y)) y (w.cv x)) (sv := w.sv) (bv := w.bv)
      (heldSub_of ?_ (fun _ _ => held_sv) (fun _ _ => held_bv))
    intro z s hz
    simp only [upd_apply] at hz
    split at hz
    · exact held_cv hz
    · split at hz <;> exact held_cv hz
  case scopedNew x =>
    split at h
    · injection h with h; subst h
      refine H (cv := w.cv) (sv := upd w.sv x (some none)) (bv := w.bv)
        (heldSub_of (fun _ _ => held_cv) ?_ (fun _ _ => held_bv))
      intro z s hz
      simp only [upd_apply] at hz
      split at hz
      · simp at hz
      · exact held_sv hz
    · cases h
  case scopedOfConn x y =>
    split at h
    · injection h with h; subst h
      refine H (cv := w.cv) (sv := upd w.sv x (some (w.cv y))) (bv := w.bv)
        (heldSub_of (fun _ _ => held_cv) ?_ (fun _ _ => held_bv))
      intro z s hz
      simp only [upd_apply] at hz
      split at hz
      · injection hz with hz; exact held_cv hz
      · exact held_sv hz
    · cases h
  case scopedMoveCtor x y =>
    split at h
    · rename_i v hx hy
      injection h with h; subst h
      refine H (cv := w.cv) (sv := upd (upd w.sv x (some v)) y (some none)) (bv := w.bv)
        (heldSub_of (fun _ _ => held_cv) ?_ (fun _ _ => held_bv))
      intro z s hz
      simp only [upd_apply] at hz
      split at hz
      · simp at hz
      · split at hz
        · injection hz with hz; subst hz; exact held_sv hy
        · exact held_sv hz
    · cases h
  case scopedMoveAssign x y =>
    split at h
    · rename_i v v' hx hy
      injection h with h; subst h
      exact discStart_inv hu (heldSub_self w) (fun s hs => held_sv (by rw [hx, hs]))
    · cases h
  case scopedRelease y x =>
    split at h
    · rename_i v hx
      injection h with h; subst h
      refine H (cv := upd w.cv y v) (sv := upd w.sv x (some none)) (bv := w.bv)
        (heldSub_of ?_ ?_ (fun _ _ => held_bv))
      · intro z s hz
        simp only [upd_apply] at hz
        split at hz
        · subst hz; exact held_sv hx
        · exact held_cv hz
      · intro z s hz
        simp only [upd_apply] at hz
        split at hz
        · simp at hz
        · exact held_sv hz
    · cases h
  case scopedSwap x y =>
    split at h
    · rename_i v v' hx hy
      injection h with h; subst h
      refine H (cv := w.cv) (sv := upd (upd w.sv x (some v')) y (some v)) (bv := w.bv)
        (heldSub_of (fun _ _ => held_cv) ?_ (fun _ _ => held_bv))
      intro z s hz
      simp only [upd_apply] at hz
      split at hz
      · injection hz with hz; subst hz; exact held_sv hx
      · split at hz
        · injection hz with hz; subst hz; exact held_sv hy
        · exact held_sv hz
    · cases h
  case scopedBase x hd =>
    split at h
    · injection h with h; subst h
      refine H (cv := w.cv) (sv := upd w.sv x (some (w.hval hd))) (bv := w.bv)
        (heldSub_of (fun _ _ => held_cv) ?_ (fun _ _ => held_bv))
      intro z s hz
      simp only [upd_apply] at hz
      split at hz
      · injection hz with hz; exact held_hval hz
      · exact held_sv hz
    · cases h
  case scopedDtor x =>
    split at h
    · rename_i v hx
      injection h with h; subst h
      refine discStart_inv (cv := w.cv) (sv := upd w.sv x none) (bv := w.bv) hu ?_
        (fun s hs => held_sv (by rw [hx, hs]))
      refine heldSub_of (fun _ _ => held_cv) ?_ (fun _ _ => held_bv)
      intro z s hz
      simp only [upd_apply] at hz
      split at hz
      · cases hz
      · exact held_sv hz
    · cases h
  case blockerNew x =>
    split at h
    · injection h with h; subst h
      refine H (cv := w.cv) (sv := w.sv) (bv := upd w.bv x (some none))
        (heldSub_of (fun _ _ => held_cv) (fun _ _ => held_sv) ?_)
      intro z s hz
      simp only [upd_apply] at hz
      split at hz
      · simp at hz
      · exact held_bv hz
    · cases h
  case blockerOf x hd =>
    split at h
    · injection h with h; subst h
      refine connSetBlocked_inv (cv := w.cv) (sv := w.sv) (bv := upd w.bv x (some (w.hval hd))) hu ?_
        (fun s hs => held_hval hs)
      refine heldSub_of (fun _ _ => held_cv) (fun _ _ => held_sv) ?_
      intro z s hz
      simp only [upd_apply] at hz
      split at hz
      · injection hz with hz; exact held_hval hz
      · exact held_bv hz
    · cases h
  case blockerMoveCtor x y =>
    split at h
    · rename_i v hx hy
      injection h with h; subst h
      refine H (cv := w.cv) (sv := w.sv) (bv := upd (upd w.bv x (some v)) y (some none))
        (heldSub_of (fun _ _ => held_cv) (fun _ _ => held_sv) ?_)
      intro z s hz
      simp only [upd_apply] at hz
      split at hz
      · simp at hz
      · split at hz
        · injection hz with hz; subst hz; exact held_bv hy
        · exact held_bv hz
    · cases h
  case blockerMoveAssign x y =>
    split at h
    · rename_i v v' hx hy
      split at h
      · injection h with h; subst h
        exact connSetBlocked_inv hu (heldSub_self w) (fun s hs => held_bv (by rw [hx, hs]))
      · injection h with h; subst h
        have e : ({ w.connSetBlocked v false with
            bv := upd (upd (w.connSetBlocked v false).bv x (some v')) y (some none) } : World) =
            (w.setH w.cv w.sv (upd (upd w.bv x (some v')) y (some none))).connSetBlocked v false := by
          rw [← connSetBlocked_setH]
          unfold World.connSetBlocked
          split
          · split <;> rfl
          · rfl
        rw [e]
        refine connSetBlocked_inv hu ?_ (fun s hs => held_bv (by rw [hx, hs]))
        refine heldSub_of (fun _ _ => held_cv) (fun _ _ => held_sv) ?_
        intro z s hz
        simp only [upd_apply] at hz
        split at hz
        · simp at hz
        · split at hz
          · injection hz with hz; subst hz; exact held_bv hy
          · exact held_bv hz
    · cases h
  case blockerSwap x y =>
    split at h
    · rename_i v v' hx hy
      injection h with h; subst h
      refine H (cv := w.cv) (sv := w.sv) (bv := upd (upd w.bv x (some v')) y (some v))
        (heldSub_of (fun _ _ => held_cv) (fun _ _ => held_sv) ?_)
      intro z s hz
      simp only [upd_apply] at hz
      split at hz
      · injection hz with hz; subst hz; exact held_bv hx
      · split at hz
        · injection hz with hz; subst hz; exact held_bv hy
        · exact held_bv hz
    · cases h
  case blockerDtor x =>
    split at h
    · rename_i v hx
      injection h with h; subst h
      refine connSetBlocked_inv (cv := w.cv) (sv := w.sv) (bv := upd w.bv x none) hu ?_
        (fun s hs => held_bv (by rw [hx, hs]))
      refine heldSub_of (fun _ _ => held_cv) (fun _ _ => held_sv) ?_
      intro z s hz
      simp only [upd_apply] at hz
      split at hz
      · cases hz
      · exact held_bv hz
    · cases h
  case objNew =>
    injection h with h; subst h
    refine .objs _ _ hu (by omega) ?_
    intro o ho hd
    simp only [upd_apply]
    rw [if_neg (by omega)]
    have := mt (objAlive_of_pos (w := w) (o := o)) (by simp [hd])
    omega
  case objShare o =>
    split at h
    · rename_i ha
      injection h with h; subst h
      refine .objs (upd w.objs o (w.objs o + 1)) w.nObjs hu (Nat.le_refl _) ?_
      intro o' ho hd
      simp only [upd_apply]
      split
      · rename_i e; subst e; rw [ha] at hd; cases hd
      · have := mt (objAlive_of_pos (w := w) (o := o')) (by simp [hd])
        omega
    · cases h
  case objDrop o =>
    split at h
    · rename_i ha
      injection h with h; subst h
      refine .objs (upd w.objs o (w.objs o - 1)) w.nObjs hu (Nat.le_refl _) ?_
      intro o' ho hd
      have := mt (objAlive_of_pos (w := w) (o := o')) (by simp [hd])
      simp only [upd_apply]
      split
      · rename_i e; subst e; omega
      · omega
    · cases h
  case pin hd =>
    injection h with h; subst h
    refine .pins _ hu fun s hp => ?_
    rcases List.mem_append.1 hp with hp | hp
    · rw [Option.mem_toList, Option.filter_eq_some_iff] at hp
      exact .inr ⟨held_pval hp.1, hp.2⟩
    · exact .inl hp
  case unpin s =>
    split at h
    · injection h with h; subst h
      exact .pins _ hu fun p hp => .inl (List.mem_of_mem_erase hp)
    · cases h
  case combDeref i =>
    split at h
    · rename_i e g args b p acc rest hst
      split at h
      · injection h with h; subst h
        exact .emCall _ b p i acc _ rest hst (by simp) (by assumption)
      · injection h with h; subst h; exact .ub _
    · cases h
  case combDone v =>
    split at h
    · rename_i hst
      injection h with h; subst h
      exact .emDone _ _ _ _ v _ hst (by simp)
    · cases h
  case combThrow =>
    split at h
    · rename_i hst
      injection h with h; subst h
      exact .combThrow _ _ _ _ _ hst rfl
    · cases h

theorem userRet_inv {E : Env} {w w' : World} {t : Tid} {v : Val} (h : userRet w t v = some w') :
    StepR E w t w' := by
  unfold userRet at h
  split at h
  · injection h with h; subst h
    exact .callRet _ _ v _ _ _ _ _ _ (by assumption) rfl
  · cases h

theorem userThrow_inv {E : Env} {w w' : World} {t : Tid} {c : Bool} (h : userThrow w t c = some w') :
    StepR E w t w' := by
  unfold userThrow at h
  split at h
  · split at h
    · split at h
      · rename_i hc
        injection h with h; subst h
        exact .callCatch _ _ _ _ _ _ _ (by assumption) hc
      · cases h
    · injection h with h; subst h
      exact .callThrow _ _ _ _ _ _ _ (by assumption)
  · cases h

end helpers

theorem allocFail_inv {E : Env} {w w' : World} {t : Tid} (h : allocFail w t = some w') : StepR E w t w' := by
  unfold allocFail at h
  split at h
  · rename_i hst
    split at h
    · injection h with h; subst h; exact .fail _ _ _ _ hst rfl
    · cases h
  · rename_i hst
    split at h
    · injection h with h; subst h; exact .fail _ _ _ _ hst rfl
    · cases h
  · rename_i hst
    split at h
    · injection h with h; subst h; exact .fail _ _ _ _ hst rfl
    · cases h
  · split at h
    · injection h with h; subst h; exact .ub _
    · cases h
  · cases h

theorem ctlFail_inv {E : Env} {w w' : World} {t : Tid} (h : ctlFail w t = some w') : StepR E w t w' := by
  unfold ctlFail at h
  split at h
  · split at h
    · injection h with h; subst h; exact .ub _
    · cases h
  · split at h
    · injection h with h; subst h; exact .ub _
    · cases h
  · split at h
    · injection h with h; subst h; exact .ub _
    · cases h
  · cases h

/-- Every step is one of the listed kinds, made by an existing thread of a world without UB. -/
theorem step_inv {E : Env} {w w' : World} {l : Label} (h : step E w l = some w') :
    w.ub = none ∧ l.tid < w.nThr ∧ StepR E w l.tid w' := by
  unfold step at h
  split at h
  · cases h
  · rename_i hu
    split at h
    · rename_i ht
      refine ⟨by simpa using hu, ht, ?_⟩
      split at h
      · exact runTop_inv h
      · split at h
        · exact userOp_inv (by assumption) h
        · cases h
      · exact userRet_inv h
      · exact userThrow_inv h
      · exact allocFail_inv h
      · exact ctlFail_inv h
    · cases h

end Verif
