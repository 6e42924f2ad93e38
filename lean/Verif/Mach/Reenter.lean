import Verif.Props.Progress

/-!
# Callbacks from inside the library

In `Machine` user code runs only where the library holds no mutex: in the main program, in listeners and in combiners. But
`signal::disconnect(f)` also runs user code under the mutex: the user's `operator==` (signals.hpp:425, called from 1836) and the
destructors of the callables that it removes (1840). `stepC` lets such code use the library, too. `Sim` relates this larger machine to the
one without callbacks: a callback is played by another thread.
-/

namespace Verif

/-! ### The larger machine -/

/-- Where `signal::disconnect(f)` runs user code while it holds the mutex: during the comparison with the listener at position `i` (1836), or
right before that the destruction of the listener that was there (1840). (`Machine` does a comparison and the removal after it in one step; a callback
comes before that. Nobody else can change the list or the positions meanwhile.) -/
def inErase : List Frame → Bool
  | .erase _ _ (.scan _ _) :: _ => true
  | _ => false

/-- The transition function, where user code also runs at the places `cb`. When the callback is over, the library goes on. -/
def stepC (cb : List Frame → Bool) (E : Env) (w : World) : Label → Option World
  | .call t a =>
      if w.ub.isSome then none
      else if t < w.nThr then
        if userCtx (w.stacks t) || cb (w.stacks t) then userOp w t a else none
      else none
  | l => step E w l

/-- Executions of the larger machine that use only labels that satisfy `P`. -/
inductive StepsC (cb : List Frame → Bool) (E : Env) (P : Label → Prop) : World → World → Prop where
  | refl (w) : StepsC cb E P w w
  | tail {w w' w''} (l : Label) : StepsC cb E P w w' → P l → stepC cb E w' l = some w'' → StepsC cb E P w w''

/-- Reachable with any number of threads, any user code, any schedule, and any callbacks at the places `cb`. -/
def ReachableC (cb : List Frame → Bool) (E : Env) (w : World) : Prop := ∃ n, StepsC cb E (fun _ => True) (World.init n) w

/-! ### What two worlds have in common if they differ in which thread does what -/

/-- The event, whichever thread did it. -/
def Event.anon : Event → Event
  | .connRet _ g s => .connRet 0 g s
  | .began _ m => .began 0 m
  | .eraseRet _ g tgt r => .eraseRet 0 g tgt r
  | .discRet _ s b => .discRet 0 s b
  | .failed _ g s => .failed 0 g s
  | e => e

/-- What happens next, on whichever thread. -/
def Label.anon : Label → Label
  | .run _ => .run 0
  | .call _ a => .call 0 a
  | .ret _ v => .ret 0 v
  | .throw _ c => .throw 0 c
  | .fail _ => .fail 0
  | .ctl _ => .ctl 0

/-- The signal, whoever holds its mutex. -/
def SigRec.anon (r : SigRec) : SigRec := { r with mutex := r.mutex.map fun _ => 0 }

/-- The world without the threads: all objects, handles and the history, but not who holds a mutex and who did what. -/
def World.anon (w : World) : World :=
  { w with sigs := fun g => (w.sigs g).anon, log := w.log.map Event.anon, stacks := fun _ => [], nThr := 0 }

theorem anon_iff {w v : World} : w.anon = v.anon ↔
    w.slots = v.slots ∧ w.nSlots = v.nSlots ∧ w.blks = v.blks ∧ w.nBlks = v.nBlks ∧ (∀ g, (w.sigs g).anon = (v.sigs g).anon) ∧
      w.nSigs = v.nSigs ∧ w.objs = v.objs ∧ w.nObjs = v.nObjs ∧ w.nEm = v.nEm ∧ w.cv = v.cv ∧ w.sv = v.sv ∧ w.bv = v.bv ∧
      w.pins = v.pins ∧ w.ub = v.ub ∧ w.log.map Event.anon = v.log.map Event.anon := by
  cases w; cases v
  simp only [World.anon, World.mk.injEq, funext_iff (f := fun g => SigRec.anon _), true_and]

/-- `x` is what the first world becomes and `y` what the second does, when thread `t` of the first and thread `u` of the second do the same;
`tail` is what the stack of `t` has below that of `u`. -/
def Match (w v : World) (t u : Tid) (tail : List Frame) : Option World → Option World → Prop
  | none, none => True
  | some w', some v' => (∃ st, v'.stacks = upd v.stacks u st ∧ w'.stacks = upd w.stacks t (st ++ tail)) ∧ w'.anon = v'.anon ∧
      w'.nThr = w.nThr ∧ v'.nThr = v.nThr
  | _, _ => False

/-- The two worlds agree before the step. -/
structure Agree (w v : World) (t u : Tid) (tail : List Frame) : Prop where
  anon : w.anon = v.anon
  any : ∀ p, w.anyFrame p = v.anyFrame p
  stk : w.stacks t = v.stacks u ++ tail

variable {E : Env} {w v : World} {t u : Tid} {tail rest : List Frame}

theorem upd_anon {f f' : SigId → SigRec} (h : ∀ g, (f g).anon = (f' g).anon) {a : SigId} {r r' : SigRec} (hr : r.anon = r'.anon) (g : SigId) :
    (upd f a r g).anon = (upd f' a r' g).anon := by
  unfold upd; split
  · exact hr
  · exact h g

namespace Agree

section
variable (A : Agree w v t u tail)
include A

theorem slots : v.slots = w.slots := (anon_iff.1 A.anon).1.symm
theorem nSlots : v.nSlots = w.nSlots := (anon_iff.1 A.anon).2.1.symm
theorem blks : v.blks = w.blks := (anon_iff.1 A.anon).2.2.1.symm
theorem nBlks : v.nBlks = w.nBlks := (anon_iff.1 A.anon).2.2.2.1.symm
theorem sigs : ∀ g, (w.sigs g).anon = (v.sigs g).anon := (anon_iff.1 A.anon).2.2.2.2.1
theorem nSigs : v.nSigs = w.nSigs := (anon_iff.1 A.anon).2.2.2.2.2.1.symm
theorem objs : v.objs = w.objs := (anon_iff.1 A.anon).2.2.2.2.2.2.1.symm
theorem nObjs : v.nObjs = w.nObjs := (anon_iff.1 A.anon).2.2.2.2.2.2.2.1.symm
theorem nEm : v.nEm = w.nEm := (anon_iff.1 A.anon).2.2.2.2.2.2.2.2.1.symm
theorem cv : v.cv = w.cv := (anon_iff.1 A.anon).2.2.2.2.2.2.2.2.2.1.symm
theorem sv : v.sv = w.sv := (anon_iff.1 A.anon).2.2.2.2.2.2.2.2.2.2.1.symm
theorem bv : v.bv = w.bv := (anon_iff.1 A.anon).2.2.2.2.2.2.2.2.2.2.2.1.symm
theorem pins : v.pins = w.pins := (anon_iff.1 A.anon).2.2.2.2.2.2.2.2.2.2.2.2.1.symm
theorem ub : v.ub = w.ub := (anon_iff.1 A.anon).2.2.2.2.2.2.2.2.2.2.2.2.2.1.symm
theorem log : w.log.map Event.anon = v.log.map Event.anon := (anon_iff.1 A.anon).2.2.2.2.2.2.2.2.2.2.2.2.2.2

theorem list (g : SigId) : (v.sigs g).list = (w.sigs g).list := (congrArg SigRec.list (A.sigs g)).symm
theorem alive (g : SigId) : (v.sigs g).alive = (w.sigs g).alive := (congrArg SigRec.alive (A.sigs g)).symm
theorem sblocked (g : SigId) : (v.sigs g).sblocked = (w.sigs g).sblocked := (congrArg SigRec.sblocked (A.sigs g)).symm
theorem isVoid (g : SigId) : (v.sigs g).isVoid = (w.sigs g).isVoid := (congrArg SigRec.isVoid (A.sigs g)).symm
theorem mutex (g : SigId) : (v.sigs g).mutex.isSome = (w.sigs g).mutex.isSome := by
  have := congrArg (·.mutex.isSome) (A.sigs g)
  simpa [SigRec.anon] using this.symm
theorem mutexMap (g : SigId) : (v.sigs g).mutex.map (fun _ => 0) = (w.sigs g).mutex.map fun _ => 0 :=
  (congrArg SigRec.mutex (A.sigs g)).symm

theorem shared (g : SigId) (b : BlkId) : v.shared g b = w.shared g b := by
  unfold World.shared; rw [← A.any, A.nSigs]; simp only [A.list]
theorem slotAlive (s : SlotId) : v.slotAlive s = w.slotAlive s := by
  unfold World.slotAlive; rw [← A.any, A.nSigs, A.blks, A.pins]; simp only [A.list]
theorem objAlive (o : ObjId) : v.objAlive o = w.objAlive o := by
  unfold World.objAlive; rw [← A.any, A.objs]
theorem slotConnected (s : SlotId) : v.slotConnected s = w.slotConnected s := by
  unfold World.slotConnected; simp only [A.slots, A.objAlive]
theorem hval (h : Handle) : v.hval h = w.hval h := by
  cases h <;> simp only [World.hval, A.cv, A.sv]
theorem pval (h : Handle ⊕ Var) : v.pval h = w.pval h := by
  cases h <;> simp only [World.pval, A.hval, A.bv]
end

/-- Both worlds change in the same way, and the stacks do not. -/
theorem keep (A : Agree w v t u tail) {w' v' : World} (h1 : w'.stacks = w.stacks) (h2 : v'.stacks = v.stacks) (h3 : w'.nThr = w.nThr)
    (h4 : v'.nThr = v.nThr) (h : w'.anon = v'.anon) : Match w v t u tail (some w') (some v') :=
  ⟨⟨v.stacks u, by rw [h2, upd_self], by rw [h1, ← A.stk, upd_self]⟩, h, h3, h4⟩

/-- Both worlds change in the same way, and the stacks get the same frames on top. -/
theorem push {w' v' : World} (st : List Frame) (h2 : v'.stacks = upd v.stacks u st)
    (h1 : w'.stacks = upd w.stacks t (st ++ tail)) (h3 : w'.nThr = w.nThr) (h4 : v'.nThr = v.nThr) (h : w'.anon = v'.anon) :
    Match w v t u tail (some w') (some v') := ⟨⟨st, h2, h1⟩, h, h3, h4⟩

/-- The two results are the same up to threads. -/
macro "same" A:term : tactic => `(tactic|
  (rw [anon_iff]
   simp only [World.setStack, World.emitEv, World.setUB, World.setMutex, World.setList, World.setBlk, World.setIndex, World.setConnected,
     World.setBlocked, Agree.slots $A, Agree.nSlots $A, Agree.blks $A, Agree.nBlks $A, Agree.nSigs $A, Agree.objs $A, Agree.nObjs $A,
     Agree.nEm $A, Agree.cv $A, Agree.sv $A, Agree.bv $A, Agree.pins $A, Agree.ub $A, Agree.list $A, Agree.alive $A, Agree.sblocked $A, Agree.isVoid $A,
     List.map_cons, Agree.log $A, Event.anon, and_self, true_and, and_true]
   try first
     | exact Agree.sigs $A
     | exact upd_anon (Agree.sigs $A) rfl
     | (refine upd_anon (Agree.sigs $A) ?_
        simp only [SigRec.anon, Agree.list $A, Agree.alive $A, Agree.sblocked $A, Agree.isVoid $A, Option.map_none, Option.map_some,
          Agree.mutexMap $A]
        done)
     | (intro g
        simp only [upd]
        repeat' split
        all_goals first
          | exact Agree.sigs $A _
          | (simp only [SigRec.anon, Agree.list $A, Agree.alive $A, Agree.sblocked $A, Agree.isVoid $A, Option.map_none, Option.map_some,
               Agree.mutexMap $A]
             done))))

theorem acquire (A : Agree w v t u tail) {g : SigId} {st : List Frame} :
    Match w v t u tail (acquire w t g (st ++ tail)) (acquire v u g st) := by
  have hm := A.mutex g
  unfold Verif.acquire
  rw [A.alive]
  split
  · exact A.keep rfl rfl rfl rfl (by same A)
  · cases h1 : (w.sigs g).mutex with
    | some _ =>
      rw [h1] at hm
      cases h2 : (v.sigs g).mutex with
      | some _ => trivial
      | none => rw [h2] at hm; cases hm
    | none =>
      rw [h1] at hm
      cases h2 : (v.sigs g).mutex with
      | some _ => rw [h2] at hm; cases hm
      | none => exact push st rfl rfl rfl rfl (by same A)

/-- A step that ends in undefined behaviour. -/
theorem bad (A : Agree w v t u tail) (x : UB) : Match w v t u tail (some (w.setUB x)) (some (v.setUB x)) :=
  A.keep rfl rfl rfl rfl (by same A)

theorem runEmit (A : Agree w v t u tail) (m : Em) (pc : EmitPc) :
    Match w v t u tail (runEmit w t (rest ++ tail) m pc) (runEmit v u rest m pc) := by
  unfold Verif.runEmit
  split
  · rw [A.alive, A.sblocked]
    split
    · exact A.bad _
    · split
      · exact push rest rfl rfl rfl rfl (by same A)
      · exact push (.emit m .wait :: rest) rfl rfl rfl rfl (by same A)
  · exact A.acquire (st := .emit m .copy :: rest)
  · rw [A.list]; exact push (.emit m (.unlock (w.sigs m.g).list) :: rest) rfl rfl rfl rfl (by same A)
  · exact A.bad _
  · rename_i b
    exact push (.emit m (.iter b 0 none) :: rest) rfl rfl rfl rfl (by same A)
  · split
    · trivial
    · rename_i b pos acc _ _
      rw [A.blks]
      split
      · rename_i s _
        exact push (.call s .chkBlocked :: .emit m (.iter b pos acc) :: rest) rfl rfl rfl rfl (by same A)
      · exact push rest rfl rfl rfl rfl (by same A)

theorem runCall (A : Agree w v t u tail) (s : SlotId) (m : Em) (b : BlkId) (pos : Nat) (acc : Option Val) (pc : CallPc) :
    Match w v t u tail (runCall w t s m b pos acc (rest ++ tail) pc) (runCall v u s m b pos acc rest pc) := by
  unfold Verif.runCall
  split <;> (try simp only [A.slots, A.slotConnected, A.objAlive])
  · split
    · exact push (.emit m (deliver m.comb b pos acc none) :: rest) rfl rfl rfl rfl (by same A)
    · exact push (.call s .chkConnected :: .emit m (.iter b pos acc) :: rest) rfl rfl rfl rfl (by same A)
  · split
    · split
      · rename_i o _
        exact push (.call s (.lockObj o) :: .emit m (.iter b pos acc) :: rest) rfl rfl rfl rfl (by same A)
      · exact push (.call s .invoke :: .emit m (.iter b pos acc) :: rest) rfl rfl rfl rfl (by same A)
    · exact push (.emit m (deliver m.comb b pos acc none) :: rest) rfl rfl rfl rfl (by same A)
  · exact push (.call s (.body none) :: .emit { m with args := passArgs (w.slots s).consume m.args } (.iter b pos acc) :: rest)
      rfl rfl rfl rfl (by same A)
  · rename_i o
    split
    · exact push (.call s (.recheck o) :: .emit m (.iter b pos acc) :: rest) rfl rfl rfl rfl (by same A)
    · exact push (.emit m (deliver m.comb b pos acc none) :: rest) rfl rfl rfl rfl (by same A)
  · rename_i o
    split
    · exact push (.call s (.body (some o)) :: .emit { m with args := passArgs (w.slots s).consume m.args } (.iter b pos acc) :: rest)
        rfl rfl rfl rfl (by same A)
    · exact push (.emit m (deliver m.comb b pos acc none) :: rest) rfl rfl rfl rfl (by same A)
  · trivial

/-- The clone of `detach` followed by a change of the stack. -/
theorem detach (A : Agree w v t u tail) (g : SigId) (b : BlkId) (st : List Frame) :
    Match w v t u tail (some ((cloneBlk w g b).setStack t (st ++ tail))) (some ((cloneBlk v g b).setStack u st)) := by
  unfold cloneBlk
  exact push st rfl rfl rfl rfl (by same A)

theorem runAdd (A : Agree w v t u tail) (g : SigId) (s : SlotId) (dest : Dest) (pc : CritPc) :
    Match w v t u tail (runAdd w t (rest ++ tail) g s dest pc) (runAdd v u rest g s dest pc) := by
  unfold Verif.runAdd
  split
  · exact A.acquire (st := .add g s dest .detach :: rest)
  · rw [A.list]
    split
    · exact A.bad _
    · rename_i b _
      rw [A.shared]
      exact push (.add g s dest (if w.shared g b then .clone else .write) :: rest) rfl rfl rfl rfl (by same A)
  · rw [A.list]
    split
    · exact A.bad _
    · exact A.detach g _ (.add g s dest .write :: rest)
  · rw [A.list]
    split
    · exact A.bad _
    · exact push (.add g s dest .unlock :: rest) rfl rfl rfl rfl (by same A)
  · dsimp only
    split
    · exact push rest rfl rfl rfl rfl (by same A)
    · exact push rest rfl rfl rfl rfl (by same A)

/-- Removing a listener, then a change of the stack and an event. -/
theorem remove (A : Agree w v t u tail) (b : BlkId) (i : Nat) (st : List Frame) (e : Event) :
    Match w v t u tail (some (((removeAt w b i).setStack t (st ++ tail)).emitEv e)) (some (((removeAt v b i).setStack u st).emitEv e)) := by
  unfold removeAt
  rw [A.blks]
  split
  · exact push st rfl rfl rfl rfl (by same A)
  · exact push st rfl rfl rfl rfl (by same A)

theorem runErase (A : Agree w v t u tail) (g : SigId) (tgt : Option Callable) (pc : ErasePc) :
    Match w v t u tail (runErase E w t (rest ++ tail) g tgt pc) (runErase E v u rest g tgt pc) := by
  unfold Verif.runErase
  split
  · exact A.acquire (st := .erase g tgt .detach :: rest)
  · rw [A.list]
    split
    · exact A.bad _
    · rename_i b _
      rw [A.shared]
      exact push (.erase g tgt (if w.shared g b then .clone else .scan 0 0) :: rest) rfl rfl rfl rfl (by same A)
  · rw [A.list]
    split
    · exact A.bad _
    · exact A.detach g _ (.erase g tgt (.scan 0 0) :: rest)
  · rename_i i cnt
    rw [A.list]
    split
    · exact A.bad _
    · rw [A.blks, A.slots]
      split
      · exact push (.erase g tgt (.unlock (some cnt)) :: rest) rfl rfl rfl rfl (by same A)
      · split
        · exact push (.erase g tgt (.unlock none) :: rest) rfl rfl rfl rfl (by same A)
        · exact A.remove _ _ (.erase g tgt (.scan i (cnt + 1)) :: rest) _
        · exact push (.erase g tgt (.scan (i + 1) cnt) :: rest) rfl rfl rfl rfl (by same A)
  · exact push rest rfl rfl rfl rfl (by same A)

/-- Leaving `disconnect`, from two worlds that agree. -/
theorem discReturn {w0 v0 : World} (A : Agree w v t u tail) (s : Option SlotId) (k : DiscK) (b : Bool) (h1 : w0.stacks = w.stacks)
    (h2 : v0.stacks = v.stacks) (h3 : w0.nThr = w.nThr) (h4 : v0.nThr = v.nThr) (h : w0.anon = v0.anon) :
    Match w v t u tail (some (discReturn w0 t (rest ++ tail) s k b)) (some (discReturn v0 u rest s k b)) := by
  have B : Agree w0 v0 t u tail := ⟨h, fun p => by
    have := A.any p
    unfold World.anyFrame at this ⊢
    rw [h1, h2, h3, h4]; exact this, by rw [h1, h2]; exact A.stk⟩
  unfold Verif.discReturn
  dsimp only
  cases k with
  | ret => exact push rest (by simp only [World.emitEv, World.setStack, h2]) (by simp only [World.emitEv, World.setStack, h1]) h3 h4 (by same B)
  | assign x y =>
    dsimp only
    split
    · exact push rest (by simp only [World.emitEv, World.setStack, h2]) (by simp only [World.emitEv, World.setStack, h1]) h3 h4 (by same B)
    · exact push rest (by simp only [World.emitEv, World.setStack, h2]) (by simp only [World.emitEv, World.setStack, h1]) h3 h4 (by same B)

theorem runDisc (A : Agree w v t u tail) (s : SlotId) (k : DiscK) (pc : DiscPc) :
    Match w v t u tail (runDisc w t (rest ++ tail) s k pc) (runDisc v u rest s k pc) := by
  unfold Verif.runDisc
  split
  · rw [A.slots]
    split
    · exact push (.disc s k (.crit (w.slots s).owner .wait) :: rest) rfl rfl rfl rfl (by same A)
    · exact A.discReturn _ _ _ rfl rfl rfl rfl (by same A)
  · rename_i g
    exact A.acquire (st := .disc s k (.crit g .detach) :: rest)
  · rename_i g
    rw [A.list]
    split
    · exact A.bad _
    · rename_i b _
      rw [A.shared]
      exact push (.disc s k (.crit g (if w.shared g b then .clone else .write)) :: rest) rfl rfl rfl rfl (by same A)
  · rename_i g
    rw [A.list]
    split
    · exact A.bad _
    · exact A.detach g _ (.disc s k (.crit g .write) :: rest)
  · rename_i g
    rw [A.list]
    split
    · exact A.bad _
    · rw [A.blks, A.slots]
      split
      · exact A.remove _ _ (.disc s k (.crit g .unlock) :: rest) _
      · exact push (.disc s k (.crit g .unlock) :: rest) rfl rfl rfl rfl (by same A)
  · rename_i g
    exact push (.disc s k (.drop g) :: rest) rfl rfl rfl rfl (by same A)
  · exact A.discReturn _ _ _ rfl rfl rfl rfl (by same A)

theorem runMov (A : Agree w v t u tail) (g' g : SigId) (pc : MovPc) :
    Match w v t u tail (runMov w t (rest ++ tail) g' g pc) (runMov v u rest g' g pc) := by
  unfold Verif.runMov
  split
  · exact A.acquire (st := .mov g' g .write :: rest)
  · exact push (.mov g' g .unlock :: rest) rfl rfl rfl rfl (by same A)
  · exact push rest rfl rfl rfl rfl (by same A)

/-- The segment `v.stacks u` is a whole number of activations of `slot::operator()`. -/
theorem call_below (hok : OkStk st) {s : SlotId} {pc : CallPc} {l : List Frame} (h : st = .call s pc :: l) :
    ∃ m b pos acc r, l = .emit m (.iter b pos acc) :: r := by
  subst h
  cases hok with
  | user _ h => cases h with | body s o m b pos acc rest => exact ⟨_, _, _, _, _, rfl⟩
  | call => exact ⟨_, _, _, _, _, rfl⟩
  | lib _ _ hf => cases hf

theorem runTop (A : Agree w v t u tail) (hne : v.stacks u ≠ []) (hok : OkStk (v.stacks u)) :
    Match w v t u tail (runTop E w t) (runTop E v u) := by
  unfold Verif.runTop
  rw [A.stk]
  cases hst : v.stacks u with
  | nil => exact absurd hst hne
  | cons f rest =>
    cases f with
    | emit m pc => exact A.runEmit m pc
    | call s pc =>
      obtain ⟨m, b, pos, acc, r, rfl⟩ := call_below hok hst
      exact A.runCall s m b pos acc pc
    | add g s dest pc => exact A.runAdd g s dest pc
    | erase g tgt pc => exact A.runErase g tgt pc
    | disc s k pc => exact A.runDisc s k pc
    | mov g' g pc => exact A.runMov g' g pc

theorem userRet (A : Agree w v t u tail) (hne : v.stacks u ≠ []) (hok : OkStk (v.stacks u)) (x : Val) :
    Match w v t u tail (userRet w t x) (userRet v u x) := by
  unfold Verif.userRet
  rw [A.stk]
  cases hst : v.stacks u with
  | nil => exact absurd hst hne
  | cons f rest =>
    cases f with
    | call s pc =>
      obtain ⟨m, b, pos, acc, r, rfl⟩ := call_below hok hst
      cases pc with
      | body o =>
        simp only [List.cons_append, A.isVoid]
        exact push (.emit m (deliver m.comb b pos acc (if (w.sigs m.g).isVoid = true then none else some x)) :: r) rfl rfl rfl rfl (by same A)
      | _ => trivial
    | _ => trivial

theorem userThrow (A : Agree w v t u tail) (hne : v.stacks u ≠ []) (hok : OkStk (v.stacks u)) (c : Bool) :
    Match w v t u tail (userThrow w t c) (userThrow v u c) := by
  unfold Verif.userThrow
  rw [A.stk]
  cases hst : v.stacks u with
  | nil => exact absurd hst hne
  | cons f rest =>
    cases f with
    | call s pc =>
      obtain ⟨m, b, pos, acc, r, rfl⟩ := call_below hok hst
      cases pc with
      | body o =>
        simp only [List.cons_append]
        split
        · split
          · exact push (.emit m (deliver .custom b pos acc none) :: r) rfl rfl rfl rfl (by same A)
          · trivial
        · exact push r rfl rfl rfl rfl (by same A)
      | _ => trivial
    | _ => trivial

theorem ctlFail (A : Agree w v t u tail) (hne : v.stacks u ≠ []) : Match w v t u tail (ctlFail w t) (ctlFail v u) := by
  unfold Verif.ctlFail
  rw [A.stk]
  cases hst : v.stacks u with
  | nil => exact absurd hst hne
  | cons f rest =>
    simp only [List.cons_append, A.list]
    cases f with
    | add g s d pc =>
      cases pc with
      | clone =>
        dsimp only
        split
        · exact A.bad _
        · trivial
      | _ => trivial
    | erase g tgt pc =>
      cases pc with
      | clone =>
        dsimp only
        split
        · exact A.bad _
        · trivial
      | _ => trivial
    | disc s k pc =>
      cases pc with
      | crit g pc =>
        cases pc with
        | clone =>
          dsimp only
          split
          · exact A.bad _
          · trivial
        | _ => trivial
      | _ => trivial
    | _ => trivial

theorem allocFail (A : Agree w v t u tail) (hne : v.stacks u ≠ []) : Match w v t u tail (allocFail w t) (allocFail v u) := by
  unfold Verif.allocFail
  rw [A.stk]
  cases hst : v.stacks u with
  | nil => exact absurd hst hne
  | cons f rest =>
    simp only [List.cons_append, A.list]
    cases f with
    | add g s d pc =>
      cases pc with
      | clone =>
        dsimp only
        split
        · exact push rest rfl rfl rfl rfl (by same A)
        · trivial
      | write =>
        dsimp only
        split
        · exact push rest rfl rfl rfl rfl (by same A)
        · trivial
      | _ => trivial
    | erase g tgt pc =>
      cases pc with
      | clone =>
        dsimp only
        split
        · exact push rest rfl rfl rfl rfl (by same A)
        · trivial
      | _ => trivial
    | disc s k pc =>
      cases pc with
      | exch => trivial
      | crit g pc =>
        cases pc with
        | clone =>
          dsimp only
          split
          · exact A.bad _
          · trivial
        | _ => trivial
      | drop g => trivial
    | _ => trivial

/-- Entering `disconnect`, from two worlds that agree. -/
theorem discStart {w0 v0 : World} (A : Agree w v t u tail) (h : Option SlotId) (k : DiscK) (h1 : w0.stacks = w.stacks)
    (h2 : v0.stacks = v.stacks) (h3 : w0.nThr = w.nThr) (h4 : v0.nThr = v.nThr) (ha : w0.anon = v0.anon) :
    Match w v t u tail (some (discStart w0 t h k)) (some (discStart v0 u h k)) := by
  have B : Agree w0 v0 t u tail := ⟨ha, fun p => by
    have := A.any p
    unfold World.anyFrame at this ⊢
    rw [h1, h2, h3, h4]; exact this, by rw [h1, h2]; exact A.stk⟩
  unfold Verif.discStart
  rw [h1, h2, A.stk]
  split
  · rename_i s
    rw [B.slotAlive]
    split
    · exact push (.disc s k .exch :: v.stacks u) (by simp only [World.setStack, h2]) (by simp only [World.setStack, h1, List.cons_append]) h3 h4
        (by same B)
    · exact A.discReturn _ _ _ h1 h2 h3 h4 ha
  · exact A.discReturn _ _ _ h1 h2 h3 h4 ha

/-- `block` and `unblock`, from two worlds that agree. -/
theorem setBlocked {w0 v0 : World} (A : Agree w v t u tail) (h : Option SlotId) (c : Bool) (h1 : w0.stacks = w.stacks)
    (h2 : v0.stacks = v.stacks) (h3 : w0.nThr = w.nThr) (h4 : v0.nThr = v.nThr) (ha : w0.anon = v0.anon) :
    Match w v t u tail (some (w0.connSetBlocked h c)) (some (v0.connSetBlocked h c)) := by
  have B : Agree w0 v0 t u tail := ⟨ha, fun p => by
    have := A.any p
    unfold World.anyFrame at this ⊢
    rw [h1, h2, h3, h4]; exact this, by rw [h1, h2]; exact A.stk⟩
  unfold World.connSetBlocked
  split
  · rw [B.slotAlive]
    split
    · exact A.keep h1 h2 h3 h4 (by same B)
    · exact A.keep h1 h2 h3 h4 ha
  · exact A.keep h1 h2 h3 h4 ha

/-- An API call. A callback begins on an idle thread `u`, and not on top of a combiner. -/
theorem userOp (A : Agree w v t u tail) (hcb : v.stacks u = [] → userCtx (w.stacks t) = true → tail = []) (a : Api) :
    Match w v t u tail (userOp w t a) (userOp v u a) := by
  have hcomb : (∃ e g args b pos acc rest, v.stacks u = .emit ⟨e, g, .custom, args⟩ (.iter b pos acc) :: rest) ∨
      ((∀ e g args b pos acc rest, v.stacks u ≠ .emit ⟨e, g, .custom, args⟩ (.iter b pos acc) :: rest) ∧
        ∀ e g args b pos acc rest, w.stacks t ≠ .emit ⟨e, g, .custom, args⟩ (.iter b pos acc) :: rest) := by
    by_cases h : ∃ e g args b pos acc rest, v.stacks u = .emit ⟨e, g, .custom, args⟩ (.iter b pos acc) :: rest
    · exact .inl h
    · refine .inr ⟨fun e g args b pos acc rest he => h ⟨e, g, args, b, pos, acc, rest, he⟩, fun e g args b pos acc rest he => ?_⟩
      have hk := A.stk
      cases hv : v.stacks u with
      | nil =>
        rw [hv, hcb hv (by rw [he]; rfl)] at hk
        rw [hk] at he; cases he
      | cons f l =>
        rw [hv, he] at hk
        injection hk with h1 h2
        exact h ⟨e, g, args, b, pos, acc, l, by rw [hv, h1]⟩
  cases a with
  | newSig x => exact A.keep rfl rfl rfl rfl (by same A)
  | destroySig g =>
    simp only [Verif.userOp, A.nSigs, A.alive, A.mutex]
    split
    · split
      · exact A.bad _
      · split
        · exact A.bad _
        · exact A.keep rfl rfl rfl rfl (by same A)
    · trivial
  | moveSig g =>
    simp only [Verif.userOp, A.nSigs, A.alive]
    split
    · split
      · exact A.bad _
      · exact push (.mov w.nSigs g .wait :: v.stacks u) rfl (by rw [A.stk]; rfl) rfl rfl (by same A)
    · trivial
  | moveAssignSig g g' =>
    simp only [Verif.userOp, A.nSigs]
    split
    · exact A.bad _
    · trivial
  | connect g fn consume conn blk dest =>
    simp only [Verif.userOp, A.nSigs, A.nObjs, A.nSlots]
    split
    · exact push (.add g w.nSlots dest .wait :: v.stacks u) rfl (by rw [A.stk]; rfl) rfl rfl (by same A)
    · trivial
  | emit g comb args =>
    simp only [Verif.userOp, A.nSigs, A.nEm]
    split
    · exact push (.emit ⟨w.nEm, g, comb, args⟩ .start :: v.stacks u) rfl (by rw [A.stk]; rfl) rfl rfl (by same A)
    · trivial
  | sigDisconnect g tgt =>
    simp only [Verif.userOp, A.nSigs]
    split
    · exact push (.erase g tgt .wait :: v.stacks u) rfl (by rw [A.stk]; rfl) rfl rfl (by same A)
    · trivial
  | disconnect h =>
    simp only [Verif.userOp, A.hval]
    exact A.discStart _ _ rfl rfl rfl rfl A.anon
  | block h =>
    simp only [Verif.userOp, A.hval]
    exact A.setBlocked _ _ rfl rfl rfl rfl A.anon
  | unblock h =>
    simp only [Verif.userOp, A.hval]
    exact A.setBlocked _ _ rfl rfl rfl rfl A.anon
  | pin h =>
    have e : v.slotAlive = w.slotAlive := funext A.slotAlive
    simp only [Verif.userOp, A.pval, A.pins, e]
    exact A.keep rfl rfl rfl rfl (by same A)
  | unpin s =>
    simp only [Verif.userOp, A.pins]
    split
    · exact A.keep rfl rfl rfl rfl (by same A)
    · trivial
  | connCopy x h =>
    simp only [Verif.userOp, A.hval]
    exact A.keep rfl rfl rfl rfl (by same A)
  | connMove x h =>
    simp only [Verif.userOp, A.hval]
    split
    · exact A.keep rfl rfl rfl rfl A.anon
    · cases h <;> exact A.keep rfl rfl rfl rfl (by simp only [World.clearHandle]; same A)
  | connSwap x y => exact A.keep rfl rfl rfl rfl (by same A)
  | scopedNew x =>
    simp only [Verif.userOp, A.sv]
    split
    · exact A.keep rfl rfl rfl rfl (by same A)
    · trivial
  | scopedOfConn x y =>
    simp only [Verif.userOp, A.sv, A.cv]
    split
    · exact A.keep rfl rfl rfl rfl (by same A)
    · trivial
  | scopedMoveCtor x y =>
    simp only [Verif.userOp, A.sv]
    split
    · exact A.keep rfl rfl rfl rfl (by same A)
    · trivial
  | scopedMoveAssign x y =>
    simp only [Verif.userOp, A.sv]
    split
    · exact A.discStart _ _ rfl rfl rfl rfl A.anon
    · trivial
  | scopedRelease y x =>
    simp only [Verif.userOp, A.sv]
    split
    · exact A.keep rfl rfl rfl rfl (by same A)
    · trivial
  | scopedSwap x y =>
    simp only [Verif.userOp, A.sv]
    split
    · exact A.keep rfl rfl rfl rfl (by same A)
    · trivial
  | scopedDtor x =>
    simp only [Verif.userOp, A.sv]
    split
    · exact A.discStart _ _ rfl rfl rfl rfl (by same A)
    · trivial
  | scopedBase x h =>
    simp only [Verif.userOp, A.sv, A.hval]
    split
    · exact A.keep rfl rfl rfl rfl (by same A)
    · trivial
  | blockerNew x =>
    simp only [Verif.userOp, A.bv]
    split
    · exact A.keep rfl rfl rfl rfl (by same A)
    · trivial
  | blockerOf x h =>
    simp only [Verif.userOp, A.bv, A.hval]
    split
    · exact A.setBlocked _ _ rfl rfl rfl rfl (by same A)
    · trivial
  | blockerMoveCtor x y =>
    simp only [Verif.userOp, A.bv]
    split
    · exact A.keep rfl rfl rfl rfl (by same A)
    · trivial
  | blockerMoveAssign x y =>
    simp only [Verif.userOp, A.bv]
    split
    · rename_i b b' _ _
      have h := A.setBlocked b false rfl rfl rfl rfl A.anon
      split
      · exact h
      · obtain ⟨⟨st, h1, h2⟩, h3, h4, h5⟩ := h
        refine ⟨⟨st, h1, h2⟩, ?_, h4, h5⟩
        obtain ⟨a1, a2, a3, a4, a5, a6, a7, a8, a9, a10, a11, a12, a13, a14⟩ := anon_iff.1 h3
        exact anon_iff.2 ⟨a1, a2, a3, a4, a5, a6, a7, a8, a9, a10, a11, by dsimp only; rw [a12], a13, a14⟩
    · trivial
  | blockerSwap x y =>
    simp only [Verif.userOp, A.bv]
    split
    · exact A.keep rfl rfl rfl rfl (by same A)
    · trivial
  | blockerDtor x =>
    simp only [Verif.userOp, A.bv]
    split
    · exact A.setBlocked _ _ rfl rfl rfl rfl (by same A)
    · trivial
  | objNew => exact A.keep rfl rfl rfl rfl (by same A)
  | objShare o =>
    simp only [Verif.userOp, A.objAlive]
    split
    · exact A.keep rfl rfl rfl rfl (by same A)
    · trivial
  | objDrop o =>
    simp only [Verif.userOp, A.objs]
    split
    · exact A.keep rfl rfl rfl rfl (by same A)
    · trivial
  | combDeref i =>
    rcases hcomb with ⟨e, g, args, b, pos, acc, rest, h⟩ | ⟨h1, h2⟩
    · simp only [Verif.userOp, A.stk, h, List.cons_append, A.blks]
      split
      · rename_i s _
        exact push (.call s .chkBlocked :: .emit ⟨e, g, .custom, args⟩ (.iter b i acc) :: rest) rfl rfl rfl rfl (by same A)
      · exact A.bad _
    · have e1 : Verif.userOp w t (.combDeref i) = none := by
        simp only [Verif.userOp]
      have e2 : Verif.userOp v u (.combDeref i) = none := by
        simp only [Verif.userOp]
      rw [e1, e2]; trivial
  | combDone x =>
    rcases hcomb with ⟨e, g, args, b, pos, acc, rest, h⟩ | ⟨h1, h2⟩
    · simp only [Verif.userOp, A.stk, h, List.cons_append]
      exact push rest rfl rfl rfl rfl (by same A)
    · have e1 : Verif.userOp w t (.combDone x) = none := by
        simp only [Verif.userOp]
      have e2 : Verif.userOp v u (.combDone x) = none := by
        simp only [Verif.userOp]
      rw [e1, e2]; trivial
  | combThrow =>
    rcases hcomb with ⟨e, g, args, b, pos, acc, rest, h⟩ | ⟨h1, h2⟩
    · simp only [Verif.userOp, A.stk, h, List.cons_append]
      exact push rest rfl rfl rfl rfl (by same A)
    · have e1 : Verif.userOp w t .combThrow = none := by
        simp only [Verif.userOp]
      have e2 : Verif.userOp v u .combThrow = none := by
        simp only [Verif.userOp]
      rw [e1, e2]; trivial

end Agree

/-! ### Playing callbacks on other threads -/

/-- `σ t` are the threads of `v` that play the activations on the stack of thread `t` of `w`, the newest first; `n` is the number of threads of `w`,
and the threads of `v` from `k` on have not been used. -/
structure Sim (n k : Nat) (σ : Tid → List Tid) (w v : World) : Prop where
  anon : w.anon = v.anon
  stk : ∀ t, w.stacks t = (σ t).flatMap v.stacks
  nThr : w.nThr = n
  ne : ∀ t, t < n → σ t ≠ []
  out : ∀ t, n ≤ t → σ t = []
  lt : ∀ t, ∀ u ∈ σ t, u < k
  le : k ≤ v.nThr
  nodup : ∀ t, (σ t).Nodup
  disj : ∀ t t' u, u ∈ σ t → u ∈ σ t' → t = t'
  idle : ∀ u, (∀ t, u ∉ σ t) → v.stacks u = []
  busy : ∀ t, ∀ u ∈ σ t, v.stacks u = [] → σ t = [u]

namespace Sim

variable {n k : Nat} {σ : Tid → List Tid}

theorem any (S : Sim n k σ w v) (p : Frame → Bool) : w.anyFrame p = v.anyFrame p := by
  rw [Bool.eq_iff_iff]
  simp only [World.anyFrame, List.any_eq_true, List.mem_range, S.stk, List.mem_flatMap, S.nThr]
  constructor
  · rintro ⟨t, ht, f, ⟨u, hu, hf⟩, hp⟩
    exact ⟨u, Nat.lt_of_lt_of_le (S.lt t u hu) S.le, f, hf, hp⟩
  · rintro ⟨u, hu, f, hf, hp⟩
    rcases Classical.em (∀ t, u ∉ σ t) with h | h
    · rw [S.idle u h] at hf; cases hf
    · simp only [Classical.not_forall, Classical.not_not] at h
      obtain ⟨t, ht⟩ := h
      refine ⟨t, ?_, f, ⟨u, ht, hf⟩, hp⟩
      rcases Nat.lt_or_ge t n with h | h
      · exact h
      · rw [S.out t h] at ht; cases ht

theorem init {n N : Nat} (h : n ≤ N) : Sim n n (fun t => if t < n then [t] else []) (World.init n) (World.init N) where
  anon := rfl
  stk t := by split <;> rfl
  nThr := rfl
  ne t h := by simp [h]
  out t h := by simp [Nat.not_lt.2 h]
  lt t u := by split <;> simp_all
  le := h
  nodup t := by split <;> simp
  disj t t' u := by split <;> split <;> simp <;> omega
  idle _ _ := rfl
  busy t u := by split <;> simp_all

theorem agree (S : Sim n k σ w v) {t u : Tid} {us : List Tid} (h : w.stacks t = v.stacks u ++ us.flatMap v.stacks) :
    Agree w v t u (us.flatMap v.stacks) := ⟨S.anon, S.any, h⟩

theorem upd_ne {α : Type} (f : Nat → α) (x : α) {a b : Nat} (h : b ≠ a) : upd f a x b = f b := if_neg h

theorem flatMap_upd {us : List Tid} {u : Tid} {f : Tid → List Frame} {st : List Frame} (h : u ∉ us) :
    us.flatMap (upd f u st) = us.flatMap f := by
  induction us with
  | nil => rfl
  | cons x l ih =>
    simp only [List.mem_cons, not_or] at h
    simp only [List.flatMap_cons, ih h.2, upd, if_neg (Ne.symm h.1)]

/-- Thread `t` and the thread `u` that plays the top of its stack have done the same. -/
theorem next (S : Sim n k σ w v) {w' v' : World} {t u : Tid} {us : List Tid} {k' : Nat} (ht : t < n) (hk : k ≤ k') (hk' : k' ≤ v.nThr)
    (hu : u < k') (hnd : (u :: us).Nodup) (hoth : ∀ t', t' ≠ t → u ∉ σ t') (hus : ∀ x ∈ us, x ∈ σ t) (hcov : ∀ x ∈ σ t, x ∈ u :: us)
    (hb : ∀ x ∈ us, v.stacks x ≠ []) (M : Match w v t u (us.flatMap v.stacks) (some w') (some v')) : ∃ σ', Sim n k' σ' w' v' := by
  obtain ⟨⟨st, h1, h2⟩, h3, h4, h5⟩ := M
  have hnu : u ∉ us := (List.nodup_cons.1 hnd).1
  have hsub : ∀ x ∈ us, x < k' := fun x hx => Nat.lt_of_lt_of_le (S.lt t x (hus x hx)) hk
  refine ⟨upd σ t (if st = [] ∧ us ≠ [] then us else u :: us), ?_⟩
  have hL : ∀ x, x ∈ (if st = [] ∧ us ≠ [] then us else u :: us) → x ∈ u :: us := by
    intro x; split
    · exact fun h => List.mem_cons_of_mem _ h
    · exact id
  constructor
  · exact h3
  · intro t'
    rw [h1, h2]
    by_cases e : t' = t
    · subst e
      simp only [upd_same]
      split
      · rename_i h
        rw [flatMap_upd hnu, h.1]; rfl
      · rw [List.flatMap_cons, flatMap_upd hnu, upd_same]
    · rw [upd_ne _ _ e, upd_ne _ _ e, flatMap_upd (hoth t' e)]
      exact S.stk t'
  · rw [h4]; exact S.nThr
  · intro t' h
    by_cases e : t' = t
    · subst e; rw [upd_same]; split
      · rename_i h; exact h.2
      · simp
    · rw [upd_ne _ _ e]; exact S.ne t' h
  · intro t' h
    rw [upd_ne _ _ (by omega)]; exact S.out t' h
  · intro t' x hx
    by_cases e : t' = t
    · subst e; rw [upd_same] at hx
      rcases List.mem_cons.1 (hL x hx) with rfl | h
      · exact hu
      · exact hsub x h
    · rw [upd_ne _ _ e] at hx; exact Nat.lt_of_lt_of_le (S.lt t' x hx) hk
  · rw [h5]; exact hk'
  · intro t'
    by_cases e : t' = t
    · subst e; rw [upd_same]; split
      · exact (List.nodup_cons.1 hnd).2
      · exact hnd
    · rw [upd_ne _ _ e]; exact S.nodup t'
  · have aux : ∀ t' x, t' ≠ t → x ∈ σ t' → x ∉ u :: us := by
      intro t' x e hx hm
      rcases List.mem_cons.1 hm with rfl | h
      · exact hoth t' e hx
      · exact e (S.disj _ _ _ hx (hus x h))
    intro t1 t2 x h1 h2
    by_cases e1 : t1 = t <;> by_cases e2 : t2 = t
    · rw [e1, e2]
    · subst e1; rw [upd_same] at h1; rw [upd_ne _ _ e2] at h2
      exact absurd (hL x h1) (aux t2 x e2 h2)
    · subst e2; rw [upd_same] at h2; rw [upd_ne _ _ e1] at h1
      exact absurd (hL x h2) (aux t1 x e1 h1)
    · rw [upd_ne _ _ e1] at h1; rw [upd_ne _ _ e2] at h2
      exact S.disj _ _ _ h1 h2
  · intro x hx
    rw [h1]
    by_cases e : x = u
    · subst e; rw [upd_same]
      have := hx t
      rw [upd_same] at this
      split at this
      · rename_i h; exact h.1
      · simp at this
    · rw [upd_ne _ _ e]
      apply S.idle
      intro t' hx'
      by_cases e' : t' = t
      · subst e'
        have := hx t'
        rw [upd_same] at this
        have hm := hcov x hx'
        split at this
        · rcases List.mem_cons.1 hm with h | h
          · exact e h
          · exact this h
        · exact this hm
      · have := hx t'
        rw [upd_ne _ _ e'] at this
        exact this hx'
  · intro t' x hx hs
    rw [h1] at hs
    by_cases e : t' = t
    · subst e
      rw [upd_same] at hx ⊢
      have hxu : x = u := by
        rcases List.mem_cons.1 (hL x hx) with h | h
        · exact h
        · have hne : x ≠ u := by rintro rfl; exact hnu h
          rw [upd_ne _ _ hne] at hs
          exact absurd hs (hb x h)
      subst hxu
      rw [upd_same] at hs
      split at hx
      · exact absurd hx hnu
      · rename_i hc
        rw [if_neg hc]
        have : us = [] := Classical.byContradiction fun h => hc ⟨hs, h⟩
        rw [this]
    · rw [upd_ne _ _ e] at hx ⊢
      have hne : x ≠ u := by rintro rfl; exact hoth t' e hx
      rw [upd_ne _ _ hne] at hs
      exact S.busy t' x hx hs

theorem ub_eq (S : Sim n k σ w v) : v.ub = w.ub := (anon_iff.1 S.anon).2.2.2.2.2.2.2.2.2.2.2.2.2.1.symm

/-- The part of a match that says that both sides moved. -/
theorem _root_.Verif.Match.some {w' : World} {o : Option World} (M : Match w v t u tail (some w') o) : ∃ v', o = some v' := by
  cases o with
  | none => exact M.elim
  | some v' => exact ⟨v', rfl⟩

/-- Each step with callbacks is a step of a thread without callbacks. -/
theorem step {cb : List Frame → Bool} (S : Sim n k σ w v) (hok : ∀ u, OkStk (v.stacks u)) (hk : k < v.nThr) {l : Label} {w' : World}
    (h : stepC cb E w l = some w') : ∃ σ' v' l', Sim n (k + 1) σ' w' v' ∧ step E v l' = some v' ∧ l'.anon = l.anon := by
  have hbase : w.ub = none ∧ l.tid < n := by
    rw [← S.nThr]
    cases l <;> simp only [stepC, Verif.step] at h <;> (split at h; · cases h) <;> split at h <;>
      first | cases h; done | exact ⟨by simpa using ‹¬ w.ub.isSome = true›, ‹_›⟩
  obtain ⟨hub, ht⟩ := hbase
  have hvub : v.ub = none := by rw [S.ub_eq, hub]
  -- the thread that plays the top of the stack
  obtain ⟨u, us, hσ⟩ : ∃ u us, σ l.tid = u :: us := by
    cases h : σ l.tid with
    | nil => exact absurd h (S.ne _ ht)
    | cons u us => exact ⟨u, us, rfl⟩
  have hmem : u ∈ σ l.tid := by rw [hσ]; simp
  have hu : u < k := S.lt _ u hmem
  have huv : u < v.nThr := by omega
  have hstk : w.stacks l.tid = v.stacks u ++ us.flatMap v.stacks := by rw [S.stk, hσ]; rfl
  have hnd : (u :: us).Nodup := hσ ▸ S.nodup l.tid
  have hb : ∀ x ∈ us, v.stacks x ≠ [] := by
    intro x hx hs
    have := S.busy l.tid x (by rw [hσ]; simp [hx]) hs
    rw [hσ] at this
    injection this with h1 h2
    rw [h2] at hx; cases hx
  have hemp : v.stacks u = [] → us = [] := by
    intro hs
    have := S.busy l.tid u hmem hs
    rw [hσ] at this
    injection this
  have A := S.agree hstk
  have fin : ∀ {o : Option World} {l' : Label}, Match w v l.tid u (us.flatMap v.stacks) (some w') o → l'.anon = l.anon → Verif.step E v l' = o →
      ∃ σ' v' l', Sim n (k + 1) σ' w' v' ∧ Verif.step E v l' = some v' ∧ l'.anon = l.anon := by
    intro o l' M ha hl
    obtain ⟨v', rfl⟩ := M.some
    obtain ⟨σ', S'⟩ := S.next ht (Nat.le_succ k) hk (by omega) hnd (fun t' e hm => e (S.disj _ _ _ hm hmem)) (fun x hx => by rw [hσ]; simp [hx])
      (fun x hx => by rw [hσ] at hx; exact hx) hb M
    exact ⟨σ', v', l', S', hl, ha⟩
  cases l with
  | run t =>
    simp only [Label.tid] at *
    simp only [stepC, Verif.step, hub, S.nThr, Label.tid, ht, Option.isSome_none, Bool.false_eq_true, if_false, if_true] at h
    have hne : v.stacks u ≠ [] := by
      intro hs
      rw [hs, hemp hs] at hstk
      simp [runTop, hstk] at h
    refine fin (l' := .run u) (h ▸ A.runTop hne (hok u)) rfl ?_
    simp [Verif.step, hvub, Label.tid, huv]
  | ret t x =>
    simp only [Label.tid] at *
    simp only [stepC, Verif.step, hub, S.nThr, Label.tid, ht, Option.isSome_none, Bool.false_eq_true, if_false, if_true] at h
    have hne : v.stacks u ≠ [] := by
      intro hs
      rw [hs, hemp hs] at hstk
      simp [userRet, hstk] at h
    refine fin (l' := .ret u x) (h ▸ A.userRet hne (hok u) x) rfl ?_
    simp [Verif.step, hvub, Label.tid, huv]
  | throw t c =>
    simp only [Label.tid] at *
    simp only [stepC, Verif.step, hub, S.nThr, Label.tid, ht, Option.isSome_none, Bool.false_eq_true, if_false, if_true] at h
    have hne : v.stacks u ≠ [] := by
      intro hs
      rw [hs, hemp hs] at hstk
      simp [userThrow, hstk] at h
    refine fin (l' := .throw u c) (h ▸ A.userThrow hne (hok u) c) rfl ?_
    simp [Verif.step, hvub, Label.tid, huv]
  | fail t =>
    simp only [Label.tid] at *
    simp only [stepC, Verif.step, hub, S.nThr, Label.tid, ht, Option.isSome_none, Bool.false_eq_true, if_false, if_true] at h
    have hne : v.stacks u ≠ [] := by
      intro hs
      rw [hs, hemp hs] at hstk
      simp [allocFail, hstk] at h
    refine fin (l' := .fail u) (h ▸ A.allocFail hne) rfl ?_
    simp [Verif.step, hvub, Label.tid, huv]
  | ctl t =>
    simp only [Label.tid] at *
    simp only [stepC, Verif.step, hub, S.nThr, Label.tid, ht, Option.isSome_none, Bool.false_eq_true, if_false, if_true] at h
    have hne : v.stacks u ≠ [] := by
      intro hs
      rw [hs, hemp hs] at hstk
      simp [ctlFail, hstk] at h
    refine fin (l' := .ctl u) (h ▸ A.ctlFail hne) rfl ?_
    simp [Verif.step, hvub, Label.tid, huv]
  | call t a =>
    simp only [Label.tid] at *
    simp only [stepC, hub, S.nThr, ht, Option.isSome_none, Bool.false_eq_true, if_false, if_true] at h
    cases hc : userCtx (w.stacks t) with
    | true =>
      -- ordinary user code
      simp only [hc, Bool.true_or, if_true] at h
      refine fin (l' := .call u a) (h ▸ A.userOp (fun hs _ => by rw [hemp hs]; rfl) a) rfl ?_
      have : userCtx (v.stacks u) = true := by
        cases hs : v.stacks u with
        | nil => rfl
        | cons f r =>
          rw [hstk, hs, List.cons_append] at hc
          revert hc
          unfold userCtx
          split <;> simp_all
      simp [Verif.step, hvub, Label.tid, huv, this]
    | false =>
      -- a callback: played by the thread `k`, which is idle
      split at h
      · have hke : ∀ t', k ∉ σ t' := fun t' hm => Nat.lt_irrefl _ (S.lt t' k hm)
        have hks : v.stacks k = [] := S.idle k hke
        have hst : w.stacks t = v.stacks k ++ (u :: us).flatMap v.stacks := by rw [hks, hstk]; rfl
        have B := S.agree hst
        have M := B.userOp (fun _ h => by rw [hc] at h; cases h) a
        rw [h] at M
        obtain ⟨v', hv'⟩ := M.some
        rw [hv'] at M
        have hne : v.stacks u ≠ [] := by
          intro hs
          rw [hstk, hs, hemp hs] at hc; cases hc
        obtain ⟨σ', S'⟩ := S.next ht (Nat.le_succ k) hk (Nat.lt_succ_self k)
          (List.nodup_cons.2 ⟨by rw [← hσ]; exact hke t, hnd⟩) (fun t' _ => hke t') (fun x hx => by rw [hσ]; exact hx)
          (fun x hx => by rw [hσ] at hx; exact List.mem_cons_of_mem _ hx)
          (fun x hx => by exact (List.mem_cons.1 hx).elim (fun e => e ▸ hne) (hb x)) M
        refine ⟨σ', v', .call k a, S', ?_, rfl⟩
        simp [Verif.step, hvub, Label.tid, hk, hks, userCtx, hv']
      · cases h

end Sim

/-- Every execution with callbacks is an execution without, on more threads. -/
theorem StepsC.sim {cb : List Frame → Bool} {P : Label → Prop} (hP : ∀ l l' : Label, l'.anon = l.anon → P l → P l') {n : Nat}
    (h : StepsC cb E P (World.init n) w) : ∃ N k σ v, Steps E P (World.init N) v ∧ Sim n k σ w v := by
  have : ∃ L, ∀ N, n + L ≤ N → ∃ σ v, Steps E P (World.init N) v ∧ v.nThr = N ∧ Sim n (n + L) σ w v := by
    generalize hw : World.init n = w0 at h
    induction h with
    | refl => exact ⟨0, fun N hN => ⟨_, World.init N, .refl _, rfl, hw ▸ Sim.init hN⟩⟩
    | tail l _ hp hs ih =>
      obtain ⟨L, ih⟩ := ih
      refine ⟨L + 1, fun N hN => ?_⟩
      obtain ⟨σ, v, hv, hn, S⟩ := ih N (by omega)
      have hr : Reachable E v := Reachable.steps ⟨N, .refl _⟩ hv
      obtain ⟨σ', v', l', S', hl, ha⟩ := S.step hr.full.i.i1.stk (by omega) hs
      exact ⟨σ', v', hv.tail l' (hP l l' ha hp) hl, by rw [nThr_eq (step_inv hl).2.2, hn], S'⟩
  obtain ⟨L, h⟩ := this
  obtain ⟨σ, v, hv, -, S⟩ := h _ (Nat.le_refl _)
  exact ⟨_, _, σ, v, hv, S⟩

theorem ReachableC.sim {cb : List Frame → Bool} (h : ReachableC cb E w) : ∃ n k σ v, Reachable E v ∧ Sim n k σ w v := by
  obtain ⟨n, h⟩ := h
  obtain ⟨N, k, σ, v, hv, S⟩ := h.sim fun _ _ _ _ => trivial
  exact ⟨n, k, σ, v, Reachable.steps ⟨N, .refl _⟩ hv, S⟩

end Verif
