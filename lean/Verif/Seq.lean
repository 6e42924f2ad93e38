import Verif.Machine

/-!
# What a program with one thread sees

A specification of the library as a sequential program would want it: one state, and for every call one function that says what the call
does. There are no locks, no vectors shared between a signal and its emissions, no positions stored in listeners and no steps
in between: a signal has a list of listeners, and an emission has the list that it goes through. What the user can ask for (`Api`), the arguments
(`Arg`), callables and their comparison (`Callable`, `slotEq`) and the kinds of undefined behaviour (`UB`) are those of the model.

Nothing in this file is about the source text; `Verif/Props/Seq.lean` proves that the model of the code does this (C71).
-/

namespace Verif.Seq

/-- A listener: what it calls, which arguments that consumes, whether it is connected, whether it is blocked, and the signal that it was
connected to. -/
structure Lis where
  fn : Callable
  consume : List Bool
  conn : Bool
  blk : Bool
  home : SigId

/-- An emission in progress: does its signal return nothing, does a combiner written by the user drive it, the arguments as they are now, the
listeners that it goes through, where it is, the result so far, and the listener that is being called (with the tracked object that the call keeps
alive). -/
structure Fr where
  void : Bool
  custom : Bool
  args : List Arg
  items : List SlotId
  pos : Nat
  acc : Option Val
  cur : Option (SlotId × Option ObjId)

/-- What can be seen: results of `connect`, of `disconnect()` and of `disconnect(callable)` (`none`: it threw), calls of listeners, results of
emissions, and exceptions that leave an emission. -/
inductive Obs where
  | conn (s : SlotId)
  | disc (b : Bool)
  | erased (r : Option Nat)
  | call (s : SlotId) (args : List Arg)
  | ret (r : Option Val)
  | threw
deriving DecidableEq

/-- The state. A signal is `none` outside its lifetime and `some none` after it has been moved from. -/
structure St where
  lis : SlotId → Lis
  n : Nat
  sig : SigId → Option (Option (List SlotId))
  void : SigId → Bool
  nSig : Nat
  objs : ObjId → Nat
  nObjs : Nat
  cv : Var → Option SlotId
  sv : Var → Option (Option SlotId)
  bv : Var → Option (Option SlotId)
  fr : List Fr
  out : List Obs

/-- Before anything has happened. -/
def St.start : St where
  lis := fun _ => ⟨.func ⟨0, false, .rvalue⟩ 0, [], false, false, 0⟩
  n := 0
  sig := fun _ => none
  void := fun _ => false
  nSig := 0
  objs := fun _ => 0
  nObjs := 0
  cv := fun _ => none
  sv := fun _ => none
  bv := fun _ => none
  fr := []
  out := []

/-- The outcome of a call: a state, undefined behaviour, or: user code cannot do that here. -/
inductive Res where
  | ok (a : St)
  | ub (u : UB)
  | no

def Res.bind : Res → (St → Res) → Res
  | .ok a, k => k a
  | .ub u, _ => .ub u
  | .no, _ => .no

namespace St

def say (a : St) (o : Obs) : St := { a with out := o :: a.out }

/-- The tracked object still exists: the user owns it, or it is being called. -/
def objLives (a : St) (o : ObjId) : Prop :=
  0 < a.objs o ∨ ∃ f ∈ a.fr, ∃ s, f.cur = some (s, some o)

/-- The listener still exists: it is in the list of a signal or in one that an emission is going through. -/
def lives (a : St) (s : SlotId) : Prop :=
  (∃ g l, a.sig g = some (some l) ∧ s ∈ l) ∨ ∃ f ∈ a.fr, s ∈ f.items

/-- It would be called now, were it not blocked. -/
def up (a : St) (s : SlotId) : Prop := (∀ o, (a.lis s).fn.obj? = some o → a.objLives o) ∧ (a.lis s).conn = true

open Classical in
/-- Call `f`, if the signal can be used. -/
noncomputable def onList (a : St) (g : SigId) (f : List SlotId → Res) : Res :=
  match a.sig g with
  | none => .ub .deadSignal
  | some none => .ub .nullList
  | some (some l) => f l

def setSig (a : St) (g : SigId) (l : List SlotId) : St := { a with sig := upd a.sig g (some (some l)) }

/-- The emission `f` calls listener `s`. -/
def enter (a : St) (f : Fr) (s : SlotId) : St :=
  { a with
    fr := { f with args := passArgs (a.lis s).consume f.args, cur := some (s, (a.lis s).fn.obj?) } :: a.fr
    out := .call s f.args :: a.out }

open Classical in
/-- The default combiner has the listeners `l` still to do: those that are blocked or not connected are passed over, the first
other one is called; when there is none, the emission returns. -/
noncomputable def drive (a : St) (f : Fr) : List SlotId → St
  | [] => a.say (.ret f.acc)
  | s :: l => if (a.lis s).blk = false ∧ a.up s then a.enter f s else drive a { f with pos := f.pos + 1 } l

/-- `emit`. -/
noncomputable def begin_ (a : St) (f : Fr) : St := if f.custom then { a with fr := f :: a.fr } else a.drive f f.items

/-- `list` without `s`: the last listener takes its place. -/
def unlist (s : SlotId) (l : List SlotId) : List SlotId :=
  if s ∈ l then l.dropLast.map fun x => if x = s then l.getLastD s else x else l

open Classical in
/-- `disconnect()` through a handle with the weak pointer `h`. -/
noncomputable def hangUp (a : St) : Option SlotId → Res
  | none => .ok (a.say (.disc false))
  | some s =>
      if a.lives s ∧ (a.lis s).conn = true then
        a.onList (a.lis s).home fun l =>
          .ok (({ a with lis := upd a.lis s { a.lis s with conn := false } }.setSig (a.lis s).home (unlist s l)).say (.disc true))
      else .ok (a.say (.disc false))

open Classical in
/-- `block()` / `unblock()` through a handle or blocker with the weak pointer `h`. -/
noncomputable def setBlk (a : St) (h : Option SlotId) (c : Bool) : St :=
  match h with
  | none => a
  | some s => if a.lives s then { a with lis := upd a.lis s { a.lis s with blk := c } } else a

/-- The weak pointer in a handle. -/
def ptr (a : St) : Handle → Option SlotId
  | .conn x => a.cv x
  | .scoped x => (a.sv x).join

/-- `valid()`: the listener still exists. -/
def valid (a : St) (h : Handle) : Prop := ∃ s, a.ptr h = some s ∧ a.lives s

/-- `connected()`: it exists, and would be called now, were it not blocked. -/
def connected (a : St) (h : Handle) : Prop := ∃ s, a.ptr h = some s ∧ a.lives s ∧ a.up s

/-- `blocked()`: it exists and is blocked. -/
def blocked (a : St) (h : Handle) : Prop := ∃ s, a.ptr h = some s ∧ a.lives s ∧ (a.lis s).blk = true

/-- Store the connection that `connect` returned. -/
def keep (a : St) (s : SlotId) : Dest → St
  | .conn x => { a with cv := upd a.cv x (some s) }
  | .scoped x => { a with sv := upd a.sv x (some (some s)) }

open Classical in
/-- The calls. -/
noncomputable def op (E : Env) (a : St) : Api → Res
  | .newSig v =>
      .ok { a with sig := upd a.sig a.nSig (some (some [])), void := upd a.void a.nSig v, nSig := a.nSig + 1 }
  | .destroySig g =>
      if g < a.nSig then
        if a.sig g = none then .ub .deadSignal else .ok { a with sig := upd a.sig g none }
      else .no
  | .moveSig g =>
      if g < a.nSig then
        if a.sig g = none then .ub .deadSignal
        else .ok { a with
          sig := upd (upd a.sig g (some none)) a.nSig (a.sig g)
          void := upd a.void a.nSig (a.void g)
          nSig := a.nSig + 1 }
      else .no
  | .moveAssignSig g g' => if g < a.nSig ∧ g' < a.nSig then .ub .noReturn else .no
  | .connect g fn consume conn blk dest =>
      if g < a.nSig ∧ ∀ o, fn.obj? = some o → o < a.nObjs then
        a.onList g fun l => .ok (((({ a with lis := upd a.lis a.n ⟨fn, consume, conn, blk, g⟩, n := a.n + 1 }.setSig g
          (l ++ [a.n])).say (.conn a.n))).keep a.n dest)
      else .no
  | .emit g comb args =>
      if g < a.nSig then
        a.onList g fun l => .ok (a.begin_ ⟨a.void g, comb == .custom, args, l, 0, none, none⟩)
      else .no
  | .sigDisconnect g tgt =>
      if g < a.nSig then
        a.onList g fun l =>
          let r := Vec.eraseScan (fun s => slotEq E (some (a.lis s).fn) tgt) l 0 0
          .ok ((a.setSig g r.1).say (.erased r.2))
      else .no
  | .disconnect h => a.hangUp (a.ptr h)
  | .block h => .ok (a.setBlk (a.ptr h) true)
  | .unblock h => .ok (a.setBlk (a.ptr h) false)
  | .connCopy x h => .ok { a with cv := upd a.cv x (a.ptr h) }
  | .connMove x h =>
      if h = .conn x then .ok a
      else match h with
        | .conn y => .ok { a with cv := upd (upd a.cv y none) x (a.cv y) }
        | .scoped y => .ok { a with cv := upd a.cv x (a.sv y).join, sv := upd a.sv y (some none) }
  | .connSwap x y => .ok { a with cv := upd (upd a.cv x (a.cv y)) y (a.cv x) }
  | .scopedNew x => if a.sv x = none then .ok { a with sv := upd a.sv x (some none) } else .no
  | .scopedOfConn x y => if a.sv x = none then .ok { a with sv := upd a.sv x (some (a.cv y)) } else .no
  | .scopedMoveCtor x y =>
      match a.sv x, a.sv y with
      | none, some v => .ok { a with sv := upd (upd a.sv x (some v)) y (some none) }
      | _, _ => .no
  | .scopedMoveAssign x y =>
      match a.sv x, a.sv y with
      | some v, some _ => (a.hangUp v).bind fun a =>
          .ok (if x = y then a else { a with sv := upd (upd a.sv x (a.sv y)) y (some none) })
      | _, _ => .no
  | .scopedRelease y x =>
      match a.sv x with
      | some v => .ok { a with cv := upd a.cv y v, sv := upd a.sv x (some none) }
      | none => .no
  | .scopedSwap x y =>
      match a.sv x, a.sv y with
      | some v, some v' => .ok { a with sv := upd (upd a.sv x (some v')) y (some v) }
      | _, _ => .no
  | .scopedDtor x =>
      match a.sv x with
      | some v => { a with sv := upd a.sv x none }.hangUp v
      | none => .no
  | .scopedBase x h => if a.sv x = none then .no else .ok { a with sv := upd a.sv x (some (a.ptr h)) }
  | .blockerNew x => if a.bv x = none then .ok { a with bv := upd a.bv x (some none) } else .no
  | .blockerOf x h =>
      if a.bv x = none then .ok ({ a with bv := upd a.bv x (some (a.ptr h)) }.setBlk (a.ptr h) true) else .no
  | .blockerMoveCtor x y =>
      match a.bv x, a.bv y with
      | none, some v => .ok { a with bv := upd (upd a.bv x (some v)) y (some none) }
      | _, _ => .no
  | .blockerMoveAssign x y =>
      match a.bv x, a.bv y with
      | some v, some v' =>
          let a := a.setBlk v false
          .ok (if x = y then a else { a with bv := upd (upd a.bv x (some v')) y (some none) })
      | _, _ => .no
  | .blockerSwap x y =>
      match a.bv x, a.bv y with
      | some v, some v' => .ok { a with bv := upd (upd a.bv x (some v')) y (some v) }
      | _, _ => .no
  | .blockerDtor x =>
      match a.bv x with
      | some v => .ok ({ a with bv := upd a.bv x none }.setBlk v false)
      | none => .no
  | .objNew => .ok { a with objs := upd a.objs a.nObjs 1, nObjs := a.nObjs + 1 }
  | .objShare o => if a.objLives o then .ok { a with objs := upd a.objs o (a.objs o + 1) } else .no
  | .objDrop o => if 0 < a.objs o then .ok { a with objs := upd a.objs o (a.objs o - 1) } else .no
  | .pin _ => .no
  | .unpin _ => .no
  | .combDeref i =>
      match a.fr with
      | f :: fs =>
          if f.custom = true ∧ f.cur = none then
            match f.items[i]? with
            | none => .ub .endDeref
            | some s =>
                if (a.lis s).blk = false ∧ a.up s then .ok ({ a with fr := fs }.enter { f with pos := i } s)
                else .ok { a with fr := { f with pos := i, acc := none } :: fs }
          else .no
      | [] => .no
  | .combDone v =>
      match a.fr with
      | f :: fs => if f.custom = true ∧ f.cur = none then .ok ({ a with fr := fs }.say (.ret v)) else .no
      | [] => .no
  | .combThrow =>
      match a.fr with
      | f :: fs => if f.custom = true ∧ f.cur = none then .ok ({ a with fr := fs }.say .threw) else .no
      | [] => .no

/-- The listener that is running returns `v`. -/
noncomputable def ret (a : St) (v : Val) : Res :=
  match a.fr with
  | f :: fs =>
      if f.cur = none then .no
      else
        let r := if f.void then none else some v
        if f.custom then .ok { a with fr := { f with cur := none, acc := r } :: fs }
        else .ok ({ a with fr := fs }.drive { f with cur := none, pos := f.pos + 1, acc := if r.isSome then r else f.acc }
          (f.items.drop (f.pos + 1)))
  | [] => .no

/-- The listener that is running throws; the user's combiner may catch that. -/
def throw_ (a : St) (caught : Bool) : Res :=
  match a.fr with
  | f :: fs =>
      if f.cur = none then .no
      else if caught then
        if f.custom then .ok { a with fr := { f with cur := none, acc := none } :: fs } else .no
      else .ok ({ a with fr := fs }.say .threw)
  | [] => .no

/-- What user code does next. (`run` is not the user's doing, and memory does not run out here.) -/
noncomputable def next (E : Env) (a : St) : Label → Res
  | .run _ => .ok a
  | .call _ x => a.op E x
  | .ret _ v => a.ret v
  | .throw _ c => a.throw_ c
  | .fail _ => .no
  | .ctl _ => .no

/-- The handle that a call disconnects. -/
def hungUp (a : St) : Label → Option SlotId
  | .call _ (.disconnect h) => a.ptr h
  | .call _ (.scopedMoveAssign x _) => (a.sv x).join
  | .call _ (.scopedDtor x) => (a.sv x).join
  | _ => none

/-- `disconnect()` of a listener that still exists and is connected, but that has been taken out of the list of its signal (by
`disconnect(callable)`). -/
def Stray (a : St) (l : Label) : Prop :=
  ∃ s m, a.hungUp l = some s ∧ a.lives s ∧ (a.lis s).conn = true ∧ a.sig (a.lis s).home = some (some m) ∧ s ∉ m

/-- What the user sees of a whole program. -/
noncomputable def run (E : Env) : St → List Label → Res
  | a, [] => .ok a
  | a, l :: ls => (a.next E l).bind fun a => run E a ls

/-- It never disconnects a stray listener. -/
def Tame (E : Env) : St → List Label → Prop
  | _, [] => True
  | a, l :: ls => ¬a.Stray l ∧ ∀ a', a.next E l = .ok a' → Tame E a' ls

end St

end Verif.Seq
