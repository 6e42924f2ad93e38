import Verif.Machine

/-!
# Specification vocabulary

Small definitions used to state the properties. They speak only about the history of observable events
(`Event`), not about how the library works.
-/

namespace Verif

/-- Take `v` out of an invocation order: the last listener gets its place. -/
def takeOut (v : SlotId) (l : List SlotId) : List SlotId :=
  (l.map fun x => if x = v then l.getLastD v else x).dropLast

/-- The invocation order of every signal after a history (newest event first) of completed updates, applied one
after the other. -/
def replay : List Event → SigId → List SlotId
  | [] => fun _ => []
  | .added g s :: log => upd (replay log) g (replay log g ++ [s])
  | .removed g _ v :: log => upd (replay log) g (takeOut v (replay log g))
  | .erased g v :: log => upd (replay log) g (takeOut v (replay log g))
  | .moved g g' :: log => upd (upd (replay log) g' (replay log g)) g []
  | .destroyed g :: log => upd (replay log) g []
  | _ :: log => replay log

/-- The signal a listener belongs to after a history: the one it was added to, following moves, until it is taken
out or the signal is destroyed. -/
def home : List Event → SlotId → Option SigId
  | [], _ => none
  | .added g s :: log, x => if x = s then some g else home log x
  | .removed _ _ v :: log, x => if x = v then none else home log x
  | .erased _ v :: log, x => if x = v then none else home log x
  | .moved g g' :: log, x => if home log x = some g then some g' else home log x
  | .destroyed g :: log, x => if home log x = some g then none else home log x
  | _ :: log, x => home log x

/-- `connect` of listener `s` took effect. -/
def Event.adds (s : SlotId) : Event → Bool
  | .added _ s' => s' = s
  | _ => false

/-- Listener `s` was taken out of a list. -/
def Event.takes (s : SlotId) : Event → Bool
  | .removed _ _ v => v = s
  | .erased _ v => v = s
  | _ => false

/-- A call of `signal::disconnect` by thread `t` ends: it returns (or throws because it could not compare), or runs out of memory. -/
def Event.endsErase (t : Tid) : Event → Bool
  | .eraseRet t' _ _ _ => t' == t
  | .failed t' _ none => t' == t
  | _ => false

/-- A call of `connect` by thread `t` ends: it returns, or runs out of memory. -/
def Event.endsConnect (t : Tid) : Event → Bool
  | .connRet t' _ _ => t' == t
  | .failed t' _ (some _) => t' == t
  | _ => false

/-- Steps of user code: calls into the library, and listeners that return or throw. -/
def Label.user : Label → Bool
  | .run _ => false
  | .fail _ => false
  | .ctl _ => false
  | _ => true

/-- Is signal `x` without a list of its own after a history: moved from, or made by moving such a signal? -/
def hollow : List Event → SigId → Bool
  | [], _ => false
  | .moved g g' :: log, x => x == g || (if x = g' then hollow log g else hollow log x)
  | _ :: log, x => hollow log x

/-! ### What an emission does -/

/-- The emission an event belongs to. -/
def Event.em : Event → Option EmId
  | .began _ m => some m.e
  | .snap m _ => some m.e
  | .visit e _ _ => some e
  | .skip e _ _ => some e
  | .enter e _ _ => some e
  | .exit e _ _ => some e
  | .done e _ => some e
  | .suppressed e => some e
  | .threw e _ => some e
  | .aborted e => some e
  | _ => none

/-- The events of emission `e`, oldest first. -/
def trace (log : List Event) (e : EmId) : List Event := (log.filter fun ev => ev.em == some e).reverse

/-- What came of one dereference of the iterator: the listener was passed over, or its callable was called
with `args` and returned / threw. -/
inductive Outcome where
  | skipped (why : Why)
  | returned (args : List Arg) (r : Option Val)
  | threw (args : List Arg)
deriving DecidableEq, Repr

/-- One dereference of the iterator: at position `pos`, where `slot` is. -/
structure Visit where
  pos : Nat
  slot : SlotId
  out : Outcome
deriving DecidableEq, Repr

/-- The events of a dereference. -/
def Visit.events (e : EmId) (v : Visit) : List Event :=
  match v.out with
  | .skipped why => [.visit e v.pos v.slot, .skip e v.slot why]
  | .returned a r => [.visit e v.pos v.slot, .enter e v.slot a, .exit e v.slot r]
  | .threw a => [.visit e v.pos v.slot, .enter e v.slot a, .threw e v.slot]

/-- The optional that the dereference yields. -/
def Visit.result (v : Visit) : Option Val :=
  match v.out with
  | .returned _ r => r
  | _ => none

/-- The dereference did not throw. -/
def Visit.calm (v : Visit) : Prop :=
  match v.out with
  | .threw _ => False
  | _ => True

/-- The last engaged one of a sequence of optionals. -/
def lastEngaged (rs : List (Option Val)) : Option Val := (rs.filterMap id).getLast?

/-- The callables called in the course of `vs` see one argument tuple, handed from one to the next; `a` before and `a'`
after. `consume s` tells which parameters the callable of `s` takes over. -/
def ArgsThread (consume : SlotId → List Bool) : List Arg → List Visit → List Arg → Prop
  | a, [], a' => a = a'
  | a, v :: vs, a' =>
    match v.out with
    | .skipped _ => ArgsThread consume a vs a'
    | .returned x _ => x = a ∧ ArgsThread consume (passArgs (consume v.slot) a) vs a'
    | .threw x => x = a ∧ ArgsThread consume (passArgs (consume v.slot) a) vs a'

/-- The dereferences `vs` made on the snapshot `items` by the combiner of emission `m`, which leave the argument
tuple as `args`. -/
structure Emitted (consume : SlotId → List Bool) (isVoid : Bool) (m : Em) (items : List SlotId)
    (vs : List Visit) (args : List Arg) : Prop where
  /-- each is of the listener at that position of the snapshot -/
  here : ∀ v ∈ vs, items[v.pos]? = some v.slot
  /-- a call that returns yields an engaged optional, unless the signal returns `void` -/
  res : ∀ v ∈ vs, ∀ a r, v.out = .returned a r → (r = none ↔ isVoid = true)
  args : ArgsThread consume m.args vs args
  /-- the default combiner takes the positions one by one -/
  order : m.comb = .lastValue → vs.map (·.pos) = List.range vs.length

/-- The possible histories of a finished emission. -/
inductive Complete (consume : SlotId → List Bool) (isVoid : SigId → Bool) (e : EmId) : List Event → Prop where
  /-- the signal was blocked -/
  | suppressed (t : Tid) (m : Em) (he : m.e = e) : Complete consume isVoid e [.began t m, .suppressed e]
  /-- it returned `r` -/
  | done (t : Tid) (m : Em) (items : List SlotId) (vs : List Visit) (args : List Arg) (r : Option Val)
      (he : m.e = e) (hv : Emitted consume (isVoid m.g) m items vs args)
      (hd : m.comb = .lastValue →
        vs.length = items.length ∧ r = lastEngaged (vs.map (·.result)) ∧ ∀ v ∈ vs, v.calm) :
      Complete consume isVoid e
        (.began t m :: .snap m items :: (vs.flatMap (·.events e) ++ [.done e r]))
  /-- an exception left it -/
  | aborted (t : Tid) (m : Em) (items : List SlotId) (vs : List Visit) (args : List Arg)
      (he : m.e = e) (hv : Emitted consume (isVoid m.g) m items vs args)
      (hd : m.comb = .lastValue → ∃ vs0 v, vs = vs0 ++ [v] ∧ (∀ v ∈ vs0, v.calm) ∧ ¬ v.calm) :
      Complete consume isVoid e
        (.began t m :: .snap m items :: (vs.flatMap (·.events e) ++ [.aborted e]))

/-! ### Flags -/

/-- Is listener `s` blocked after a history? -/
def blockedAfter : List Event → SlotId → Bool
  | [], _ => false
  | .created _ s _ b :: log, x => if s = x then b else blockedAfter log x
  | .blockSet s c :: log, x => if s = x then c else blockedAfter log x
  | _ :: log, x => blockedAfter log x

/-- Is the connection of listener `s` intact after a history? It goes down when some `disconnect` takes effect
on it, or when an emission finds its tracked object gone. -/
def connectedAfter : List Event → SlotId → Bool
  | [], _ => false
  | .created _ s c _ :: log, x => if s = x then c else connectedAfter log x
  | .exch s _ :: log, x => if s = x then false else connectedAfter log x
  | .skip _ s .expired :: log, x => if s = x then false else connectedAfter log x
  | _ :: log, x => connectedAfter log x

/-! ### Moments -/

/-- `log` ends in the visit of `s` at `pos` by emission `e`, followed by `later`, in which `e` is silent. -/
def Since (e : EmId) (pos : Nat) (s : SlotId) (later log : List Event) : Prop :=
  (∃ pre, log = later ++ .visit e pos s :: pre) ∧ ∀ ev ∈ later, ev.em ≠ some e

/-- Since the visit, `s` was seen unblocked. -/
def SeenUnblocked (e : EmId) (pos : Nat) (s : SlotId) (log : List Event) : Prop :=
  ∃ l1 l0 old, log = l1 ++ old ∧ Since e pos s (l1 ++ l0) log ∧ Since e pos s l0 old ∧ blockedAfter old s = false

/-- Since the visit, `s` was seen unblocked and after that connected. -/
def SeenConnected (e : EmId) (pos : Nat) (s : SlotId) (log : List Event) : Prop :=
  ∃ l1 old, log = l1 ++ old ∧ (∀ ev ∈ l1, ev.em ≠ some e) ∧ SeenUnblocked e pos s old ∧ connectedAfter old s = true

end Verif
