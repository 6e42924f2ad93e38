import Verif.Props.Lists
import Verif.Mach.Shape
import Verif.Mach.Alive
import Verif.Mach.StepL

/-!
# C16: listeners bound to tracked objects
-/

namespace Verif

variable {E : Env} {w w' : World} {t : Tid}

/-- A frame that holds an object keeps it alive. -/
theorem obj_held (I : Inv1 w) {f : Frame} {o : ObjId} (hf : f ∈ w.stacks t) (ho : f.obj? = some o) :
    w.objAlive o = true := (objAlive_iff I).2 (.inr ⟨t, f, hf, ho⟩)

/-- C16: while a listener bound to object `o` is being called (its emission's latest event is the start of the call), `o` is
alive: it has an owner. -/
theorem C16_alive (h : Reachable E w) {e : EmId} {s : SlotId} {a : List Arg} {o : ObjId}
    (hl : (trace w.log e).getLast? = some (.enter e s a)) (ho : (w.slots s).fn.obj? = some o) :
    w.objAlive o = true := by
  have T := h.full.t
  rcases Nat.lt_or_ge e w.nEm with hn | hn
  · rcases T.fin e hn with ⟨t, c, hc, rfl⟩ | hf
    · have ok := T.ok t c hc
      unfold ActOk at ok
      split at ok
      · rename_i b pos acc hpc
        obtain ⟨m0, vs, a0, ok⟩ := ok
        rw [ok.tr] at hl
        match hcc : c.c with
        | none =>
          rw [hcc] at hl
          simp only [current, List.append_nil] at hl
          exfalso
          rcases List.eq_nil_or_concat vs with rfl | ⟨vs0, v, rfl⟩
          · simp at hl
          · rw [List.concat_eq_append, List.flatMap_append, List.flatMap_cons, List.flatMap_nil, List.append_nil, ← List.cons_append,
              ← List.cons_append, List.getLast?_append] at hl
            unfold Visit.events at hl
            cases hv : v.out <;> simp [hv] at hl
        | some (s', p) =>
          have hA := (ok.cur s' p hcc).2
          rw [hcc, ← List.cons_append, ← List.cons_append, List.getLast?_append] at hl
          cases p with
          | body x =>
            simp [current] at hl
            obtain ⟨rfl, rfl⟩ := hl
            have hA : (w.slots s').fn.obj? = x := hA
            exact obj_held h.full.i.i1 (acts_mem_call hc hcc) (by rw [← hA] ; simp only [Frame.obj?]; exact ho)
          | _ => simp [current] at hl
      · rw [ok.2] at hl; simp at hl
    · exfalso
      unfold World.complete at hf
      generalize trace w.log e = tr at hl hf
      cases hf with
      | suppressed => simp at hl
      | done => rw [← List.cons_append, ← List.cons_append, List.getLast?_append] at hl; simp at hl
      | aborted => rw [← List.cons_append, ← List.cons_append, List.getLast?_append] at hl; simp at hl
  · rw [T.old e hn] at hl; cases hl

/-- C16: a listener bound to `o` is called only when `o` is alive. -/
theorem C16_enter (h : Reachable E w) {l : Label} (hs : step E w l = some w') {e : EmId} {s : SlotId} {a : List Arg}
    {o : ObjId} (hl : w'.log = .enter e s a :: w.log) (ho : (w.slots s).fn.obj? = some o) :
    w.objAlive o = true ∧ w'.objAlive o = true := by
  obtain ⟨-, -, R⟩ := step_inv hs
  have fn : (w'.slots s).fn = (w.slots s).fn ∧ w.objAlive o = true := by
    have gen : ∀ {x}, StepR E w x w' → (w'.slots s).fn = (w.slots s).fn ∧ w.objAlive o = true := by
      intro x R
      cases R <;> try (simp [World.setUB, World.setH, World.setStack, World.emitEv, World.setBlocked, World.setMutex,
        World.setIndex, World.setBlk, World.setConnected, World.setList] at hl; done)
      case det f f' rest g b hst hf hl' =>
        have e1 : ((cloneBlk w g b).setStack x (f' :: rest)).log = w.log := by rfl
        rw [e1] at hl; simp at hl
      case callEnter s0 pc x0 m b pos acc rest hst hpc =>
        simp only [World.emitEv, World.setStack, List.cons.injEq, and_true] at hl
        injection hl with _ e2 _
        subst e2
        refine ⟨rfl, ?_⟩
        have hA := callAt_top h.full.t hst
        rcases hpc with ⟨rfl, -⟩ | ⟨y, rfl, -, -⟩
        · have : (w.slots s0).fn.obj? = none := hA.2
          rw [ho] at this; cases this
        · have : (w.slots s0).fn.obj? = some y := hA.2
          rw [ho] at this; injection this with this; subst this
          exact obj_held (t := x) h.full.i.i1 (by rw [hst]; exact List.mem_cons_self) rfl
    exact gen R
  refine ⟨fn.2, C16_alive (h.step hs) (e := e) (s := s) (a := a) ?_ (by rw [fn.1]; exact ho)⟩
  rw [hl, trace_cons rfl]; simp

theorem dead_steps {P : Label → Prop} (h : Reachable E w) (hs : Steps E P w w') {o : ObjId} (hlt : o < w.nObjs)
    (hd : w.objAlive o = false) : w'.objAlive o = false ∧ w.nObjs ≤ w'.nObjs := by
  induction hs with
  | refl => exact ⟨hd, Nat.le_refl _⟩
  | @tail w1 w2 l hs' _ hl ih =>
    have r1 := h.steps hs'
    obtain ⟨-, -, R⟩ := step_inv hl
    have F := fixed R
    exact ⟨dead_stays r1.full.i.i1 (r1.step hl).full.i.i1 R (Nat.lt_of_lt_of_le hlt ih.2) ih.1,
      Nat.le_trans ih.2 F.nObjs⟩

theorem fixed_steps {P : Label → Prop} (hs : Steps E P w w') : (∀ s, s < w.nSlots → (w'.slots s).fn = (w.slots s).fn) ∧
    w.nSlots ≤ w'.nSlots := by
  induction hs with
  | refl => exact ⟨fun _ _ => rfl, Nat.le_refl _⟩
  | tail l hs' _ hl ih =>
    obtain ⟨-, -, R⟩ := step_inv hl
    have F := fixed R
    exact ⟨fun s hlt => (F.fn s (Nat.lt_of_lt_of_le hlt ih.2)).trans (ih.1 s hlt), Nat.le_trans ih.2 F.nSlots⟩

/-- C16: once the object has expired, no emission ever calls the listener again, and `connected()` on every connection to
it is false for ever. -/
theorem C16_expired (h : Reachable E w) {s : SlotId} {o : ObjId} (hlt : s < w.nSlots)
    (ho : (w.slots s).fn.obj? = some o) (hd : w.objAlive o = false) (hs : Steps E (fun _ => True) w w') :
    w'.connConnected (some s) = false ∧
      ∃ evs, w'.log = evs ++ w.log ∧ ∀ e a, Event.enter e s a ∉ evs := by
  have hob := h.full.k.obj s o hlt ho
  induction hs with
  | refl =>
    refine ⟨?_, [], rfl, by simp⟩
    simp [World.connConnected, World.slotConnected, ho, hd]
  | @tail w1 w2 l hs' _ hl ih =>
    have r1 := h.steps hs'
    have r2 := r1.step hl
    have D := dead_steps h (hs'.tail l trivial hl) hob hd
    have X := fixed_steps (hs'.tail l trivial hl)
    have ho2 : (w2.slots s).fn.obj? = some o := by rw [X.1 s hlt]; exact ho
    refine ⟨by simp [World.connConnected, World.slotConnected, ho2, D.1], ?_⟩
    obtain ⟨-, evs, e1, e2⟩ := ih
    obtain ⟨ev0, e0⟩ := Steps.log_mono (E := E) (P := fun _ => True) (.tail l (.refl w1) trivial hl)
    refine ⟨ev0 ++ evs, by rw [e0, e1, List.append_assoc], fun e a hm => ?_⟩
    rcases List.mem_append.1 hm with hm | hm
    · obtain ⟨-, -, R⟩ := step_inv hl
      have one : ∀ {x}, StepR E w1 x w2 → ev0 = [.enter e s a] := by
        intro x R
        have n : ∀ {evs : List Event}, w2.log = evs ++ w1.log → Event.enter e s a ∉ evs → False := by
          intro evs h1 h2
          have : ev0 = evs := List.append_cancel_right (e0.symm.trans h1)
          subst this; exact h2 hm
        cases R
        case det f f' rest g b hst hf hl' =>
          refine (n (evs := []) ?_ (by simp)).elim
          simp only [World.setStack]; rfl
        case eraseHit g0 tgt i cnt rest b s hst hl hi he =>
          refine (n (evs := [.erased g0 s]) ?_ (by simp)).elim
          simp only [World.emitEv, World.setStack, (removeAt_same _ _ _).2.2.2.2.2.2.2.2.2.2.1]; rfl
        case discWrite s v k rest g b hst hl hi =>
          refine (n (evs := [.removed g s v]) ?_ (by simp)).elim
          simp only [World.emitEv, World.setStack, (removeAt_same _ _ _).2.2.2.2.2.2.2.2.2.2.1]; rfl
        case exchFalse s k rest cv sv bv hst hc hs =>
          exact (n (evs := [.discRet x (some s) false, .exch s false]) rfl (by simp)).elim
        case callThrow s o m b pos acc rest hst =>
          exact (n (evs := [.aborted m.e, .threw m.e s]) rfl (by simp)).elim
        case callEnter s0 pc x0 m b pos acc rest hst hpc =>
          have : ev0 = [.enter m.e s0 m.args] := List.append_cancel_right (e0.symm.trans rfl)
          rw [this] at hm ⊢
          rw [List.mem_singleton.1 hm]
        all_goals first
          | exact (n (evs := []) rfl (by simp)).elim
          | exact (n (evs := [_]) rfl (by simp)).elim
      have := C16_alive r2 (e := e) (s := s) (a := a) (o := o)
        (by rw [e0, one R]; simp only [List.cons_append, List.nil_append]; rw [trace_cons rfl]; simp) ho2
      rw [D.1] at this; cases this
    · exact e2 e a hm

namespace Demo

/-- A member function of tracked object 0. -/
def bound : Callable := .tracked ⟨0, true, .rvalue⟩ ⟨1, true, .rvalue⟩ 5 0

/-- Object 0 is made, a listener is bound to it, an emission is in its body. -/
def held : List Label :=
  [.call 0 (.newSig false), .call 0 .objNew, .call 0 (.connect 0 bound [] true false (.conn 0))] ++ go 0 4 ++
  [.call 0 (.emit 0 .lastValue [])] ++ go 0 9

/-- There the only owner outside the library drops the object. -/
def dropped : List Label := held ++ [.call 0 (.objDrop 0)]

/-- The body returns, the emission ends; then another one starts. -/
def gone : List Label := dropped ++ [.ret 0 7] ++ go 0 1

end Demo

/-- During the call the object is alive, although the only other owner has dropped it; afterwards it has expired. -/
example : (trace (Demo.world 1 Demo.dropped).log 0).getLast? = some (.enter 0 0 []) ∧
    ((Demo.world 1 Demo.dropped).slots 0).fn.obj? = some 0 ∧ (Demo.world 1 Demo.dropped).objs 0 = 0 ∧
    (Demo.world 1 Demo.dropped).objAlive 0 = true ∧
    0 < (Demo.world 1 Demo.gone).nSlots ∧ ((Demo.world 1 Demo.gone).slots 0).fn.obj? = some 0 ∧
    (Demo.world 1 Demo.gone).objAlive 0 = false ∧ (Demo.world 1 Demo.gone).slotAlive 0 = true := by decide +kernel

/-- The step that starts the call. -/
example : ∃ w w', Reachable Demo.E0 w ∧ step Demo.E0 w (.run 0) = some w' ∧ w'.log = .enter 0 0 [] :: w.log ∧
    (w.slots 0).fn.obj? = some 0 := by
  let ls : List Label := [.call 0 (.newSig false), .call 0 .objNew, .call 0 (.connect 0 Demo.bound [] true false (.conn 0))] ++ Demo.go 0 4 ++
    [.call 0 (.emit 0 .lastValue [])] ++ Demo.go 0 8
  exact ⟨_, _, Demo.reach 1 ls, Demo.world_step 1 ls _ (by decide +kernel), by decide +kernel⟩

/-- A later emission passes over the listener. -/
example : (exec Demo.E0 (Demo.world 1 Demo.gone) ([.call 0 (.emit 0 .lastValue [])] ++ Demo.go 0 8)).map
    (fun w => (trace w.log 1).drop 2) = some [.visit 1 0 0, .skip 1 0 .notConnected, .done 1 none] := by decide +kernel

end Verif
