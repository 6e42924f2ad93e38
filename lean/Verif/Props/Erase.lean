import Verif.Props.Lists
import Verif.Props.ListOps
import Verif.Props.Equality
import Verif.Mach.Erase
import Verif.Mach.StepL

/-!
# C05, C06: `signal::disconnect(f)`

The theorems follow one call from the step that makes it (`w0` to `w1`), through any interleaving of other threads (`w1`
to `w2`), to the step that returns (`w2` to `w3`).
-/

namespace Verif

variable {E : Env} {w w' : World} {t : Tid}

/-- A thread inside `erase` stays there until it returns. -/
theorem erase_step {l : Label} {g : SigId} {tgt : Option Callable} {pc : ErasePc} {rest : List Frame}
    (hst : w.stacks l.tid = .erase g tgt pc :: rest) (hs : step E w l = some w') :
    ((∃ pc', w'.stacks l.tid = .erase g tgt pc' :: rest) ∧ (w'.log = w.log ∨ ∃ v, w'.log = .erased g v :: w.log)) ∨
      (∃ r, pc = .unlock r ∧ w' = ((w.setMutex g none).setStack l.tid rest).emitEv (.eraseRet l.tid g tgt r)) ∨
      (pc = .clone ∧ l = .fail l.tid ∧ w' = ((w.setMutex g none).setStack l.tid rest).emitEv (.failed l.tid g none)) := by
  cases l with
  | run t =>
    obtain ⟨-, -, hr⟩ := step_run hs
    simp only [Label.tid] at hst ⊢
    simp only [runTop, hst] at hr
    cases pc with
    | wait =>
      simp only [runErase, acquire] at hr
      split at hr
      · injection hr with hr; subst hr; exact .inl ⟨⟨_, hst⟩, .inl rfl⟩
      · split at hr
        · cases hr
        · injection hr with hr; subst hr; exact .inl ⟨⟨_, upd_same _ _ _⟩, .inl rfl⟩
    | detach =>
      simp only [runErase] at hr
      split at hr
      · injection hr with hr; subst hr; exact .inl ⟨⟨_, hst⟩, .inl rfl⟩
      · injection hr with hr; subst hr; exact .inl ⟨⟨_, upd_same _ _ _⟩, .inl rfl⟩
    | clone =>
      simp only [runErase] at hr
      split at hr
      · injection hr with hr; subst hr; exact .inl ⟨⟨_, hst⟩, .inl rfl⟩
      · injection hr with hr; subst hr; exact .inl ⟨⟨_, upd_same _ _ _⟩, .inl rfl⟩
    | scan i cnt =>
      simp only [runErase] at hr
      split at hr
      · injection hr with hr; subst hr; exact .inl ⟨⟨_, hst⟩, .inl rfl⟩
      · split at hr
        · injection hr with hr; subst hr; exact .inl ⟨⟨_, upd_same _ _ _⟩, .inl rfl⟩
        · rename_i v hv
          split at hr <;> injection hr with hr <;> subst hr
          · exact .inl ⟨⟨_, upd_same _ _ _⟩, .inl rfl⟩
          · refine .inl ⟨⟨_, upd_same _ _ _⟩, .inr ⟨v, ?_⟩⟩
            simp only [World.emitEv, World.setStack, (removeAt_same _ _ _).2.2.2.2.2.2.2.2.2.2.1]
          · exact .inl ⟨⟨_, upd_same _ _ _⟩, .inl rfl⟩
    | unlock r =>
      simp only [runErase] at hr
      injection hr with hr
      exact .inr (.inl ⟨r, rfl, hr.symm⟩)
  | call t a =>
    obtain ⟨-, -, hu, -⟩ := step_call hs
    rw [show w.stacks t = _ from hst] at hu
    simp [userCtx] at hu
  | ret t v =>
    obtain ⟨-, -, s, o, m, b, pos, acc, rest', h1, -⟩ := step_ret hs
    rw [show w.stacks t = _ from hst] at h1; cases h1
  | throw t c =>
    obtain ⟨-, -, s, o, m, b, pos, acc, rest', h1, -⟩ := step_throw hs
    rw [show w.stacks t = _ from hst] at h1; cases h1
  | fail t =>
    obtain ⟨-, -, hf⟩ := step_fail hs
    simp only [Label.tid] at hst ⊢
    simp only [allocFail, hst] at hf
    cases pc <;> simp only at hf <;> try (cases hf; done)
    split at hf
    · injection hf with hf; exact .inr (.inr ⟨rfl, trivial, hf.symm⟩)
    · cases hf
  | ctl t =>
    obtain ⟨-, -, rfl, -⟩ := step_ctl hs
    exact .inl ⟨⟨_, hst⟩, .inl rfl⟩

/-- While the call has not returned, its bookkeeping starts after the call. -/
theorem erasing {w0 w1 w2 : World} {g : SigId} {tgt : Option Callable} (h : Reachable E w0)
    (hc : step E w0 (.call t (.sigDisconnect g tgt)) = some w1) (hs : Steps E (fun _ => True) w1 w2) :
    ∀ evs, w2.log = evs ++ w0.log → (∀ ev ∈ evs, ev.endsErase t = false) →
      (∃ pc, w2.stacks t = .erase g tgt pc :: w0.stacks t) ∧
        EraseTop (fun old => w0.log <:+ old) E w2 (w2.stacks t) := by
  have h1 : Reachable E w1 := h.step hc
  induction hs with
  | refl =>
    intro evs _ _
    obtain ⟨-, -, -, hop⟩ := step_call hc
    simp only [userOp] at hop
    split at hop
    · injection hop with hop; subst hop
      refine ⟨⟨.wait, upd_same _ _ _⟩, ?_⟩
      rw [show (w0.setStack t (.erase g tgt .wait :: w0.stacks t)).stacks t = _ from upd_same _ _ _]
      trivial
    · cases hop
  | @tail w2 w3 l hs' _ hl ih =>
    intro evs he hq
    have r2 : Reachable E w2 := h1.steps hs'
    have r3 : Reachable E w3 := r2.step hl
    obtain ⟨-, -, R⟩ := step_inv hl
    obtain ⟨ev0, e0⟩ := Steps.log_mono (E := E) (P := fun _ => True) (.tail l (.refl w2) trivial hl)
    obtain ⟨ev1, e1⟩ := Steps.log_mono ((Steps.refl w0 |>.tail (P := fun _ => True) _ trivial hc).trans hs')
    have ee : evs = ev0 ++ ev1 := by
      have := he.symm.trans (e0.trans (by rw [e1, ← List.append_assoc]))
      exact List.append_cancel_right this
    obtain ⟨⟨pc, hst⟩, hT⟩ := ih ev1 e1 fun ev hm => hq ev (by rw [ee]; exact List.mem_append_right _ hm)
    by_cases ht : t = l.tid
    · subst ht
      have hT' := EraseTop.own r2.full.i r3.full.i (B := fun old => w0.log <:+ old) ⟨ev1, e1.symm⟩ hT R
      rcases erase_step hst hl with ⟨h, -⟩ | ⟨r, -, rfl⟩ | ⟨-, -, rfl⟩
      · exact ⟨h, hT'⟩
      · have : ev0 = [.eraseRet l.tid g tgt r] := by
          have : ev0 ++ w2.log = [.eraseRet l.tid g tgt r] ++ w2.log := e0.symm
          exact List.append_cancel_right this
        exact absurd (hq (.eraseRet l.tid g tgt r) (by rw [ee, this]; simp)) (by simp [Event.endsErase])
      · have : ev0 = [.failed l.tid g none] := by
          have : ev0 ++ w2.log = [.failed l.tid g none] ++ w2.log := e0.symm
          exact List.append_cancel_right this
        exact absurd (hq (.failed l.tid g none) (by rw [ee, this]; simp)) (by simp [Event.endsErase])
    · refine ⟨⟨pc, ?_⟩, hT.other r2.full.i R ht⟩
      rw [stacks_other R ht]; exact hst

/-- A call of `signal::disconnect` that returned: where it scanned and what the scan computed. -/
theorem erase_call {w0 w1 w2 w3 : World} {g g' : SigId} {tgt tgt' : Option Callable} {r : Option Nat} {l : Label}
    {evs : List Event} (h : Reachable E w0)
    (hc : step E w0 (.call t (.sigDisconnect g tgt)) = some w1) (hs : Steps E (fun _ => True) w1 w2)
    (he : w2.log = evs ++ w0.log) (hq : ∀ ev ∈ evs, ev.endsErase t = false)
    (hr : step E w2 l = some w3) (hl : w3.log = .eraseRet t g' tgt' r :: w2.log) :
    g' = g ∧ tgt' = tgt ∧ w3.stacks t = w0.stacks t ∧ (w3.sigs g).mutex = none ∧
      (∀ s, w3.slots s = w2.slots s) ∧ w3.nSlots = w2.nSlots ∧
      ScanOk (fun old => w0.log <:+ old) E w3 g tgt w2.log (w3.listOf g, r) := by
  obtain ⟨⟨pc, hst⟩, hT⟩ := erasing h hc hs evs he hq
  obtain ⟨-, -, R⟩ := step_inv hr
  have F := fixed R
  have : l.tid = t ∧ ∃ rest, w2.stacks t = .erase g' tgt' (.unlock r) :: rest ∧
      w3 = ((w2.setMutex g' none).setStack t rest).emitEv (.eraseRet t g' tgt' r) := by
    have gen : ∀ {x}, StepR E w2 x w3 → x = t ∧ ∃ rest, w2.stacks t = .erase g' tgt' (.unlock r) :: rest ∧
      w3 = ((w2.setMutex g' none).setStack t rest).emitEv (.eraseRet t g' tgt' r) := by
      intro x R
      cases R <;> try (simp [World.setUB, World.setH, World.setStack, World.emitEv, World.setBlocked, World.setMutex,
        World.setIndex, World.setBlk, World.setConnected, World.setList] at hl; done)
      case det f f' rest g b hst hf hl' =>
        have e1 : ((cloneBlk w2 g b).setStack x (f' :: rest)).log = w2.log := by rfl
        rw [e1] at hl; simp at hl
      case eraseUnlock g0 tgt0 r0 rest hst' =>
        simp only [World.emitEv, World.setStack, World.setMutex, List.cons.injEq, and_true] at hl
        injection hl with a1 a2 a3 a4
        subst a1 a2 a3 a4
        exact ⟨rfl, rest, hst', rfl⟩
    exact gen R
  obtain ⟨e1, rest, e2, e3⟩ := this
  rw [hst] at e2
  injection e2 with e2 e4
  injection e2 with e2 e5 e6
  subst e2 e5 e6 e4
  have hT2 : ScanOk (fun old => w0.log <:+ old) E w2 g tgt w2.log (w2.listOf g, r) := by
    rw [hst] at hT; exact hT
  have hlist : w3.listOf g = w2.listOf g := by
    subst e3
    simp [World.listOf, World.emitEv, World.setStack, World.setMutex, upd_same]
  refine ⟨rfl, rfl, by rw [e3]; exact upd_same _ _ _, ?_, by rw [e3]; exact fun _ => rfl, by rw [e3]; rfl, ?_⟩
  · rw [e3]; simp [World.emitEv, World.setStack, World.setMutex, upd_same]
  · rw [hlist]; exact hT2.mono F

/-- C05: a call of `signal::disconnect` with the callable `tgt` that returned `n`. There is a moment between call and
return (after the history `old`) such that: from then to the return the list of the signal was changed only by taking out
listeners equal to `tgt`; at the return the list consists of exactly the listeners that were in it at that moment
and are not equal to `tgt`; `n` is the number of the others. Control is back with the caller and the mutex is free. -/
theorem C05 {w0 w1 w2 w3 : World} {g g' : SigId} {tgt tgt' : Option Callable} {n : Nat} {l : Label}
    {evs : List Event} (h : Reachable E w0)
    (hc : step E w0 (.call t (.sigDisconnect g tgt)) = some w1) (hs : Steps E (fun _ => True) w1 w2)
    (he : w2.log = evs ++ w0.log) (hq : ∀ ev ∈ evs, ev.endsErase t = false)
    (hr : step E w2 l = some w3) (hl : w3.log = .eraseRet t g' tgt' (some n) :: w2.log) :
    g' = g ∧ tgt' = tgt ∧ w3.stacks t = w0.stacks t ∧ (w3.sigs g).mutex = none ∧
    ∃ mid old, w2.log = mid ++ old ∧ w0.log <:+ old ∧
      (∀ ev ∈ mid, ev.touches g = true →
        ∃ v, ev = .erased g v ∧ slotEq E (some (w3.slots v).fn) tgt = some true) ∧
      (w3.listOf g).Perm ((replay old g).filter fun v => slotEq E (some (w3.slots v).fn) tgt != some true) ∧
      n = ((replay old g).filter fun v => slotEq E (some (w3.slots v).fn) tgt == some true).length ∧
      ∀ v ∈ replay old g, slotEq E (some (w3.slots v).fn) tgt ≠ none := by
  obtain ⟨e1, e2, e3, e4, -, -, mid, old, e5, e6, e7, e8, e9⟩ := erase_call h hc hs he hq hr hl
  refine ⟨e1, e2, e3, e4, mid, old, e5, e6, fun ev hev ht => ?_, C05_scan _ _ _ _ e9.symm⟩
  obtain ⟨v, a, -, b⟩ := e7 ev hev ht
  exact ⟨v, a, b⟩

namespace Demo

/-- Listeners 10, 11, 10, 12 are connected. -/
def quartet : List Label :=
  [.call 0 (.newSig false)] ++ connect 0 10 0 ++ connect 0 11 1 ++ connect 0 10 2 ++ connect 0 12 3

/-- `disconnect(10)` by thread 0, up to its return, while thread 1 connects 13, which has to wait for the mutex. -/
def purge : List Label := go 0 5 ++ [.call 1 (.connect 0 (fn 13) [] true false (.conn 4))] ++ go 0 2

end Demo

/-- The hypotheses of `C05` hold of a concrete call, which removes two listeners. -/
example : ∃ w0 w1 w2 w3 evs, Reachable Demo.E0 w0 ∧
    step Demo.E0 w0 (.call 0 (.sigDisconnect 0 (some (Demo.fn 10)))) = some w1 ∧
    Steps Demo.E0 (fun _ => True) w1 w2 ∧ w2.log = evs ++ w0.log ∧
    (∀ ev ∈ evs, ev.endsErase 0 = false) ∧ step Demo.E0 w2 (.run 0) = some w3 ∧
    w3.log = .eraseRet 0 0 (some (Demo.fn 10)) (some 2) :: w2.log ∧ w0.listOf 0 = [0, 1, 2, 3] ∧
    w3.listOf 0 = [3, 1] ∧ evs = [.erased 0 2, .created 0 4 true false, .erased 0 0] := by
  let c : List Label := [.call 0 (.sigDisconnect 0 (some (Demo.fn 10)))]
  refine ⟨_, _, Demo.world 2 (Demo.quartet ++ c ++ Demo.purge), _, [.erased 0 2, .created 0 4 true false, .erased 0 0],
    Demo.reach 2 Demo.quartet, Demo.world_step 2 Demo.quartet _ (by decide +kernel),
    Demo.world_more 2 (Demo.quartet ++ c) Demo.purge (by decide +kernel) fun _ _ => trivial, ?_, ?_,
    Demo.world_step 2 (Demo.quartet ++ c ++ Demo.purge) (.run 0) (by decide +kernel), ?_⟩
  · decide +kernel
  · decide
  · decide +kernel

/-- C06: a call that threw (`not_comparable_exception` or what a user's `==` threw) has released the mutex, has taken out only listeners equal to
`tgt`, has kept all the others, and the listener it could not compare is there. -/
theorem C06 {w0 w1 w2 w3 : World} {g g' : SigId} {tgt tgt' : Option Callable} {l : Label}
    {evs : List Event} (h : Reachable E w0)
    (hc : step E w0 (.call t (.sigDisconnect g tgt)) = some w1) (hs : Steps E (fun _ => True) w1 w2)
    (he : w2.log = evs ++ w0.log) (hq : ∀ ev ∈ evs, ev.endsErase t = false)
    (hr : step E w2 l = some w3) (hl : w3.log = .eraseRet t g' tgt' none :: w2.log) :
    g' = g ∧ tgt' = tgt ∧ w3.stacks t = w0.stacks t ∧ (w3.sigs g).mutex = none ∧
    ∃ mid old, w2.log = mid ++ old ∧ w0.log <:+ old ∧
      (∀ ev ∈ mid, ev.touches g = true →
        ∃ v, ev = .erased g v ∧ slotEq E (some (w3.slots v).fn) tgt = some true) ∧
      (∃ out, (replay old g).Perm (w3.listOf g ++ out) ∧
        ∀ v ∈ out, slotEq E (some (w3.slots v).fn) tgt = some true) ∧
      ∃ v ∈ w3.listOf g, slotEq E (some (w3.slots v).fn) tgt = none := by
  obtain ⟨e1, e2, e3, e4, -, -, mid, old, e5, e6, e7, e8, e9⟩ := erase_call h hc hs he hq hr hl
  refine ⟨e1, e2, e3, e4, mid, old, e5, e6, fun ev hev ht => ?_, ?_⟩
  · obtain ⟨v, a, -, b⟩ := e7 ev hev ht
    exact ⟨v, a, b⟩
  · obtain ⟨a, -, c⟩ := C06_scan _ _ _ e9.symm
    exact ⟨a, c⟩

/-- C06: when some member of the callable has no `==`, and the call throws, nothing has been removed. -/
theorem C06_unchanged {w0 w1 w2 w3 : World} {g g' : SigId} {c : Callable} {tgt' : Option Callable} {r : Option Nat}
    {l : Label} {evs : List Event} (h : Reachable E w0) (hn : ¬ Comparable c)
    (hc : step E w0 (.call t (.sigDisconnect g (some c))) = some w1) (hs : Steps E (fun _ => True) w1 w2)
    (he : w2.log = evs ++ w0.log) (hq : ∀ ev ∈ evs, ev.endsErase t = false)
    (hr : step E w2 l = some w3) (hl : w3.log = .eraseRet t g' tgt' r :: w2.log) :
    ∃ mid old, w2.log = mid ++ old ∧ w0.log <:+ old ∧ (∀ ev ∈ mid, ev.touches g = false) ∧
      w3.listOf g = replay old g ∧ (r = none ∨ r = some 0) := by
  have key : ∀ a, slotEq E (some a) (some c) ≠ some true := by
    intro a ha
    refine hn ?_
    cases a <;> cases c <;> simp only [slotEq, Callable.equals] at ha <;> try (simp at ha; done)
    all_goals
      split at ha
      · rename_i e
        simp only [tryEquals] at ha
        intro p hp
        simp only [Callable.parts, List.mem_cons, List.not_mem_nil, or_false] at hp
        first
          | (subst e hp; split at ha
             · assumption
             · cases ha)
          | (obtain ⟨rfl, rfl⟩ := e
             split at ha
             · split at ha
               · rcases hp with rfl | rfl <;> assumption
               · unfold andAlso at ha; split at ha <;> simp_all
             · simp [andAlso] at ha)
      · simp at ha
  obtain ⟨e1, e2, e3, e4, -, -, mid, old, e5, e6, e7, e8, e9⟩ := erase_call h hc hs he hq hr hl
  refine ⟨mid, old, e5, e6, fun ev hev => ?_, ?_, ?_⟩
  · cases ht : ev.touches g with
    | false => rfl
    | true => obtain ⟨v, a, -, b⟩ := e7 ev hev ht; exact absurd b (key _)
  · have := C06_scan_unchanged (w3.matches E (some c)) (replay old g) fun x _ => key _
    rw [← e9] at this; exact this
  · cases r with
    | none => exact .inl rfl
    | some n =>
      right
      have := (C05_scan _ _ _ _ e9.symm).2.1
      rw [this, List.filter_eq_nil_iff.2 fun v _ => by simp [World.matches, key]]; rfl

namespace Demo

/-- A lambda: its type has no `==`. -/
def lam (k : Nat) : Callable := .func ⟨9, false, .rvalue⟩ k

/-- Two function objects and a lambda of type 9. -/
def mixed : List Label :=
  [.call 0 (.newSig false)] ++ connect 0 10 0 ++ connect 0 11 1 ++
  (.call 0 (.connect 0 (lam 5) [] true false (.conn 2)) :: go 0 4)

end Demo

/-- The hypotheses of `C06` and `C06_unchanged`: `disconnect` with a lambda of the same type throws. -/
example : ∃ w0 w1 w2 w3 evs, Reachable Demo.E0 w0 ∧ ¬ Comparable (Demo.lam 5) ∧
    step Demo.E0 w0 (.call 0 (.sigDisconnect 0 (some (Demo.lam 5)))) = some w1 ∧
    Steps Demo.E0 (fun _ => True) w1 w2 ∧ w2.log = evs ++ w0.log ∧
    (∀ ev ∈ evs, ev.endsErase 0 = false) ∧ step Demo.E0 w2 (.run 0) = some w3 ∧
    w3.log = .eraseRet 0 0 (some (Demo.lam 5)) none :: w2.log ∧ w3.listOf 0 = [0, 1, 2] := by
  let c : List Label := [.call 0 (.sigDisconnect 0 (some (Demo.lam 5)))]
  refine ⟨_, _, Demo.world 1 (Demo.mixed ++ c ++ Demo.go 0 5), _, [],
    Demo.reach 1 Demo.mixed, ?_, Demo.world_step 1 Demo.mixed _ (by decide +kernel),
    Demo.world_more 1 (Demo.mixed ++ c) (Demo.go 0 5) (by decide +kernel) fun _ _ => trivial, ?_, ?_,
    Demo.world_step 1 (Demo.mixed ++ c ++ Demo.go 0 5) (.run 0) (by decide +kernel), ?_⟩
  · intro h; have := h (⟨9, false, .rvalue⟩, 5) (by simp [Callable.parts, Demo.lam]); cases this
  · decide +kernel
  · decide
  · decide +kernel

/-- A comparison that throws for the values 10 and 11. -/
def Demo.Ex : Env := ⟨fun _ a b => if a = 11 ∧ b = 10 then none else some (a == b)⟩

/-- `disconnect(10)` removes the first of the listeners 10, 12, 11 and then throws; the others stay. -/
example : (exec Demo.Ex (World.init 1) ([.call 0 (.newSig false)] ++ Demo.connect 0 10 0 ++ Demo.connect 0 12 1 ++ Demo.connect 0 11 2 ++
      [.call 0 (.sigDisconnect 0 (some (Demo.fn 10)))] ++ Demo.go 0 5)).map
    (fun w => (w.log.head?, w.stacks 0, w.listOf 0, (w.sigs 0).mutex)) =
      some (some (.eraseRet 0 0 (some (Demo.fn 10)) none), [], [2, 1], none) := by decide +kernel

/-- C05: a thread inside `signal::disconnect` on `g` changes no other signal's list. -/
theorem C05_only {g : SigId} {tgt : Option Callable} {pc : ErasePc} {rest : List Frame} (h : Reachable E w)
    (hst : w.stacks t = .erase g tgt pc :: rest) (hs : step E w (.run t) = some w') {g' : SigId} (hg : g' ≠ g) :
    w'.listOf g' = w.listOf g' := by
  obtain ⟨-, -, R⟩ := step_inv hs
  have hl : ∀ g0, topLocks (w.stacks t) = some g0 → g0 = g := by
    rw [hst]; intro g0 e
    cases pc <;> simp [topLocks, Frame.locks] at e <;> exact e.symm
  have R : StepR E w t w' := R
  cases listEff h.full.i.i1 h.full.i.i2 R with
  | same hl => exact hl g'
  | add g0 s b dest rest' hst' => rw [hst] at hst'; cases hst'
  | rem g0 i v ev hst' hv h0 => rw [h0, if_neg]; rw [hl _ hst']; exact hg
  | move g0 g1 hne hst' h0 hd h1 hi hlog =>
    rcases erase_step (l := .run t) hst hs with ⟨-, e | ⟨v, e⟩⟩ | ⟨r, -, e⟩ | ⟨-, -, e⟩
    · rw [hlog] at e; simp at e
    · rw [hlog] at e; simp at e
    · rw [e] at hlog; simp [World.emitEv, World.setStack, World.setMutex] at hlog
    · rw [e] at hlog; simp [World.emitEv, World.setStack, World.setMutex] at hlog
  | destroy g0 hm h1 hi hlog =>
    rcases erase_step (l := .run t) hst hs with ⟨-, e | ⟨v, e⟩⟩ | ⟨r, -, e⟩ | ⟨-, -, e⟩
    · rw [hlog] at e; simp at e
    · rw [hlog] at e; simp at e
    · rw [e] at hlog; simp [World.emitEv, World.setStack, World.setMutex] at hlog
    · rw [e] at hlog; simp [World.emitEv, World.setStack, World.setMutex] at hlog

/-- The scan of `Demo.quartet` is a step of that kind. -/
example : ∃ w', step Demo.E0 (Demo.world 2 (Demo.quartet ++
    [.call 0 (.sigDisconnect 0 (some (Demo.fn 10)))] ++ Demo.go 0 2)) (.run 0) = some w' ∧
    (Demo.world 2 (Demo.quartet ++ [.call 0 (.sigDisconnect 0 (some (Demo.fn 10)))] ++ Demo.go 0 2)).stacks 0 =
      [.erase 0 (some (Demo.fn 10)) (.scan 0 0)] :=
  ⟨_, Demo.world_step 2 _ _ (by decide +kernel), by decide +kernel⟩

end Verif
