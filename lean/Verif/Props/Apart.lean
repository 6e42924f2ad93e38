import Verif.Props.Progress

/-!
# C66: signals are independent of each other

Nothing but an operation on a signal has an effect on it: not what is done to other signals, to their listeners, or with their connections.
-/

namespace Verif

variable {E : Env} {w w' : World} {t : Tid}

/-! ### The specification: which operations are on `g` -/

/-- The call starts an operation on `g`: it names `g`, or it disconnects a listener that was connected to `g`. -/
def Api.on (w : World) (g : SigId) : Api → Prop
  | .destroySig x => x = g
  | .moveSig x => x = g
  | .moveAssignSig x y => x = g ∨ y = g
  | .connect x _ _ _ _ _ => x = g
  | .emit x _ _ => x = g
  | .sigDisconnect x _ => x = g
  | .disconnect h => ∃ s, w.hval h = some s ∧ (w.slots s).owner = g
  | .scopedDtor x => ∃ s, w.sv x = some (some s) ∧ (w.slots s).owner = g
  | .scopedMoveAssign x _ => ∃ s, w.sv x = some (some s) ∧ (w.slots s).owner = g
  | _ => False

/-- The call in progress is an operation on `g`. The call of a listener is not, although its emission is. -/
def Frame.on (w : World) (g : SigId) : Frame → Prop
  | .emit m _ => m.g = g
  | .call _ _ => False
  | .add x _ _ _ => x = g
  | .erase x _ _ => x = g
  | .disc s _ _ => (w.slots s).owner = g
  | .mov x y _ => x = g ∨ y = g

/-- The step is part of an operation on `g`. -/
def Label.on (w : World) (g : SigId) : Label → Prop
  | .call _ a => a.on w g
  | l => ∃ f rest, w.stacks l.tid = f :: rest ∧ f.on w g

/-- What the history says of `g`. -/
def Event.on (g : SigId) : Event → Prop
  | .created x _ _ _ => x = g
  | .connRet _ x _ => x = g
  | .began _ m => m.g = g
  | .snap m _ => m.g = g
  | .added x _ => x = g
  | .removed x _ _ => x = g
  | .erased x _ => x = g
  | .eraseRet _ x _ _ => x = g
  | .moved x y => x = g ∨ y = g
  | .destroyed x => x = g
  | .failed _ x _ => x = g
  | _ => False

/-- No call in progress, on any thread, is an operation on `g`. -/
def Idle (w : World) (g : SigId) : Prop := ∀ t, ∀ f ∈ w.stacks t, ¬ f.on w g

/-! ### One step -/

theorem runEmit_custom {rest : List Frame} {m : Em} {b : BlkId} {i : Nat} {acc : Option Val} (hc : m.comb = .custom) :
    runEmit w t rest m (.iter b i acc) = none := by
  simp [runEmit, hc]

/-- The library does not go on while user code runs. -/
theorem run_lib (h : runTop E w t = some w') : userCtx (w.stacks t) = false := by
  cases hu : userCtx (w.stacks t) with
  | false => rfl
  | true =>
    exfalso
    unfold userCtx at hu
    split at hu
    · rename_i hst; simp [runTop, hst] at h
    · rename_i hst
      unfold runTop at h
      rw [hst] at h
      split at h <;> (try cases h) <;> rename_i heq <;> injection heq with h1 <;> (try cases h1) <;> cases h
    · rename_i hst
      unfold runTop at h
      rw [hst] at h
      simp [runEmit] at h
    · cases hu

/-- What `C66` says of one step. -/
structure Apart (w w' : World) (g : SigId) : Prop where
  sig : w'.sigs g = w.sigs g
  log : ∃ evs, w'.log = evs ++ w.log ∧ ∀ e ∈ evs, ¬ e.on g

theorem Apart.of (h1 : w'.sigs = w.sigs) (h2 : w'.log = w.log) (g : SigId) : Apart w w' g :=
  ⟨by rw [h1], [], h2, by simp⟩

theorem Apart.ev {e : Event} (h1 : w'.sigs = w.sigs) (h2 : w'.log = e :: w.log) {g : SigId} (he : ¬ e.on g) : Apart w w' g :=
  ⟨by rw [h1], [e], h2, by simpa using he⟩

/-- The signal of a removal in progress is the one that the listener was connected to. -/
theorem disc_owner (h : Reachable E w) {s : SlotId} {k : DiscK} {g : SigId} {c : CritPc} {rest : List Frame}
    (hst : w.stacks t = .disc s k (.crit g c) :: rest) : (w.slots s).owner = g :=
  have hf : FrameHist w (.disc s k (.crit g c)) := h.full.d.fh t _ (by rw [hst]; exact List.mem_cons_self)
  hf.2.symm

theorem acq_on (h : Reachable E w) {f f' : Frame} {rest : List Frame} {g : SigId} (hst : w.stacks t = f :: rest)
    (hf : f.acq = some (g, f')) : f.on w g ∧ ∀ (w0 : World) x, f'.on w0 x → f.on w0 x := by
  unfold Frame.acq at hf
  split at hf <;> cases hf
  · exact ⟨rfl, fun _ _ => id⟩
  · exact ⟨rfl, fun _ _ => id⟩
  · exact ⟨rfl, fun _ _ => id⟩
  · exact ⟨disc_owner h hst, fun _ _ => id⟩
  · exact ⟨.inr rfl, fun _ _ => id⟩

theorem tst_on (h : Reachable E w) {f f' : Frame} {rest : List Frame} {g : SigId} {c : Bool} (hst : w.stacks t = f :: rest)
    (hf : f.tst c = some (g, f')) : f.on w g ∧ ∀ (w0 : World) x, f'.on w0 x → f.on w0 x := by
  unfold Frame.tst at hf
  split at hf <;> cases hf
  · exact ⟨rfl, fun _ _ => id⟩
  · exact ⟨rfl, fun _ _ => id⟩
  · exact ⟨disc_owner h hst, fun _ _ => id⟩

theorem det_on (h : Reachable E w) {f f' : Frame} {rest : List Frame} {g : SigId} (hst : w.stacks t = f :: rest)
    (hf : f.det = some (g, f')) : f.on w g ∧ ∀ (w0 : World) x, f'.on w0 x → f.on w0 x := by
  unfold Frame.det at hf
  split at hf <;> cases hf
  · exact ⟨rfl, fun _ _ => id⟩
  · exact ⟨rfl, fun _ _ => id⟩
  · exact ⟨disc_owner h hst, fun _ _ => id⟩

/-- A step of the library that is not part of an operation on `g`. -/
theorem apart_run (h : Reachable E w) (hs : step E w (.run t) = some w') {g : SigId}
    (hn : ∀ f rest, w.stacks t = f :: rest → ¬ f.on w g) : Apart w w' g := by
  obtain ⟨-, -, hrun⟩ := step_run hs
  obtain ⟨-, -, R⟩ := step_inv hs
  have hl := run_lib hrun
  simp only [Label.tid] at R
  have no : ∀ {P : Prop}, userCtx (w.stacks t) = true → P := fun hu => by rw [hl] at hu; cases hu
  have setS : ∀ {x : SigId} {r : SigRec}, x ≠ g → upd w.sigs x r g = w.sigs g := fun hx => by rw [upd_apply, if_neg fun e => hx e.symm]
  cases R with
  | ub u => exact ⟨rfl, [], rfl, by simp⟩
  | hand _ _ _ hu => exact no hu
  | flag _ _ _ _ _ hu => exact no hu
  | objs _ _ hu => exact no hu
  | pins _ hu => exact no hu
  | newSig _ hu => exact no hu
  | destroy _ hu => exact no hu
  | movStart _ hu => exact no hu
  | connStart _ _ _ _ _ _ hu => exact no hu
  | emitStart _ _ _ hu => exact no hu
  | eraseStart _ _ hu => exact no hu
  | discPush _ _ _ _ _ hu => exact no hu
  | discFail _ _ _ _ hu => exact no hu
  | acq f f' rest x hst hf =>
    have hx : x ≠ g := fun e => hn _ _ hst (e ▸ (acq_on h hst hf).1)
    exact ⟨setS hx, [], rfl, by simp⟩
  | tst f f' rest x b hst hf => exact ⟨rfl, [], rfl, by simp⟩
  | det f f' rest x b hst hf =>
    have hx : x ≠ g := fun e => hn _ _ hst (e ▸ (det_on h hst hf).1)
    exact ⟨setS hx, [], rfl, by simp⟩
  | emSupp => exact ⟨rfl, [_], rfl, by simp [Event.on]⟩
  | emPass => exact ⟨rfl, [], rfl, by simp⟩
  | emCopy => exact ⟨rfl, [], rfl, by simp⟩
  | emSnap m b rest hst => exact ⟨setS (hn _ _ hst), [_], rfl, fun e he => by cases List.mem_singleton.1 he; exact hn _ _ hst⟩
  | emCall => exact ⟨rfl, [_], rfl, by simp [Event.on]⟩
  | emDone => exact ⟨rfl, [_], rfl, by simp [Event.on]⟩
  | combThrow => exact ⟨rfl, [_], rfl, by simp [Event.on]⟩
  | callUnblk => exact ⟨rfl, [], rfl, by simp⟩
  | callConn => exact ⟨rfl, [], rfl, by simp⟩
  | callConnT => exact ⟨rfl, [], rfl, by simp⟩
  | callLock => exact ⟨rfl, [], rfl, by simp⟩
  | callSkip => exact ⟨rfl, [_], rfl, by simp [Event.on]⟩
  | callExpired => exact ⟨rfl, [_], rfl, by simp [Event.on]⟩
  | callEnter => exact ⟨rfl, [_], rfl, by simp [Event.on]⟩
  | callRet => exact ⟨rfl, [_], rfl, by simp [Event.on]⟩
  | callCatch => exact ⟨rfl, [_], rfl, by simp [Event.on]⟩
  | callThrow => exact ⟨rfl, [_, _], rfl, by simp [Event.on]⟩
  | addWrite x s dest rest b hst => exact ⟨rfl, [_], rfl, fun e he => by cases List.mem_singleton.1 he; exact hn _ _ hst⟩
  | addUnlock x s dest rest cv sv bv hst => exact ⟨setS (hn _ _ hst), [_], rfl, fun e he => by cases List.mem_singleton.1 he; exact hn _ _ hst⟩
  | eraseEnd => exact ⟨rfl, [], rfl, by simp⟩
  | eraseThrow => exact ⟨rfl, [], rfl, by simp⟩
  | eraseHit x tgt i cnt rest b s hst =>
    have hsm := removeAt_same w b i
    refine ⟨congrFun hsm.1 g, [.erased x s], ?_, fun e he => by cases List.mem_singleton.1 he; exact hn _ _ hst⟩
    show _ :: (removeAt w b i).log = _
    rw [hsm.2.2.2.2.2.2.2.2.2.2.1]; rfl
  | eraseMiss => exact ⟨rfl, [], rfl, by simp⟩
  | eraseUnlock x tgt r rest hst => exact ⟨setS (hn _ _ hst), [_], rfl, fun e he => by cases List.mem_singleton.1 he; exact hn _ _ hst⟩
  | exchTrue => exact ⟨rfl, [_], rfl, by simp [Event.on]⟩
  | exchFalse => exact ⟨rfl, [_, _], rfl, by simp [Event.on]⟩
  | discWrite s v k rest x b hst =>
    have hsm := removeAt_same w b (w.slots s).index
    refine ⟨congrFun hsm.1 g, [.removed x s v], ?_, fun e he => by
      cases List.mem_singleton.1 he; exact fun e => hn _ _ hst ((disc_owner h hst).trans e)⟩
    show _ :: (removeAt w b _).log = _
    rw [hsm.2.2.2.2.2.2.2.2.2.2.1]; rfl
  | discMiss => exact ⟨rfl, [], rfl, by simp⟩
  | discUnlock s k rest x hst => exact ⟨setS fun e => hn _ _ hst ((disc_owner h hst).trans e), [], rfl, by simp⟩
  | discDrop => exact ⟨rfl, [_], rfl, by simp [Event.on]⟩
  | movWrite x y rest hst =>
    have h1 := fun e => hn _ _ hst (.inl e)
    have h2 := fun e => hn _ _ hst (.inr e)
    refine ⟨?_, [_], rfl, fun e he => by cases List.mem_singleton.1 he; exact fun e => e.elim h2 h1⟩
    show upd (upd w.sigs x _) y _ g = _
    rw [upd_apply, if_neg fun e => h2 e.symm, setS h1]
  | movUnlock x y rest hst =>
    have h1 := fun e => hn _ _ hst (.inl e)
    have h2 := fun e => hn _ _ hst (.inr e)
    refine ⟨?_, [], rfl, by simp⟩
    show upd (upd w.sigs y _) x _ g = _
    rw [upd_apply, if_neg fun e => h1 e.symm, setS h2]
  | fail f rest x s hst hf =>
    have hx : x ≠ g := by
      rintro rfl
      rcases Frame.allocs_inv hf with ⟨_, _, _, rfl, -⟩ | ⟨_, rfl, -⟩ <;> exact hn _ _ hst rfl
    exact ⟨setS hx, [_], rfl, fun e he => by cases List.mem_singleton.1 he; exact hx⟩


theorem apart_setBlocked (w0 w : World) (x : Option SlotId) (c : Bool) {g : SigId} (h1 : w.sigs = w0.sigs) (h2 : w.log = w0.log) :
    Apart w0 (w.connSetBlocked x c) g := by
  unfold World.connSetBlocked
  split
  · split
    · exact ⟨congrFun h1 g, [_], congrArg _ h2, by simp [Event.on]⟩
    · exact ⟨congrFun h1 g, [], h2, by simp⟩
  · exact ⟨congrFun h1 g, [], h2, by simp⟩

theorem apart_discReturn (w0 w : World) (rest : List Frame) (x : Option SlotId) (k : DiscK) (b : Bool) {g : SigId} (h1 : w.sigs = w0.sigs)
    (h2 : w.log = w0.log) : Apart w0 (discReturn w t rest x k b) g := by
  unfold discReturn
  split
  · exact ⟨congrFun h1 g, [_], congrArg _ h2, by simp [Event.on]⟩
  · split
    · exact ⟨congrFun h1 g, [_], congrArg _ h2, by simp [Event.on]⟩
    · exact ⟨congrFun h1 g, [_], congrArg _ h2, by simp [Event.on]⟩

theorem apart_discStart (w0 w : World) (x : Option SlotId) (k : DiscK) {g : SigId} (h1 : w.sigs = w0.sigs)
    (h2 : w.log = w0.log) : Apart w0 (discStart w t x k) g := by
  unfold discStart
  split
  · split
    · exact ⟨congrFun h1 g, [], h2, by simp⟩
    · exact apart_discReturn _ _ _ _ _ _ h1 h2
  · exact apart_discReturn _ _ _ _ _ _ h1 h2

/-- A call of user code that is not on `g`. -/
theorem apart_call {a : Api} (hs : userOp w t a = some w') {g : SigId} (hg : g < w.nSigs) (hn : ¬ a.on w g) : Apart w w' g := by
  have setS : ∀ {x : SigId} {r : SigRec}, x ≠ g → upd w.sigs x r g = w.sigs g := fun hx => by rw [upd_apply, if_neg fun e => hx e.symm]
  have new : ∀ {r : SigRec}, upd w.sigs w.nSigs r g = w.sigs g := setS (Nat.ne_of_gt hg)
  cases a
  case destroySig x =>
    simp only [userOp] at hs
    split at hs
    · split at hs
      · cases hs; exact ⟨rfl, [], rfl, by simp⟩
      · split at hs
        · cases hs; exact ⟨rfl, [], rfl, by simp⟩
        · cases hs; exact ⟨setS hn, [_], rfl, fun e he => by cases List.mem_singleton.1 he; exact hn⟩
    · cases hs
  case moveSig x =>
    simp only [userOp] at hs
    split at hs
    · split at hs
      · cases hs; exact ⟨rfl, [], rfl, by simp⟩
      · cases hs; exact ⟨new, [], rfl, by simp⟩
    · cases hs
  case newSig => cases hs; exact ⟨new, [], rfl, by simp⟩
  case disconnect hd => cases hs; exact apart_discStart _ _ _ _ rfl rfl
  case block hd => cases hs; exact apart_setBlocked _ _ _ _ rfl rfl
  case unblock hd => cases hs; exact apart_setBlocked _ _ _ _ rfl rfl
  case connMove x hd =>
    simp only [userOp] at hs
    split at hs
    · cases hs; exact ⟨rfl, [], rfl, by simp⟩
    · cases hs; cases hd <;> exact ⟨rfl, [], rfl, by simp⟩
  case scopedMoveAssign x y =>
    simp only [userOp] at hs
    split at hs
    · cases hs; exact apart_discStart _ _ _ _ rfl rfl
    · cases hs
  case scopedDtor x =>
    simp only [userOp] at hs
    split at hs
    · cases hs; exact apart_discStart _ _ _ _ rfl rfl
    · cases hs
  case blockerOf x hd =>
    simp only [userOp] at hs
    split at hs
    · cases hs; exact apart_setBlocked _ _ _ _ rfl rfl
    · cases hs
  case blockerMoveAssign x y =>
    simp only [userOp] at hs
    split at hs
    · split at hs
      · cases hs; exact apart_setBlocked _ _ _ _ rfl rfl
      · rename_i v v' _ _ _
        cases hs
        obtain ⟨h1, h2⟩ := apart_setBlocked w w v false (g := g) rfl rfl
        exact ⟨h1, h2⟩
    · cases hs
  case blockerDtor x =>
    simp only [userOp] at hs
    split at hs
    · cases hs; exact apart_setBlocked _ _ _ _ rfl rfl
    · cases hs
  all_goals
    simp only [userOp] at hs
    (try split at hs) <;> (try split at hs) <;> cases hs
    all_goals first
      | exact ⟨rfl, [], rfl, by simp⟩
      | exact ⟨rfl, [_], rfl, fun e he => by cases List.mem_singleton.1 he; exact hn⟩

theorem apart_step (h : Reachable E w) {l : Label} (hs : step E w l = some w') {g : SigId} (hg : g < w.nSigs) (hn : ¬ l.on w g) :
    Apart w w' g := by
  have setS : ∀ {x : SigId} {r : SigRec}, x ≠ g → upd w.sigs x r g = w.sigs g := fun hx => by rw [upd_apply, if_neg fun e => hx e.symm]
  cases l with
  | run t => exact apart_run h hs fun f rest hst hf => hn ⟨f, rest, hst, hf⟩
  | call t a => exact apart_call (step_call hs).2.2.2 hg hn
  | ret t v =>
    obtain ⟨-, -, s, o, m, b, pos, acc, rest, -, rfl⟩ := step_ret hs
    exact ⟨rfl, [_], rfl, by simp [Event.on]⟩
  | throw t c =>
    obtain ⟨-, -, s, o, m, b, pos, acc, rest, -, ⟨-, rfl⟩ | ⟨-, -, rfl⟩⟩ := step_throw hs
    · exact ⟨rfl, [_, _], rfl, by simp [Event.on]⟩
    · exact ⟨rfl, [_], rfl, by simp [Event.on]⟩
  | fail t =>
    rcases step_fail_cases hs with ⟨rfl, -⟩ | ⟨f, rest, x, s, b, hst, hf, -, rfl⟩
    · exact ⟨rfl, [], rfl, by simp⟩
    · have hx : x ≠ g := by
        rintro rfl
        rcases Frame.allocs_inv hf with ⟨_, _, _, rfl, -⟩ | ⟨_, rfl, -⟩ <;> exact hn ⟨_, _, hst, rfl⟩
      exact ⟨setS hx, [_], rfl, fun e he => by cases List.mem_singleton.1 he; exact hx⟩
  | ctl t =>
    obtain ⟨-, -, rfl, -⟩ := step_ctl hs
    exact ⟨rfl, [], rfl, by simp⟩

/-- **C66.** A step that is not part of an operation on `g` leaves `g` as it is: its list, its mutex, its flags, and whether it lives; and
nothing happens to `g`. -/
theorem C66_step (h : Reachable E w) {l : Label} (hs : step E w l = some w') {g : SigId} (hg : g < w.nSigs) (hn : ¬ l.on w g) :
    w'.sigs g = w.sigs g ∧ w'.listOf g = w.listOf g ∧ ∃ evs, w'.log = evs ++ w.log ∧ ∀ e ∈ evs, ¬ e.on g := by
  obtain ⟨h1, evs, h2, h3⟩ := apart_step h hs hg hn
  refine ⟨h1, ?_, evs, h2, h3⟩
  obtain ⟨-, -, R⟩ := step_inv hs
  have I := h.full.i
  have one : ∀ {e : Event}, w'.log = e :: w.log → ¬ e.on g := by
    intro e he
    apply h3
    rw [h2] at he
    have : evs = [e] := List.append_cancel_right (he.trans rfl)
    rw [this]; exact List.mem_cons_self
  cases listEff I.i1 I.i2 R with
  | same hl => exact hl g
  | add x s b dest rest hst hb hl hi hlog => rw [hl, if_neg fun e => one hlog e.symm]
  | rem x i v ev hst hv hl hi hev hlog =>
    have : x ≠ g := by
      rintro rfl
      rcases hev with rfl | ⟨req, rfl⟩ <;> exact one hlog rfl
    rw [hl, if_neg fun e => this e.symm]
  | move x y hne hst h0 hd hl hi hlog =>
    have := one hlog
    rw [hl, if_neg fun e => this (.inl e.symm), if_neg fun e => this (.inr e.symm)]
  | destroy x hm hl hi hlog => rw [hl, if_neg fun e => one hlog e.symm]


/-! ### Schedules -/

theorem on_old (h : Reachable E w) (R : StepR E w t w') {t' : Tid} {f : Frame} {g : SigId} (hf : f ∈ w.stacks t') : f.on w' g ↔ f.on w g := by
  have hr := h.full.i.i1.rng t' f hf
  cases f with
  | disc s k pc => simp only [Frame.on, (fixed R).owner s hr.1]
  | _ => exact Iff.rfl

/-- No new operation on `g` begins in a step of the library. -/
theorem idle_run (h : Reachable E w) (hs : step E w (.run t) = some w') {g : SigId} (hid : Idle w g) : ∀ f ∈ w'.stacks t, ¬ f.on w' g := by
  obtain ⟨-, -, hrun⟩ := step_run hs
  obtain ⟨-, -, R⟩ := step_inv hs
  have hl := run_lib hrun
  simp only [Label.tid] at R
  have old : ∀ f ∈ w.stacks t, ¬ f.on w' g := fun f hf e => hid t f hf ((on_old h R hf).1 e)
  have no : ∀ {P : Prop}, userCtx (w.stacks t) = true → P := fun hu => by rw [hl] at hu; cases hu
  have put : ∀ st, upd w.stacks t st t = st := fun st => by rw [upd_apply, if_pos rfl]
  cases R
  case ub => exact old
  case hand hu _ => exact no hu
  case flag hu _ _ _ => exact no hu
  case objs hu _ _ => exact no hu
  case pins hu _ => exact no hu
  case newSig hu => exact no hu
  case destroy hu _ _ _ => exact no hu
  case movStart hu _ _ => exact no hu
  case connStart hu _ _ => exact no hu
  case emitStart hu _ => exact no hu
  case eraseStart hu _ => exact no hu
  case discPush hu _ _ _ => exact no hu
  case discFail hu _ => exact no hu
  case acq f f' rest x hst hf _ _ =>
    rw [hst] at old
    have : (World.setStack (w.setMutex x (some t)) t (f' :: rest)).stacks t = f' :: rest := put _
    rw [this]
    intro f0 hf0
    rcases List.mem_cons.1 hf0 with rfl | hf0
    · exact fun e => old _ List.mem_cons_self ((acq_on h hst hf).2 _ _ e)
    · exact old _ (List.mem_cons_of_mem _ hf0)
  case tst f f' rest x b hst hf _ =>
    rw [hst] at old
    have : (w.setStack t (f' :: rest)).stacks t = f' :: rest := put _
    rw [this]
    intro f0 hf0
    rcases List.mem_cons.1 hf0 with rfl | hf0
    · exact fun e => old _ List.mem_cons_self ((tst_on h hst hf).2 _ _ e)
    · exact old _ (List.mem_cons_of_mem _ hf0)
  case det f f' rest x b hst hf _ =>
    rw [hst] at old
    have : (World.setStack (cloneBlk w x b) t (f' :: rest)).stacks t = f' :: rest := by
      simp only [World.setStack, upd_apply, if_true]
    rw [this]
    intro f0 hf0
    rcases List.mem_cons.1 hf0 with rfl | hf0
    · exact fun e => old _ List.mem_cons_self ((det_on h hst hf).2 _ _ e)
    · exact old _ (List.mem_cons_of_mem _ hf0)
  all_goals
    replace old := fun st (e : w.stacks t = st) => e ▸ old
    replace old := old _ (by assumption)
    intro f0 hf0
    have hf1 : f0 ∈ upd _ t _ t := hf0
    rw [upd_apply, if_pos rfl] at hf1
    first
      | exact old _ (List.mem_cons_of_mem _ hf1)
      | exact old _ (List.mem_cons_of_mem _ (List.mem_cons_of_mem _ hf1))
      | (rcases List.mem_cons.1 hf1 with rfl | hf1
         · first
             | exact id
             | (have h0 := old _ List.mem_cons_self; exact h0)
             | (have h0 := old _ (List.mem_cons_of_mem _ List.mem_cons_self); exact h0)
         · first
             | exact old _ (List.mem_cons_of_mem _ hf1)
             | exact old _ (List.mem_cons_of_mem _ (List.mem_cons_of_mem _ hf1))
             | exact old _ hf1
             | (rcases List.mem_cons.1 hf1 with rfl | hf1
                · first
                    | (have h0 := old _ List.mem_cons_self; exact h0)
                    | (have h0 := old _ (List.mem_cons_of_mem _ List.mem_cons_self); exact h0)
                · first
                    | exact old _ (List.mem_cons_of_mem _ hf1)
                    | exact old _ (List.mem_cons_of_mem _ (List.mem_cons_of_mem _ hf1))))


theorem idle_discStart {w0 w : World} {x : Option SlotId} {k : DiscK} {g : SigId} (h1 : w.stacks = w0.stacks) (h2 : w.slots = w0.slots)
    (hx : ∀ s, x = some s → (w0.slots s).owner ≠ g) (hid : ∀ f ∈ w0.stacks t, ¬ f.on w0 g) :
    ∀ f ∈ (discStart w t x k).stacks t, ¬ f.on (discStart w t x k) g := by
  have ret : ∀ y, ∀ f ∈ (discReturn w t (w.stacks t) y k false).stacks t, ¬ f.on (discReturn w t (w.stacks t) y k false) g := by
    intro y
    have e : (discReturn w t (w.stacks t) y k false).stacks t = w0.stacks t ∧ (discReturn w t (w.stacks t) y k false).slots = w0.slots := by
      unfold discReturn
      split
      · exact ⟨by simp [World.emitEv, World.setStack, upd_apply, h1], h2⟩
      · split
        · exact ⟨by simp [World.emitEv, World.setStack, upd_apply, h1], h2⟩
        · exact ⟨by simp [World.emitEv, World.setStack, upd_apply, h1], h2⟩
    rw [e.1]
    intro f hf hon
    refine hid f hf ?_
    cases f with
    | disc s k pc => simp only [Frame.on, e.2] at hon; exact hon
    | _ => exact hon
  unfold discStart
  split
  · rename_i s
    split
    · intro f hf
      have hf1 : f ∈ upd w.stacks t (.disc s k .exch :: w.stacks t) t := hf
      rw [upd_apply, if_pos rfl, h1] at hf1
      rcases List.mem_cons.1 hf1 with rfl | hf1
      · show (w.slots s).owner ≠ g
        rw [h2]; exact hx s rfl
      · intro hon
        refine hid f hf1 ?_
        cases f with
        | disc s k pc =>
          have hon : (w.slots s).owner = g := hon
          rw [h2] at hon; exact hon
        | _ => exact hon
    · exact ret _
  · exact ret _

/-- No operation on `g` begins with a call that is not on `g`. -/
theorem idle_call (h : Reachable E w) {a : Api} (hs : step E w (.call t a) = some w') {g : SigId} (hg : g < w.nSigs) (hid : Idle w g)
    (hn : ¬ a.on w g) : ∀ f ∈ w'.stacks t, ¬ f.on w' g := by
  obtain ⟨-, -, -, ho⟩ := step_call hs
  obtain ⟨-, -, R⟩ := step_inv hs
  simp only [Label.tid] at R
  have old : ∀ f ∈ w.stacks t, ¬ f.on w' g := fun f hf e => hid t f hf ((on_old h R hf).1 e)
  have push : ∀ {f0 : Frame}, w'.stacks t = f0 :: w.stacks t → ¬ f0.on w' g → ∀ f ∈ w'.stacks t, ¬ f.on w' g := by
    intro f0 e h0 f hf
    rw [e] at hf
    rcases List.mem_cons.1 hf with rfl | hf
    · exact h0
    · exact old f hf
  have same : w'.stacks t = w.stacks t → ∀ f ∈ w'.stacks t, ¬ f.on w' g := fun e f hf => old f (e ▸ hf)
  have put : ∀ st, upd w.stacks t st t = st := fun st => by rw [upd_apply, if_pos rfl]
  cases a
  case connect x _ _ _ _ _ =>
    simp only [userOp] at ho
    split at ho
    · cases ho; exact push (put _) hn
    · cases ho
  case emit x _ _ =>
    simp only [userOp] at ho
    split at ho
    · cases ho; exact push (put _) hn
    · cases ho
  case sigDisconnect x _ =>
    simp only [userOp] at ho
    split at ho
    · cases ho; exact push (put _) hn
    · cases ho
  case moveSig x =>
    simp only [userOp] at ho
    split at ho
    · split at ho
      · cases ho; exact same rfl
      · cases ho; exact push (put _) (fun e => e.elim (fun e => absurd hg (by omega)) hn)
    · cases ho
  case disconnect hd =>
    cases ho
    exact idle_discStart rfl rfl (fun s hs' e => hn ⟨s, hs', e⟩) (hid t)
  case scopedDtor x =>
    simp only [userOp] at ho
    split at ho
    · rename_i v hv
      cases ho
      exact idle_discStart rfl rfl (fun s hs' e => hn ⟨s, by rw [hv, hs'], e⟩) (hid t)
    · cases ho
  case scopedMoveAssign x y =>
    simp only [userOp] at ho
    split at ho
    · rename_i v _ hv _
      cases ho
      exact idle_discStart rfl rfl (fun s hs' e => hn ⟨s, by rw [hv, hs'], e⟩) (hid t)
    · cases ho
  case combDeref i =>
    simp only [userOp] at ho
    split at ho
    · rename_i hst
      rw [hst] at old
      split at ho
      · cases ho
        intro f hf
        have hf1 : f ∈ upd _ t _ t := hf
        rw [upd_apply, if_pos rfl] at hf1
        rcases List.mem_cons.1 hf1 with rfl | hf1
        · exact id
        · rcases List.mem_cons.1 hf1 with rfl | hf1
          · have h0 := old _ List.mem_cons_self
            exact h0
          · exact old _ (List.mem_cons_of_mem _ hf1)
      · cases ho; exact same rfl
    · cases ho
  case combDone v =>
    simp only [userOp] at ho
    split at ho
    · rename_i hst
      rw [hst] at old
      cases ho
      intro f hf
      have hf1 : f ∈ upd _ t _ t := hf
      rw [upd_apply, if_pos rfl] at hf1
      exact old _ (List.mem_cons_of_mem _ hf1)
    · cases ho
  case combThrow =>
    simp only [userOp] at ho
    split at ho
    · rename_i hst
      rw [hst] at old
      cases ho
      intro f hf
      have hf1 : f ∈ upd _ t _ t := hf
      rw [upd_apply, if_pos rfl] at hf1
      exact old _ (List.mem_cons_of_mem _ hf1)
    · cases ho
  all_goals
    refine same ?_
    simp only [userOp, World.connSetBlocked] at ho
    repeat' split at ho
    all_goals first
      | (cases ho; done)
      | (cases ho; rfl)
      | (cases ho; rename_i hd _; cases hd <;> rfl)

theorem idle_step (h : Reachable E w) {l : Label} (hs : step E w l = some w') {g : SigId} (hg : g < w.nSigs) (hid : Idle w g)
    (hn : ∀ t a, l = .call t a → ¬ a.on w g) : Idle w' g := by
  obtain ⟨-, -, R⟩ := step_inv hs
  have top : ∀ f ∈ w'.stacks l.tid, ¬ f.on w' g := by
    have old : ∀ f ∈ w.stacks l.tid, ¬ f.on w' g := fun f hf e => hid l.tid f hf ((on_old h R hf).1 e)
    cases l with
    | run t => exact idle_run h hs hid
    | call t a => exact idle_call h hs hg hid (hn t a rfl)
    | ret t v =>
      obtain ⟨-, -, s, o, m, b, pos, acc, rest, hst, rfl⟩ := step_ret hs
      simp only [Label.tid, hst] at old
      intro f hf
      have hf1 : f ∈ upd _ t _ t := hf
      rw [upd_apply, if_pos rfl] at hf1
      rcases List.mem_cons.1 hf1 with rfl | hf1
      · have h0 := old _ (List.mem_cons_of_mem _ List.mem_cons_self)
        exact h0
      · exact old _ (List.mem_cons_of_mem _ (List.mem_cons_of_mem _ hf1))
    | throw t c =>
      obtain ⟨-, -, s, o, m, b, pos, acc, rest, hst, ⟨-, rfl⟩ | ⟨-, -, rfl⟩⟩ := step_throw hs
      · simp only [Label.tid, hst] at old
        intro f hf
        have hf1 : f ∈ upd _ t _ t := hf
        rw [upd_apply, if_pos rfl] at hf1
        exact old _ (List.mem_cons_of_mem _ (List.mem_cons_of_mem _ hf1))
      · simp only [Label.tid, hst] at old
        intro f hf
        have hf1 : f ∈ upd _ t _ t := hf
        rw [upd_apply, if_pos rfl] at hf1
        rcases List.mem_cons.1 hf1 with rfl | hf1
        · have h0 := old _ (List.mem_cons_of_mem _ List.mem_cons_self)
          exact h0
        · exact old _ (List.mem_cons_of_mem _ (List.mem_cons_of_mem _ hf1))
    | fail t =>
      rcases step_fail_cases hs with ⟨rfl, -⟩ | ⟨f, rest, x, s, b, hst, hf, -, rfl⟩
      · exact old
      · simp only [Label.tid, hst] at old
        intro f hf
        have hf1 : f ∈ upd _ t _ t := hf
        rw [upd_apply, if_pos rfl] at hf1
        exact old _ (List.mem_cons_of_mem _ hf1)
    | ctl t =>
      obtain ⟨-, -, rfl, -⟩ := step_ctl hs
      exact old
  intro t' f hf
  by_cases ht : t' = l.tid
  · subst ht; exact top f hf
  · rw [stacks_other R ht] at hf
    exact fun e => hid t' f hf ((on_old h R hf).1 e)

/-- An execution in which no call on `g` begins. -/
inductive Elsewhere (E : Env) (g : SigId) : World → World → Prop where
  | refl (w : World) : Elsewhere E g w w
  | tail {w w1 w2 : World} (l : Label) (h : Elsewhere E g w w1) (hn : ∀ t a, l = .call t a → ¬ a.on w1 g)
      (hs : step E w1 l = some w2) : Elsewhere E g w w2

/-- **C66.** Whatever the threads do with other signals, listeners, connections and objects, for however long: if no call on `g` is in
progress and none begins, then `g` stays as it is, and the history has nothing to say of `g`. -/
theorem C66 (h : Reachable E w) {g : SigId} (hg : g < w.nSigs) (hid : Idle w g) (hs : Elsewhere E g w w') :
    w'.sigs g = w.sigs g ∧ w'.listOf g = w.listOf g ∧ Idle w' g ∧ ∃ evs, w'.log = evs ++ w.log ∧ ∀ e ∈ evs, ¬ e.on g := by
  suffices Reachable E w' ∧ g < w'.nSigs ∧ w'.sigs g = w.sigs g ∧ w'.listOf g = w.listOf g ∧ Idle w' g ∧
      ∃ evs, w'.log = evs ++ w.log ∧ ∀ e ∈ evs, ¬ e.on g from this.2.2
  induction hs with
  | refl => exact ⟨h, hg, rfl, rfl, hid, [], rfl, by simp⟩
  | @tail w1 w2 l _ hn hs ih =>
    obtain ⟨h1, hg1, hs1, hl1, hid1, evs, he, hev⟩ := ih
    obtain ⟨-, -, R⟩ := step_inv hs
    have hoff : ¬ l.on w1 g := by
      cases l with
      | call t a => exact hn t a rfl
      | _ =>
        rintro ⟨f, rest, hst, hf⟩
        exact hid1 _ f (by rw [hst]; exact List.mem_cons_self) hf
    obtain ⟨hs2, hl2, evs', he', hev'⟩ := C66_step h1 hs hg1 hoff
    refine ⟨h1.step hs, Nat.lt_of_lt_of_le hg1 (fixed R).nSigs, hs2.trans hs1, hl2.trans hl1, idle_step h1 hs hg1 hid1 hn, evs' ++ evs,
      by rw [he', he, List.append_assoc], fun e hm => ?_⟩
    rcases List.mem_append.1 hm with hm | hm
    · exact hev' e hm
    · exact hev e hm


/-- **C66.** A thread inside the library that cannot go on is in an operation on some signal, and some other thread is in an operation on
the same signal. Calls on other signals delay nobody. -/
theorem C66_wait (h : Reachable E w) (hub : w.ub = none) (ht : t < w.nThr) (hu : userCtx (w.stacks t) = false)
    (hs : step E w (.run t) = none) :
    ∃ g t', t' ≠ t ∧ (Label.run t).on w g ∧ (Label.run t').on w g := by
  rcases C21_progress h hub ht with hc | ⟨w', hc⟩ | ⟨g, t', hne, ⟨f, f', rest, hst, hf⟩, hm, -⟩
  · rw [hu] at hc; cases hc
  · rw [hs] at hc; cases hc
  · refine ⟨g, t', hne, ⟨f, rest, hst, (acq_on h hst hf).1⟩, ?_⟩
    have hl := (h.full.i.i1.mtx g t').1 hm
    cases hst' : w.stacks t' with
    | nil => rw [hst'] at hl; cases hl
    | cons f0 rest0 =>
      refine ⟨f0, rest0, hst', ?_⟩
      rw [hst'] at hl
      have hl : f0.locks = some g := hl
      unfold Frame.locks at hl
      split at hl <;> first | (cases hl; done) | (cases hl; first | exact rfl | exact .inr rfl | exact disc_owner h hst')


/-! ### An execution with two signals -/

namespace Demo

/-- Decides `Api.on`. -/
def onB (w : World) (g : SigId) : Api → Bool
  | .destroySig x => x == g
  | .moveSig x => x == g
  | .moveAssignSig x y => x == g || y == g
  | .connect x _ _ _ _ _ => x == g
  | .emit x _ _ => x == g
  | .sigDisconnect x _ => x == g
  | .disconnect h => (w.hval h).any fun s => (w.slots s).owner == g
  | .scopedDtor x => (w.sv x).join.any fun s => (w.slots s).owner == g
  | .scopedMoveAssign x _ => (w.sv x).join.any fun s => (w.slots s).owner == g
  | _ => false

theorem on_onB {g : SigId} {a : Api} (h : a.on w g) : onB w g a = true := by
  cases a
  case disconnect hd => obtain ⟨s, h1, h2⟩ := h; simp [onB, h1, h2]
  case scopedDtor x => obtain ⟨s, h1, h2⟩ := h; simp [onB, h1, h2]
  case scopedMoveAssign x y => obtain ⟨s, h1, h2⟩ := h; simp [onB, h1, h2]
  all_goals first | (cases h; done) | exact beq_iff_eq.2 h | (rcases h with h | h <;> simp [onB, h])

/-- Does a call on `g` begin? -/
def begins (w : World) (g : SigId) : Label → Bool
  | .call _ a => onB w g a
  | _ => false

/-- Runs a schedule in which no call on `g` begins. -/
def away (g : SigId) (w : World) : List Label → Option World
  | [] => some w
  | l :: ls => if begins w g l then none else (step E0 w l).bind fun w' => away g w' ls

theorem away_elsewhere {g : SigId} {ls : List Label} {w0 : World} (h0 : Elsewhere E0 g w0 w) (h : away g w ls = some w') :
    Elsewhere E0 g w0 w' := by
  induction ls generalizing w with
  | nil => cases h; exact h0
  | cons l ls ih =>
    simp only [away] at h
    split at h
    · cases h
    · rename_i hn
      cases hs : step E0 w l with
      | none => rw [hs] at h; cases h
      | some w1 =>
        rw [hs] at h
        refine ih (.tail l h0 ?_ hs) h
        rintro t a rfl hon
        exact hn (on_onB hon)

/-- Signals 0 and 1 with one listener each (`conn 0` and `conn 1`). -/
def twoSigs : List Label :=
  [.call 0 (.newSig false), .call 0 (.newSig false)] ++ connect 0 1 0 ++ (.call 0 (.connect 1 (fn 2) [] true false (.conn 1)) :: go 0 4)

/-- With signal 1: emit; the listener disconnects itself, blocks the listener of signal 0 and makes a connection to signal 1; then signal 1 is
moved, and both objects are destroyed. -/
def afar : List Label :=
  .call 0 (.emit 1 .lastValue []) :: go 0 8 ++ .call 0 (.disconnect (.conn 1)) :: go 0 7 ++
  .call 0 (.block (.conn 0)) :: .call 0 (.connect 1 (fn 3) [] true false (.conn 1)) :: go 0 4 ++ .ret 0 5 :: go 0 1 ++
  .call 0 (.moveSig 1) :: go 0 3 ++ [.call 0 (.destroySig 2), .call 0 (.destroySig 1)]

end Demo

-- `C66`: all this concerns signal 1 only
example : ∃ w', Elsewhere Demo.E0 0 (Demo.world 1 Demo.twoSigs) w' ∧ w'.log.length = 22 ∧ (w'.slots 0).blocked = true ∧ (w'.sigs 1).alive = false := by
  have h : (Demo.away 0 (Demo.world 1 Demo.twoSigs) Demo.afar).isSome = true := by decide +kernel
  obtain ⟨w', hw⟩ := Option.isSome_iff_exists.1 h
  have e : ((Demo.away 0 (Demo.world 1 Demo.twoSigs) Demo.afar).map fun w' => (w'.log.length, (w'.slots 0).blocked, (w'.sigs 1).alive)) =
    some (22, true, false) := by decide +kernel
  rw [hw] at e
  injection e with e
  injection e with e1 e
  injection e with e2 e3
  exact ⟨w', Demo.away_elsewhere (.refl _) hw, e1, e2, e3⟩

example : 0 < (Demo.world 1 Demo.twoSigs).nSigs ∧ Idle (Demo.world 1 Demo.twoSigs) 0 ∧ (Demo.world 1 Demo.twoSigs).listOf 0 = [0] := by
  refine ⟨by decide +kernel, fun t f hf => ?_, by decide +kernel⟩
  cases t with
  | zero => rw [show (Demo.world 1 Demo.twoSigs).stacks 0 = [] by decide +kernel] at hf; cases hf
  | succ t =>
    rw [(Demo.reach 1 Demo.twoSigs).full.i.i1.thr (t + 1) (by rw [show (Demo.world 1 Demo.twoSigs).nThr = 1 by decide +kernel]; omega)] at hf; cases hf

-- `C66_step`: inside an emission of signal 0 a listener destroys signal 1
example : (step Demo.E0 (Demo.world 1 (Demo.twoSigs ++ .call 0 (.emit 0 .lastValue []) :: Demo.go 0 8)) (.call 0 (.destroySig 1))).isSome = true ∧
    ¬ (Label.call 0 (.destroySig 1)).on (Demo.world 1 (Demo.twoSigs ++ .call 0 (.emit 0 .lastValue []) :: Demo.go 0 8)) 0 ∧
    (Demo.world 1 (Demo.twoSigs ++ .call 0 (.emit 0 .lastValue []) :: Demo.go 0 8)).stacks 0 =
      [.call 0 (.body none), .emit ⟨0, 0, .lastValue, []⟩ (.iter 0 0 none)] :=
  ⟨by decide +kernel, by simp [Label.on, Api.on], by decide +kernel⟩

-- `C66_wait`: thread 1 waits for thread 0, both are in operations on signal 0
example : (Demo.world 2 Demo.contend).ub = none ∧ userCtx ((Demo.world 2 Demo.contend).stacks 1) = false ∧
    (step Demo.E0 (Demo.world 2 Demo.contend) (.run 1)).isNone := by decide +kernel

end Verif
