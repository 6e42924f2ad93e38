import Verif.Props.Safety
import Verif.Props.Disconnect

/-!
# C52 and C53: when listeners are destroyed, and that nothing dead is ever touched
-/

namespace Verif

variable {E : Env} {w w' : World} {t : Tid}

/-! ### C53 -/

theorem call_act {st : List Frame} {s : SlotId} {p : CallPc} (h : OkStk st) (hf : Frame.call s p ∈ st) :
    ∃ m b pos acc, (⟨some (s, p), m, .iter b pos acc⟩ : Act) ∈ acts st := by
  have user : ∀ {st : List Frame}, UserStk st → Frame.call s p ∈ st →
      ∃ m b pos acc, (⟨some (s, p), m, .iter b pos acc⟩ : Act) ∈ acts st := by
    intro st h
    induction h with
    | nil => simp
    | body s' o m b pos acc rest _ ih =>
      intro hf
      simp only [List.mem_cons, reduceCtorEq, false_or] at hf
      rcases hf with hf | hf
      · injection hf with h1 h2; subst h1; subst h2
        exact ⟨m, b, pos, acc, by simp [acts]⟩
      · obtain ⟨m', b', pos', acc', h⟩ := ih hf
        exact ⟨m', b', pos', acc', by simp [acts, h]⟩
    | comb m b pos acc rest _ _ ih =>
      intro hf
      simp only [List.mem_cons, reduceCtorEq, false_or] at hf
      obtain ⟨m', b', pos', acc', h⟩ := ih hf
      exact ⟨m', b', pos', acc', by simp [acts, h]⟩
  cases h with
  | user _ h => exact user h hf
  | call s' pc m b pos acc rest h =>
    simp only [List.mem_cons, reduceCtorEq, false_or] at hf
    rcases hf with hf | hf
    · injection hf with h1 h2; subst h1; subst h2
      exact ⟨m, b, pos, acc, by simp [acts]⟩
    · obtain ⟨m', b', pos', acc', h⟩ := user h hf
      exact ⟨m', b', pos', acc', by simp [acts, h]⟩
  | lib f rest hc h =>
    rcases List.mem_cons.1 hf with hf | hf
    · subst hf; cases hc
    · obtain ⟨m', b', pos', acc', h⟩ := user h hf
      refine ⟨m', b', pos', acc', ?_⟩
      cases f <;> first | exact List.mem_cons_of_mem _ h | exact h | cases hc

/-- C53: a listener that an emission is calling, anywhere on any thread's stack, exists: its callable is not destroyed while it
is running, whatever its body or other threads do to the connection or to the signal. -/
theorem C53_running (h : Reachable E w) {s : SlotId} {p : CallPc} (hf : Frame.call s p ∈ w.stacks t) :
    w.connValid (some s) = true := by
  have I := h.full.i.i1
  obtain ⟨m, b, pos, acc, ha⟩ := call_act (I.stk t) hf
  have ok := h.full.t.ok t _ ha
  obtain ⟨m0, vs, a0, ok⟩ := ok
  obtain ⟨h1, -⟩ := ok.cur s p rfl
  exact (slotAlive_iff I).2 (.inr (.inl ⟨t, _, acts_mem ha, .inr ⟨b, rfl, List.mem_of_getElem? h1⟩⟩))

/-- The listeners of which a step of the library reads or writes a member or the callable:

* `slot::operator()` and the implementation's `operator()` (1381-1389, 785-1045): the listener being called;
* `add_slot` (1803): the new listener;
* `erase` (1836-1840): the listener it compares, and the last one, which may be swapped;
* `slot::disconnect` (1354-1359): the listener; `remove_slot` (1811, 1817): the listener and the last one. -/
def touched (w : World) (t : Tid) : List SlotId :=
  match w.stacks t with
  | .call s _ :: _ => [s]
  | .add _ s _ .write :: _ => [s]
  | .erase g _ (.scan i _) :: _ => (w.listOf g)[i]?.toList ++ (w.listOf g).getLast?.toList
  | .disc s _ .exch :: _ => [s]
  | .disc s _ (.crit g .write) :: _ => s :: (w.listOf g).getLast?.toList
  | _ => []

/-- C53: the library touches only listeners that exist: no step ever reads or writes a listener, or calls one, that has been
destroyed. -/
theorem C53 (h : Reachable E w) {s : SlotId} (hs : s ∈ touched w t) : w.connValid (some s) = true := by
  have I := h.full.i.i1
  have last : ∀ {g : SigId}, (w.listOf g).getLast? = some s → w.connValid (some s) = true := fun hl =>
    (slotAlive_iff I).2 (.inl ⟨_, List.mem_of_getLast? hl⟩)
  have top : ∀ {f : Frame} {rest : List Frame}, w.stacks t = f :: rest → f.slot? = some s →
      w.connValid (some s) = true := fun hst hf =>
    (slotAlive_iff I).2 (.inr (.inl ⟨t, _, by rw [hst]; exact List.mem_cons_self, .inl hf⟩))
  unfold touched at hs
  split at hs
  · rename_i s' p rest hst
    simp only [List.mem_singleton] at hs; subst hs
    exact C53_running h (t := t) (p := p) (by rw [hst]; exact List.mem_cons_self)
  · rename_i hst
    simp only [List.mem_singleton] at hs; subst hs
    exact top hst rfl
  · rename_i g tgt i cnt rest hst
    simp only [List.mem_append, Option.mem_toList] at hs
    rcases hs with hs | hs
    · exact (slotAlive_iff I).2 (.inl ⟨g, List.mem_of_getElem? hs⟩)
    · exact last hs
  · rename_i hst
    simp only [List.mem_singleton] at hs; subst hs
    exact top hst rfl
  · rename_i s' k g rest hst
    simp only [List.mem_cons, Option.mem_toList] at hs
    rcases hs with rfl | hs
    · exact top hst rfl
    · exact last hs
  · cases hs

namespace Demo

/-- The body of listener 0 disconnects listener 0, by `signal::disconnect(f)` as well, and destroys the signal. -/
def suicide : List Label :=
  [.call 0 (.newSig false)] ++ connect 0 10 0 ++ [.call 0 (.emit 0 .lastValue [])] ++ go 0 8 ++
  [.call 0 (.disconnect (.conn 0))] ++ go 0 7 ++ [.call 0 (.destroySig 0)]

end Demo

/-- The body is running, its listener is in no list any more, and its signal is gone. -/
example : ∃ w, Reachable Demo.E0 w ∧ Frame.call 0 (.body none) ∈ w.stacks 0 ∧ Event.removed 0 0 0 ∈ w.log ∧
    Event.destroyed 0 ∈ w.log ∧ touched w 0 = [0] ∧ w.connValid (some 0) = true :=
  ⟨Demo.world 1 Demo.suicide, Demo.reach 1 _, by decide +kernel, by decide +kernel, by decide +kernel,
    by decide +kernel, by decide +kernel⟩

/-! ### C52 -/

namespace Demo

/-- `signal::disconnect(fn 10)` about to compare the only listener. -/
def erasing : List Label :=
  [.call 0 (.newSig false)] ++ connect 0 10 0 ++ [.call 0 (.sigDisconnect 0 (some (fn 10)))] ++ go 0 2

/-- `disconnect()` of the only listener, which has unlocked the mutex. -/
def leaving : List Label :=
  [.call 0 (.newSig false)] ++ connect 0 10 0 ++ [.call 0 (.disconnect (.conn 0))] ++ go 0 5

/-- The body of listener 0 has connected listener 1 and erased its own listener, and calls `disconnect()` on its connection, which is about to take the
element at its old index out of the (already detached) list. -/
def removing : List Label :=
  [.call 0 (.newSig false)] ++ connect 0 10 0 ++ [.call 0 (.emit 0 .lastValue [])] ++ go 0 8 ++ connect 0 11 1 ++ go 0 1 ++
  [.call 0 (.sigDisconnect 0 (some (fn 10)))] ++ go 0 6 ++ [.call 0 (.disconnect (.conn 0))] ++ go 0 3

end Demo

theorem Frame.acq_own {f f' : Frame} {g : SigId} (h : f.acq = some (g, f')) : f'.slot? = f.slot? ∧ f'.blk? = f.blk? := by
  unfold Frame.acq at h; split at h <;> simp at h <;> obtain ⟨rfl, rfl⟩ := h <;> exact ⟨rfl, rfl⟩

theorem Frame.tst_own {f f' : Frame} {g : SigId} {c : Bool} (h : f.tst c = some (g, f')) : f'.slot? = f.slot? ∧ f'.blk? = f.blk? := by
  cases c <;> unfold Frame.tst at h <;> split at h <;> simp at h <;> obtain ⟨rfl, rfl⟩ := h <;> exact ⟨rfl, rfl⟩

theorem Frame.det_own {f f' : Frame} {g : SigId} (h : f.det = some (g, f')) : f'.slot? = f.slot? ∧ f'.blk? = f.blk? := by
  unfold Frame.det at h; split at h <;> simp at h <;> obtain ⟨rfl, rfl⟩ := h <;> exact ⟨rfl, rfl⟩

/-- What the stepping thread owns directly it still owns afterwards, if it holds a mutex before or after: nothing is released inside a
critical section, except into the list, and when an exception is thrown. -/
theorem kept (I : Inv w) (h : StepR E w t w') {g : SigId} (hl : topLocks (w.stacks t) = some g ∨ topLocks (w'.stacks t) = some g)
    (hx : ∀ g s, w'.log ≠ .failed t g s :: w.log) {f : Frame} (hf : f ∈ w.stacks t) :
    (∀ s, f.slot? = some s → (∃ f' ∈ w'.stacks t, f'.slot? = some s) ∨ ∃ g, s ∈ w'.listOf g) ∧
    (∀ b, f.blk? = some b → ∃ f' ∈ w'.stacks t, f'.blk? = some b) := by
  have stay : f ∈ w'.stacks t →
      (∀ s, f.slot? = some s → (∃ f' ∈ w'.stacks t, f'.slot? = some s) ∨ ∃ g, s ∈ w'.listOf g) ∧
      (∀ b, f.blk? = some b → ∃ f' ∈ w'.stacks t, f'.blk? = some b) := fun h =>
    ⟨fun s hs => .inl ⟨f, h, hs⟩, fun b hb => ⟨f, h, hb⟩⟩
  have repl : ∀ {f0 f1 : Frame} {rest : List Frame}, w.stacks t = f0 :: rest → w'.stacks t = f1 :: rest →
      (∀ s, f0.slot? = some s → f1.slot? = some s ∨ ∃ g, s ∈ w'.listOf g) →
      (∀ b, f0.blk? = some b → f1.blk? = some b) →
      (∀ s, f.slot? = some s → (∃ f' ∈ w'.stacks t, f'.slot? = some s) ∨ ∃ g, s ∈ w'.listOf g) ∧
      (∀ b, f.blk? = some b → ∃ f' ∈ w'.stacks t, f'.blk? = some b) := by
    intro f0 f1 rest h0 h1 hs hb
    rw [h0] at hf
    rcases List.mem_cons.1 hf with rfl | hf
    · refine ⟨fun s e => (hs s e).imp (fun e => ⟨f1, by rw [h1]; simp, e⟩) id, fun b e => ⟨f1, by rw [h1]; simp, hb b e⟩⟩
    · exact stay (by rw [h1]; exact List.mem_cons_of_mem _ hf)
  have pop : ∀ {f0 : Frame} {rest : List Frame}, w.stacks t = f0 :: rest → w'.stacks t = rest → f0.slot? = none → f0.blk? = none →
      (∀ s, f.slot? = some s → (∃ f' ∈ w'.stacks t, f'.slot? = some s) ∨ ∃ g, s ∈ w'.listOf g) ∧
      (∀ b, f.blk? = some b → ∃ f' ∈ w'.stacks t, f'.blk? = some b) := by
    intro f0 rest h0 h1 hs hb
    rw [h0] at hf
    rcases List.mem_cons.1 hf with rfl | hf
    · exact ⟨fun s e => absurd e (by rw [hs]; simp), fun b e => absurd e (by rw [hb]; simp)⟩
    · exact stay (by rw [h1]; exact hf)
  have none' : topLocks (w.stacks t) = none → topLocks (w'.stacks t) = none → False := fun h1 h2 => by
    rw [h1, h2] at hl; rcases hl with hl | hl <;> cases hl
  have user : userCtx (w.stacks t) = true → w'.stacks t = w.stacks t → False := fun hu e =>
    none' (userCtx_topLocks hu) (by rw [e, userCtx_topLocks hu])
  have rl : ∀ {f : Frame} {rest : List Frame}, w.stacks t = f :: rest → f.isCall = false → f.locks = none → w'.stacks t = rest → False :=
    fun hst hc hn e => none' (by rw [hst]; exact hn) (by
      have := I.i1.stk t; rw [hst] at this
      rw [e, (this.tail hc).topLocks])
  have rl2 : ∀ {s pc m p} {rest : List Frame}, w.stacks t = .call s pc :: .emit m p :: rest → w'.stacks t = rest →
      False := fun hst e => none' (by rw [hst]; rfl) (by
    have := I.i1.stk t; rw [hst] at this
    rw [e, this.callTail.topLocks])
  have cons : ∀ {f : Frame} {rest : List Frame}, userCtx (w.stacks t) = true → w'.stacks t = f :: rest → f.locks = none → False :=
    fun hu e hn => none' (userCtx_topLocks hu) (by rw [e]; exact hn)
  have cons1 : ∀ {f0 f1 : Frame} {rest rest' : List Frame}, w.stacks t = f0 :: rest → f0.locks = none → w'.stacks t = f1 :: rest' →
      f1.locks = none → False := fun h1 h2 e hn => none' (by rw [h1]; exact h2) (by rw [e]; exact hn)
  have delv : ∀ (c : Comb) (m : Em) (b : BlkId) (pos : Nat) (acc r : Option Val),
      (Frame.emit m (deliver c b pos acc r)).locks = none := by
    intro c m b pos acc r; cases c <;> rfl
  cases h
  case ub u => exact stay hf
  case acq f0 f1 rest g' hst hf' ha hm =>
    obtain ⟨e1, e2⟩ := Frame.acq_own hf'
    exact repl hst (upd_same _ _ _) (fun s hs => .inl (e1.trans hs)) (fun b hb => e2.trans hb)
  case tst f0 f1 rest g' b hst hf' hl' =>
    obtain ⟨e1, e2⟩ := Frame.tst_own hf'
    exact repl (f1 := f1) hst (upd_same _ _ _) (fun s hs => .inl (e1.trans hs)) (fun b hb => e2.trans hb)
  case det f0 f1 rest g' b hst hf' hl' =>
    obtain ⟨e1, e2⟩ := Frame.det_own hf'
    exact repl (f1 := f1) hst (upd_same _ _ _) (fun s hs => .inl (e1.trans hs)) (fun b hb => e2.trans hb)
  case emCopy m rest hst => exact repl hst (upd_same _ _ _) (by simp [Frame.slot?]) (by simp [Frame.blk?])
  case addWrite g' s dest rest b hst hl' =>
    refine repl hst (upd_same _ _ _) ?_ (by simp [Frame.blk?])
    intro s' hs; right
    simp only [Frame.slot?, Option.some.injEq] at hs; subst hs
    refine ⟨g', ?_⟩
    simp only [World.listOf, World.emitEv, World.setStack, World.setBlk, World.setIndex, hl', upd_same]
    simp
  case eraseEnd hst _ _ => exact repl hst (upd_same _ _ _) (by simp [Frame.slot?]) (by simp [Frame.blk?])
  case eraseThrow hst _ _ _ => exact repl hst (upd_same _ _ _) (by simp [Frame.slot?]) (by simp [Frame.blk?])
  case eraseMiss hst _ _ _ => exact repl hst (upd_same _ _ _) (by simp [Frame.slot?]) (by simp [Frame.blk?])
  case eraseHit hst _ _ _ => exact repl hst (upd_same _ _ _) (by simp [Frame.slot?]) (by simp [Frame.blk?])
  case exchTrue hst _ => exact repl hst (upd_same _ _ _) (by simp [Frame.slot?]) (by simp [Frame.blk?])
  case discWrite hst _ _ => exact repl hst (upd_same _ _ _) (by simp [Frame.slot?]) (by simp [Frame.blk?])
  case discMiss hst _ _ => exact repl hst (upd_same _ _ _) (by simp [Frame.slot?]) (by simp [Frame.blk?])
  case movWrite hst => exact repl hst (upd_same _ _ _) (by simp [Frame.slot?]) (by simp [Frame.blk?])
  case hand hu _ => exact (user hu rfl).elim
  case flag hu _ _ _ => exact (user hu rfl).elim
  case objs hu _ _ => exact (user hu rfl).elim
  case pins hu _ => exact (user hu rfl).elim
  case newSig hu => exact (user hu rfl).elim
  case destroy hu _ _ _ => exact (user hu rfl).elim
  case discFail hu _ => exact (user hu rfl).elim
  case addUnlock hst _ => exact pop hst (upd_same _ _ _) rfl rfl
  case eraseUnlock hst => exact pop hst (upd_same _ _ _) rfl rfl
  case movUnlock hst => exact pop hst (upd_same _ _ _) rfl rfl
  case emSnap hst => exact repl hst (upd_same _ _ _) (by simp [Frame.slot?]) (by simp [Frame.blk?])
  case discUnlock hst => exact repl hst (upd_same _ _ _) (by simp [Frame.slot?]) (by simp [Frame.blk?])
  case fail g s hst hf' => exact absurd rfl (hx g s)
  all_goals first
    | exact (cons ‹_› (upd_same _ _ _) rfl).elim
    | exact (cons1 ‹_› rfl (upd_same _ _ _) rfl).elim
    | exact (cons1 ‹_› rfl (upd_same _ _ _) (delv _ _ _ _ _ _)).elim
    | exact (rl ‹_› rfl rfl (upd_same _ _ _)).elim
    | exact (rl2 ‹_› (upd_same _ _ _)).elim

theorem failed_inv (R : StepR E w t w') {t' : Tid} {g : SigId} {s : Option SlotId} (hl : w'.log = .failed t' g s :: w.log) :
    t' = t ∧ ∃ f rest, w.stacks t = f :: rest ∧ f.allocs = some (g, s) ∧ w' = ((w.setMutex g none).setStack t rest).emitEv (.failed t g s) := by
  cases R <;> try (simp [World.setUB, World.setH, World.setStack, World.emitEv, World.setBlocked,
    World.setMutex, World.setIndex, World.setBlk, World.setConnected, World.setList,
    (removeAt_same _ _ _).2.2.2.2.2.2.2.2.2.2.1] at hl; done)
  case det f f' rest g b hst hf hlst =>
    have : ((cloneBlk w g b).setStack t (f' :: rest)).log = w.log := by
      simp only [World.setStack]; rfl
    rw [this] at hl; simp at hl
  case fail f rest g' s' hst hf =>
    simp only [World.setStack, World.emitEv, World.setMutex, List.cons.injEq, Event.failed.injEq, and_true] at hl
    obtain ⟨rfl, rfl, rfl⟩ := hl
    exact ⟨rfl, f, rest, hst, hf, rfl⟩

theorem removed_step (R : StepR E w t w') {g r s} (hlog : w'.log = .removed g r s :: w.log) :
    ∃ k g1 rest, w'.stacks t = .disc r k (.crit g1 .unlock) :: rest := by
  cases R <;> try (simp [World.setUB, World.setH, World.setStack, World.emitEv, World.setBlocked,
    World.setMutex, World.setIndex, World.setBlk, World.setConnected, World.setList] at hlog; done)
  case det f f' rest g b hst hf hlst =>
    have : ((cloneBlk w g b).setStack t (f' :: rest)).log = w.log := by
      simp only [World.setStack]; rfl
    rw [this] at hlog; simp at hlog
  case discWrite s' v' k rest g1 b1 hst1 hl1 hi1 =>
    simp only [World.setStack, World.emitEv, (removeAt_same _ _ _).2.2.2.2.2.2.2.2.2.2.1, List.cons.injEq,
      Event.removed.injEq, and_true] at hlog
    obtain ⟨-, rfl, -⟩ := hlog
    exact ⟨k, g1, rest, upd_same _ _ _⟩

theorem destroyed_step (R : StepR E w t w') {g} (hlog : w'.log = .destroyed g :: w.log) :
    userCtx (w.stacks t) = true ∧ w'.stacks t = w.stacks t := by
  cases R <;> try (simp [World.setUB, World.setH, World.setStack, World.emitEv, World.setBlocked,
    World.setMutex, World.setIndex, World.setBlk, World.setConnected, World.setList] at hlog; done)
  case destroy hu _ _ _ => exact ⟨hu, rfl⟩
  case det f f' rest g b hst hf hlst =>
    have : ((cloneBlk w g b).setStack t (f' :: rest)).log = w.log := by
      simp only [World.setStack]; rfl
    rw [this] at hlog; simp at hlog

/-- C52 (partial: what the code does guarantee; see `C52_false` and `C52_stale_false` for the exceptions). When a listener, and with it the
user's callable, is destroyed, the destroying thread holds no mutex of the library, neither before nor after, unless the listener is being removed by
`signal::disconnect(f)`, or is removed by mistake in place of another one. A `connect` that runs out of memory unlocks the mutex and destroys its
listener in one step. -/
theorem C52_partial (h : Reachable E w) {l : Label} (hs : step E w l = some w') {s : SlotId}
    (ha : w.connValid (some s) = true) (hd : w'.connValid (some s) = false) :
    (∀ g, (w.sigs g).mutex ≠ some l.tid ∧ (w'.sigs g).mutex ≠ some l.tid) ∨
    (∃ g, w'.log = .erased g s :: w.log) ∨ (∃ g r, r ≠ s ∧ w'.log = .removed g r s :: w.log) ∨
    ∃ g, w'.log = .failed l.tid g (some s) :: w.log ∧ ∀ g', (w'.sigs g').mutex ≠ some l.tid := by
  by_cases hm : ∃ g, (w.sigs g).mutex = some l.tid ∨ (w'.sigs g).mutex = some l.tid
  · obtain ⟨g, hm⟩ := hm
    right
    have I := h.full.i
    have I' := (h.step hs).full.i.i1
    obtain ⟨hub, hlt, R⟩ := step_inv hs
    have hl := hm.imp (I.i1.mtx g l.tid).1 (I'.mtx g l.tid).1
    have dead : ¬ _ := mt (slotAlive_iff I' (s := s)).2 (by
      simp only [World.connValid] at hd
      rw [hd]; simp)
    rcases (slotAlive_iff I.i1).1 ha with ⟨g0, hg⟩ | ⟨t', f, hf, hfo⟩ | hp
    · cases listEff I.i1 I.i2 R with
      | same h1 _ _ => exact absurd (.inl ⟨g0, by rw [h1]; exact hg⟩) dead
      | add g1 s1 b dest rest hst hb h1 _ _ =>
        refine absurd (.inl ⟨g0, ?_⟩) dead
        rw [h1]; split
        · rename_i e; subst e; exact List.mem_append_left _ hg
        · exact hg
      | rem g1 i v ev hst hv h1 _ hev hlog =>
        have e : g0 = g1 := by
          refine Decidable.byContradiction fun n => dead (.inl ⟨g0, ?_⟩)
          rw [h1, if_neg n]; exact hg
        subst e
        have e : s = v := by
          refine Decidable.byContradiction fun n => dead (.inl ⟨g0, ?_⟩)
          rw [h1, if_pos rfl]
          exact (mem_swapPop_iff (I.i3.nodup g0) hv).2 ⟨hg, n⟩
        subst e
        rcases hev with rfl | ⟨r, rfl⟩
        · exact .inl ⟨_, hlog⟩
        · refine .inr (.inl ⟨_, r, ?_, hlog⟩)
          rintro rfl
          refine dead (.inr (.inl ⟨l.tid, ?_⟩))
          obtain ⟨k, g1, rest, e⟩ := removed_step R hlog
          exact ⟨.disc r k (.crit g1 .unlock), by rw [e]; exact List.mem_cons_self, .inl rfl⟩
      | move g1 g2 hne hst h0 hdd h1 _ _ =>
        refine absurd (.inl ?_) dead
        by_cases e : g0 = g1
        · subst e
          exact ⟨g2, by rw [h1, if_neg hne, if_pos rfl]; exact hg⟩
        · by_cases e2 : g0 = g2
          · subst e2; rw [h0] at hg; cases hg
          · exact ⟨g0, by rw [h1, if_neg e, if_neg e2]; exact hg⟩
      | destroy g1 hm1 h1 _ hlog =>
        obtain ⟨hu, e⟩ := destroyed_step R hlog
        rw [e, userCtx_topLocks hu] at hl; rcases hl with hl | hl <;> cases hl
    · by_cases hx : ∃ g1 s1, w'.log = .failed l.tid g1 s1 :: w.log
      · obtain ⟨g1, s1, hx⟩ := hx
        obtain ⟨-, f0, rest, hst, h0, he⟩ := failed_inv R hx
        have hst' : w'.stacks l.tid = rest := by rw [he]; exact upd_same _ _ _
        have hb' : w'.blks = w.blks := by rw [he]; rfl
        have e : t' = l.tid := Decidable.byContradiction fun e =>
          dead (.inr (.inl ⟨t', f, by rw [stacks_other R e]; exact hf, by rw [hb']; exact hfo⟩))
        subst e
        rw [hst] at hf
        rcases List.mem_cons.1 hf with rfl | hf
        · have h1 : f.slot? = s1 ∧ f.blk? = none := by
            rcases Frame.allocs_inv h0 with ⟨s', dest, pc, rfl, rfl⟩ | ⟨tgt, rfl, rfl⟩
            · cases pc <;> first | exact ⟨rfl, rfl⟩ | cases h0
            · exact ⟨rfl, rfl⟩
          rcases hfo with h2 | ⟨b, h2, -⟩
          · refine .inr (.inr ⟨g1, by rw [hx, ← h1.1, h2], fun g' e => ?_⟩)
            have := (I'.mtx g' l.tid).1 e
            have ok := I.i1.stk l.tid
            rw [hst] at ok
            rw [hst', (ok.tail (Frame.allocs_isCall h0)).topLocks] at this
            cases this
          · rw [h1.2] at h2; cases h2
        · exact absurd (.inr (.inl ⟨l.tid, f, by rw [hst']; exact hf, by rw [hb']; exact hfo⟩)) dead
      refine absurd ?_ dead
      have blk : ∀ b, f.blk? = some b → s ∈ w.blks b → s ∈ w'.blks b := fun b hb hs => by
        rw [owned_blk I R hf hb]; exact hs
      by_cases e : t' = l.tid
      · subst e
        obtain ⟨k1, k2⟩ := kept I R hl (fun g s e => hx ⟨g, s, e⟩) hf
        rcases hfo with hs | ⟨b, hb, hs⟩
        · rcases k1 s hs with ⟨f', hf', e⟩ | ⟨g', hg'⟩
          · exact .inr (.inl ⟨_, f', hf', .inl e⟩)
          · exact .inl ⟨g', hg'⟩
        · obtain ⟨f', hf', e⟩ := k2 b hb
          exact .inr (.inl ⟨_, f', hf', .inr ⟨b, e, blk b hb hs⟩⟩)
      · refine .inr (.inl ⟨t', f, by rw [stacks_other R e]; exact hf, hfo.imp id ?_⟩)
        rintro ⟨b, hb, hs⟩; exact ⟨b, hb, blk b hb hs⟩
    · rcases pins_step R with e | ⟨hu, e⟩
      · exact absurd (.inr (.inr (by rw [e]; exact hp))) dead
      · rw [e, userCtx_topLocks hu] at hl; rcases hl with hl | hl <;> cases hl
  · exact .inl fun g => ⟨fun e => hm ⟨g, .inl e⟩, fun e => hm ⟨g, .inr e⟩⟩

/-- C52 is false: `signal::disconnect(f)` destroys the listener it removes, callable included, with the mutex locked. A destructor of
the callable that uses the signal (one that owns a `scoped_connection`, say) would lock it again. -/
theorem C52_false : ∃ w w', Reachable Demo.E0 w ∧ step Demo.E0 w (.run 0) = some w' ∧
    w.connValid (some 0) = true ∧ w'.connValid (some 0) = false ∧ (w'.sigs 0).mutex = some 0 := by
  have hx : (step Demo.E0 (Demo.world 1 Demo.erasing) (.run 0)).isSome = true := by decide +kernel
  obtain ⟨x, hx⟩ := Option.isSome_iff_exists.1 hx
  have e : x = (step Demo.E0 (Demo.world 1 Demo.erasing) (.run 0)).getD (World.init 0) := by rw [hx]; rfl
  refine ⟨_, x, Demo.reach 1 Demo.erasing, hx, by decide +kernel, ?_, ?_⟩ <;> rw [e] <;> decide +kernel

/-- C52 is false for `connection::disconnect()` too, if `signal::disconnect(f)` came first (see `C02_false`): listener 0 was erased but is
still running; disconnecting it removes listener 1 instead, whose callable is destroyed under the lock. -/
theorem C52_stale_false : ∃ w w', Reachable Demo.E0 w ∧ step Demo.E0 w (.run 0) = some w' ∧
    w.connValid (some 1) = true ∧ w'.connValid (some 1) = false ∧ (w'.sigs 0).mutex = some 0 ∧
    w'.log = .removed 0 0 1 :: w.log := by
  have hx : (step Demo.E0 (Demo.world 1 Demo.removing) (.run 0)).isSome = true := by decide +kernel
  obtain ⟨x, hx⟩ := Option.isSome_iff_exists.1 hx
  have e : x = (step Demo.E0 (Demo.world 1 Demo.removing) (.run 0)).getD (World.init 0) := by rw [hx]; rfl
  refine ⟨_, x, Demo.reach 1 Demo.removing, hx, by decide +kernel, ?_, ?_, ?_⟩ <;> rw [e] <;> decide +kernel

/-- A listener disconnected through its connection is destroyed after the mutex was unlocked. -/
example : ∃ w w', Reachable Demo.E0 w ∧ step Demo.E0 w (.run 0) = some w' ∧
    w.connValid (some 0) = true ∧ (w.sigs 0).mutex = none ∧ w'.connValid (some 0) = false ∧ (w'.sigs 0).mutex = none := by
  have hx : (step Demo.E0 (Demo.world 1 Demo.leaving) (.run 0)).isSome = true := by decide +kernel
  obtain ⟨x, hx⟩ := Option.isSome_iff_exists.1 hx
  have e : x = (step Demo.E0 (Demo.world 1 Demo.leaving) (.run 0)).getD (World.init 0) := by rw [hx]; rfl
  refine ⟨_, x, Demo.reach 1 Demo.leaving, hx, by decide +kernel, by decide +kernel, ?_, ?_⟩ <;> rw [e] <;> decide +kernel

end Verif
