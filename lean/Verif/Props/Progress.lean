import Verif.Props.Lists
import Verif.Props.Handles
import Verif.Mach.StepL

/-!
# C21 and C47: locks and progress
-/

namespace Verif

variable {E : Env} {w w' : World} {t : Tid}

/-! ### C21 -/

/-- A thread that does something in user code (the main program, a listener, a user combiner) holds no signal's mutex. -/
theorem C21_unlocked (h : Reachable E w) {l : Label} (hs : step E w l = some w') (hl : l.user = true) (g : SigId) :
    (w.sigs g).mutex ≠ some l.tid := by
  intro hm
  rw [h.full.i.i1.mtx] at hm
  have none : topLocks (w.stacks l.tid) = none := by
    cases l with
    | run t => cases hl
    | fail t => cases hl
    | ctl t => cases hl
    | call t a => exact userCtx_topLocks (step_call hs).2.2.1
    | ret t v =>
      obtain ⟨-, -, s, o, m, b, pos, acc, rest, hst, -⟩ := step_ret hs
      show topLocks (w.stacks t) = _
      rw [hst]; rfl
    | throw t c =>
      obtain ⟨-, -, s, o, m, b, pos, acc, rest, hst, -⟩ := step_throw hs
      show topLocks (w.stacks t) = _
      rw [hst]; rfl
  rw [none] at hm; cases hm

/-- While a listener or a user combiner is running (it is the top of its thread's stack), that thread holds no mutex. -/
theorem C21_listener (h : Reachable E w) (hu : userCtx (w.stacks t) = true) (g : SigId) : (w.sigs g).mutex ≠ some t := by
  rw [ne_eq, h.full.i.i1.mtx, userCtx_topLocks hu]; simp

/-- Thread `t` is about to lock the mutex of `g`. -/
def Waits (w : World) (t : Tid) (g : SigId) : Prop := ∃ f f' rest, w.stacks t = f :: rest ∧ f.acq = some (g, f')

/-- A thread outside user code either can take a step or is waiting for a mutex that is taken. -/
theorem run_or_wait (I : Inv1 w) (hu : userCtx (w.stacks t) = false) :
    (∃ w', runTop E w t = some w') ∨ ∃ g t', Waits w t g ∧ (w.sigs g).mutex = some t' := by
  have acq : ∀ {g next}, (∃ w', acquire w t g next = some w') ∨ ∃ t', (w.sigs g).mutex = some t' := by
    intro g next
    unfold acquire
    split
    · exact .inl ⟨_, rfl⟩
    · split
      · rename_i t' e; exact .inr ⟨t', e⟩
      · exact .inl ⟨_, rfl⟩
  have lst : ∀ {α : Type} (o : Option α) (a : Option World) (b : α → Option World), (a.isSome = true) → (∀ x, (b x).isSome = true) →
      ∃ w', (match o with | none => a | some x => b x) = some w' := by
    intro α o a b h1 h2
    cases o with
    | none => exact Option.isSome_iff_exists.1 h1
    | some x => exact Option.isSome_iff_exists.1 (h2 x)
  match hst : w.stacks t with
  | [] => rw [hst] at hu; cases hu
  | .emit m pc :: rest =>
    unfold runTop; rw [hst]
    simp only
    cases pc with
    | start => left; unfold runEmit; simp only; split; exact ⟨_, rfl⟩; split <;> exact ⟨_, rfl⟩
    | wait =>
      rcases acq (g := m.g) (next := .emit m .copy :: rest) with h | ⟨t', h⟩
      · exact .inl h
      · exact .inr ⟨m.g, t', ⟨_, _, rest, hst, rfl⟩, h⟩
    | copy => exact .inl ⟨_, rfl⟩
    | unlock b => cases b <;> exact .inl ⟨_, rfl⟩
    | iter b pos acc =>
      left
      match m, hst with
      | ⟨e, g, .custom, a⟩, hst => rw [hst] at hu; cases hu
      | ⟨e, g, .lastValue, a⟩, hst =>
        unfold runEmit; simp only
        split <;> exact ⟨_, rfl⟩
  | .call s pc :: rest =>
    have ok := hst ▸ I.stk t
    have : ∃ m b pos acc r, rest = .emit m (.iter b pos acc) :: r := by
      cases ok with
      | user _ h => cases h with | body => exact ⟨_, _, _, _, _, rfl⟩
      | call => exact ⟨_, _, _, _, _, rfl⟩
      | lib _ _ hf => cases hf
    obtain ⟨m, b, pos, acc, r, rfl⟩ := this
    left
    unfold runTop; rw [hst]; simp only
    cases pc with
    | body o => rw [hst] at hu; cases hu
    | chkConnected =>
      unfold runCall; simp only
      split
      · split <;> exact ⟨_, rfl⟩
      · exact ⟨_, rfl⟩
    | _ => unfold runCall; simp only; first | exact ⟨_, rfl⟩ | (split <;> exact ⟨_, rfl⟩)
  | .add g s dest pc :: rest =>
    unfold runTop; rw [hst]; simp only
    cases pc with
    | wait =>
      rcases acq (g := g) (next := .add g s dest .detach :: rest) with h | ⟨t', h⟩
      · exact .inl h
      · exact .inr ⟨g, t', ⟨_, _, rest, hst, rfl⟩, h⟩
    | unlock => left; unfold runAdd; simp only; split <;> exact ⟨_, rfl⟩
    | _ => left; unfold runAdd; simp only; split <;> exact ⟨_, rfl⟩
  | .erase g tgt pc :: rest =>
    unfold runTop; rw [hst]; simp only
    cases pc with
    | wait =>
      rcases acq (g := g) (next := .erase g tgt .detach :: rest) with h | ⟨t', h⟩
      · exact .inl h
      · exact .inr ⟨g, t', ⟨_, _, rest, hst, rfl⟩, h⟩
    | detach => left; unfold runErase; simp only; split <;> exact ⟨_, rfl⟩
    | clone => left; unfold runErase; simp only; split <;> exact ⟨_, rfl⟩
    | scan i cnt =>
      left; unfold runErase; simp only
      split
      · exact ⟨_, rfl⟩
      · split
        · exact ⟨_, rfl⟩
        · split <;> exact ⟨_, rfl⟩
    | unlock r => exact .inl ⟨_, rfl⟩
  | .disc s k pc :: rest =>
    unfold runTop; rw [hst]; simp only
    cases pc with
    | exch => left; unfold runDisc; simp only; split <;> exact ⟨_, rfl⟩
    | crit g pc =>
      cases pc with
      | wait =>
        rcases acq (g := g) (next := .disc s k (.crit g .detach) :: rest) with h | ⟨t', h⟩
        · exact .inl h
        · exact .inr ⟨g, t', ⟨_, _, rest, hst, rfl⟩, h⟩
      | detach => left; unfold runDisc; simp only; split <;> exact ⟨_, rfl⟩
      | clone => left; unfold runDisc; simp only; split <;> exact ⟨_, rfl⟩
      | write =>
        left; unfold runDisc; simp only
        split
        · exact ⟨_, rfl⟩
        · split <;> exact ⟨_, rfl⟩
      | unlock => exact .inl ⟨_, rfl⟩
    | drop g => exact .inl ⟨_, rfl⟩
  | .mov g' g pc :: rest =>
    unfold runTop; rw [hst]; simp only
    cases pc with
    | wait =>
      rcases acq (g := g) (next := .mov g' g .write :: rest) with h | ⟨t', h⟩
      · exact .inl h
      · exact .inr ⟨g, t', ⟨_, _, rest, hst, rfl⟩, h⟩
    | write => exact .inl ⟨_, rfl⟩
    | unlock => exact .inl ⟨_, rfl⟩

theorem run_step (hub : w.ub = none) (ht : t < w.nThr) (h : runTop E w t = some w') : step E w (.run t) = some w' := by
  unfold step; rw [if_neg (by rw [hub]; simp), if_pos (show (Label.run t).tid < _ from ht)]; exact h

/-- The holder of a mutex can always take its next step. -/
theorem C21_holder (h : Reachable E w) (hub : w.ub = none) {g : SigId} (hm : (w.sigs g).mutex = some t) :
    ∃ w', step E w (.run t) = some w' := by
  have I := h.full.i.i1
  have hl := (I.mtx g t).1 hm
  have ht : t < w.nThr := Nat.lt_of_not_le fun hle => by rw [I.thr t hle] at hl; cases hl
  have hu : userCtx (w.stacks t) = false := by
    cases hu : userCtx (w.stacks t) with
    | false => rfl
    | true => rw [userCtx_topLocks hu] at hl; cases hl
  rcases run_or_wait (E := E) I hu with ⟨w', hr⟩ | ⟨g', t', ⟨f, f', rest, hst, hf⟩, -⟩
  · exact ⟨w', run_step hub ht hr⟩
  · rw [hst] at hl
    change f.locks = _ at hl
    rw [(Frame.acq_locks hf).1] at hl; cases hl

/-- C21: no thread is ever stuck. It is in user code, or its next step is enabled, or it waits for a mutex held by
another thread whose own next step is enabled. -/
theorem C21_progress (h : Reachable E w) (hub : w.ub = none) (ht : t < w.nThr) :
    userCtx (w.stacks t) = true ∨ (∃ w', step E w (.run t) = some w') ∨
      ∃ g t', t' ≠ t ∧ Waits w t g ∧ (w.sigs g).mutex = some t' ∧ ∃ w', step E w (.run t') = some w' := by
  have I := h.full.i.i1
  cases hu : userCtx (w.stacks t) with
  | true => exact .inl rfl
  | false =>
    right
    rcases run_or_wait (E := E) I hu with ⟨w', hr⟩ | ⟨g, t', hw, hm⟩
    · exact .inl ⟨w', run_step hub ht hr⟩
    · refine .inr ⟨g, t', ?_, hw, hm, C21_holder h hub hm⟩
      rintro rfl
      obtain ⟨f, f', rest, hst, hf⟩ := hw
      have hl := (I.mtx g t').1 hm
      rw [hst] at hl
      change f.locks = _ at hl
      rw [(Frame.acq_locks hf).1] at hl; cases hl

/-- C21: as long as there is a thread, some thread can do something. -/
theorem C21_alive (h : Reachable E w) (hub : w.ub = none) (hn : 0 < w.nThr) : ∃ l w', step E w l = some w' := by
  rcases C21_progress h hub hn with hu | ⟨w', h'⟩ | ⟨-, t', -, -, -, w', h'⟩
  · refine ⟨.call 0 .objNew, { w with objs := upd w.objs w.nObjs 1, nObjs := w.nObjs + 1 }, ?_⟩
    unfold step
    rw [if_neg (by rw [hub]; simp), if_pos (show (Label.call 0 .objNew).tid < _ from hn)]
    simp only [hu, if_true]
    rfl
  · exact ⟨_, w', h'⟩
  · exact ⟨_, w', h'⟩

-- a listener of signal 0 is running on thread 0 and connects to signal 0: `C21_unlocked`, `C21_listener`
example : step Demo.E0 (Demo.world 1 Demo.inBody) (.call 0 (.connect 0 (Demo.fn 99) [] true false (.conn 9))) =
      some (Demo.world 1 (Demo.inBody ++ [.call 0 (.connect 0 (Demo.fn 99) [] true false (.conn 9))])) ∧
    userCtx ((Demo.world 1 Demo.inBody).stacks 0) = true :=
  ⟨Demo.world_step 1 _ _ (by decide +kernel), by decide +kernel⟩

-- thread 1 waits for thread 0, which is inside `connect` and can go on: `C21_holder`, the last case of `C21_progress`
example : (Demo.world 2 Demo.contend).ub = none ∧ userCtx ((Demo.world 2 Demo.contend).stacks 1) = false ∧
    (step Demo.E0 (Demo.world 2 Demo.contend) (.run 1)).isNone ∧ ((Demo.world 2 Demo.contend).sigs 0).mutex = some 0 ∧
    (step Demo.E0 (Demo.world 2 Demo.contend) (.run 0)).isSome := by decide +kernel

/-! ### C47 -/

/-- Steps the thread with this stack still has to take before it lets go of the mutex it holds. -/
def todo (w : World) : List Frame → Nat
  | .add _ _ _ .detach :: _ => 4
  | .add _ _ _ .clone :: _ => 3
  | .add _ _ _ .write :: _ => 2
  | .add _ _ _ .unlock :: _ => 1
  | .disc _ _ (.crit _ .detach) :: _ => 4
  | .disc _ _ (.crit _ .clone) :: _ => 3
  | .disc _ _ (.crit _ .write) :: _ => 2
  | .disc _ _ (.crit _ .unlock) :: _ => 1
  | .erase g _ .detach :: _ => (w.listOf g).length + 4
  | .erase g _ .clone :: _ => (w.listOf g).length + 3
  | .erase g _ (.scan i _) :: _ => (w.listOf g).length - i + 2
  | .erase _ _ (.unlock _) :: _ => 1
  | .emit _ .copy :: _ => 2
  | .emit _ (.unlock _) :: _ => 1
  | .mov _ _ .write :: _ => 2
  | .mov _ _ .unlock :: _ => 1
  | _ => 0

theorem todo_pos {st : List Frame} {g : SigId} (h : topLocks st = some g) :
    1 ≤ todo w st ∧ todo w st ≤ (w.listOf g).length + 4 := by
  match st, h with
  | .emit m pc :: rest, h => cases pc <;> simp [topLocks, Frame.locks, todo] at h ⊢
  | .call s pc :: rest, h => simp [topLocks, Frame.locks] at h
  | .add g' s d pc :: rest, h => cases pc <;> simp [topLocks, Frame.locks, todo] at h ⊢
  | .erase g' tgt pc :: rest, h =>
    cases pc <;> simp [topLocks, Frame.locks, todo] at h ⊢ <;> subst h <;> omega
  | .disc s k pc :: rest, h =>
    cases pc with
    | exch => simp [topLocks, Frame.locks] at h
    | crit g' pc => cases pc <;> simp [topLocks, Frame.locks, todo] at h ⊢
    | drop g' => simp [topLocks, Frame.locks] at h
  | .mov g1 g2 pc :: rest, h => cases pc <;> simp [topLocks, Frame.locks, todo] at h ⊢

/-- A step of the holder: it lets go, or runs into undefined behaviour, or gets closer. -/
theorem todo_own (h : Reachable E w) {l : Label} (hs : step E w l = some w') {g : SigId}
    (hm : (w.sigs g).mutex = some l.tid) :
    w'.ub ≠ none ∨ (w'.sigs g).mutex = none ∨
      ((w'.sigs g).mutex = some l.tid ∧ todo w' (w'.stacks l.tid) < todo w (w.stacks l.tid)) := by
  obtain ⟨hub, hlt, R⟩ := step_inv hs
  have I := h.full.i
  have I' := (h.step hs).full.i.i1
  have hl := (I.i1.mtx g l.tid).1 hm
  have eff := listEff I.i1 I.i2 R
  generalize l.tid = t at *
  have us := upd_same (α := List Frame) w.stacks t
  have stay : topLocks (w'.stacks t) = some g → todo w' (w'.stacks t) < todo w (w.stacks t) →
      w'.ub ≠ none ∨ (w'.sigs g).mutex = none ∨ ((w'.sigs g).mutex = some t ∧ todo w' (w'.stacks t) < todo w (w.stacks t)) :=
    fun h1 h2 => .inr (.inr ⟨(I'.mtx g t).2 h1, h2⟩)
  have nouser : userCtx (w.stacks t) = true → False := fun hu => by rw [userCtx_topLocks hu] at hl; cases hl
  have nolock : ∀ {f : Frame} {rest : List Frame}, w.stacks t = f :: rest → f.locks = none → False := by
    intro f rest h1 h2; rw [h1] at hl; change f.locks = _ at hl; rw [h2] at hl; cases hl
  have lock : ∀ {f : Frame} {rest : List Frame} {g1 : SigId}, w.stacks t = f :: rest → f.locks = some g1 → g1 = g := by
    intro f rest g1 h1 h2; rw [h1] at hl; change f.locks = _ at hl; rw [h2] at hl; injection hl
  have free : ∀ {x : World} {g1 : SigId}, g1 = g → x.sigs = (w.setMutex g1 none).sigs → (x.sigs g).mutex = none := by
    intro x g1 e hx; subst e; rw [hx]; simp [World.setMutex, upd_same]
  cases R
  case ub u => exact .inl (by simp [World.setUB])
  case acq f f' rest g' hst hf ha hm' => exact (nolock hst (Frame.acq_locks hf).1).elim
  case tst f f' rest g' b hst hf hl' =>
    have e1 : (w.setStack t (f' :: rest)).stacks t = f' :: rest := upd_same _ _ _
    have hg := lock hst (Frame.tst_locks hf).1
    subst hg
    refine stay (by rw [e1]; exact (Frame.tst_locks hf).2.1) ?_
    rw [e1, hst]
    have hlen : (w.setStack t (f' :: rest)).listOf g' = w.listOf g' := rfl
    revert hf
    cases w.shared g' b <;> intro hf <;> unfold Frame.tst at hf <;> split at hf <;> simp at hf <;> obtain ⟨rfl, rfl⟩ := hf <;>
      simp [todo, hlen]
  case det f f' rest g' b hst hf hl' =>
    have e1 : ((cloneBlk w g' b).setStack t (f' :: rest)).stacks t = f' :: rest := by
      exact upd_same _ _ _
    have hg := lock hst (Frame.det_locks hf).1
    subst hg
    have hlen : ((cloneBlk w g' b).setStack t (f' :: rest)).listOf g' = w.listOf g' := by
      have e2 : ((cloneBlk w g' b).setStack t (f' :: rest)).log = w.log := by rfl
      cases eff with
      | same h => exact h g'
      | add _ _ _ _ _ _ _ _ _ h1 => rw [e2] at h1; simp at h1
      | rem _ _ _ _ _ _ _ _ _ h1 => rw [e2] at h1; simp at h1
      | move _ _ _ _ _ _ _ _ h1 => rw [e2] at h1; simp at h1
      | destroy _ _ _ _ h1 => rw [e2] at h1; simp at h1
    refine stay (by rw [e1]; exact (Frame.det_locks hf).2.1) ?_
    rw [e1, hst]
    unfold Frame.det at hf; split at hf <;> simp at hf <;> obtain ⟨rfl, rfl⟩ := hf <;> simp [todo, hlen]
  case emCopy m rest hst =>
    refine stay ?_ ?_
    · show topLocks (upd w.stacks t _ t) = _; rw [us, ← lock hst rfl]; rfl
    · show todo _ (upd w.stacks t _ t) < _; rw [us, hst]; simp [todo]
  case emSnap m b rest hst => exact .inr (.inl (free (lock hst rfl) rfl))
  case addWrite g' s dest rest b hst hl' =>
    refine stay ?_ ?_
    · show topLocks (upd w.stacks t _ t) = _; rw [us, ← lock hst rfl]; rfl
    · show todo _ (upd w.stacks t _ t) < _; rw [us, hst]; simp [todo]
  case addUnlock g' s dest rest cv sv bv hst hs => exact .inr (.inl (free (lock hst rfl) rfl))
  case eraseEnd g' tgt i cnt rest b hst hl' hi =>
    refine stay ?_ ?_
    · show topLocks (upd w.stacks t _ t) = _; rw [us, ← lock hst rfl]; rfl
    · show todo _ (upd w.stacks t _ t) < _; rw [us, hst]; simp [todo]
  case eraseThrow g' tgt i cnt rest b s hst hl' hi he =>
    refine stay ?_ ?_
    · show topLocks (upd w.stacks t _ t) = _; rw [us, ← lock hst rfl]; rfl
    · show todo _ (upd w.stacks t _ t) < _; rw [us, hst]; simp [todo]
  case eraseHit g' tgt i cnt rest b s hst hl' hi he =>
    have e1 : (((removeAt w b i).setStack t (.erase g' tgt (.scan i (cnt + 1)) :: rest)).emitEv
                    (.erased g' s)).stacks t = .erase g' tgt (.scan i (cnt + 1)) :: rest := upd_same _ _ _
    have hilt : i < (w.blks b).length := (List.getElem?_eq_some_iff.1 hi).1
    have hlen : ((((removeAt w b i).setStack t (.erase g' tgt (.scan i (cnt + 1)) :: rest)).emitEv
                    (.erased g' s)).listOf g').length + 1 = (w.listOf g').length := by
      rw [listOf_eq hl', listOf_eq (b := b) (by simp only [World.emitEv, World.setStack, (removeAt_same w b i).1]; exact hl')]
      show ((removeAt w b i).blks b).length + 1 = _
      rw [removeAt_blks w b i hilt]
      simp only [upd_same, Vec.length_swapPop _ _ hilt]
      omega
    refine stay (by rw [e1, ← lock hst rfl]; rfl) ?_
    rw [e1, hst]
    simp only [todo]
    rw [listOf_eq hl'] at hlen ⊢
    omega
  case eraseMiss g' tgt i cnt rest b s hst hl' hi he =>
    have hilt : i < (w.blks b).length := (List.getElem?_eq_some_iff.1 hi).1
    refine stay ?_ ?_
    · show topLocks (upd w.stacks t _ t) = _; rw [us, ← lock hst rfl]; rfl
    · show todo _ (upd w.stacks t _ t) < _; rw [us, hst]
      simp only [todo]
      rw [show (w.setStack t (.erase g' tgt (.scan (i + 1) cnt) :: rest)).listOf g' = w.listOf g' from rfl, listOf_eq hl']
      omega
  case fail f rest g' s hst hf => exact .inr (.inl (free (lock hst (Frame.allocs_locks hf)) rfl))
  case eraseUnlock g' tgt r rest hst => exact .inr (.inl (free (lock hst rfl) rfl))
  case discWrite s v k rest g' b hst hl' hi =>
    have e1 : (((removeAt w b (w.slots s).index).setStack t
                (.disc s k (.crit g' .unlock) :: rest)).emitEv (.removed g' s v)).stacks t =
                  .disc s k (.crit g' .unlock) :: rest := upd_same _ _ _
    refine stay (by rw [e1, ← lock hst rfl]; rfl) ?_
    rw [e1, hst]; simp [todo]
  case discMiss s k rest g' b hst hl' hi =>
    refine stay ?_ ?_
    · show topLocks (upd w.stacks t _ t) = _; rw [us, ← lock hst rfl]; rfl
    · show todo _ (upd w.stacks t _ t) < _; rw [us, hst]; simp [todo]
  case discUnlock s k rest g' hst => exact .inr (.inl (free (lock hst rfl) rfl))
  case discDrop s k rest g' cv sv bv hst hs => exact (nolock hst rfl).elim
  case movWrite g1 g' rest hst =>
    refine stay ?_ ?_
    · show topLocks (upd w.stacks t _ t) = _; rw [us, ← lock hst rfl]; rfl
    · show todo _ (upd w.stacks t _ t) < _; rw [us, hst]; simp [todo]
  case movUnlock g1 g' rest hst =>
    have hg := lock hst rfl
    subst hg
    have hne : g' ≠ g1 := fun e => (I.i1.rng t (.mov g1 g' .unlock) (by rw [hst]; exact List.mem_cons_self)).2.2 e.symm
    refine .inr (.inl ?_)
    simp [upd_apply, hne]
  all_goals first
    | exact (nouser ‹_›).elim
    | exact (nolock ‹_› rfl).elim

/-- A step of another thread changes nothing. -/
theorem todo_other (h : Reachable E w) {l : Label} (hs : step E w l = some w') {g : SigId}
    (hm : (w.sigs g).mutex = some t) (ht : l.tid ≠ t) :
    (w'.sigs g).mutex = some t ∧ todo w' (w'.stacks t) = todo w (w.stacks t) := by
  obtain ⟨h1, h2⟩ := C20_exclusive h hs hm ht
  refine ⟨h2, ?_⟩
  rw [stacks_other (step_inv hs).2.2 (Ne.symm ht)]
  have hl := (h.full.i.i1.mtx g t).1 hm
  match hst : w.stacks t with
  | [] => rfl
  | .erase g' tgt pc :: rest =>
    cases pc with
    | wait => rfl
    | unlock => rfl
    | detach =>
      rw [hst] at hl; simp only [topLocks, Frame.locks, Option.some.injEq] at hl; subst hl
      simp only [todo, h1]
    | clone =>
      rw [hst] at hl; simp only [topLocks, Frame.locks, Option.some.injEq] at hl; subst hl
      simp only [todo, h1]
    | scan i cnt =>
      rw [hst] at hl; simp only [topLocks, Frame.locks, Option.some.injEq] at hl; subst hl
      simp only [todo, h1]
  | .emit m pc :: rest => cases pc <;> rfl
  | .call _ _ :: _ => rfl
  | .add _ _ _ pc :: _ => cases pc <;> rfl
  | .disc _ _ pc :: _ =>
    cases pc with
    | exch => rfl
    | crit g pc => cases pc <;> rfl
    | drop g => rfl
  | .mov _ _ pc :: _ => cases pc <;> rfl

/-- C47: a thread that holds a signal's mutex lets go of it after at most `n + 4` steps of its own, where `n` is the number of
listeners, whatever other threads do in between: every schedule in which it takes more steps than that has a first part after
which it does not hold the mutex and in which it took at most `n + 4` steps. -/
theorem C47 (h : Reachable E w) {g : SigId} (hm : (w.sigs g).mutex = some t) (ls : List Label)
    (he : exec E w ls = some w') (hn : (w.listOf g).length + 4 < ls.countP (·.tid = t)) :
    ∃ l1 l2 w1, ls = l1 ++ l2 ∧ exec E w l1 = some w1 ∧ (w1.sigs g).mutex ≠ some t ∧
      l1.countP (·.tid = t) ≤ (w.listOf g).length + 4 := by
  have key : ∀ (ls : List Label) (w : World), Reachable E w → (w.sigs g).mutex = some t → exec E w ls = some w' →
      todo w (w.stacks t) < ls.countP (·.tid = t) → ∃ l1 l2 w1, ls = l1 ++ l2 ∧ exec E w l1 = some w1 ∧
        (w1.sigs g).mutex ≠ some t ∧ l1.countP (·.tid = t) ≤ todo w (w.stacks t) := by
    intro ls
    induction ls with
    | nil => intro w _ _ _ hn; simp at hn
    | cons l ls ih =>
      intro w h hm he hn
      simp only [exec] at he
      split at he
      · rename_i w1 hs
        have h1 := h.step hs
        have hp := (todo_pos (w := w) ((h.full.i.i1.mtx g t).1 hm)).1
        by_cases ht : l.tid = t
        · subst ht
          rw [List.countP_cons_of_pos (by simp)] at hn
          rcases todo_own h hs hm with hu | hf | ⟨hm1, hlt⟩
          · cases ls with
            | nil => simp at hn; omega
            | cons l2 ls =>
              simp only [exec] at he
              split at he
              · rename_i w2 hs2
                exact absurd (step_ub hs2) hu
              · cases he
          · refine ⟨[l], ls, w1, rfl, by simp [exec, hs], by rw [hf]; simp, ?_⟩
            simp; omega
          · obtain ⟨l1, l2, w2, e1, e2, e3, e4⟩ := ih w1 h1 hm1 he (by omega)
            refine ⟨l :: l1, l2, w2, by rw [e1]; rfl, by simp [exec, hs, e2], e3, ?_⟩
            rw [List.countP_cons_of_pos (by simp)]; omega
        · rw [List.countP_cons_of_neg (by simpa using ht)] at hn
          obtain ⟨hm1, heq⟩ := todo_other h hs hm ht
          obtain ⟨l1, l2, w2, e1, e2, e3, e4⟩ := ih w1 h1 hm1 he (by omega)
          refine ⟨l :: l1, l2, w2, by rw [e1]; rfl, by simp [exec, hs, e2], e3, ?_⟩
          rw [List.countP_cons_of_neg (by simpa using ht)]; omega
      · cases he
  have hp := (todo_pos (w := w) ((h.full.i.i1.mtx g t).1 hm)).2
  obtain ⟨l1, l2, w1, e1, e2, e3, e4⟩ := key ls w h hm he (by omega)
  exact ⟨l1, l2, w1, e1, e2, e3, by omega⟩

namespace Demo

/-- Thread 0 finishes `connect` and does three more things, while thread 1 goes on. -/
def letGo : List Label := go 0 3 ++ [.run 1, .call 0 .objNew, .call 0 .objNew, .call 0 .objNew]

end Demo

-- thread 0 holds the mutex of a signal with one listener and takes six steps, while thread 1 waits; it has let go after three
example : ((Demo.world 2 Demo.contend).sigs 0).mutex = some 0 ∧
    ((Demo.world 2 Demo.contend).listOf 0).length + 4 < Demo.letGo.countP (·.tid = 0) ∧
    (exec Demo.E0 (Demo.world 2 Demo.contend) Demo.letGo).isSome ∧
    (exec Demo.E0 (Demo.world 2 Demo.contend) (Demo.go 0 2)).map (fun w => (w.sigs 0).mutex) = some (some 0) ∧
    (exec Demo.E0 (Demo.world 2 Demo.contend) (Demo.go 0 3)).map (fun w => (w.sigs 0).mutex) = some none := by decide +kernel

/-- The outermost function of a call that is not an emission: `connect`, `disconnect(f)`, `connection::disconnect()`, and the move
constructor of a signal. -/
def Frame.api : Frame → Bool
  | .add .. | .erase .. | .disc .. | .mov .. => true
  | _ => false

/-- Steps the call still has to take, where `N` bounds the number of listeners. -/
def left (w : World) (N : Nat) : List Frame → Nat
  | .add _ _ _ .wait :: _ => 5
  | .disc _ _ .exch :: _ => 7
  | .disc _ _ (.crit _ .wait) :: _ => 6
  | .disc s k (.crit g pc) :: rest => todo w (.disc s k (.crit g pc) :: rest) + 1
  | .disc _ _ (.drop _) :: _ => 1
  | .erase _ _ .wait :: _ => N + 5
  | .mov _ _ .wait :: _ => 3
  | st => todo w st

/-- Steps of a call after it has let go of its mutex. -/
def Frame.extra : Frame → Nat
  | .disc .. => 1
  | _ => 0

theorem left_locked {f : Frame} {rest : List Frame} {g : SigId} (hf : f.locks = some g) (N : Nat) :
    left w N (f :: rest) = todo w (f :: rest) + f.extra := by
  cases f with
  | emit m pc => rfl
  | call s pc => rfl
  | add g' s d pc => cases pc <;> first | rfl | cases hf
  | erase g' tgt pc => cases pc <;> first | rfl | cases hf
  | mov g1 g2 pc => cases pc <;> first | rfl | cases hf
  | disc s k pc =>
    cases pc with
    | exch => cases hf
    | crit g' pc => cases pc <;> first | rfl | cases hf
    | drop g' => cases hf

/-- A step of such a call returns from it, or brings it closer to that. -/
theorem left_own (h : Reachable E w) {f : Frame} {rest : List Frame} (hst : w.stacks t = f :: rest) (hf : f.api = true)
    (hs : step E w (.run t) = some w') (hub : w'.ub = none) {N : Nat}
    (hN : ∀ g tgt pc, f = .erase g tgt pc → (w'.listOf g).length ≤ N) :
    w'.stacks t = rest ∨
      ∃ f', w'.stacks t = f' :: rest ∧ f'.api = true ∧ (∀ g tgt pc', f' = .erase g tgt pc' → ∃ pc, f = .erase g tgt pc) ∧
        left w' N (w'.stacks t) < left w N (w.stacks t) := by
  have lk : ∀ {f' g}, f.locks = some g → f'.locks = some g → f'.extra = f.extra → w'.stacks t = f' :: rest →
      left w' N (w'.stacks t) < left w N (w.stacks t) := by
    intro f' g h1 h2 he h3
    have I := h.full.i.i1
    have I' := (h.step hs).full.i.i1
    have hm := (I.mtx g t).2 (by rw [hst]; exact h1)
    have hm' := (I'.mtx g t).2 (by rw [h3]; exact h2)
    rcases todo_own h hs hm with hu | hx | ⟨-, hlt⟩
    · exact (hu hub).elim
    · rw [hm'] at hx; cases hx
    · rw [h3, left_locked h2, hst, left_locked h1, he, ← hst, ← h3]; exact Nat.add_lt_add_right hlt _
  have acq : ∀ {g next}, acquire w t g next = some w' → w'.stacks t = next ∧ w'.sigs g = { w.sigs g with mutex := some t } ∧
      (w'.listOf g).length = (w.listOf g).length := by
    intro g next ha
    unfold acquire at ha
    split at ha
    · cases ha; cases hub
    · split at ha
      · cases ha
      · cases ha; simp [World.setStack, World.setMutex, upd_apply, World.listOf]
  obtain ⟨-, -, hr⟩ := step_run hs
  unfold runTop at hr
  rw [hst] at hr
  cases f with
  | emit m pc => cases hf
  | call s pc => cases hf
  | add g s d pc =>
    cases pc with
    | wait =>
      obtain ⟨h1, -⟩ := acq hr
      exact .inr ⟨_, h1, rfl, by simp, by rw [h1, hst]; simp [left, todo]⟩
    | detach =>
      simp only [runAdd] at hr
      split at hr <;> cases hr
      · cases hub
      · rename_i b _
        refine .inr ⟨.add g s d (if w.shared g b then .clone else .write), ?_, rfl, by simp,
          lk (f' := .add g s d (if w.shared g b then .clone else .write)) rfl (by split <;> rfl) rfl ?_⟩ <;>
          (simp [World.setStack, upd_apply])
    | clone =>
      simp only [runAdd] at hr
      split at hr <;> cases hr
      · cases hub
      · refine .inr ⟨.add g s d .write, ?_, rfl, by simp, lk (f' := .add g s d .write) rfl rfl rfl ?_⟩ <;>
          (simp [World.setStack, upd_apply])
    | write =>
      simp only [runAdd] at hr
      split at hr <;> cases hr
      · cases hub
      · refine .inr ⟨.add g s d .unlock, ?_, rfl, by simp, lk (f' := .add g s d .unlock) rfl rfl rfl ?_⟩ <;>
          simp [World.setStack, World.emitEv, upd_apply]
    | unlock =>
      left
      simp only [runAdd] at hr
      split at hr <;> cases hr <;> simp [World.setStack, World.emitEv, upd_apply]
  | erase g tgt pc =>
    cases pc with
    | wait =>
      obtain ⟨h1, -, h2⟩ := acq hr
      have := hN g tgt _ rfl
      exact .inr ⟨_, h1, rfl, by simp, by rw [h1, hst]; simp [left, todo]; omega⟩
    | detach =>
      simp only [runErase] at hr
      split at hr <;> cases hr
      · cases hub
      · rename_i b _
        refine .inr ⟨.erase g tgt (if w.shared g b then .clone else .scan 0 0), ?_, rfl, by simp,
          lk (f' := .erase g tgt (if w.shared g b then .clone else .scan 0 0)) rfl (by split <;> rfl) rfl ?_⟩ <;>
          (simp [World.setStack, upd_apply])
    | clone =>
      simp only [runErase] at hr
      split at hr <;> cases hr
      · cases hub
      · refine .inr ⟨.erase g tgt (.scan 0 0), ?_, rfl, by simp, lk (f' := .erase g tgt (.scan 0 0)) rfl rfl rfl ?_⟩ <;>
          (simp [World.setStack, upd_apply])
    | scan i cnt =>
      simp only [runErase] at hr
      split at hr
      · cases hr; cases hub
      · split at hr
        · cases hr
          exact .inr ⟨.erase g tgt (.unlock (some cnt)), by simp [World.setStack, upd_apply], rfl, by simp,
            lk (g := g) (f' := .erase g tgt (.unlock (some cnt))) rfl rfl rfl (by simp [World.setStack, upd_apply])⟩
        · split at hr <;> cases hr
          · exact .inr ⟨.erase g tgt (.unlock none), by simp [World.setStack, upd_apply], rfl, by simp,
              lk (g := g) (f' := .erase g tgt (.unlock none)) rfl rfl rfl (by simp [World.setStack, upd_apply])⟩
          · exact .inr ⟨.erase g tgt (.scan i (cnt + 1)), by simp [World.setStack, World.emitEv, upd_apply], rfl, by simp,
              lk (g := g) (f' := .erase g tgt (.scan i (cnt + 1))) rfl rfl rfl (by simp [World.setStack, World.emitEv, upd_apply])⟩
          · exact .inr ⟨.erase g tgt (.scan (i + 1) cnt), by simp [World.setStack, upd_apply], rfl, by simp,
              lk (g := g) (f' := .erase g tgt (.scan (i + 1) cnt)) rfl rfl rfl (by simp [World.setStack, upd_apply])⟩
    | unlock r => left; simp only [runErase] at hr; cases hr; simp [World.setStack, World.emitEv, upd_apply]
  | mov g1 g2 pc =>
    cases pc with
    | wait =>
      obtain ⟨h1, -⟩ := acq hr
      exact .inr ⟨_, h1, rfl, by simp, by rw [h1, hst]; simp [left, todo]⟩
    | write =>
      simp only [runMov] at hr
      cases hr
      refine .inr ⟨.mov g1 g2 .unlock, ?_, rfl, by simp, lk (f' := .mov g1 g2 .unlock) rfl rfl rfl ?_⟩ <;>
          simp [World.setStack, World.emitEv, upd_apply]
    | unlock => left; simp only [runMov] at hr; cases hr; simp [World.setStack, upd_apply]
  | disc s k pc =>
    have dr : ∀ {w : World} {b}, (discReturn w t rest (some s) k b).stacks t = rest := by
      intro w b
      unfold discReturn
      cases k with
      | ret => simp [World.setStack, World.emitEv, upd_apply]
      | assign x y => simp only; split <;> simp [World.setStack, World.emitEv, upd_apply]
    cases pc with
    | exch =>
      simp only [runDisc] at hr
      split at hr <;> cases hr
      · refine .inr ⟨.disc s k (.crit (w.slots s).owner .wait), ?_, rfl, by simp, ?_⟩
        · simp [World.setStack, World.emitEv, upd_apply]
        · rw [hst]; simp [World.setStack, World.emitEv, upd_apply, left]
      · exact .inl dr
    | crit g pc =>
      cases pc with
      | wait =>
        obtain ⟨h1, -⟩ := acq hr
        exact .inr ⟨_, h1, rfl, by simp, by rw [h1, hst]; simp [left, todo]⟩
      | detach =>
        simp only [runDisc] at hr
        split at hr <;> cases hr
        · cases hub
        · rename_i b _
          refine .inr ⟨.disc s k (.crit g (if w.shared g b then .clone else .write)), ?_, rfl, by simp,
            lk (f' := .disc s k (.crit g (if w.shared g b then .clone else .write))) rfl (by split <;> rfl) rfl ?_⟩ <;>
            (simp [World.setStack, upd_apply])
      | clone =>
        simp only [runDisc] at hr
        split at hr <;> cases hr
        · cases hub
        · refine .inr ⟨.disc s k (.crit g .write), ?_, rfl, by simp, lk (f' := .disc s k (.crit g .write)) rfl rfl rfl ?_⟩ <;>
            (simp [World.setStack, upd_apply])
      | write =>
        simp only [runDisc] at hr
        split at hr
        · cases hr; cases hub
        · split at hr <;> cases hr <;>
          refine .inr ⟨.disc s k (.crit g .unlock), ?_, rfl, by simp, lk (g := g) (f' := .disc s k (.crit g .unlock)) rfl rfl rfl ?_⟩ <;>
            simp [World.setStack, World.emitEv, upd_apply]
      | unlock =>
        simp only [runDisc] at hr; cases hr
        refine .inr ⟨.disc s k (.drop g), ?_, rfl, by simp, ?_⟩
        · simp [World.setStack, upd_apply]
        · rw [hst]; simp [World.setStack, upd_apply, left, todo]
    | drop g => simp only [runDisc] at hr; cases hr; exact .inl dr

theorem left_bound {f : Frame} {rest : List Frame} (hst : w.stacks t = f :: rest) (hf : f.api = true) {N : Nat}
    (hN : ∀ g tgt pc, f = .erase g tgt pc → (w.listOf g).length ≤ N) :
    1 ≤ left w N (w.stacks t) ∧ left w N (w.stacks t) ≤ N + 7 := by
  rw [hst]
  cases f with
  | emit m pc => cases hf
  | call s pc => cases hf
  | add g s d pc => cases pc <;> simp [left, todo]
  | erase g tgt pc => have := hN g tgt pc rfl; cases pc <;> simp [left, todo] <;> omega
  | mov g1 g2 pc => cases pc <;> simp [left, todo]
  | disc s k pc =>
    cases pc with
    | exch => simp [left]
    | crit g pc => cases pc <;> simp [left, todo]
    | drop g => simp [left]

theorem left_other (h : Reachable E w) {l : Label} (hs : step E w l = some w') (ht : l.tid ≠ t) {f : Frame} {rest : List Frame}
    (hst : w.stacks t = f :: rest) (hf : f.api = true) (N : Nat) :
    left w' N (w'.stacks t) = left w N (w.stacks t) := by
  have hst' := stacks_other (step_inv hs).2.2 (Ne.symm ht)
  cases hk : f.locks with
  | some g =>
    have hm := (h.full.i.i1.mtx g t).2 (by rw [hst]; exact hk)
    have := (todo_other h hs hm ht).2
    rw [hst'] at this ⊢
    rw [hst] at this ⊢
    rw [left_locked hk, left_locked hk, this]
  | none =>
    rw [hst', hst]
    cases f with
    | emit m pc => cases hf
    | call s pc => cases hf
    | add g s d pc => cases pc <;> first | rfl | cases hk
    | erase g tgt pc => cases pc <;> first | rfl | cases hk
    | mov g1 g2 pc => cases pc <;> first | rfl | cases hk
    | disc s k pc =>
      cases pc with
      | exch => rfl
      | crit g pc => cases pc <;> first | rfl | cases hk
      | drop g => rfl

/-- After the call has returned the library has nothing to do on that thread. -/
theorem user_norun {st : List Frame} (hu : UserStk st) (hst : w.stacks t = st) : step E w (.run t) = none := by
  cases hc : step E w (.run t) with
  | none => rfl
  | some w' =>
    obtain ⟨-, -, hr⟩ := step_run hc
    unfold runTop at hr
    rw [hst] at hr
    cases hu with
    | nil => cases hr
    | body => cases hr
    | comb m b pos acc rest hcm =>
      simp only [runEmit] at hr
      rw [hcm] at hr; cases hr

theorem user_nocount {ls : List Label} : ∀ {w : World} {st : List Frame}, UserStk st → w.stacks t = st →
    (∀ l ∈ ls, l.tid = t → l = .run t) → exec E w ls = some w' → ls.countP (·.tid = t) = 0 := by
  induction ls with
  | nil => intros; rfl
  | cons l ls ih =>
    intro w st hu hst hl hx
    simp only [exec] at hx
    split at hx
    · rename_i w1 hs
      by_cases ht : l.tid = t
      · rw [hl l List.mem_cons_self ht, user_norun hu hst] at hs; cases hs
      · rw [List.countP_cons_of_neg (by simpa using ht)]
        exact ih hu (by rw [stacks_other (step_inv hs).2.2 (Ne.symm ht), hst]) (fun l' h' => hl l' (List.mem_cons_of_mem _ h')) hx
    · cases hx

/-- C47, whole calls: a call of `connect`, of `disconnect` of a connection or of a signal's move constructor returns after at most seven
steps of its own, and `disconnect(f)` after at most `N + 7`, where `N` bounds the number of listeners of the signal meanwhile;
whatever other threads do in between. (`t` makes no calls before it has returned, so its labels are all `.run t`; when it has returned
there is no such step. A call that runs out of memory ends at once.) -/
theorem C47_call {f : Frame} {rest : List Frame} {N : Nat} {ls : List Label} (h : Reachable E w) (hst : w.stacks t = f :: rest)
    (hf : f.api = true) (hl : ∀ l ∈ ls, l.tid = t → l = .run t) (hx : exec E w ls = some w')
    (hN : ∀ g tgt pc, f = .erase g tgt pc → ∀ l1 l2 w1, ls = l1 ++ l2 → exec E w l1 = some w1 → (w1.listOf g).length ≤ N) :
    ls.countP (·.tid = t) ≤ N + 7 := by
  have key : ∀ (ls : List Label) (w : World) (f : Frame), Reachable E w → w.stacks t = f :: rest → f.api = true →
      (∀ l ∈ ls, l.tid = t → l = .run t) → exec E w ls = some w' →
      (∀ g tgt pc, f = .erase g tgt pc → ∀ l1 l2 w1, ls = l1 ++ l2 → exec E w l1 = some w1 → (w1.listOf g).length ≤ N) →
      ls.countP (·.tid = t) ≤ left w N (w.stacks t) := by
    intro ls
    induction ls with
    | nil => intros; simp
    | cons l ls ih =>
      intro w f h hst hf hl hx hN
      simp only [exec] at hx
      split at hx
      · rename_i w1 hs
        have h1 := h.step hs
        have hl' : ∀ l ∈ ls, l.tid = t → l = .run t := fun l' h' => hl l' (List.mem_cons_of_mem _ h')
        have hN' : ∀ f' : Frame, (∀ g tgt pc', f' = .erase g tgt pc' → ∃ pc, f = .erase g tgt pc) →
            ∀ g tgt pc, f' = .erase g tgt pc → ∀ l1 l2 w2, ls = l1 ++ l2 → exec E w1 l1 = some w2 → (w2.listOf g).length ≤ N := by
          intro f' he g tgt pc hfe l1 l2 w2 e1 e2
          obtain ⟨pc0, h0⟩ := he g tgt pc hfe
          exact hN g tgt pc0 h0 (l :: l1) l2 w2 (by rw [e1]; rfl) (by simp [exec, hs, e2])
        by_cases ht : l.tid = t
        · have hr := hl l List.mem_cons_self ht
          subst hr
          rw [List.countP_cons_of_pos (by simpa using ht)]
          have hp := (left_bound (N := N) hst hf fun g tgt pc e => hN g tgt pc e [] _ w rfl rfl).1
          cases hub : w1.ub with
          | some u =>
            cases ls with
            | nil => simp; omega
            | cons l2 ls =>
              simp only [exec] at hx
              split at hx
              · rename_i w2 hs2
                have := (step_inv hs2).1
                rw [hub] at this; cases this
              · cases hx
          | none =>
            rcases left_own h hst hf hs hub (N := N) (fun g tgt pc e => hN g tgt pc e [.run t] ls w1 rfl (by simp [exec, hs]))
              with hr | ⟨f', hr, hf', he, hlt⟩
            · have hu : UserStk rest := by
                have := h.full.i.i1.stk t
                rw [hst] at this
                exact this.tail (by cases f <;> first | rfl | cases hf)
              rw [user_nocount hu hr hl' hx]; omega
            · have := ih w1 f' h1 hr hf' hl' hx (hN' f' he)
              omega
        · rw [List.countP_cons_of_neg (by simpa using ht), ← left_other h hs ht hst hf N]
          exact ih w1 f h1 (by rw [stacks_other (step_inv hs).2.2 (Ne.symm ht), hst]) hf hl' hx (hN' f fun g tgt pc e => ⟨pc, e⟩)
      · cases hx
  exact Nat.le_trans (key ls w f h hst hf hl hx hN)
    (left_bound (N := N) hst hf fun g tgt pc e => hN g tgt pc e [] ls w rfl rfl).2

/-- A signal with one listener. -/
def Demo.single : List Label := [.call 0 (.newSig false)] ++ connect 0 10 0

-- a `disconnect` that meets another thread's `connect` takes six steps
example : (Demo.world 2 (Demo.single ++ [.call 0 (.disconnect (.conn 0))])).stacks 0 = [.disc 0 .ret .exch] ∧
    (exec Demo.E0 (Demo.world 2 (Demo.single ++ [.call 0 (.disconnect (.conn 0))]))
      (Demo.go 0 1 ++ Demo.connect 1 11 1 ++ Demo.go 0 5)).map (fun w => (w.stacks 0, w.listOf 0)) = some ([], [1]) := by
  decide +kernel
-- and a `disconnect(f)` that finds `f` takes five
example : (exec Demo.E0 (Demo.world 1 Demo.single) (.call 0 (.sigDisconnect 0 (some (Demo.fn 10))) :: Demo.go 0 5)).map
      (fun w => (w.stacks 0, w.listOf 0)) = some ([], []) := by decide +kernel

end Verif
