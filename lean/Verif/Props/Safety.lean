import Verif.Props.Progress
import Verif.Props.Emission
import Verif.Mach.Life
import Verif.Mach.Rem

/-!
# C22 - C25: undefined behaviour, destroying and moving signals
-/

namespace Verif

variable {E : Env} {w w' : World} {t : Tid}

/-- The signal object a library function works on next. -/
def Frame.sig? : Frame → Option SigId
  | .emit m .start => some m.g
  | .emit m .wait => some m.g
  | .emit m .copy => some m.g
  | .emit m (.unlock _) => some m.g
  | .emit _ (.iter _ _ _) => none
  | .call _ _ => none
  | .add g _ _ _ => some g
  | .erase g _ _ => some g
  | .disc _ _ .exch => none
  | .disc _ _ (.crit g _) => some g
  | .disc _ _ (.drop _) => none
  | .mov _ g _ => some g

theorem cloneBlk_ub {g : SigId} {b : BlkId} : (cloneBlk w g b).ub = w.ub := by rfl

theorem removeAt_ub {b : BlkId} {i : Nat} : (removeAt w b i).ub = w.ub := by unfold removeAt; split <;> rfl

theorem discReturn_ub {rest : List Frame} {s : Option SlotId} {k : DiscK} {b : Bool} :
    (discReturn w t rest s k b).ub = w.ub := by
  unfold discReturn
  cases k with
  | ret => rfl
  | assign x y => simp only; split <;> rfl

/-- A library step meets undefined behaviour only when it locks the mutex of a dead signal or, holding the mutex, dereferences the
list pointer of a signal that has none. -/
theorem run_ub (I : Inv w) (hub : w.ub = none) {u : UB} (h : runTop E w t = some w') (hu : w'.ub = some u) :
    ∃ f rest g, w.stacks t = f :: rest ∧ f.sig? = some g ∧
      ((u = .deadSignal ∧ (w.sigs g).alive = false) ∨ (u = .nullList ∧ (w.sigs g).list = none)) := by
  have acq : ∀ {g next}, acquire w t g next = some w' → u = .deadSignal ∧ (w.sigs g).alive = false := by
    intro g next h
    unfold acquire at h
    split at h
    · rename_i ha
      injection h with h; subst h
      simp only [World.setUB, Option.some.injEq] at hu
      exact ⟨hu.symm, by simpa using ha⟩
    · split at h
      · cases h
      · injection h with h; subst h
        simp only [World.setStack, World.setMutex, hub, reduceCtorEq] at hu
  have no : w'.ub ≠ w.ub := by rw [hu, hub]; simp
  have null : w' = w.setUB .nullList → u = .nullList := by
    rintro rfl; simp only [World.setUB, Option.some.injEq] at hu; exact hu.symm
  match hst : w.stacks t with
  | [] => unfold runTop at h; rw [hst] at h; cases h
  | .emit m pc :: rest =>
    unfold runTop at h; rw [hst] at h
    simp only at h
    refine ⟨_, _, m.g, rfl, ?_⟩
    cases pc with
    | start =>
      refine ⟨rfl, ?_⟩
      unfold runEmit at h; simp only at h
      split at h
      · rename_i ha
        injection h with h; subst h
        simp only [World.setUB, Option.some.injEq] at hu
        exact .inl ⟨hu.symm, by simpa using ha⟩
      · split at h <;> (injection h with h; subst h; exact absurd rfl no)
    | wait => exact ⟨rfl, .inl (acq h)⟩
    | copy => injection h with h; subst h; exact absurd rfl no
    | unlock b =>
      cases b with
      | none =>
        injection h with h; subst h
        exact ⟨rfl, .inr ⟨null rfl, I.i2.cpy t m.g none (by rw [hst]; rfl)⟩⟩
      | some b => injection h with h; subst h; exact absurd rfl no
    | iter b pos acc =>
      exfalso
      unfold runEmit at h; simp only at h
      split at h
      · cases h
      · split at h <;> (injection h with h; subst h; exact absurd rfl no)
  | .call s pc :: rest =>
    exfalso
    have ok := hst ▸ I.i1.stk t
    have : ∃ m b pos acc r, rest = .emit m (.iter b pos acc) :: r := by
      cases ok with
      | user _ h => cases h with | body => exact ⟨_, _, _, _, _, rfl⟩
      | call => exact ⟨_, _, _, _, _, rfl⟩
      | lib _ _ hf => cases hf
    obtain ⟨m, b, pos, acc, r, rfl⟩ := this
    unfold runTop at h; rw [hst] at h; simp only at h
    cases pc with
    | body o => cases h
    | chkConnected =>
      unfold runCall at h; simp only at h
      split at h
      · split at h <;> (injection h with h; subst h; exact absurd rfl no)
      · injection h with h; subst h; exact absurd rfl no
    | invoke => injection h with h; subst h; exact absurd rfl no
    | _ => unfold runCall at h; simp only at h; split at h <;> (injection h with h; subst h; exact absurd rfl no)
  | .add g s dest pc :: rest =>
    unfold runTop at h; rw [hst] at h; simp only at h
    refine ⟨_, _, g, rfl, rfl, ?_⟩
    cases pc with
    | wait => exact .inl (acq h)
    | unlock =>
      unfold runAdd at h; simp only at h
      split at h <;> (injection h with h; subst h; exact absurd rfl no)
    | detach =>
      unfold runAdd at h; simp only at h
      split at h
      · rename_i e; injection h with h; subst h; exact .inr ⟨null rfl, e⟩
      · injection h with h; subst h; exact absurd rfl no
    | clone =>
      unfold runAdd at h; simp only at h
      split at h
      · rename_i e; injection h with h; subst h; exact .inr ⟨null rfl, e⟩
      · injection h with h; subst h; exact absurd rfl no
    | write =>
      unfold runAdd at h; simp only at h
      split at h
      · rename_i e; injection h with h; subst h; exact .inr ⟨null rfl, e⟩
      · injection h with h; subst h; exact absurd rfl no
  | .erase g tgt pc :: rest =>
    unfold runTop at h; rw [hst] at h; simp only at h
    refine ⟨_, _, g, rfl, rfl, ?_⟩
    cases pc with
    | wait => exact .inl (acq h)
    | detach =>
      unfold runErase at h; simp only at h
      split at h
      · rename_i e; injection h with h; subst h; exact .inr ⟨null rfl, e⟩
      · injection h with h; subst h; exact absurd rfl no
    | clone =>
      unfold runErase at h; simp only at h
      split at h
      · rename_i e; injection h with h; subst h; exact .inr ⟨null rfl, e⟩
      · injection h with h; subst h; exact absurd rfl no
    | scan i cnt =>
      unfold runErase at h; simp only at h
      split at h
      · rename_i e; injection h with h; subst h; exact .inr ⟨null rfl, e⟩
      · split at h
        · injection h with h; subst h; exact absurd rfl no
        · split at h
          · injection h with h; subst h; exact absurd rfl no
          · injection h with h; subst h; exact absurd removeAt_ub no
          · injection h with h; subst h; exact absurd rfl no
    | unlock r => injection h with h; subst h; exact absurd rfl no
  | .disc s k pc :: rest =>
    unfold runTop at h; rw [hst] at h; simp only at h
    cases pc with
    | exch =>
      exfalso
      unfold runDisc at h; simp only at h
      split at h
      · injection h with h; subst h; exact absurd rfl no
      · injection h with h; subst h; exact absurd discReturn_ub no
    | crit g pc =>
      refine ⟨_, _, g, rfl, rfl, ?_⟩
      cases pc with
      | wait => exact .inl (acq h)
      | detach =>
        unfold runDisc at h; simp only at h
        split at h
        · rename_i e; injection h with h; subst h; exact .inr ⟨null rfl, e⟩
        · injection h with h; subst h; exact absurd rfl no
      | clone =>
        unfold runDisc at h; simp only at h
        split at h
        · rename_i e; injection h with h; subst h; exact .inr ⟨null rfl, e⟩
        · injection h with h; subst h; exact absurd rfl no
      | write =>
        unfold runDisc at h; simp only at h
        split at h
        · rename_i e; injection h with h; subst h; exact .inr ⟨null rfl, e⟩
        · split at h
          · injection h with h; subst h; exact absurd removeAt_ub no
          · injection h with h; subst h; exact absurd rfl no
      | unlock => injection h with h; subst h; exact absurd rfl no
    | drop g => exfalso; injection h with h; subst h; exact absurd discReturn_ub no
  | .mov g' g pc :: rest =>
    unfold runTop at h; rw [hst] at h; simp only at h
    refine ⟨_, _, g, rfl, rfl, ?_⟩
    cases pc with
    | wait => exact .inl (acq h)
    | write => injection h with h; subst h; exact absurd rfl no
    | unlock => injection h with h; subst h; exact absurd rfl no

theorem discStart_ub {h : Option SlotId} {k : DiscK} : (discStart w t h k).ub = w.ub := by
  unfold discStart
  split
  · split
    · rfl
    · exact discReturn_ub
  · exact discReturn_ub

theorem connSetBlocked_ub {h : Option SlotId} {c : Bool} : (w.connSetBlocked h c).ub = w.ub := by
  unfold World.connSetBlocked
  split
  · split <;> rfl
  · rfl

theorem clearHandle_ub {h : Handle} : (w.clearHandle h).ub = w.ub := by cases h <;> rfl

/-- The signal that a call by user code works on at once. -/
def Api.sig? : Api → Option SigId
  | .destroySig g => some g
  | .moveSig g => some g
  | _ => none

/-- An API call meets undefined behaviour at once only in these four ways. -/
theorem call_ub {a : Api} (hub : w.ub = none) {u : UB} (h : userOp w t a = some w') (hu : w'.ub = some u) :
    (u = .endDeref ∧ ∃ i m b pos acc rest, a = .combDeref i ∧ w.stacks t = .emit m (.iter b pos acc) :: rest ∧
      (w.blks b).length ≤ i) ∨
    (u = .noReturn ∧ ∃ g g', a = .moveAssignSig g g') ∨
    (u = .lockedMutexDestroyed ∧ ∃ g, a = .destroySig g ∧ (w.sigs g).mutex ≠ none) ∨
    (u = .deadSignal ∧ ∃ g, a.sig? = some g ∧ g < w.nSigs ∧ (w.sigs g).alive = false) := by
  have no : w'.ub ≠ w.ub := by rw [hu, hub]; simp
  have got : ∀ {u'}, w' = w.setUB u' → u = u' := by
    rintro u' rfl; simp only [World.setUB, Option.some.injEq] at hu; exact hu.symm
  cases a <;> simp only [userOp] at h
  case combDeref i =>
    split at h
    · split at h
      · injection h with h; subst h; exact absurd rfl no
      · rename_i hst _ e
        injection h with h; subst h
        exact .inl ⟨got rfl, i, _, _, _, _, _, rfl, hst, by simpa using e⟩
    · cases h
  case moveAssignSig g g' =>
    split at h
    · injection h with h; subst h; exact .inr (.inl ⟨got rfl, g, g', rfl⟩)
    · cases h
  case destroySig g =>
    split at h
    · rename_i hg
      split at h
      · rename_i ha
        injection h with h; subst h; exact .inr (.inr (.inr ⟨got rfl, g, rfl, hg, by simpa using ha⟩))
      · split at h
        · rename_i hm
          injection h with h; subst h; exact .inr (.inr (.inl ⟨got rfl, g, rfl, by intro e; rw [e] at hm; cases hm⟩))
        · injection h with h; subst h; exact absurd rfl no
    · cases h
  case moveSig g =>
    split at h
    · rename_i hg
      split at h
      · rename_i ha
        injection h with h; subst h; exact .inr (.inr (.inr ⟨got rfl, g, rfl, hg, by simpa using ha⟩))
      · injection h with h; subst h; exact absurd rfl no
    · cases h
  case disconnect => injection h with h; subst h; exact absurd discStart_ub no
  case block => injection h with h; subst h; exact absurd connSetBlocked_ub no
  case unblock => injection h with h; subst h; exact absurd connSetBlocked_ub no
  case connMove x hd =>
    split at h
    · injection h with h; subst h; exact absurd rfl no
    · injection h with h; subst h; exact absurd clearHandle_ub no
  case scopedMoveAssign =>
    split at h
    · injection h with h; subst h; exact absurd discStart_ub no
    · cases h
  case scopedDtor =>
    split at h
    · injection h with h; subst h; exact absurd discStart_ub no
    · cases h
  case blockerOf =>
    split at h
    · injection h with h; subst h; exact absurd connSetBlocked_ub no
    · cases h
  case blockerMoveAssign =>
    split at h
    · split at h
      · injection h with h; subst h; exact absurd connSetBlocked_ub no
      · injection h with h; subst h; exact absurd connSetBlocked_ub no
    · cases h
  case blockerDtor =>
    split at h
    · injection h with h; subst h; exact absurd connSetBlocked_ub no
    · cases h
  all_goals first
    | (injection h with h; subst h; exact absurd rfl no; done)
    | (split at h <;> first | cases h; done | (injection h with h; subst h; exact absurd rfl no))

/-- The signal object that step `l` works on. -/
def Label.sig? (w : World) : Label → Option SigId
  | .run t => (w.stacks t).head?.bind Frame.sig?
  | .call _ a => a.sig?
  | _ => none

/-- A move constructor is still building `g`. -/
def World.building (w : World) (g : SigId) : Prop := ∃ t g0 pc rest, w.stacks t = .mov g g0 pc :: rest

theorem topMov_building {st : List Frame} {g g0 : SigId} {pc : MovPc} (h : topMov st = some (g, g0, pc)) :
    ∃ rest, st = .mov g g0 pc :: rest := by
  unfold topMov at h
  split at h
  · simp only [Option.some.injEq, Prod.mk.injEq] at h
    obtain ⟨rfl, rfl, rfl⟩ := h
    exact ⟨_, rfl⟩
  · cases h

/-- C22, in general: whatever the program does, a step that is undefined behaviour is

* a user combiner dereferencing its iterator at or past the end of the snapshot,
* a move assignment of signals,
* the destruction of a signal whose mutex another thread holds, or
* a use of a signal that was destroyed before, is without a list because it was moved from, or is still being constructed.

The one other way to end early is no undefined behaviour: the list has to be copied and memory runs out (see `C55`). -/
theorem C22_blame (h : Reachable E w) {l : Label} (hs : step E w l = some w') (hu : w'.ub ≠ none) :
    (∃ t i m b pos acc rest, l = .call t (.combDeref i) ∧ w.stacks t = .emit m (.iter b pos acc) :: rest ∧
      (w.blks b).length ≤ i) ∨
    (∃ t g g', l = .call t (.moveAssignSig g g')) ∨
    (∃ t g, l = .call t (.destroySig g) ∧ ∃ t', t' ≠ t ∧ (w.sigs g).mutex = some t') ∨
    (∃ g, l.sig? w = some g ∧ (Event.destroyed g ∈ w.log ∨ hollow w.log g = true ∨ w.building g)) ∨
    (∃ t, (l = .fail t ∨ l = .ctl t) ∧ w'.ub = some .terminate) := by
  have I := h.full.i
  have K := h.inv9
  obtain ⟨u, hu⟩ := Option.ne_none_iff_exists'.1 hu
  have dead : ∀ g, g < w.nSigs → (w.sigs g).alive = false →
      Event.destroyed g ∈ w.log ∨ hollow w.log g = true ∨ w.building g := by
    intro g h1 h2
    rcases K.ali g h1 h2 with h | ⟨t, g0, pc, h⟩
    · exact .inl h
    · obtain ⟨rest, h⟩ := topMov_building h; exact .inr (.inr ⟨t, g0, pc, rest, h⟩)
  have null : ∀ g, g < w.nSigs → (w.sigs g).list = none →
      Event.destroyed g ∈ w.log ∨ hollow w.log g = true ∨ w.building g := by
    intro g h1 h2
    rcases K.lst g h1 h2 with h | h | ⟨t, g0, pc, h, -⟩
    · exact .inr (.inl h)
    · exact .inl h
    · obtain ⟨rest, h⟩ := topMov_building h; exact .inr (.inr ⟨t, g0, pc, rest, h⟩)
  cases l with
  | run t =>
    obtain ⟨hub, -, hr⟩ := step_run hs
    obtain ⟨f, rest, g, hst, hf, hc⟩ := run_ub I hub hr hu
    have hlt : g < w.nSigs := by
      have := I.i1.rng t f (by rw [hst]; exact List.mem_cons_self)
      unfold Frame.sig? at hf
      split at hf <;> simp only [Option.some.injEq, reduceCtorEq] at hf <;> subst hf <;> simp only [Frame.inRange] at this
      · exact this.1
      · exact this.1
      · exact this.1
      · exact this.1
      · exact this.1
      · exact this
      · exact this.2 _ rfl
      · exact this.2.1
    refine .inr (.inr (.inr (.inl ⟨g, by simp [Label.sig?, hst, hf], ?_⟩)))
    rcases hc with ⟨-, hc⟩ | ⟨-, hc⟩
    · exact dead g hlt hc
    · exact null g hlt hc
  | call t a =>
    obtain ⟨hub, -, hctx, hr⟩ := step_call hs
    rcases call_ub hub hr hu with ⟨-, i, m, b, pos, acc, rest, rfl, h1, h2⟩ | ⟨-, g, g', rfl⟩ | ⟨-, g, rfl, hm⟩ | ⟨-, g, h1, h2, h3⟩
    · exact .inl ⟨t, i, m, b, pos, acc, rest, rfl, h1, h2⟩
    · exact .inr (.inl ⟨t, g, g', rfl⟩)
    · obtain ⟨t', ht'⟩ := Option.ne_none_iff_exists'.1 hm
      refine .inr (.inr (.inl ⟨t, g, rfl, t', ?_, ht'⟩))
      rintro rfl
      exact C21_listener h hctx g ht'
    · exact .inr (.inr (.inr (.inl ⟨g, h1, dead g h2 h3⟩)))
  | ret t v =>
    obtain ⟨hub, -, s, o, m, b, pos, acc, rest, hst, rfl⟩ := step_ret hs
    simp [World.emitEv, World.setStack, hub] at hu
  | throw t c =>
    obtain ⟨hub, -, s, o, m, b, pos, acc, rest, hst, ⟨-, rfl⟩ | ⟨-, -, rfl⟩⟩ := step_throw hs <;>
      simp [World.emitEv, World.setStack, hub] at hu
  | fail t =>
    refine .inr (.inr (.inr (.inr ⟨t, .inl rfl, ?_⟩)))
    rcases step_fail_cases hs with ⟨rfl, -⟩ | ⟨f, rest, g, s, b, -, -, -, rfl⟩
    · rfl
    · simp [World.emitEv, World.setStack, World.setMutex, (step_fail hs).1] at hu
  | ctl t => obtain ⟨-, -, rfl, -⟩ := step_ctl hs; exact .inr (.inr (.inr (.inr ⟨t, .inr rfl, rfl⟩)))

/-- Steps of programs that never move or destroy a signal. -/
def StayPut : Label → Prop
  | .call _ (.destroySig _) => False
  | .call _ (.moveSig _) => False
  | .call _ (.moveAssignSig _ _) => False
  | _ => True

theorem discReturn_still {rest : List Frame} {s : Option SlotId} {k : DiscK} {b : Bool} (g : SigId)
    (h : Event.destroyed g ∈ (discReturn w t rest s k b).log) : Event.destroyed g ∈ w.log := by
  unfold discReturn at h
  cases k with
  | ret => simpa [World.emitEv, World.setStack] using h
  | assign x y => simp only at h; split at h <;> simpa [World.emitEv, World.setStack] using h

theorem discReturn_stacks {rest : List Frame} {s : Option SlotId} {k : DiscK} {b : Bool} :
    (discReturn w t rest s k b).stacks t = rest := by
  unfold discReturn
  cases k with
  | ret => exact upd_same _ _ _
  | assign x y => simp only; split <;> exact upd_same _ _ _

theorem discStart_still {h : Option SlotId} {k : DiscK} (hm : topMov (w.stacks t) = none) :
    (∀ g, Event.destroyed g ∈ (discStart w t h k).log → Event.destroyed g ∈ w.log) ∧
      topMov ((discStart w t h k).stacks t) = none := by
  unfold discStart
  split
  · split
    · refine ⟨fun g h => h, ?_⟩
      simp only [World.setStack, upd_same]; rfl
    · exact ⟨discReturn_still, by rw [discReturn_stacks]; exact hm⟩
  · exact ⟨discReturn_still, by rw [discReturn_stacks]; exact hm⟩

theorem connSetBlocked_still {h : Option SlotId} {c : Bool} (g : SigId)
    (hm : Event.destroyed g ∈ (w.connSetBlocked h c).log) : Event.destroyed g ∈ w.log := by
  unfold World.connSetBlocked at hm
  split at hm
  · split at hm
    · simpa [World.emitEv, World.setBlocked] using hm
    · exact hm
  · exact hm

theorem clearHandle_still {h : Handle} : (w.clearHandle h).log = w.log ∧ (w.clearHandle h).stacks = w.stacks := by
  cases h <;> exact ⟨rfl, rfl⟩

/-- A call that neither moves nor destroys a signal. -/
theorem userOp_still {a : Api} (hp : StayPut (.call t a)) (h : userOp w t a = some w') (hu : UserStk (w.stacks t)) :
    (∀ g, Event.destroyed g ∈ w'.log → Event.destroyed g ∈ w.log) ∧ topMov (w'.stacks t) = none := by
  have hm := hu.tops.2.1
  have D := fun h k => discStart_still (w := w) (t := t) (h := h) (k := k) hm
  cases a <;> simp only [userOp] at h <;> try (simp [StayPut] at hp; done)
  case disconnect => injection h with h; subst h; exact D _ _
  case block => injection h with h; subst h; exact ⟨connSetBlocked_still, by rw [connSetBlocked_stacks]; exact hm⟩
  case unblock => injection h with h; subst h; exact ⟨connSetBlocked_still, by rw [connSetBlocked_stacks]; exact hm⟩
  case connMove x hd =>
    split at h
    · injection h with h; subst h; exact ⟨fun _ h => h, hm⟩
    · injection h with h; subst h
      simp only
      rw [clearHandle_still.1, clearHandle_still.2]; exact ⟨fun _ h => h, hm⟩
  case scopedMoveAssign =>
    split at h
    · injection h with h; subst h; exact D _ _
    · cases h
  case scopedDtor x =>
    split at h
    · injection h with h; subst h
      exact discStart_still (w := { w with sv := upd w.sv x none }) hm
    · cases h
  case blockerOf =>
    split at h
    · injection h with h; subst h
      refine ⟨fun g h => ?_, ?_⟩
      · have := connSetBlocked_still g h; exact this
      rw [connSetBlocked_stacks]; exact hm
    · cases h
  case blockerMoveAssign =>
    split at h
    · split at h
      · injection h with h; subst h
        exact ⟨connSetBlocked_still, by rw [connSetBlocked_stacks]; exact hm⟩
      · injection h with h; subst h
        refine ⟨fun g h => connSetBlocked_still g h, ?_⟩
        simp only [connSetBlocked_stacks]; exact hm
    · cases h
  case blockerDtor =>
    split at h
    · injection h with h; subst h
      refine ⟨fun g h => ?_, ?_⟩
      · have := connSetBlocked_still g h; exact this
      rw [connSetBlocked_stacks]; exact hm
    · cases h
  case combDone v =>
    split at h
    · rename_i hst
      injection h with h; subst h
      refine ⟨fun g h => by simpa [World.emitEv, World.setStack] using h, ?_⟩
      simp only [World.emitEv, World.setStack, upd_same]
      rw [hst] at hu
      exact ((OkStk.user _ hu).tail rfl).tops.2.1
    · cases h
  case combThrow =>
    split at h
    · rename_i hst
      injection h with h; subst h
      refine ⟨fun g h => by simpa [World.emitEv, World.setStack] using h, ?_⟩
      simp only [World.emitEv, World.setStack, upd_same]
      rw [hst] at hu
      exact ((OkStk.user _ hu).tail rfl).tops.2.1
    · cases h
  case combDeref i =>
    split at h
    · split at h
      · injection h with h; subst h
        refine ⟨fun g h => by simpa [World.emitEv, World.setStack] using h, ?_⟩
        simp only [World.emitEv, World.setStack, upd_same]; rfl
      · injection h with h; subst h; exact ⟨fun _ h => h, hm⟩
    · cases h
  case connect =>
    split at h
    · injection h with h; subst h
      refine ⟨fun g h => by simpa [World.emitEv, World.setStack] using h, ?_⟩
      simp only [World.emitEv, World.setStack, upd_same]; rfl
    · cases h
  case emit =>
    split at h
    · injection h with h; subst h
      refine ⟨fun g h => by simpa [World.emitEv, World.setStack] using h, ?_⟩
      simp only [World.emitEv, World.setStack, upd_same]; rfl
    · cases h
  case sigDisconnect =>
    split at h
    · injection h with h; subst h
      refine ⟨fun g h => h, ?_⟩
      simp only [World.setStack, upd_same]; rfl
    · cases h
  all_goals first
    | (injection h with h; subst h; exact ⟨fun _ h => h, hm⟩; done)
    | (split at h <;> first | cases h; done | (injection h with h; subst h; exact ⟨fun _ h => h, hm⟩))

/-- What stays true when no signal is moved or destroyed. -/
structure Still (w : World) : Prop where
  d : ∀ g, Event.destroyed g ∉ w.log
  m : ∀ g g', Event.moved g g' ∉ w.log
  s : ∀ t, topMov (w.stacks t) = none

theorem Still.step (h : Reachable E w) (S : Still w) {l : Label} (hl : StayPut l) (hs : step E w l = some w') : Still w' := by
  obtain ⟨hub, hlt, R⟩ := step_inv hs
  have I := h.full.i
  have key : (∀ g, Event.destroyed g ∈ w'.log → Event.destroyed g ∈ w.log) ∧ topMov (w'.stacks l.tid) = none ∧
      ∀ g g', Event.moved g g' ∈ w'.log → Event.moved g g' ∈ w.log := by
    cases l with
    | call t a =>
      obtain ⟨-, -, hu, ho⟩ := step_call hs
      have := userOp_still hl ho ((I.i1.stk t).toUser hu)
      refine ⟨this.1, this.2, fun g g' hm => ?_⟩
      have K := listEff I.i1 I.i2 R
      cases K with
      | same _ _ h =>
        obtain ⟨evs, e, hq⟩ := h
        rw [e] at hm
        rcases List.mem_append.1 hm with hm | hm
        · cases hq _ hm
        · exact hm
      | add _ _ _ _ _ _ _ _ _ h => rw [h] at hm; simpa using hm
      | rem _ _ _ ev _ _ _ _ he h =>
        rw [h] at hm
        rcases he with rfl | ⟨_, rfl⟩ <;> simpa using hm
      | destroy _ _ _ _ h => rw [h] at hm; simpa using hm
      | move _ _ _ ht =>
        rw [show (Label.call t a).tid = t from rfl, userCtx_topLocks hu] at ht; cases ht
    | ret t v =>
      obtain ⟨-, -, s, o, m, b, pos, acc, rest, hst, rfl⟩ := step_ret hs
      refine ⟨fun g h => by simpa [World.emitEv, World.setStack] using h, ?_, fun g g' h => by simpa [World.emitEv, World.setStack] using h⟩
      show topMov (upd w.stacks t _ t) = none
      rw [upd_same]; rfl
    | throw t c =>
      obtain ⟨-, -, s, o, m, b, pos, acc, rest, hst, ⟨-, rfl⟩ | ⟨-, -, rfl⟩⟩ := step_throw hs
      · refine ⟨fun g h => by simpa [World.emitEv, World.setStack] using h, ?_, fun g g' h => by simpa [World.emitEv, World.setStack] using h⟩
        show topMov (upd w.stacks t _ t) = none
        rw [upd_same]; exact (OkStk.callTail (hst ▸ I.i1.stk t)).tops.2.1
      · refine ⟨fun g h => by simpa [World.emitEv, World.setStack] using h, ?_, fun g g' h => by simpa [World.emitEv, World.setStack] using h⟩
        show topMov (upd w.stacks t _ t) = none
        rw [upd_same]; rfl
    | ctl t => obtain ⟨-, -, rfl, -⟩ := step_ctl hs; exact ⟨fun _ h => h, S.s t, fun _ _ h => h⟩
    | fail t =>
      rcases step_fail_cases hs with ⟨rfl, -⟩ | ⟨f, rest, g, s, b, hst, hf, -, rfl⟩
      · exact ⟨fun _ h => h, S.s t, fun _ _ h => h⟩
      · refine ⟨fun g h => by simpa [World.emitEv, World.setStack, World.setMutex] using h, ?_,
          fun g g' h => by simpa [World.emitEv, World.setStack, World.setMutex] using h⟩
        show topMov (upd w.stacks t _ t) = none
        rw [upd_same]; exact ((hst ▸ I.i1.stk t).tail (Frame.allocs_isCall hf)).tops.2.1
    | run t =>
      have hu := run_ctx hs
      have nouser : userCtx (w.stacks t) = true → False := fun h => by rw [hu] at h; cases h
      have hm0 := S.s t
      change StepR E w t w' at R
      change _ ∧ topMov (w'.stacks t) = none ∧ _
      have pop : ∀ {f : Frame} {rest : List Frame}, w.stacks t = f :: rest → f.isCall = false → topMov rest = none :=
        fun hst hf => ((hst ▸ I.i1.stk t).tail hf).tops.2.1
      have us := upd_same (α := List Frame) w.stacks t
      cases R
      case ub => exact ⟨fun _ h => h, hm0, fun _ _ h => h⟩
      case det f f' rest g b hst hf hl' =>
        have e1 : ((cloneBlk w g b).setStack t (f' :: rest)).stacks t = f' :: rest := by
          exact upd_same _ _ _
        have e2 : ((cloneBlk w g b).setStack t (f' :: rest)).log = w.log := by rfl
        rw [e1, e2]
        refine ⟨fun _ h => h, ?_, fun _ _ h => h⟩
        unfold Frame.det at hf; split at hf <;> simp at hf <;> obtain ⟨rfl, rfl⟩ := hf <;> rfl
      case tst f f' rest g b hst hf hl' =>
        refine ⟨fun _ h => h, ?_, fun _ _ h => h⟩
        show topMov (upd w.stacks t _ t) = none
        rw [us]
        revert hf
        cases w.shared g b <;> intro hf <;> unfold Frame.tst at hf <;> split at hf <;> simp at hf <;> obtain ⟨rfl, rfl⟩ := hf <;> rfl
      case acq f f' rest g hst hf ha hm =>
        refine ⟨fun _ h => h, ?_, fun _ _ h => h⟩
        show topMov (upd w.stacks t _ t) = none
        rw [us]; rw [hst] at hm0
        unfold Frame.acq at hf; split at hf <;> simp at hf <;> obtain ⟨rfl, rfl⟩ := hf <;> first | rfl | cases hm0
      case movWrite g' g rest hst => rw [hst] at hm0; cases hm0
      case movUnlock g' g rest hst => rw [hst] at hm0; cases hm0
      case eraseHit g tgt i cnt rest b s hst hl' hi he =>
        refine ⟨fun g h => ?_, ?_, fun g g' h => ?_⟩
        · simpa only [World.emitEv, World.setStack, (removeAt_same _ _ _).2.2.2.2.2.2.2.2.2.2.1, List.mem_cons, reduceCtorEq,
            false_or] using h
        · show topMov (upd _ t _ t) = none
          rw [upd_same]; rfl
        · simpa only [World.emitEv, World.setStack, (removeAt_same _ _ _).2.2.2.2.2.2.2.2.2.2.1, List.mem_cons, reduceCtorEq,
            false_or] using h
      case discWrite s v k rest g b hst hl' hi =>
        refine ⟨fun g h => ?_, ?_, fun g g' h => ?_⟩
        · simpa only [World.emitEv, World.setStack, (removeAt_same _ _ _).2.2.2.2.2.2.2.2.2.2.1, List.mem_cons, reduceCtorEq,
            false_or] using h
        · show topMov (upd _ t _ t) = none
          rw [upd_same]; rfl
        · simpa only [World.emitEv, World.setStack, (removeAt_same _ _ _).2.2.2.2.2.2.2.2.2.2.1, List.mem_cons, reduceCtorEq,
            false_or] using h
      case callThrow s o m b pos acc rest hst =>
        refine ⟨fun g h => by simpa [World.emitEv, World.setStack] using h, ?_, fun g g' h => by simpa [World.emitEv, World.setStack] using h⟩
        show topMov (upd w.stacks t _ t) = none
        rw [upd_same]; exact (OkStk.callTail (hst ▸ I.i1.stk t)).tops.2.1
      all_goals first
        | exact (nouser ‹_›).elim
        | (refine ⟨fun g h => ?_, ?_, fun g g' h => ?_⟩
           · simpa [World.emitEv, World.setStack, World.setMutex, World.setH, World.setConnected, World.setIndex, World.setBlk] using h
           · show topMov (upd w.stacks t _ t) = none
             rw [us]
             first | rfl | exact pop ‹_› rfl | exact pop ‹_› (Frame.allocs_isCall ‹_›)
           · simpa [World.emitEv, World.setStack, World.setMutex, World.setH, World.setConnected, World.setIndex, World.setBlk] using h)
  refine ⟨fun g h => S.d g (key.1 g h), fun g g' h => S.m g g' (key.2.2 g g' h), fun t => ?_⟩
  by_cases ht : t = l.tid
  · subst ht; exact key.2.1
  · rw [stacks_other R ht]; exact S.s t

theorem hollow_false {log : List Event} (h : ∀ g g', Event.moved g g' ∉ log) (g : SigId) : hollow log g = false := by
  induction log with
  | nil => rfl
  | cons ev log ih =>
    have ih := ih fun g g' hm => h g g' (List.mem_cons_of_mem _ hm)
    cases ev <;> first | exact ih | skip
    rename_i a b
    exact absurd List.mem_cons_self (h a b)

theorem still_reach {n : Nat} (h : Steps E StayPut (World.init n) w) : Still w := by
  have hr : ∀ {w}, Steps E StayPut (World.init n) w → Reachable E w := fun h => Reachable.steps ⟨n, .refl _⟩ h
  generalize hw : World.init n = w0 at h
  induction h with
  | refl => subst hw; exact ⟨by simp [World.init], by simp [World.init], fun _ => rfl⟩
  | tail l hs hl hst ih => subst hw; exact ih.step (hr hs) hl hst

/-- C22: in a program that never moves or destroys a signal the only undefined behaviour is a user combiner that dereferences
its iterator at or past the end (running out of memory may terminate it, which is not undefined behaviour). -/
theorem C22 {n : Nat} (h : Steps E StayPut (World.init n) w) {l : Label} (hl : StayPut l) (hs : step E w l = some w')
    (hu : w'.ub ≠ none) (ht : w'.ub ≠ some .terminate) :
    ∃ t i m b pos acc rest, l = .call t (.combDeref i) ∧ w.stacks t = .emit m (.iter b pos acc) :: rest ∧
      (w.blks b).length ≤ i := by
  have S := still_reach h
  rcases C22_blame (Reachable.steps ⟨n, .refl _⟩ h) hs hu with h | ⟨t, g, g', rfl⟩ | ⟨t, g, rfl, -⟩ | ⟨g, -, h | h | ⟨t, g0, pc, rest, h⟩⟩ | ⟨t, -, h⟩
  · exact h
  · cases hl
  · cases hl
  · exact absurd h (S.d g)
  · rw [hollow_false S.m] at h; cases h
  · have := S.s t; rw [h] at this; cases this
  · exact absurd h ht

/-- C22: with the default combiner there is none at all. -/
theorem C22_default {n : Nat} (h : Steps E (fun l => StayPut l ∧ ∀ t i, l ≠ .call t (.combDeref i)) (World.init n) w) :
    w.ub = none ∨ w.ub = some .terminate := by
  have weak : ∀ {w}, Steps E (fun l => StayPut l ∧ ∀ t i, l ≠ .call t (.combDeref i)) (World.init n) w →
      Steps E StayPut (World.init n) w := by
    intro w h
    induction h with
    | refl => exact .refl _
    | tail l _ hp hs ih => exact ih.tail l hp.1 hs
  generalize hw : World.init n = w0 at h weak
  cases h with
  | refl => subst hw; exact .inl rfl
  | tail l hs hp hst =>
    subst hw
    rcases Classical.em (w.ub = none) with hu | hu
    · exact .inl hu
    · rcases Classical.em (w.ub = some .terminate) with ht | ht
      · exact .inr ht
      obtain ⟨t, i, m, b, pos, acc, rest, rfl, -⟩ := C22 (weak hs) hp.1 hst hu ht
      exact absurd rfl (hp.2 t i)

/-- C22: and while memory lasts such a program does not end early in any way. -/
theorem C22_memory {n : Nat}
    (h : Steps E (fun l => StayPut l ∧ (∀ t i, l ≠ .call t (.combDeref i)) ∧ ∀ t, l ≠ .fail t ∧ l ≠ .ctl t) (World.init n) w) : w.ub = none := by
  have weak : ∀ {w}, Steps E (fun l => StayPut l ∧ (∀ t i, l ≠ .call t (.combDeref i)) ∧ ∀ t, l ≠ .fail t ∧ l ≠ .ctl t) (World.init n) w →
      Steps E StayPut (World.init n) w := by
    intro w h
    induction h with
    | refl => exact .refl _
    | tail l _ hp hs ih => exact ih.tail l hp.1 hs
  generalize hw : World.init n = w0 at h weak
  cases h with
  | refl => subst hw; rfl
  | tail l hs hp hst =>
    subst hw
    rcases Classical.em (w.ub = none) with hu | hu
    · exact hu
    · rcases C22_blame (Reachable.steps ⟨n, .refl _⟩ (weak hs)) hst hu with
        ⟨t, i, m, b, pos, acc, rest, rfl, -⟩ | ⟨t, g, g', rfl⟩ | ⟨t, g, rfl, -⟩ | ⟨g, -, h⟩ | ⟨t, hf, h⟩
      · exact absurd rfl (hp.2.1 t i)
      · exact hp.1.elim
      · exact hp.1.elim
      · have S := still_reach (weak hs)
        rcases h with h | h | ⟨t, g0, pc, rest, h⟩
        · exact absurd h (S.d g)
        · rw [hollow_false S.m] at h; cases h
        · have := S.s t; rw [h] at this; cases this
      · rcases hf with rfl | rfl
        · exact absurd rfl (hp.2.2 t).1
        · exact absurd rfl (hp.2.2 t).2

namespace Demo

/-- A user combiner that dereferences its iterator past the end of a snapshot of one. -/
def overrun : List Label :=
  [.call 0 (.newSig false)] ++ connect 0 10 0 ++ [.call 0 (.emit 0 .custom [])] ++ go 0 4

end Demo

-- the hypotheses of `C22` (and `C22_blame`) with the one kind of undefined behaviour that is left
example : ∃ w w', Steps Demo.E0 StayPut (World.init 1) w ∧ step Demo.E0 w (.call 0 (.combDeref 1)) = some w' ∧ w'.ub ≠ none ∧
    w'.ub ≠ some .terminate :=
  ⟨Demo.world 1 Demo.overrun, _, Demo.world_steps 1 _ (by
      intro l hl
      have : ∀ l ∈ Demo.overrun, (match l with
        | .call _ (.destroySig _) | .call _ (.moveSig _) | .call _ (.moveAssignSig _ _) => false | _ => true) = true := by
        decide +kernel
      have := this l hl
      unfold StayPut; split <;> simp_all),
    Demo.world_step 1 _ _ (by decide +kernel), by decide +kernel, by decide +kernel⟩

-- the hypotheses of `C22_default`: two threads that connect, emit and disconnect at the same time
example : Steps Demo.E0 (fun l => StayPut l ∧ ∀ t i, l ≠ .call t (.combDeref i)) (World.init 2) (Demo.world 2 Demo.during) :=
  Demo.world_steps 2 _ (by
    intro l hl
    have : ∀ l ∈ Demo.during, (match l with
      | .call _ (.destroySig _) | .call _ (.moveSig _) | .call _ (.moveAssignSig _ _) | .call _ (.combDeref _) => false
      | _ => true) = true := by decide +kernel
    have := this l hl
    refine ⟨?_, ?_⟩
    · unfold StayPut; split <;> simp_all
    · rintro t i rfl; simp at this)

-- the hypotheses of `C22_memory`: two threads that connect, emit and disconnect at the same time
example : Steps Demo.E0 (fun l => StayPut l ∧ (∀ t i, l ≠ .call t (.combDeref i)) ∧ ∀ t, l ≠ .fail t ∧ l ≠ .ctl t) (World.init 2) (Demo.world 2 Demo.during) :=
  Demo.world_steps 2 _ (by
    intro l hl
    have : ∀ l ∈ Demo.during, (match l with
      | .call _ (.destroySig _) | .call _ (.moveSig _) | .call _ (.moveAssignSig _ _) | .call _ (.combDeref _) | .fail _ | .ctl _ => false
      | _ => true) = true := by decide +kernel
    have := this l hl
    refine ⟨?_, ?_, ?_⟩
    · unfold StayPut; split <;> simp_all
    · rintro t i rfl; simp at this
    · exact fun t => ⟨by rintro rfl; simp at this, by rintro rfl; simp at this⟩)

/-! ### How long a listener lives -/

/-- Frames that are neither a running call nor an iterating emission are at the top of their stack. -/
theorem only_top {st : List Frame} {f : Frame} (h : OkStk st) (hf : f ∈ st) (hc : f.isCall = false)
    (hi : ∀ m b pos acc, f ≠ .emit m (.iter b pos acc)) : ∃ rest, st = f :: rest := by
  have user : ∀ {st : List Frame}, UserStk st → f ∉ st := by
    intro st h
    induction h with
    | nil => simp
    | body s o m b pos acc rest _ ih =>
      intro hf
      rcases List.mem_cons.1 hf with rfl | hf
      · cases hc
      rcases List.mem_cons.1 hf with rfl | hf
      · exact hi _ _ _ _ rfl
      exact ih hf
    | comb m b pos acc rest _ _ ih =>
      intro hf
      rcases List.mem_cons.1 hf with rfl | hf
      · exact hi _ _ _ _ rfl
      exact ih hf
  cases h with
  | user _ h => exact absurd hf (user h)
  | call s pc m b pos acc rest h =>
    rcases List.mem_cons.1 hf with rfl | hf
    · cases hc
    rcases List.mem_cons.1 hf with rfl | hf
    · exact absurd rfl (hi _ _ _ _)
    exact absurd hf (user h)
  | lib f' rest _ h =>
    rcases List.mem_cons.1 hf with rfl | hf
    · exact ⟨rest, rfl⟩
    · exact absurd hf (user h)

theorem emit_act {st : List Frame} {m : Em} {pc : EmitPc} (hf : .emit m pc ∈ st) : ∃ c, (⟨c, m, pc⟩ : Act) ∈ acts st := by
  fun_induction acts st with
  | case1 s p m' pc' rest ih =>
    rcases List.mem_cons.1 hf with hf | hf
    · cases hf
    · rcases List.mem_cons.1 hf with hf | hf
      · injection hf with h1 h2; subst h1; subst h2; exact ⟨_, List.mem_cons_self⟩
      · obtain ⟨c, h⟩ := ih hf; exact ⟨c, List.mem_cons_of_mem _ h⟩
  | case2 m' pc' rest ih =>
    rcases List.mem_cons.1 hf with hf | hf
    · injection hf with h1 h2; subst h1; subst h2; exact ⟨_, List.mem_cons_self⟩
    · obtain ⟨c, h⟩ := ih hf; exact ⟨c, List.mem_cons_of_mem _ h⟩
  | case3 f rest _ n ih =>
    rcases List.mem_cons.1 hf with hf | hf
    · exact absurd hf.symm (n m pc)
    · exact ih hf
  | case4 => cases hf

/-- Emission `e` has ended. -/
def ended (log : List Event) (e : EmId) : Prop := (∃ r, Event.done e r ∈ log) ∨ Event.aborted e ∈ log

/-- A running emission has not ended. -/
theorem act_running (h : Reachable E w) {a : Act} (ha : a ∈ acts (w.stacks t)) : ¬ ended w.log a.m.e := by
  have ok := h.full.t.ok t a ha
  have no : ∀ ev, ev ∈ w.log → ev.em = some a.m.e → ev ∈ trace w.log a.m.e := fun ev h1 h2 => mem_tr h1 h2
  unfold ActOk at ok
  split at ok
  · obtain ⟨m0, vs, a0, ok⟩ := ok
    rintro (⟨r, hr⟩ | hr)
    · have := no _ hr rfl
      rw [ok.tr] at this
      simp only [List.mem_cons, reduceCtorEq, List.mem_append, false_or] at this
      rcases this with this | this
      · exact no_done_visits this
      · unfold current at this; split at this <;> simp at this
    · have := no _ hr rfl
      rw [ok.tr] at this
      simp only [List.mem_cons, reduceCtorEq, List.mem_append, false_or] at this
      rcases this with this | this
      · exact no_aborted_visits this
      · unfold current at this; split at this <;> simp at this
  · rintro (⟨r, hr⟩ | hr)
    · have := no _ hr rfl; rw [ok.2] at this; simp at this
    · have := no _ hr rfl; rw [ok.2] at this; simp at this

/-- A listener object exists as long as it is connected to a signal, or an emission that has it in its snapshot is still
running, or a `connect` or a `disconnect` of it is in progress, or a thread is inside another function of a handle to it (and
holds a `shared_ptr` to it while there); `valid()` on its connections tells exactly this. -/
theorem C49 (h : Reachable E w) {s : SlotId} : w.connValid (some s) = true ↔
    (∃ g, home w.log s = some g) ∨
    (∃ m items, Event.snap m items ∈ w.log ∧ s ∈ items ∧ ¬ ended w.log m.e) ∨
    (∃ t g d pc rest, w.stacks t = .add g s d pc :: rest ∧ pc ≠ .unlock) ∨
    (∃ t k pc rest, w.stacks t = .disc s k pc :: rest) ∨ s ∈ w.pins := by
  have U := h.full
  have I := U.i
  show w.slotAlive s = true ↔ _
  rw [slotAlive_iff I.i1]
  constructor
  · rintro (⟨g, hg⟩ | ⟨t, f, hf, hs | ⟨b, hb, hs⟩⟩ | hp)
    · exact .inl ⟨g, (I.i3.hom g s).1 hg⟩
    · have key : f.isCall = false → (∀ m b pos acc, f ≠ .emit m (.iter b pos acc)) → _ := fun h1 h2 =>
        only_top (I.i1.stk t) hf h1 h2
      unfold Frame.slot? at hs
      split at hs <;> simp only [Option.some.injEq, reduceCtorEq] at hs <;> subst hs
      · obtain ⟨rest, hr⟩ := key rfl (by simp); exact .inr (.inr (.inl ⟨t, _, _, _, rest, hr, by simp⟩))
      · obtain ⟨rest, hr⟩ := key rfl (by simp); exact .inr (.inr (.inl ⟨t, _, _, _, rest, hr, by simp⟩))
      · obtain ⟨rest, hr⟩ := key rfl (by simp); exact .inr (.inr (.inl ⟨t, _, _, _, rest, hr, by simp⟩))
      · obtain ⟨rest, hr⟩ := key rfl (by simp); exact .inr (.inr (.inl ⟨t, _, _, _, rest, hr, by simp⟩))
      · obtain ⟨rest, hr⟩ := key rfl (by simp); exact .inr (.inr (.inr (.inl ⟨t, _, _, rest, hr⟩)))
    · unfold Frame.blk? at hb
      split at hb
      · rename_i m b' pos acc
        injection hb with hb; subst hb
        obtain ⟨c, hc⟩ := emit_act hf
        obtain ⟨m0, he, hsn⟩ := C19_snapshot h hf
        exact .inr (.inl ⟨m0, _, hsn, hs, by rw [he]; exact act_running h hc⟩)
      · rename_i m b'
        subst hb
        obtain ⟨rest, hr⟩ := only_top (I.i1.stk t) hf rfl (by simp)
        have hl := I.i2.cpy t m.g (some b) (by rw [hr]; rfl)
        exact .inl ⟨m.g, (I.i3.hom m.g s).1 (by rw [listOf_eq hl]; exact hs)⟩
      · cases hb
    · exact .inr (.inr (.inr (.inr hp)))
  · rintro (⟨g, hg⟩ | ⟨m, items, hsn, hs, hne⟩ | ⟨t, g, d, pc, rest, hst, hpc⟩ | ⟨t, k, pc, rest, hst⟩ | hp)
    · exact .inl ⟨g, (I.i3.hom g s).2 hg⟩
    · have hmem := mem_tr hsn (e := m.e) rfl
      rcases Nat.lt_or_ge m.e w.nEm with hn | hn
      · rcases U.t.fin m.e hn with ⟨t, a, ha, e⟩ | hf
        · have ok := U.t.ok t a ha
          unfold ActOk at ok
          split at ok
          · rename_i b pos acc hpc
            obtain ⟨m0, vs, a0, ok⟩ := ok
            rw [← e] at hmem
            have hfr := acts_mem ha
            rw [hpc] at hfr
            obtain ⟨m1, e1, hsn1⟩ := C19_snapshot h hfr
            obtain ⟨-, rfl⟩ := C19_one_snapshot h hsn hsn1 (by omega)
            exact .inr (.inl ⟨t, _, hfr, .inr ⟨b, rfl, hs⟩⟩)
          · rw [← e, ok.2] at hmem; simp at hmem
        · exfalso
          apply hne
          unfold World.complete at hf
          generalize htr : trace w.log m.e = tr at hf hmem
          have back : ∀ ev ∈ tr, ev ∈ w.log := fun ev hev => (mem_trace.1 (htr ▸ hev)).1
          cases hf with
          | suppressed => simp at hmem
          | done t m' items vs args r => exact .inl ⟨r, back _ (by simp)⟩
          | aborted => exact .inr (back _ (by simp))
      · rw [U.t.old m.e hn] at hmem; cases hmem
    · refine .inr (.inl ⟨t, .add g s d pc, by rw [hst]; exact List.mem_cons_self, .inl ?_⟩)
      cases pc <;> first | rfl | exact absurd rfl hpc
    · exact .inr (.inl ⟨t, .disc s k pc, by rw [hst]; exact List.mem_cons_self, .inl rfl⟩)
    · exact .inr (.inr hp)

-- a listener that was disconnected during an emission lives on because the emission still has it in its snapshot;
-- its connections are valid but not connected
example : home (Demo.world 2 Demo.during).log 0 = none ∧ (Demo.world 2 Demo.during).connValid (some 0) = true ∧
    (Demo.world 2 Demo.during).connConnected (some 0) = false := by decide +kernel

/-! ### C23 -/

/-- Once the signal a listener belongs to is destroyed the listener belongs to none. -/
theorem home_destroyed {g : SigId} {s : SlotId} {pre : List Event} (hh : home pre s = some g) :
    ∀ {post : List Event}, (post ++ .destroyed g :: pre).countP (Event.adds s) ≤ 1 → home (post ++ .destroyed g :: pre) s = none
  | [], _ => by simp [home, hh]
  | ev :: post, hc => by
    rw [List.cons_append, List.countP_cons] at hc
    have ih := home_destroyed (g := g) hh (post := post) (by omega)
    have h0 := home_adds hh
    rw [List.countP_append, List.countP_cons] at hc
    cases ev <;> simp only [List.cons_append, home, ih] <;> try simp
    rename_i g1 s1
    rintro rfl
    have hx : Event.adds s (.added g1 s) = true := by simp [Event.adds]
    simp only [hx, if_true] at hc
    omega

/-- C23: after a signal has been destroyed, all emissions that had the listener in their snapshot have ended and no
`disconnect` of it is in progress and no thread is inside another function of a handle to it, every connection to a listener that
belonged to it is invalid. By `C42_*` all operations
on such a connection are harmless no-ops, for ever. -/
theorem C23_invalid (h : Reachable E w) {post pre : List Event} {g : SigId} {s : SlotId}
    (hl : w.log = post ++ .destroyed g :: pre) (hh : home pre s = some g)
    (he : ∀ m items, Event.snap m items ∈ w.log → s ∈ items → ended w.log m.e)
    (hd : ∀ t k pc rest, w.stacks t ≠ .disc s k pc :: rest) (hp : s ∉ w.pins) : w.connValid (some s) = false := by
  have I := h.full.i.i3
  rw [← Bool.not_eq_true, C49 h]
  rintro (⟨g', hg⟩ | ⟨m, items, h1, h2, h3⟩ | ⟨t, g', d, pc, rest, h1, h2⟩ | ⟨t, k, pc, rest, h1⟩ | hn)
  · rw [hl, home_destroyed hh (hl ▸ I.adds s)] at hg; cases hg
  · exact h3 (he m items h1 h2)
  · have := I.pend t g' s (by rw [h1]; cases pc <;> first | rfl | exact absurd rfl h2)
    have h0 := home_adds hh
    rw [hl, List.countP_append, List.countP_cons] at this
    omega
  · exact hd t k pc rest h1
  · exact hp hn

/-- C23: an emission that has taken its snapshot never touches the signal again. None of its own steps is undefined behaviour,
whatever has happened to the signal. -/
theorem C23_safe (h : Reachable E w) (hs : step E w (.run t) = some w') {f : Frame} {rest : List Frame}
    (hst : w.stacks t = f :: rest) (hf : (∃ m b pos acc, f = .emit m (.iter b pos acc)) ∨ ∃ s pc, f = .call s pc) :
    w'.ub = none := by
  cases hu : w'.ub with
  | none => rfl
  | some u =>
    obtain ⟨hub, -, hr⟩ := step_run hs
    obtain ⟨f', rest', g, hst', hf', -⟩ := run_ub h.full.i hub hr hu
    rw [hst] at hst'
    injection hst' with e1 e2; subst e1
    rcases hf with ⟨m, b, pos, acc, rfl⟩ | ⟨s, pc, rfl⟩ <;> cases hf'

/-- C23: nor does it ever have to wait: unless it is in user code its next step is enabled, for a destroyed signal too. -/
theorem C23_goes_on (h : Reachable E w) (hub : w.ub = none) (hu : userCtx (w.stacks t) = false) {f : Frame} {rest : List Frame}
    (hst : w.stacks t = f :: rest) (hf : (∃ m b pos acc, f = .emit m (.iter b pos acc)) ∨ ∃ s pc, f = .call s pc) :
    ∃ w', step E w (.run t) = some w' ∧ w'.ub = none := by
  have ht : t < w.nThr := Nat.lt_of_not_le fun hle => by rw [h.full.i.i1.thr t hle] at hst; cases hst
  rcases run_or_wait (E := E) h.full.i.i1 hu with ⟨w', hr⟩ | ⟨g, t', ⟨f1, f', rest', hst', hf'⟩, -⟩
  · have hs := run_step hub ht hr
    exact ⟨w', hs, C23_safe h hs hst hf⟩
  · rw [hst] at hst'
    injection hst' with e1 e2; subst e1
    rcases hf with ⟨m, b, pos, acc, rfl⟩ | ⟨s, pc, rfl⟩ <;> cases hf'

/-- C23: a thread in user code may destroy any signal that is alive and not in use by another thread, also the one that is
calling it; this is not undefined behaviour. -/
theorem C23_destroy (h : Reachable E w) {g : SigId} (hs : step E w (.call t (.destroySig g)) = some w')
    (ha : (w.sigs g).alive = true) (hm : ∀ t', t' ≠ t → (w.sigs g).mutex ≠ some t') :
    w'.ub = none ∧ w'.stacks = w.stacks ∧ (∀ t' f b, f ∈ w.stacks t' → f.blk? = some b → w'.blks b = w.blks b) ∧
      w'.log = .destroyed g :: w.log := by
  obtain ⟨hub, -, hu, ho⟩ := step_call hs
  have hm' : (w.sigs g).mutex = none := by
    cases hx : (w.sigs g).mutex with
    | none => rfl
    | some t' =>
      by_cases e : t' = t
      · subst e; exact absurd hx (C21_listener h hu g)
      · exact absurd hx (hm t' e)
  simp only [userOp, ha, hm'] at ho
  split at ho
  · simp only [Bool.not_true, Option.isSome_none, Bool.false_eq_true, if_false] at ho
    injection ho with ho; subst ho
    exact ⟨hub, rfl, fun _ _ _ _ _ => rfl, rfl⟩
  · cases ho

/-- Steps a call of a listener still has to take, if its body returns at once. -/
def CallPc.rank : CallPc → Nat
  | .chkBlocked => 5
  | .chkConnected => 4
  | .invoke => 3
  | .lockObj _ => 3
  | .recheck _ => 2
  | .body _ => 1

/-- Steps of thread `t` that only let the library run and listener bodies return. -/
def Plain (t : Tid) (l : Label) : Prop := l = .run t ∨ ∃ v, l = .ret t v

theorem call_next (hub : w.ub = none) (ht : t < w.nThr) {s : SlotId} {pc : CallPc} {m : Em} {b : BlkId} {pos : Nat}
    {acc : Option Val} {rest : List Frame} (hc : m.comb = .lastValue)
    (hst : w.stacks t = .call s pc :: .emit m (.iter b pos acc) :: rest) :
    ∃ l w', Plain t l ∧ step E w l = some w' ∧ w'.ub = none ∧ w'.blks = w.blks ∧ w'.nThr = w.nThr ∧
      ((∃ pc' m', pc'.rank < pc.rank ∧ w'.stacks t = .call s pc' :: .emit m' (.iter b pos acc) :: rest ∧ m'.e = m.e ∧
          m'.comb = .lastValue) ∨
        ∃ acc', w'.stacks t = .emit m (.iter b (pos + 1) acc') :: rest) := by
  have go : ∀ {x : World}, runCall w t s m b pos acc rest pc = some x →
      (x.ub = none ∧ x.blks = w.blks ∧ x.nThr = w.nThr ∧
      ((∃ pc' m', pc'.rank < pc.rank ∧ x.stacks t = .call s pc' :: .emit m' (.iter b pos acc) :: rest ∧ m'.e = m.e ∧
          m'.comb = .lastValue) ∨
        ∃ acc', x.stacks t = .emit m (.iter b (pos + 1) acc') :: rest)) →
      ∃ l w', Plain t l ∧ step E w l = some w' ∧ w'.ub = none ∧ w'.blks = w.blks ∧ w'.nThr = w.nThr ∧
      ((∃ pc' m', pc'.rank < pc.rank ∧ w'.stacks t = .call s pc' :: .emit m' (.iter b pos acc) :: rest ∧ m'.e = m.e ∧
          m'.comb = .lastValue) ∨
        ∃ acc', w'.stacks t = .emit m (.iter b (pos + 1) acc') :: rest) := by
    intro x hx h
    refine ⟨.run t, x, .inl rfl, run_step hub ht ?_, h⟩
    unfold runTop; rw [hst]; exact hx
  cases pc with
  | chkBlocked =>
    by_cases hb : (w.slots s).blocked
    · refine go (by simp only [runCall, hb, if_true]; rfl) ?_
      refine ⟨hub, rfl, rfl, .inr ⟨acc, ?_⟩⟩
      simp only [World.emitEv, World.setStack, upd_same, hc, deliver]; rfl
    · refine go (by simp only [runCall, if_neg hb]; rfl) ?_
      refine ⟨hub, rfl, rfl, .inl ⟨.chkConnected, m, by decide, ?_, rfl, hc⟩⟩
      simp only [World.setStack, upd_same]
  | chkConnected =>
    by_cases hb : w.slotConnected s
    · cases ho : (w.slots s).fn.obj? with
      | none =>
        refine go (by simp only [runCall, hb, ho, if_true]; rfl) ?_
        refine ⟨hub, rfl, rfl, .inl ⟨.invoke, m, by decide, ?_, rfl, hc⟩⟩
        simp only [World.setStack, upd_same]
      | some o =>
        refine go (by simp only [runCall, hb, ho, if_true]; rfl) ?_
        refine ⟨hub, rfl, rfl,
          .inl ⟨.lockObj o, m, by simp [CallPc.rank], ?_, rfl, hc⟩⟩
        simp only [World.setStack, upd_same]
    · refine go (by simp only [runCall, if_neg hb]; rfl) ?_
      refine ⟨hub, rfl, rfl, .inr ⟨acc, ?_⟩⟩
      simp only [World.emitEv, World.setStack, upd_same, hc, deliver]; rfl
  | invoke =>
    refine go (by simp only [runCall]; rfl) ?_
    refine ⟨hub, rfl, rfl,
      .inl ⟨.body none, { m with args := passArgs (w.slots s).consume m.args }, by decide, ?_, rfl, hc⟩⟩
    simp only [World.emitEv, World.setStack, upd_same]
  | lockObj o =>
    by_cases hb : w.objAlive o
    · refine go (by simp only [runCall, hb, if_true]; rfl) ?_
      refine ⟨hub, rfl, rfl,
        .inl ⟨.recheck o, m, by simp [CallPc.rank], ?_, rfl, hc⟩⟩
      simp only [World.setStack, upd_same]
    · refine go (by simp only [runCall, if_neg hb]; rfl) ?_
      refine ⟨hub, rfl, rfl, .inr ⟨acc, ?_⟩⟩
      simp only [World.emitEv, World.setStack, World.setConnected, upd_same, hc, deliver]; rfl
  | recheck o =>
    by_cases hb : w.slotConnected s
    · refine go (by simp only [runCall, hb, if_true]; rfl) ?_
      refine ⟨hub, rfl, rfl,
        .inl ⟨.body (some o), { m with args := passArgs (w.slots s).consume m.args }, by simp [CallPc.rank], ?_, rfl, hc⟩⟩
      simp only [World.emitEv, World.setStack, upd_same]
    · refine go (by simp only [runCall, if_neg hb]; rfl) ?_
      refine ⟨hub, rfl, rfl, .inr ⟨acc, ?_⟩⟩
      simp only [World.emitEv, World.setStack, upd_same, hc, deliver]; rfl
  | body o =>
    have hs : step E w (.ret t 0) = userRet w t 0 := by
      unfold step
      rw [if_neg (by rw [hub]; simp), if_pos (show (Label.ret t 0).tid < _ from ht)]
    refine ⟨.ret t 0, _, .inr ⟨0, rfl⟩, by rw [hs]; simp only [userRet, hst]; rfl, ?_⟩
    refine ⟨hub, rfl, rfl, .inr ⟨if (if (w.sigs m.g).isVoid then none else some (0 : Int)).isSome then (if (w.sigs m.g).isVoid then none else some 0) else acc, ?_⟩⟩
    simp only [World.emitEv, World.setStack, upd_same, hc, deliver]

/-- C23: an emission with the default combiner that has taken its snapshot can always be completed by its thread alone: it
visits the rest of the snapshot and returns, whatever has happened to the signal. -/
theorem C23_completes (hub : w.ub = none) (ht : t < w.nThr) {m : Em} {b : BlkId} {pos : Nat} {acc : Option Val}
    {rest : List Frame} (hc : m.comb = .lastValue)
    (hst : w.stacks t = .emit m (.iter b pos acc) :: rest ∨ ∃ s pc, w.stacks t = .call s pc :: .emit m (.iter b pos acc) :: rest) :
    ∃ ls w', (∀ l ∈ ls, Plain t l) ∧ exec E w ls = some w' ∧ w'.ub = none ∧ w'.stacks t = rest ∧
      ∃ r, Event.done m.e r ∈ w'.log := by
  have one : ∀ {w1 w2 : World} {l : Label} {e : EmId}, step E w1 l = some w2 → Plain t l →
      (∃ ls w', (∀ l ∈ ls, Plain t l) ∧ exec E w2 ls = some w' ∧ w'.ub = none ∧ w'.stacks t = rest ∧
        ∃ r, Event.done e r ∈ w'.log) →
      ∃ ls w', (∀ l ∈ ls, Plain t l) ∧ exec E w1 ls = some w' ∧ w'.ub = none ∧ w'.stacks t = rest ∧
        ∃ r, Event.done e r ∈ w'.log := by
    rintro w1 w2 l e hs hp ⟨ls, w', h1, h2, h3⟩
    refine ⟨l :: ls, w', ?_, by simp only [exec, hs]; exact h2, h3⟩
    intro x hx
    rcases List.mem_cons.1 hx with rfl | hx
    · exact hp
    · exact h1 x hx
  have key : ∀ (n : Nat) (w : World) (m : Em) (pos : Nat) (acc : Option Val), w.ub = none → t < w.nThr → m.comb = .lastValue →
      ((w.stacks t = .emit m (.iter b pos acc) :: rest ∧ 8 * ((w.blks b).length - pos) ≤ n) ∨
        ∃ s pc, w.stacks t = .call s pc :: .emit m (.iter b pos acc) :: rest ∧
          8 * ((w.blks b).length - pos - 1) + pc.rank ≤ n) →
      ∃ ls w', (∀ l ∈ ls, Plain t l) ∧ exec E w ls = some w' ∧ w'.ub = none ∧ w'.stacks t = rest ∧
        ∃ r, Event.done m.e r ∈ w'.log := by
    intro n
    induction n with
    | zero =>
      intro w m pos acc hub ht hc hst
      rcases hst with ⟨hst, hn⟩ | ⟨s, pc, hst, hn⟩
      · have hg : (w.blks b)[pos]? = none := List.getElem?_eq_none (by omega)
        refine one (run_step hub ht (by unfold runTop; rw [hst]; simp only [runEmit, hc, hg]; rfl)) (.inl rfl) ?_
        refine ⟨[], _, by simp, rfl, hub, ?_, acc, ?_⟩
        · simp only [World.emitEv, World.setStack, upd_same]
        · simp [World.emitEv]
      · have : 1 ≤ pc.rank := by cases pc <;> simp [CallPc.rank]
        omega
    | succ n ih =>
      intro w m pos acc hub ht hc hst
      rcases hst with ⟨hst, hn⟩ | ⟨s, pc, hst, hn⟩
      · by_cases hp : pos < (w.blks b).length
        · have hg : (w.blks b)[pos]? = some (w.blks b)[pos] := List.getElem?_eq_getElem hp
          refine one (run_step hub ht (by unfold runTop; rw [hst]; simp only [runEmit, hc, hg]; rfl)) (.inl rfl) ?_
          refine ih _ m pos acc hub ht hc (.inr ⟨(w.blks b)[pos], .chkBlocked, ?_, ?_⟩)
          · simp only [World.emitEv, World.setStack, upd_same]
          · simp only [World.emitEv, World.setStack, CallPc.rank]; omega
        · have hg : (w.blks b)[pos]? = none := List.getElem?_eq_none (by omega)
          refine one (run_step hub ht (by unfold runTop; rw [hst]; simp only [runEmit, hc, hg]; rfl)) (.inl rfl) ?_
          refine ⟨[], _, by simp, rfl, hub, ?_, acc, ?_⟩
          · simp only [World.emitEv, World.setStack, upd_same]
          · simp [World.emitEv]
      · obtain ⟨l, w', hl, hs, hub', hb', hn', ⟨pc', m', hr, hst', he, hc'⟩ | ⟨acc', hst'⟩⟩ := call_next (E := E) hub ht hc hst
        · rw [← he]
          exact one hs hl (ih w' m' pos acc hub' (hn' ▸ ht) hc' (.inr ⟨s, pc', hst', by rw [hb']; omega⟩))
        · have : 1 ≤ pc.rank := by cases pc <;> simp [CallPc.rank]
          exact one hs hl (ih w' m (pos + 1) acc' hub' (hn' ▸ ht) hc (.inl ⟨hst', by rw [hb']; omega⟩))
  refine key (8 * (w.blks b).length + 8) w m pos acc hub ht hc ?_
  rcases hst with hst | ⟨s, pc, hst⟩
  · exact .inl ⟨hst, by omega⟩
  · have : pc.rank ≤ 5 := by cases pc <;> simp [CallPc.rank]
    exact .inr ⟨s, pc, hst, by omega⟩

namespace Demo

/-- Two listeners; thread 0 emits and is inside the body of listener 0, which destroys the signal. -/
def doomed : List Label :=
  [.call 0 (.newSig false)] ++ connect 0 10 0 ++ connect 0 11 1 ++
  [.call 0 (.emit 0 .lastValue [])] ++ go 0 8 ++ [.call 0 (.destroySig 0)]

/-- The emission goes on to the end. -/
def outlived : List Label := doomed ++ [.ret 0 7] ++ go 0 4 ++ [.ret 0 8] ++ go 0 1

end Demo

-- it called both listeners and returned the result of the second, although the signal was gone
example : (trace (Demo.world 1 Demo.outlived).log 0).filterMap Event.entered = [0, 1] ∧
    Event.done 0 (some 8) ∈ (Demo.world 1 Demo.outlived).log ∧ (Demo.world 1 Demo.outlived).ub = none := by decide +kernel

-- the hypotheses of `C23_safe`, `C23_goes_on` and `C23_completes` hold after the body of listener 0 has returned
example : ((Demo.world 1 (Demo.doomed ++ [.ret 0 7])).sigs 0).alive = false ∧
    userCtx ((Demo.world 1 (Demo.doomed ++ [.ret 0 7])).stacks 0) = false ∧
    (Demo.world 1 (Demo.doomed ++ [.ret 0 7])).stacks 0 = [.emit ⟨0, 0, .lastValue, []⟩ (.iter 0 1 (some 7))] := by
  decide +kernel

-- the hypotheses of `C23_invalid` hold at the end, for both listeners
example : ∀ s ∈ [0, 1], home ((Demo.world 1 Demo.outlived).log.drop
      ((Demo.world 1 Demo.outlived).log.idxOf (.destroyed 0) + 1)) s = some 0 ∧
    (Demo.world 1 Demo.outlived).stacks 0 = [] ∧ (Demo.world 1 Demo.outlived).connValid (some s) = false := by decide +kernel

-- before that, while the emission is still running, its connections are valid
example : (Demo.world 1 Demo.doomed).connValid (some 1) = true := by decide +kernel

/-! ### C24 -/

/-- C24, as far as it is true: `disconnect()` through a connection to listener `s` is not undefined behaviour as long as the
signal `s` was connected to has neither been destroyed nor been moved from. Missing: the other cases, see `C24_false`. -/
theorem C24_partial (h : Reachable E w) (hs : step E w (.run t) = some w') {s : SlotId} {k : DiscK} {pc : DiscPc}
    {rest : List Frame} (hst : w.stacks t = .disc s k pc :: rest) {g : SigId} {c b : Bool}
    (hg : Event.created g s c b ∈ w.log) (hd : Event.destroyed g ∉ w.log) (hm : hollow w.log g = false) : w'.ub = none := by
  cases hu : w'.ub with
  | none => rfl
  | some u =>
    exfalso
    have U := h.full
    have tch : Touched w s := ⟨t, .inr ⟨_, by rw [hst]; exact List.mem_cons_self, .inl rfl⟩⟩
    have ha := added_owner h tch
    have hlt := Touched.lt U.i.i1 tch
    obtain ⟨c', b', h1⟩ := U.c s hlt
    obtain ⟨eg, -⟩ := created_unique U.h hg h1
    rcases C22_blame h hs (by rw [hu]; simp) with ⟨_, _, _, _, _, _, _, e, -⟩ | ⟨_, _, _, e⟩ | ⟨_, _, e, -⟩ | ⟨g', hg', hb⟩ | ⟨_, e, -⟩
    · cases e
    · cases e
    · cases e
    · simp only [Label.sig?, hst, List.head?_cons, Option.bind_some] at hg'
      have : g' = g := by
        cases pc with
        | exch => cases hg'
        | crit g1 pc =>
          injection hg' with e; subst e
          have := U.d.fh t (.disc s k (.crit g1 pc)) (by rw [hst]; exact List.mem_cons_self)
          rw [this.2, eg]
        | drop g1 => cases hg'
      subst this
      rcases hb with hb | hb | ⟨t', g0, pc', rest', hb⟩
      · exact hd hb
      · rw [hm] at hb; cases hb
      · rw [eg] at hb
        exact h.invA.bld t' _ g0 pc' (by rw [hb]; rfl) s ha
    · rcases e with e | e <;> cases e

/-- … nor is any call of it undefined behaviour at once. -/
theorem C24_start_partial {hd : Handle} (hs : step E w (.call t (.disconnect hd)) = some w') : w'.ub = none := by
  obtain ⟨hub, -, -, ho⟩ := step_call hs
  simp only [userOp] at ho
  injection ho with ho; subst ho
  rw [discStart_ub, hub]

namespace Demo

/-- A signal with one listener is moved; then the listener is disconnected through its connection. -/
def movedFrom : List Label :=
  [.call 0 (.newSig false)] ++ connect 0 10 0 ++ [.call 0 (.moveSig 0)] ++ go 0 3 ++
  [.call 0 (.disconnect (.conn 0))] ++ go 0 2

/-- The same, but the source of the move is destroyed first. -/
def movedAway : List Label :=
  [.call 0 (.newSig false)] ++ connect 0 10 0 ++ [.call 0 (.moveSig 0)] ++ go 0 3 ++
  [.call 0 (.destroySig 0), .call 0 (.disconnect (.conn 0))] ++ go 0 1

/-- A listener destroys the signal that is calling it and then disconnects itself. -/
def sawOff : List Label := doomed ++ [.call 0 (.disconnect (.conn 0))] ++ go 0 1

end Demo

/-- C24 is false of the code. In each of three situations a `disconnect()` through a valid, connected handle is undefined
behaviour: the signal has been moved; it has been moved and the source destroyed (the listener is in the list of the living
target); it has been destroyed by a listener during an emission. -/
theorem C24_false :
    (∃ w w', Reachable Demo.E0 w ∧ step Demo.E0 w (.run 0) = some w' ∧ w'.ub = some .nullList ∧ 0 ∈ w.listOf 1 ∧
      w.connValid (w.cv 0) = true ∧ ∃ pc, w.stacks 0 = [.disc 0 .ret pc]) ∧
    (∃ w w', Reachable Demo.E0 w ∧ step Demo.E0 w (.run 0) = some w' ∧ w'.ub = some .deadSignal ∧ 0 ∈ w.listOf 1 ∧
      w.connValid (w.cv 0) = true ∧ ∃ pc, w.stacks 0 = [.disc 0 .ret pc]) ∧
    (∃ w w', Reachable Demo.E0 w ∧ step Demo.E0 w (.run 0) = some w' ∧ w'.ub = some .deadSignal ∧
      w.connValid (w.cv 0) = true ∧ ∃ pc rest, w.stacks 0 = .disc 0 .ret pc :: rest) := by
  refine ⟨⟨Demo.world 1 Demo.movedFrom, _, Demo.reach 1 _, Demo.world_step 1 _ _ (by decide +kernel), by decide +kernel,
      by decide +kernel, by decide +kernel, .crit 0 .detach, by decide +kernel⟩,
    ⟨Demo.world 1 Demo.movedAway, _, Demo.reach 1 _, Demo.world_step 1 _ _ (by decide +kernel), by decide +kernel,
      by decide +kernel, by decide +kernel, .crit 0 .wait, by decide +kernel⟩,
    ⟨Demo.world 1 Demo.sawOff, _, Demo.reach 1 _, Demo.world_step 1 _ _ (by decide +kernel), by decide +kernel,
      by decide +kernel, .crit 0 .wait, [.call 0 (.body none), .emit ⟨0, 0, .lastValue, []⟩ (.iter 0 0 none)], by decide +kernel⟩⟩

-- `C24_partial` applies, e.g., to a disconnect from inside the listener's own body
example : ∃ w w', Reachable Demo.E0 w ∧ step Demo.E0 w (.run 0) = some w' ∧
    (∃ pc rest, w.stacks 0 = .disc 0 .ret pc :: rest ∧ rest ≠ []) ∧ Event.created 0 0 true false ∈ w.log ∧
    Event.destroyed 0 ∉ w.log ∧ hollow w.log 0 = false :=
  ⟨Demo.world 1 (Demo.inBody ++ [.call 0 (.disconnect (.conn 0))] ++ Demo.go 0 1), _, Demo.reach 1 _,
    Demo.world_step 1 _ _ (by decide +kernel),
    ⟨.crit 0 .wait, [.call 0 (.body none), .emit ⟨0, 0, .lastValue, []⟩ (.iter 0 0 none)], by decide +kernel, by simp⟩,
    by decide +kernel, by decide +kernel, by decide +kernel⟩

/-! ### C25 -/

/-- C25: the move itself (the step that logs `moved g g'`) gives `g'` the list of `g` as it is at that moment, in the same order,
leaves `g` with none, touches no other signal and no listener, and no handle changes its answers: every connection stays
valid / connected / blocked as it was. -/
theorem C25_move (h : Reachable E w) {l : Label} (hs : step E w l = some w') {g g' : SigId}
    (hl : w'.log = .moved g g' :: w.log) :
    w'.listOf g' = w.listOf g ∧ w'.listOf g = [] ∧ (∀ x, x ≠ g → x ≠ g' → w'.listOf x = w.listOf x) ∧
    w'.slots = w.slots ∧ w'.cv = w.cv ∧ w'.sv = w.sv ∧ w'.bv = w.bv ∧
    ∀ v, w'.connValid v = w.connValid v ∧ w'.connConnected v = w.connConnected v ∧ w'.connBlocked v = w.connBlocked v := by
  obtain ⟨-, -, R⟩ := step_inv hs
  have I := h.full.i
  have I' := (h.step hs).full.i
  have L := listEff I.i1 I.i2 R
  have gen : ∀ {x}, StepR E w x w' → (∃ rest, w.stacks x = .mov g' g .write :: rest ∧
      w'.stacks = upd w.stacks x (.mov g' g .unlock :: rest)) ∧
      w'.slots = w.slots ∧ w'.cv = w.cv ∧ w'.sv = w.sv ∧ w'.bv = w.bv ∧ w'.blks = w.blks ∧ w'.objs = w.objs ∧ w'.pins = w.pins := by
    intro x R
    cases R <;> try (simp [World.setUB, World.setH, World.setStack, World.emitEv, World.setBlocked, World.setMutex,
      World.setIndex, World.setBlk, World.setConnected, World.setList] at hl; done)
    case det f f' rest g b hst hf hl' =>
      have e1 : ((cloneBlk w g b).setStack x (f' :: rest)).log = w.log := by rfl
      rw [e1] at hl; simp at hl
    case movWrite g2 g1 rest hst =>
      simp only [World.emitEv, List.cons.injEq, Event.moved.injEq] at hl
      obtain ⟨⟨rfl, rfl⟩, -⟩ := hl
      exact ⟨⟨rest, hst, rfl⟩, rfl, rfl, rfl, rfl, rfl, rfl, rfl⟩
  obtain ⟨⟨rest, hst, hst'⟩, h1, h2, h3, h4, h5, h6, h7⟩ := gen R
  cases L with
  | same _ _ hq =>
    obtain ⟨evs, e, hq⟩ := hq
    rw [hl] at e
    cases evs with
    | nil => simp at e
    | cons ev evs => injection e with e1 e2; subst e1; cases hq _ List.mem_cons_self
  | add _ _ _ _ _ _ _ _ _ hl2 => rw [hl] at hl2; simp at hl2
  | rem _ _ _ ev _ _ _ _ he hl2 =>
    rw [hl] at hl2
    rcases he with rfl | ⟨_, rfl⟩ <;> simp at hl2
  | destroy _ _ _ _ hl2 => rw [hl] at hl2; simp at hl2
  | move g1 g2 hne _ h0 _ hli _ hl2 =>
    rw [hl] at hl2
    simp only [List.cons.injEq, Event.moved.injEq, and_true] at hl2
    obtain ⟨rfl, rfl⟩ := hl2
    have a1 : ∀ s, w'.slotAlive s = w.slotAlive s := by
      intro s
      rw [Bool.eq_iff_iff, slotAlive_iff I.i1, slotAlive_iff I'.i1]
      refine or_congr ?_ ?_
      · constructor
        · rintro ⟨x, hx⟩
          rw [hli] at hx
          split at hx
          · cases hx
          · split at hx <;> exact ⟨_, hx⟩
        · rintro ⟨x, hx⟩
          by_cases e1 : x = g
          · subst e1
            exact ⟨g', by rw [hli, if_neg hne, if_pos rfl]; exact hx⟩
          · by_cases e2 : x = g'
            · subst e2; rw [h0] at hx; cases hx
            · exact ⟨x, by rw [hli, if_neg e1, if_neg e2]; exact hx⟩
      · rw [h7]
        refine or_congr (exists_congr fun t' => ?_) Iff.rfl
        rw [hst', h5, upd_apply]
        split
        · rename_i e; subst e
          rw [hst]
          simp [Frame.slot?, Frame.blk?]
        · rfl
    have a2 : ∀ o, w'.objAlive o = w.objAlive o := by
      intro o
      rw [Bool.eq_iff_iff, objAlive_iff I.i1, objAlive_iff I'.i1, h6]
      refine or_congr Iff.rfl ?_
      refine exists_congr fun t' => ?_
      rw [hst', upd_apply]
      split
      · rename_i e; subst e
        rw [hst]
        simp [Frame.obj?]
      · rfl
    refine ⟨by rw [hli, if_neg hne, if_pos rfl], by rw [hli, if_pos rfl], fun x h1 h2 => by rw [hli, if_neg h1, if_neg h2],
      h1, h2, h3, h4, fun v => ?_⟩
    cases v with
    | none => exact ⟨rfl, rfl, rfl⟩
    | some s => simp only [World.connValid, World.connConnected, World.connBlocked, World.slotConnected, a1, a2, h1, and_self]

/-- C25: a move construction that no other thread disturbs finishes in four steps; the new signal is then alive and has the
listeners of the source in the same order, the source has none, and neither's mutex is left locked. -/
theorem C25_completes {g : SigId} (hub : w.ub = none) (ht : t < w.nThr) (hu : userCtx (w.stacks t) = true)
    (hg : g < w.nSigs) (ha : (w.sigs g).alive = true) (hm : (w.sigs g).mutex = none) :
    ∃ w', exec E w [.call t (.moveSig g), .run t, .run t, .run t] = some w' ∧ w'.ub = none ∧
      w'.stacks t = w.stacks t ∧ (w'.sigs w.nSigs).alive = true ∧ (w'.sigs w.nSigs).mutex = none ∧ (w'.sigs g).mutex = none ∧
      w'.listOf w.nSigs = w.listOf g ∧ w'.listOf g = [] ∧ w'.log = .moved g w.nSigs :: w.log := by
  have hne : g ≠ w.nSigs := by omega
  obtain ⟨w1, e1⟩ : ∃ x, x = World.setStack { w with
      sigs := upd w.sigs w.nSigs ⟨none, none, (w.sigs g).sblocked, false, (w.sigs g).isVoid⟩
      nSigs := w.nSigs + 1 } t (.mov w.nSigs g .wait :: w.stacks t) := ⟨_, rfl⟩
  obtain ⟨w2, e2⟩ : ∃ x, x = (w1.setMutex g (some t)).setStack t (.mov w.nSigs g .write :: w.stacks t) := ⟨_, rfl⟩
  obtain ⟨w3, e3⟩ : ∃ x, x = (((w2.setList w.nSigs (w2.sigs g).list).setList g none).setStack t
    (.mov w.nSigs g .unlock :: w.stacks t)).emitEv (.moved g w.nSigs) := ⟨_, rfl⟩
  have s1 : step E w (.call t (.moveSig g)) = some w1 := by
    unfold step
    rw [if_neg (by rw [hub]; simp), if_pos (show (Label.call t (.moveSig g)).tid < _ from ht)]
    simp only [hu, if_true, userOp, hg, ha, Bool.not_true, Bool.false_eq_true, if_false]
    rw [e1]
  have u1 : w1.ub = none := by rw [e1]; exact hub
  have n1 : t < w1.nThr := by rw [e1]; exact ht
  have u2 : w2.ub = none := by rw [e2]; exact u1
  have n2 : t < w2.nThr := by rw [e2]; exact n1
  have l2 : w2.log = w.log := by rw [e2, e1]; rfl
  have b2 : w2.blks = w.blks := by rw [e2, e1]; rfl
  have g1 : w1.sigs g = w.sigs g := by rw [e1]; simp [World.setStack, upd_apply, hne]
  have s2 : step E w1 (.run t) = some w2 := by
    refine run_step u1 n1 ?_
    unfold runTop
    rw [show w1.stacks t = .mov w.nSigs g .wait :: w.stacks t by rw [e1]; simp only [World.setStack, upd_same]]
    simp only [runMov, acquire, g1, ha, hm, Bool.not_true, Bool.false_eq_true, if_false]
    rw [e2]
  have s3 : step E w2 (.run t) = some w3 := by
    refine run_step u2 n2 ?_
    unfold runTop
    rw [show w2.stacks t = .mov w.nSigs g .write :: w.stacks t by rw [e2]; simp only [World.setStack, upd_same]]
    simp only [runMov]
    rw [e3]
  have u3 : w3.ub = none := by rw [e3]; exact u2
  have k3 : w3.stacks t = .mov w.nSigs g .unlock :: w.stacks t := by
    rw [e3]; simp only [World.emitEv, World.setStack, upd_same]
  have n3 : t < w3.nThr := by rw [e3]; exact n2
  obtain ⟨w4, e4⟩ : ∃ x, runMov w3 t (w.stacks t) w.nSigs g .unlock = some x := ⟨_, rfl⟩
  have s4 : step E w3 (.run t) = some w4 := by
    refine run_step u3 n3 ?_
    unfold runTop
    rw [k3]
    exact e4
  refine ⟨w4, by simp only [exec, s1, s2, s3, s4], ?_⟩
  have h3 : (w3.sigs g).list = none := by rw [e3]; simp [World.emitEv, World.setStack, World.setList, upd_apply]
  have h4 : (w3.sigs w.nSigs).list = (w.sigs g).list := by
    rw [e3]
    simp only [World.emitEv, World.setStack, World.setList, upd_apply, if_neg hne.symm, if_true]
    rw [e2]; simp [World.setStack, World.setMutex, upd_apply, g1]
  have h5 : (w3.sigs w.nSigs).mutex = none := by
    rw [e3]
    simp only [World.emitEv, World.setStack, World.setList, upd_apply, if_neg hne.symm, if_true]
    rw [e2]; simp only [World.setStack, World.setMutex, upd_apply, if_neg hne.symm]
    rw [e1]; simp [World.setStack, upd_apply]
  have h6 : w3.blks = w.blks := by rw [e3]; exact b2
  have h7 : w3.log = .moved g w.nSigs :: w.log := by rw [e3, ← l2]; rfl
  clear s1 s2 s3 s4 e1 e2 e3
  simp only [runMov, Option.some.injEq] at e4
  subst e4
  refine ⟨u3, upd_same _ _ _, ?_, ?_, ?_, ?_, ?_, h7⟩
  · simp [World.setStack, upd_apply]
  · simp [World.setStack, World.setMutex, upd_apply, hne.symm, h5]
  · simp [World.setStack, World.setMutex, upd_apply, hne]
  · simp only [World.listOf, World.setStack, World.setMutex, upd_apply, if_true, if_neg hne.symm, h4, h6]
  · simp only [World.listOf, World.setStack, World.setMutex, upd_apply, if_true, if_neg hne, h3]

/-- The move assignment of signals never completes: whatever the signals are, it is undefined behaviour
(the function has no `return`), so C25 says nothing about it. -/
theorem C25_assign {g g' : SigId} (hs : step E w (.call t (.moveAssignSig g g')) = some w') : w'.ub = some .noReturn := by
  obtain ⟨-, -, -, ho⟩ := step_call hs
  simp only [userOp] at ho
  split at ho
  · injection ho with ho; subst ho; rfl
  · cases ho

namespace Demo

/-- A signal with three listeners, the middle one disconnected, is moved; then the new signal is emitted. -/
def relocated : List Label :=
  [.call 0 (.newSig false)] ++ connect 0 10 0 ++ connect 0 11 1 ++ connect 0 12 2 ++
  [.call 0 (.disconnect (.conn 0))] ++ go 0 6 ++ [.call 0 (.moveSig 0)] ++ go 0 3 ++
  [.call 0 (.emit 1 .lastValue [])] ++ go 0 8 ++ [.ret 0 5] ++ go 0 4 ++ [.ret 0 6] ++ go 0 1

end Demo

-- signal 1 has taken over the list [2, 1]; it calls both; their connections are valid and connected
example : (Demo.world 1 Demo.relocated).listOf 1 = [2, 1] ∧ (Demo.world 1 Demo.relocated).listOf 0 = [] ∧
    (trace (Demo.world 1 Demo.relocated).log 0).filterMap Event.entered = [2, 1] ∧
    (Demo.world 1 Demo.relocated).connConnected ((Demo.world 1 Demo.relocated).cv 1) = true ∧
    (Demo.world 1 Demo.relocated).connConnected ((Demo.world 1 Demo.relocated).cv 2) = true ∧
    (Demo.world 1 Demo.relocated).ub = none := by decide +kernel

-- the hypotheses of `C25_move`: the second step of the constructor
example : ∃ w w', Reachable Demo.E0 w ∧ step Demo.E0 w (.run 0) = some w' ∧ w'.log = .moved 0 1 :: w.log ∧ w.listOf 0 = [0, 1] :=
  ⟨Demo.world 1 ([.call 0 (.newSig false)] ++ Demo.connect 0 10 0 ++ Demo.connect 0 11 1 ++ [.call 0 (.moveSig 0)] ++ Demo.go 0 1), _,
    Demo.reach 1 _, Demo.world_step 1 _ _ (by decide +kernel), by decide +kernel, by decide +kernel⟩

-- the hypotheses of `C25_completes`: a listener may move the signal that is calling it
example : (Demo.world 1 Demo.inBody).ub = none ∧ userCtx ((Demo.world 1 Demo.inBody).stacks 0) = true ∧
    ((Demo.world 1 Demo.inBody).sigs 0).alive = true ∧ ((Demo.world 1 Demo.inBody).sigs 0).mutex = none ∧
    (Demo.world 1 Demo.inBody).listOf 0 = [0, 1, 2] := by decide +kernel

end Verif
