import Verif.Props.Connect
import Verif.Props.Erase
import Verif.Props.Lifetime

/-!
# C55: running out of memory

`connect` and `signal::disconnect` are followed from the step that makes the call (`w0` to `w1`), through any interleaving of other
threads (`w1` to `w2`), to the step that throws `std::bad_alloc` (`w2` to `w3`).
-/

namespace Verif

variable {E : Env} {w w' : World} {t : Tid}

/-- What user code can see of two worlds is the same, except for listener `s` (if any): the invocation order of every signal, what every handle and
blocker refers to, which listeners exist and their callables, flags and positions, how many owners every tracked object has. -/
structure SameView (s : Option SlotId) (w w' : World) : Prop where
  lists : ∀ g, w'.listOf g = w.listOf g
  conns : w'.cv = w.cv
  scopeds : w'.sv = w.sv
  blockers : w'.bv = w.bv
  slots : ∀ s', some s' ≠ s → w'.slots s' = w.slots s'
  alive : ∀ s', some s' ≠ s → w'.connValid (some s') = w.connValid (some s')
  objs : w'.objs = w.objs

/-- Ownership is the same if lists and blocks are, and so are the frames, except for the top one. -/
theorem SameView.alive_of (I : Inv1 w) (I' : Inv1 w') {s : Option SlotId} (hl : ∀ g, w'.listOf g = w.listOf g)
    (hpin : w'.pins = w.pins) (hb : ∀ b, b < w.nBlks → w'.blks b = w.blks b) (ho : ∀ t', t' ≠ t → w'.stacks t' = w.stacks t') {rest top0 top : List Frame}
    (h0 : w.stacks t = top0 ++ rest) (h1 : w'.stacks t = top ++ rest)
    (ht0 : ∀ f' ∈ top0, (∀ s', f'.slot? = some s' → s = some s') ∧ f'.blk? = none)
    (ht : ∀ f' ∈ top, (∀ s', f'.slot? = some s' → s = some s') ∧ f'.blk? = none) {s' : SlotId} (hs : some s' ≠ s) :
    w'.connValid (some s') = w.connValid (some s') := by
  have key : w'.slotAlive s' = true ↔ w.slotAlive s' = true := by
    rw [slotAlive_iff I, slotAlive_iff I']
    have hbl : ∀ t', ∀ f ∈ w.stacks t', ∀ b, f.blk? = some b → b < w.nBlks := by
      intro t' f hf b hb
      have := I.rng t' f hf
      cases f with
      | emit m pc => cases pc <;> first | exact this.2.2 b hb | cases hb
      | _ => cases hb
    have own : ∀ t', ∀ f0 ∈ w.stacks t', f0 ∈ w'.stacks t' →
        ((f0.slot? = some s' ∨ ∃ b, f0.blk? = some b ∧ s' ∈ w'.blks b) ↔ (f0.slot? = some s' ∨ ∃ b, f0.blk? = some b ∧ s' ∈ w.blks b)) := by
      intro t' f0 hm _
      refine or_congr Iff.rfl ⟨fun ⟨b, h1, h2⟩ => ⟨b, h1, ?_⟩, fun ⟨b, h1, h2⟩ => ⟨b, h1, ?_⟩⟩
      · rw [← hb b (hbl t' f0 hm b h1)]; exact h2
      · rw [hb b (hbl t' f0 hm b h1)]; exact h2
    refine or_congr ⟨fun ⟨g, h⟩ => ⟨g, by rw [← hl g]; exact h⟩, fun ⟨g, h⟩ => ⟨g, by rw [hl g]; exact h⟩⟩ (or_congr ?_ (by rw [hpin]))
    constructor
    · rintro ⟨t', f0, hm, hw⟩
      by_cases e : t' = t
      · subst e
        rw [h1] at hm
        rcases List.mem_append.1 hm with hm | hm
        · rcases hw with hw | ⟨b, hw, -⟩
          · exact absurd ((ht f0 hm).1 s' hw).symm hs
          · rw [(ht f0 hm).2] at hw; cases hw
        · have hm0 : f0 ∈ w.stacks t' := by rw [h0]; exact List.mem_append_right _ hm
          exact ⟨t', f0, hm0, (own t' f0 hm0 (by rw [h1]; exact List.mem_append_right _ hm)).1 hw⟩
      · have hm0 : f0 ∈ w.stacks t' := by rw [← ho t' e]; exact hm
        exact ⟨t', f0, hm0, (own t' f0 hm0 hm).1 hw⟩
    · rintro ⟨t', f0, hm, hw⟩
      by_cases e : t' = t
      · subst e
        rw [h0] at hm
        rcases List.mem_append.1 hm with hm | hm
        · rcases hw with hw | ⟨b, hw, -⟩
          · exact absurd ((ht0 f0 hm).1 s' hw).symm hs
          · rw [(ht0 f0 hm).2] at hw; cases hw
        · have hm0 : f0 ∈ w'.stacks t' := by rw [h1]; exact List.mem_append_right _ hm
          exact ⟨t', f0, hm0, (own t' f0 (by rw [h0]; exact List.mem_append_right _ hm) hm0).2 hw⟩
      · have hm0 : f0 ∈ w'.stacks t' := by rw [ho t' e]; exact hm
        exact ⟨t', f0, hm0, (own t' f0 hm hm0).2 hw⟩
  simp only [World.connValid]
  cases h1 : w'.slotAlive s' <;> cases h2 : w.slotAlive s' <;> simp_all

/-- Taking the mutex, detaching the list, running out of memory, and dying change nothing that can be seen. -/
theorem SameView.of (h : Reachable E w) {l : Label} (hs : step E w l = some w') {f : Frame} {rest : List Frame}
    (hst : w.stacks l.tid = f :: rest) (hf : (∃ g s d pc, f = .add g s d pc ∧ (pc = .write → l = .fail l.tid) ∧ pc ≠ .unlock) ∨
      ∃ g tgt pc, f = .erase g tgt pc ∧ (pc = .wait ∨ pc = .detach ∨ pc = .clone)) : SameView f.slot? w w' := by
  have I := h.full.i
  have I' := (h.step hs).full.i
  obtain ⟨-, -, R⟩ := step_inv hs
  have ho := fun t' (e : t' ≠ l.tid) => stacks_other R e
  have fb : f.blk? = none := by rcases hf with ⟨g, s, d, pc, rfl, -⟩ | ⟨g, tgt, pc, rfl, -⟩ <;> rfl
  have key : (∀ g, w'.listOf g = w.listOf g) ∧ w'.cv = w.cv ∧ w'.sv = w.sv ∧ w'.bv = w.bv ∧ w'.slots = w.slots ∧ w'.objs = w.objs ∧
      (∀ b, b < w.nBlks → w'.blks b = w.blks b) ∧
      ((∃ u, w' = w.setUB u) ∨ ∃ top, w'.stacks l.tid = top ++ rest ∧ ∀ f' ∈ top, (∀ s', f'.slot? = some s' → f.slot? = some s') ∧ f'.blk? = none) := by
    have bad : userCtx (w.stacks l.tid) = true → False := fun hu => by
      rw [hst] at hu; rcases hf with ⟨g, s, d, pc, rfl, -⟩ | ⟨g, tgt, pc, rfl, -⟩ <;> cases hu
    cases l with
    | call t a => exact (bad (step_call hs).2.2.1).elim
    | ret t v =>
      obtain ⟨-, -, s, o, m, b, pos, acc, rest', h1, -⟩ := step_ret hs
      rw [show w.stacks t = _ from hst] at h1; injection h1 with h1
      rcases hf with ⟨g, s, d, pc, rfl, -⟩ | ⟨g, tgt, pc, rfl, -⟩ <;> cases h1
    | throw t c =>
      obtain ⟨-, -, s, o, m, b, pos, acc, rest', h1, -⟩ := step_throw hs
      rw [show w.stacks t = _ from hst] at h1; injection h1 with h1
      rcases hf with ⟨g, s, d, pc, rfl, -⟩ | ⟨g, tgt, pc, rfl, -⟩ <;> cases h1
    | ctl t =>
      obtain ⟨-, -, rfl, -⟩ := step_ctl hs
      exact ⟨fun _ => rfl, rfl, rfl, rfl, rfl, rfl, fun _ _ => rfl, .inl ⟨_, rfl⟩⟩
    | fail t =>
      rcases step_fail_cases hs with ⟨rfl, -⟩ | ⟨f', rest', g, s, b, h1, h2, -, rfl⟩
      · exact ⟨fun _ => rfl, rfl, rfl, rfl, rfl, rfl, fun _ _ => rfl, .inl ⟨_, rfl⟩⟩
      · rw [show w.stacks t = _ from hst] at h1; injection h1 with h1 h3; subst h1 h3
        refine ⟨fun g' => ?_, rfl, rfl, rfl, rfl, rfl, fun _ _ => rfl, .inr ⟨[], upd_same _ _ _, by simp⟩⟩
        by_cases e : g' = g
        · subst e; simp [World.listOf, World.emitEv, World.setStack, World.setMutex, upd_apply]
        · simp [World.listOf, World.emitEv, World.setStack, World.setMutex, upd_apply, e]
    | run t =>
      have acq : ∀ {g : SigId} {f' : Frame}, acquire w t g (f' :: rest) = some w' →
          ((∀ s', f'.slot? = some s' → f.slot? = some s') ∧ f'.blk? = none) →
          (∀ g, w'.listOf g = w.listOf g) ∧ w'.cv = w.cv ∧ w'.sv = w.sv ∧ w'.bv = w.bv ∧ w'.slots = w.slots ∧ w'.objs = w.objs ∧
          (∀ b, b < w.nBlks → w'.blks b = w.blks b) ∧
          ((∃ u, w' = w.setUB u) ∨ ∃ top, w'.stacks t = top ++ rest ∧
            ∀ f' ∈ top, (∀ s', f'.slot? = some s' → f.slot? = some s') ∧ f'.blk? = none) := by
        intro g f' ha hf'
        unfold acquire at ha
        split at ha
        · injection ha with ha; subst ha
          exact ⟨fun _ => rfl, rfl, rfl, rfl, rfl, rfl, fun _ _ => rfl, .inl ⟨_, rfl⟩⟩
        · split at ha
          · cases ha
          · injection ha with ha; subst ha
            refine ⟨fun g' => ?_, rfl, rfl, rfl, rfl, rfl, fun _ _ => rfl, .inr ⟨[f'], upd_same _ _ _, by simpa using hf'⟩⟩
            by_cases e : g' = g
            · subst e; simp [World.listOf, World.setStack, World.setMutex, upd_apply]
            · simp [World.listOf, World.setStack, World.setMutex, upd_apply, e]
      have det : ∀ {g : SigId} {b : BlkId} {f' : Frame}, (w.sigs g).list = some b → w' = (cloneBlk w g b).setStack t (f' :: rest) →
          ((∀ s', f'.slot? = some s' → f.slot? = some s') ∧ f'.blk? = none) →
          (∀ g, w'.listOf g = w.listOf g) ∧ w'.cv = w.cv ∧ w'.sv = w.sv ∧ w'.bv = w.bv ∧ w'.slots = w.slots ∧ w'.objs = w.objs ∧
          (∀ b, b < w.nBlks → w'.blks b = w.blks b) ∧
          ((∃ u, w' = w.setUB u) ∨ ∃ top, w'.stacks t = top ++ rest ∧
            ∀ f' ∈ top, (∀ s', f'.slot? = some s' → f.slot? = some s') ∧ f'.blk? = none) := by
        intro g b f' hb e hf'
        subst e
        have lt : ∀ g' b', (w.sigs g').list = some b' → b' ≠ w.nBlks := fun g' b' e => Nat.ne_of_lt (I.i1.lst g' b' e)
        unfold cloneBlk
        refine ⟨fun g' => ?_, rfl, rfl, rfl, rfl, rfl, fun b' hb' => ?_, .inr ⟨[f'], upd_same _ _ _, by simpa using hf'⟩⟩
        · by_cases e : g' = g
          · subst e; simp [World.listOf, World.setStack, World.setList, World.setBlk, upd_apply, hb]
          · cases e' : (w.sigs g').list with
            | none => simp [World.listOf, World.setStack, World.setList, World.setBlk, upd_apply, e, e']
            | some b' => simp [World.listOf, World.setStack, World.setList, World.setBlk, upd_apply, e, e', lt g' b' e']
        · simp only [World.setStack, World.setList, World.setBlk, upd_apply]
          rw [if_neg (Nat.ne_of_lt hb')]
      have tst : ∀ {f' : Frame}, w' = w.setStack t (f' :: rest) →
          ((∀ s', f'.slot? = some s' → f.slot? = some s') ∧ f'.blk? = none) →
          (∀ g, w'.listOf g = w.listOf g) ∧ w'.cv = w.cv ∧ w'.sv = w.sv ∧ w'.bv = w.bv ∧ w'.slots = w.slots ∧ w'.objs = w.objs ∧
          (∀ b, b < w.nBlks → w'.blks b = w.blks b) ∧
          ((∃ u, w' = w.setUB u) ∨ ∃ top, w'.stacks t = top ++ rest ∧
            ∀ f' ∈ top, (∀ s', f'.slot? = some s' → f.slot? = some s') ∧ f'.blk? = none) := by
        intro f' e hf'
        subst e
        exact ⟨fun g' => rfl, rfl, rfl, rfl, rfl, rfl, fun _ _ => rfl, .inr ⟨[f'], upd_same _ _ _, by simpa using hf'⟩⟩
      have nul : some (w.setUB .nullList) = some w' →
          (∀ g, w'.listOf g = w.listOf g) ∧ w'.cv = w.cv ∧ w'.sv = w.sv ∧ w'.bv = w.bv ∧ w'.slots = w.slots ∧ w'.objs = w.objs ∧
          (∀ b, b < w.nBlks → w'.blks b = w.blks b) ∧
          ((∃ u, w' = w.setUB u) ∨ ∃ top, w'.stacks t = top ++ rest ∧
            ∀ f' ∈ top, (∀ s', f'.slot? = some s' → f.slot? = some s') ∧ f'.blk? = none) := by
        intro e; injection e with e; subst e
        exact ⟨fun _ => rfl, rfl, rfl, rfl, rfl, rfl, fun _ _ => rfl, .inl ⟨_, rfl⟩⟩
      obtain ⟨-, -, hr⟩ := step_run hs
      rcases hf with ⟨g, s, d, pc, rfl, hw, hu⟩ | ⟨g, tgt, pc, rfl, rfl | rfl | rfl⟩
      · simp only [runTop, show w.stacks t = _ from hst] at hr
        cases pc with
        | wait => exact acq hr ⟨fun _ h => h, rfl⟩
        | detach =>
          simp only [runAdd] at hr
          split at hr
          · exact nul hr
          · injection hr with hr; refine tst hr.symm ⟨fun _ h => ?_, rfl⟩; revert h; split <;> exact id
        | clone =>
          simp only [runAdd] at hr
          split at hr
          · exact nul hr
          · rename_i hb; injection hr with hr; exact det hb hr.symm ⟨fun _ h => h, rfl⟩
        | write => cases hw rfl
        | unlock => exact absurd rfl hu
      · simp only [runTop, show w.stacks t = _ from hst] at hr
        exact acq hr ⟨fun _ h => h, rfl⟩
      · simp only [runTop, show w.stacks t = _ from hst, runErase] at hr
        split at hr
        · exact nul hr
        · injection hr with hr; exact tst hr.symm ⟨fun _ h => h, rfl⟩
      · simp only [runTop, show w.stacks t = _ from hst, runErase] at hr
        split at hr
        · exact nul hr
        · rename_i hb; injection hr with hr; exact det hb hr.symm ⟨fun _ h => h, rfl⟩
  obtain ⟨k1, k2, k3, k4, k5, k6, k7, k8⟩ := key
  refine ⟨k1, k2, k3, k4, fun s' _ => by rw [k5], fun s' hs' => ?_, k6⟩
  rcases k8 with ⟨u, rfl⟩ | ⟨top, k8, k9⟩
  · rfl
  · have hpin : w'.pins = w.pins := (pins_step R).resolve_right fun ⟨hu, _⟩ => by
      rw [hst] at hu; rcases hf with ⟨g, s, d, pc, rfl, -⟩ | ⟨g, tgt, pc, rfl, -⟩ <;> cases hu
    exact alive_of I.i1 I'.i1 k1 hpin k7 ho (top0 := [f]) hst k8 (by simp [fb]) k9 hs'

theorem enter_step (R : StepR E w t w') {e : EmId} {s : SlotId} {a : List Arg} (h : Event.enter e s a ∈ w'.log) :
    Event.enter e s a ∈ w.log ∨ ∃ pc rest, w.stacks t = .call s pc :: rest := by
  cases R
  case callEnter s' pc o m b pos acc rest hst hpc =>
    simp only [World.setStack, World.emitEv, List.mem_cons] at h
    rcases h with h | h
    · injection h with _ h2; subst h2; exact .inr ⟨_, _, hst⟩
    · exact .inl h
  case det f f' rest g b hst hf hlst =>
    have : ((cloneBlk w g b).setStack t (f' :: rest)).log = w.log := by
      simp only [World.setStack]; rfl
    rw [this] at h; exact .inl h
  all_goals
    left
    simpa [World.setUB, World.setH, World.setStack, World.emitEv, World.setBlocked, World.setMutex, World.setIndex, World.setBlk,
      World.setConnected, World.setList, (removeAt_same _ _ _).2.2.2.2.2.2.2.2.2.2.1] using h

/-- A listener that has been called was in a list before. -/
theorem enter_added (h : Reachable E w) {e : EmId} {s : SlotId} {a : List Arg} (he : Event.enter e s a ∈ w.log) :
    ∃ g, Event.added g s ∈ w.log := by
  obtain ⟨n, h⟩ := h
  induction h with
  | refl => simp [World.init] at he
  | @tail w1 w2 l hs _ hl ih =>
    obtain ⟨-, -, R⟩ := step_inv hl
    obtain ⟨evs, e⟩ := log_grows R
    rw [e]
    rcases enter_step R he with he | ⟨pc, rest, hst⟩
    · obtain ⟨g, hg⟩ := ih he
      exact ⟨g, List.mem_append_right _ hg⟩
    · have r1 : Reachable E w1 := ⟨n, hs⟩
      obtain ⟨g, hg⟩ := r1.inv7.tch s ⟨l.tid, .inr ⟨_, by rw [hst]; exact List.mem_cons_self, .inl rfl⟩⟩
      exact ⟨g, List.mem_append_right _ hg⟩

/-- A listener that nobody owns and that never was in a list will never be in one. -/
theorem never_added (h : Reachable E w) {s : SlotId} (hlt : s < w.nSlots) (hd : w.slotAlive s = false)
    (ha : w.log.countP (Event.adds s) = 0) {P : Label → Prop} (hs : Steps E P w w') :
    w'.slotAlive s = false ∧ w'.log.countP (Event.adds s) = 0 := by
  have : s < w'.nSlots ∧ w'.slotAlive s = false ∧ w'.log.countP (Event.adds s) = 0 := by
    induction hs with
    | refl => exact ⟨hlt, hd, ha⟩
    | @tail w1 w2 l hs' _ hl ih =>
      have r1 := h.steps hs'
      have I := r1.full.i
      have I' := (r1.step hl).full.i
      obtain ⟨-, -, R⟩ := step_inv hl
      obtain ⟨i1, i2, i3⟩ := ih
      refine ⟨Nat.lt_of_lt_of_le i1 (fixed R).nSlots, slot_dead_stays I I'.i1 R i1 i2, ?_⟩
      cases listEff I.i1 I.i2 R with
      | same _ _ hlog =>
        obtain ⟨evs, e, hq⟩ := hlog
        rw [e, List.countP_append, i3, Nat.add_zero, List.countP_eq_zero]
        intro ev hev
        have := hq ev hev
        cases ev <;> simp_all [Event.adds, Event.isList]
      | add g s' b dest rest hst hb hl' hn hlog =>
        rw [hlog, List.countP_cons, i3]
        have : s' ≠ s := by
          rintro rfl
          rw [(slotAlive_iff I.i1).2 (.inr (.inl ⟨l.tid, _, by rw [hst]; exact List.mem_cons_self, .inl rfl⟩))] at i2
          cases i2
        simp [Event.adds, this]
      | rem _ _ _ ev _ _ _ _ he hlog =>
        rw [hlog, List.countP_cons, i3]
        rcases he with rfl | ⟨_, rfl⟩ <;> simp [Event.adds]
      | move _ _ _ _ _ _ _ _ hlog => rw [hlog, List.countP_cons, i3]; simp [Event.adds]
      | destroy _ _ _ _ hlog => rw [hlog, List.countP_cons, i3]; simp [Event.adds]
  exact this.2

/-- The step that logs a `failed`. -/
theorem failed_step {l : Label} {g : SigId} {s : Option SlotId} (hs : step E w l = some w') (hl : w'.log = .failed t g s :: w.log) :
    l = .fail t ∧ ∃ f rest b, w.stacks t = f :: rest ∧ f.allocs = some (g, s) ∧ (w.sigs g).list = some b ∧
      w' = ((w.setMutex g none).setStack t rest).emitEv (.failed t g s) := by
  obtain ⟨-, -, R⟩ := step_inv hs
  obtain ⟨ht, f, rest, hst, hf, -⟩ := failed_inv R hl
  have hlbl : l = .fail t := by
    subst ht
    rcases Frame.allocs_inv hf with ⟨s', dest, pc, rfl, rfl⟩ | ⟨tgt, rfl, rfl⟩
    · rcases add_step hst hs with ⟨pc', -, h2 | ⟨-, h2⟩⟩ | ⟨-, -, h2, -⟩ | ⟨-, h2, -⟩
      · rw [hl] at h2; simp at h2
      · rw [hl] at h2; simp at h2
      · rw [hl] at h2; simp at h2
      · exact h2
    · rcases erase_step hst hs with ⟨-, h2 | ⟨v, h2⟩⟩ | ⟨r, h2, -⟩ | ⟨-, h2, -⟩
      · rw [hl] at h2; simp at h2
      · rw [hl] at h2; simp at h2
      · cases h2
      · exact h2
  subst hlbl
  refine ⟨rfl, ?_⟩
  rcases step_fail_cases hs with ⟨rfl, -⟩ | ⟨f', rest', g', s', b, h1, h2, h3, rfl⟩
  · simp [World.setUB] at hl
  · simp only [World.setStack, World.emitEv, World.setMutex, List.cons.injEq, Event.failed.injEq, and_true, true_and] at hl
    obtain ⟨rfl, rfl⟩ := hl
    exact ⟨f', rest', b, h1, h2, h3, rfl⟩

/-- A step of thread `t` on a way from `w1` to `w2`, from `wa` to `wb`. -/
def Between (E : Env) (t : Tid) (w1 w2 wa wb : World) : Prop :=
  ∃ l : Label, Steps E (fun _ => True) w1 wa ∧ l.tid = t ∧ step E wa l = some wb ∧ Steps E (fun _ => True) wb w2

/-- C55 for `connect`: when it throws `std::bad_alloc`, it has had no effect. No step of the call, however the threads interleave, changed
anything that can be seen; control is back with the caller, the mutex is free; and the listener it made is gone, in no list, and will never be called. -/
theorem C55_connect_partial {w0 w1 w2 w3 : World} {g g' : SigId} {fn : Callable} {cs : List Bool} {c b : Bool} {d : Dest} {s : SlotId}
    {l : Label} {evs : List Event} (h : Reachable E w0)
    (hc : step E w0 (.call t (.connect g fn cs c b d)) = some w1) (hs : Steps E (fun _ => True) w1 w2)
    (he : w2.log = evs ++ w0.log) (hq : ∀ ev ∈ evs, ev.endsConnect t = false)
    (hr : step E w2 l = some w3) (hl : w3.log = .failed t g' (some s) :: w2.log) :
    g' = g ∧ w3.ub = none ∧ w3.stacks t = w0.stacks t ∧ (w3.sigs g).mutex = none ∧
    (SameView (some s) w0 w1 ∧ (∀ wa wb, Between E t w1 w2 wa wb → SameView (some s) wa wb) ∧ SameView (some s) w2 w3) ∧
    ∀ w4, Steps E (fun _ => True) w3 w4 →
      w4.connValid (some s) = false ∧ (∀ g, s ∉ w4.listOf g) ∧ ∀ e a, Event.enter e s a ∉ w4.log := by
  obtain ⟨pc, hst, -, hcr, hfn, hn⟩ := adding h hc hs evs he hq
  have r1 := h.step hc
  have r2 : Reachable E w2 := r1.steps hs
  have r3 : Reachable E w3 := r2.step hr
  obtain ⟨rfl, f, rest, b', h1, h2, h3, e3⟩ := failed_step hr hl
  rw [hst] at h1; injection h1 with h1 h4; subst h1 h4
  have hp : (pc = .clone ∨ pc = .write) ∧ g = g' ∧ w0.nSlots = s := by
    cases pc <;> simp [Frame.allocs] at h2 <;> simp [h2]
  obtain ⟨hp, rfl, rfl⟩ := hp
  have cnt : w2.log.countP (Event.adds w0.nSlots) = 0 := r2.full.i.i3.pend t g _ (by
    rw [hst]; rcases hp with rfl | rfl <;> rfl)
  have nadd : ∀ {wa : World} {evs' : List Event}, w2.log = evs' ++ wa.log → ∀ g', Event.added g' w0.nSlots ∉ wa.log := by
    intro wa evs' e g' hm
    have := List.countP_eq_zero.1 cnt (.added g' w0.nSlots) (by rw [e]; exact List.mem_append_right _ hm)
    simp [Event.adds] at this
  have hub : w3.ub = none := by rw [e3]; exact (step_fail hr).1
  have dead : w3.slotAlive w0.nSlots = false := by
    rw [← Bool.not_eq_true, slotAlive_iff r3.full.i.i1]
    have K := r2.inv7.add t
    rw [hst] at K
    rintro (⟨g', hg'⟩ | ⟨t', f, hf, hw⟩ | hpin)
    · have := (r3.full.i.i3.listed g' _ hg').1
      rw [hl, List.countP_cons, cnt] at this; simp [Event.adds] at this
    · have old : ∀ f ∈ w0.stacks t, f.slot? ≠ some w0.nSlots := by
        intro f hf e
        have := h.full.i.i1.rng t f hf
        unfold Frame.slot? at e
        split at e <;> simp only [Option.some.injEq, reduceCtorEq] at e <;> subst e <;> simp only [Frame.inRange] at this <;> omega
      have hst3 : w3.stacks t = w0.stacks t := by rw [e3]; exact upd_same _ _ _
      have ho : t' ≠ t → w3.stacks t' = w2.stacks t' := fun e => stacks_other (step_inv hr).2.2 e
      have hm : f ∈ w2.stacks t' := by
        by_cases e : t' = t
        · subst e; rw [hst3] at hf; rw [hst]; exact List.mem_cons_of_mem _ hf
        · rw [← ho e]; exact hf
      rcases hw with hw | ⟨b1, h5, h6⟩
      · by_cases e : t' = t
        · subst e; rw [hst3] at hf; exact old f hf hw
        · by_cases hd : f.who = some w0.nSlots
          · exact K.1 ⟨t', .inr ⟨f, hm, .inl hd⟩⟩
          · obtain ⟨rest, hr'⟩ := only_top (r2.full.i.i1.stk t') hm (by cases f <;> first | rfl | cases hw) (by rintro m b pos acc rfl; cases hw)
            have : topAdd (w2.stacks t') = some w0.nSlots := by
              rw [hr']
              unfold Frame.slot? at hw
              split at hw <;> simp_all [topAdd, Frame.who]
            exact e (r2.inv7.uni t' t _ this (by rw [hst]; rfl))
      · exact K.1 ⟨t', .inr ⟨f, hm, .inr ⟨b1, h5, by rw [e3] at h6; exact h6⟩⟩⟩
    · exact K.1 ⟨t, .inl (.inr (.inr (.inr (by rw [e3] at hpin; exact hpin))))⟩
  refine ⟨rfl, hub, by rw [e3]; exact upd_same _ _ _, by rw [e3]; simp [World.setStack, World.emitEv, World.setMutex, upd_same],
    ⟨?_, ?_, ?_⟩, ?_⟩
  · obtain ⟨-, -, -, hop⟩ := step_call hc
    simp only [userOp] at hop
    split at hop
    · injection hop with hop
      have ho : ∀ t', t' ≠ t → w1.stacks t' = w0.stacks t' := fun t' e => stacks_other (step_inv hc).2.2 e
      have hst1 : w1.stacks t = [.add g w0.nSlots d .wait] ++ w0.stacks t := by rw [← hop]; exact upd_same _ _ _
      have e1 : ∀ g, w1.listOf g = w0.listOf g := by rw [← hop]; exact fun _ => rfl
      refine ⟨e1, by rw [← hop]; rfl, by rw [← hop]; rfl, by rw [← hop]; rfl, fun s' hs' => ?_, fun s' hs' => ?_, by rw [← hop]; rfl⟩
      · rw [← hop]
        simp only [World.emitEv, World.setStack, upd_apply]
        rw [if_neg fun e => hs' (congrArg some e)]
      · exact SameView.alive_of h.full.i.i1 r1.full.i.i1 e1 (by rw [← hop]; rfl) (fun b _ => by rw [← hop]; rfl) ho (top0 := []) rfl hst1 (by simp)
          (by simp [Frame.slot?, Frame.blk?]) hs'
    · cases hop
  · rintro wa wb ⟨l, ha, rfl, hl', hb⟩
    have ra := r1.steps ha
    obtain ⟨e0, k0⟩ := Steps.log_mono ((Steps.refl w0 |>.tail (P := fun _ => True) _ trivial hc).trans ha)
    obtain ⟨e1, k1⟩ := Steps.log_mono hb
    obtain ⟨e2, k2⟩ := Steps.log_mono ((Steps.refl wa |>.tail (P := fun _ => True) _ trivial hl').trans hb)
    have ee : evs = e2 ++ e0 := by
      refine List.append_cancel_right (he.symm.trans (k2.trans ?_)); rw [k0, List.append_assoc]
    obtain ⟨pc', hst', hA, -⟩ := adding h hc ha e0 k0 fun ev hm => hq ev (by rw [ee]; exact List.mem_append_right _ hm)
    have hu : pc' ≠ .unlock := by
      rintro rfl
      obtain ⟨mid, old, h5, -⟩ := hA rfl
      exact nadd k2 g (by rw [h5]; simp)
    have hv : (Frame.add g w0.nSlots d pc').slot? = some w0.nSlots := by cases pc' <;> first | rfl | exact absurd rfl hu
    rw [← hv]
    refine SameView.of ra hl' hst' (.inl ⟨g, w0.nSlots, d, pc', rfl, ?_, hu⟩)
    · rintro rfl
      cases l with
      | fail t => rfl
      | ctl t =>
        obtain ⟨-, -, -, f0, f1, rest', g', b', h1, h2, -⟩ := step_ctl hl'
        rw [show wa.stacks t = _ from hst'] at h1; cases h1; cases h2
      | call t a => have hu := (step_call hl').2.2.1; rw [show wa.stacks t = _ from hst'] at hu; cases hu
      | ret t v =>
        obtain ⟨-, -, s, o, m, b, pos, acc, rest', h1, -⟩ := step_ret hl'
        rw [show wa.stacks t = _ from hst'] at h1; cases h1
      | throw t v =>
        obtain ⟨-, -, s, o, m, b, pos, acc, rest', h1, -⟩ := step_throw hl'
        rw [show wa.stacks t = _ from hst'] at h1; cases h1
      | run t =>
        exfalso
        obtain ⟨-, -, hr'⟩ := step_run hl'
        simp only [runTop, show wa.stacks t = _ from hst', runAdd] at hr'
        split at hr'
        · rename_i hn; exact ra.full.i.i2.wlst t g (by rw [show wa.stacks t = _ from hst']; rfl) hn
        · injection hr' with hr'
          exact nadd k1 g (by rw [← hr']; simp [World.emitEv])
  · have hv : (Frame.add g w0.nSlots d pc).slot? = some w0.nSlots := by rcases hp with rfl | rfl <;> rfl
    rw [← hv]
    exact SameView.of r2 hr hst (.inl ⟨g, w0.nSlots, d, pc, rfl, fun _ => rfl, by rcases hp with rfl | rfl <;> simp⟩)
  · intro w4 h4
    have r4 := r3.steps h4
    obtain ⟨d1, d2⟩ := never_added r3 (by rw [e3]; exact hn) dead (by rw [hl, List.countP_cons, cnt]; simp [Event.adds]) h4
    refine ⟨d1, fun g' hg' => ?_, fun e a hm => ?_⟩
    · rw [(slotAlive_iff r4.full.i.i1).2 (.inl ⟨g', hg'⟩)] at d1; cases d1
    · obtain ⟨g', hg'⟩ := enter_added r4 hm
      have := List.countP_eq_zero.1 d2 _ hg'
      simp [Event.adds] at this

/-- Once `erase` is past the copying of the list, it stays so until the call ends. -/
theorem erase_past {w1 w2 : World} {g : SigId} {tgt : Option Callable} {pc : ErasePc} {rest : List Frame}
    (hst : w1.stacks t = .erase g tgt pc :: rest) (hp : pc ≠ .wait ∧ pc ≠ .detach ∧ pc ≠ .clone) (hs : Steps E (fun _ => True) w1 w2) :
    ∀ evs, w2.log = evs ++ w1.log → (∀ ev ∈ evs, ev.endsErase t = false) →
      ∃ pc', w2.stacks t = .erase g tgt pc' :: rest ∧ pc' ≠ .wait ∧ pc' ≠ .detach ∧ pc' ≠ .clone := by
  induction hs with
  | refl => exact fun _ _ _ => ⟨pc, hst, hp⟩
  | @tail w2 w3 l hs' _ hl ih =>
    intro evs he hq
    obtain ⟨ev1, e1⟩ := Steps.log_mono hs'
    obtain ⟨ev0, e0⟩ := log_grows (step_inv hl).2.2
    have ee : evs = ev0 ++ ev1 := by
      refine List.append_cancel_right (he.symm.trans (e0.trans ?_)); rw [e1, List.append_assoc]
    obtain ⟨pc', h1, h2, h3, h3c⟩ := ih ev1 e1 fun ev hm => hq ev (by rw [ee]; exact List.mem_append_right _ hm)
    by_cases ht : t = l.tid
    · subst ht
      rcases erase_step h1 hl with ⟨⟨pc2, h4⟩, -⟩ | ⟨r, rfl, rfl⟩ | ⟨h4, -⟩
      · refine ⟨pc2, h4, ?_⟩
        have hrun : l = .run l.tid := by
          cases l with
          | run t => rfl
          | ctl t =>
            obtain ⟨-, -, -, f0, f1, rest', g', b', h5, h6, -⟩ := step_ctl hl
            rw [show w2.stacks t = _ from h1] at h5; cases h5
            cases pc' <;> first | exact absurd rfl h3c | cases h6
          | fail t =>
            obtain ⟨-, -, hf⟩ := step_fail hl
            simp only [allocFail, show w2.stacks t = _ from h1] at hf
            cases pc' <;> simp_all
          | call t a => have hu := (step_call hl).2.2.1; rw [show w2.stacks t = _ from h1] at hu; cases hu
          | ret t v =>
            obtain ⟨-, -, s, o, m, b, pos, acc, rest', h1', -⟩ := step_ret hl
            rw [show w2.stacks t = _ from h1] at h1'; cases h1'
          | throw t v =>
            obtain ⟨-, -, s, o, m, b, pos, acc, rest', h1', -⟩ := step_throw hl
            rw [show w2.stacks t = _ from h1] at h1'; cases h1'
        generalize l.tid = t at *
        subst hrun
        obtain ⟨-, -, hr⟩ := step_run hl
        simp only [runTop, h1] at hr
        have fin : ∀ {pc3 : ErasePc}, w3.stacks t = .erase g tgt pc3 :: rest → pc3 ≠ .wait ∧ pc3 ≠ .detach ∧ pc3 ≠ .clone →
            pc2 ≠ .wait ∧ pc2 ≠ .detach ∧ pc2 ≠ .clone := by
          intro pc3 h5 h6
          rw [h4] at h5; injection h5 with h5; injection h5 with _ _ h5; subst h5; exact h6
        cases pc' with
        | wait => exact absurd rfl h2
        | detach => exact absurd rfl h3
        | clone => exact absurd rfl h3c
        | unlock r => 
          simp only [runErase] at hr
          injection hr with hr; subst hr
          have : (((w2.setMutex g none).setStack t rest).emitEv (.eraseRet t g tgt r)).stacks t = rest := upd_same _ _ _
          rw [this] at h4
          exact absurd (congrArg List.length h4) (by simp)
        | scan i n =>
          simp only [runErase] at hr
          split at hr
          · injection hr with hr; subst hr; exact fin h1 ⟨by simp, by simp, by simp⟩
          · split at hr
            · injection hr with hr; subst hr; exact fin (upd_same _ _ _) ⟨by simp, by simp, by simp⟩
            · split at hr
              · injection hr with hr; subst hr; exact fin (upd_same _ _ _) ⟨by simp, by simp, by simp⟩
              · injection hr with hr; subst hr; exact fin (upd_same _ _ _) ⟨by simp, by simp, by simp⟩
              · injection hr with hr; subst hr; exact fin (upd_same _ _ _) ⟨by simp, by simp, by simp⟩
      · exfalso
        have : ev0 = [.eraseRet l.tid g tgt r] := List.append_cancel_right (e0.symm.trans rfl)
        exact absurd (hq (.eraseRet l.tid g tgt r) (by rw [ee, this]; simp)) (by simp [Event.endsErase])
      · exact absurd h4 h3c
    · exact ⟨pc', by rw [stacks_other (step_inv hl).2.2 ht]; exact h1, h2, h3, h3c⟩

/-- C55 for `signal::disconnect`: when it throws `std::bad_alloc`, it has had no effect: no step of the call, however the threads
interleave, changed anything that can be seen; control is back with the caller and the mutex is free. -/
theorem C55_erase_partial {w0 w1 w2 w3 : World} {g g' : SigId} {tgt : Option Callable} {l : Label} {evs : List Event} (h : Reachable E w0)
    (hc : step E w0 (.call t (.sigDisconnect g tgt)) = some w1) (hs : Steps E (fun _ => True) w1 w2)
    (he : w2.log = evs ++ w0.log) (hq : ∀ ev ∈ evs, ev.endsErase t = false)
    (hr : step E w2 l = some w3) (hl : w3.log = .failed t g' none :: w2.log) :
    g' = g ∧ w3.ub = none ∧ w3.stacks t = w0.stacks t ∧ (w3.sigs g).mutex = none ∧
    SameView none w0 w1 ∧ (∀ wa wb, Between E t w1 w2 wa wb → SameView none wa wb) ∧ SameView none w2 w3 := by
  obtain ⟨⟨pc, hst⟩, -⟩ := erasing h hc hs evs he hq
  have r1 := h.step hc
  have r2 : Reachable E w2 := r1.steps hs
  have r3 : Reachable E w3 := r2.step hr
  obtain ⟨rfl, f, rest, b', h1, h2, h3, e3⟩ := failed_step hr hl
  rw [hst] at h1; injection h1 with h1 h4; subst h1 h4
  have hp : pc = .clone ∧ g = g' := by
    cases pc <;> simp [Frame.allocs] at h2 <;> simp [h2]
  obtain ⟨rfl, rfl⟩ := hp
  refine ⟨rfl, by rw [e3]; exact (step_fail hr).1, by rw [e3]; exact upd_same _ _ _,
    by rw [e3]; simp [World.setStack, World.emitEv, World.setMutex, upd_same], ?_, ?_, ?_⟩
  · obtain ⟨-, -, -, hop⟩ := step_call hc
    simp only [userOp] at hop
    split at hop
    · injection hop with hop
      have ho : ∀ t', t' ≠ t → w1.stacks t' = w0.stacks t' := fun t' e => stacks_other (step_inv hc).2.2 e
      have hst1 : w1.stacks t = [.erase g tgt .wait] ++ w0.stacks t := by rw [← hop]; exact upd_same _ _ _
      have e1 : ∀ g, w1.listOf g = w0.listOf g := by rw [← hop]; exact fun _ => rfl
      refine ⟨e1, by rw [← hop]; rfl, by rw [← hop]; rfl, by rw [← hop]; rfl, fun s' hs' => ?_, fun s' hs' => ?_, by rw [← hop]; rfl⟩
      · rw [← hop]; rfl
      · exact SameView.alive_of h.full.i.i1 r1.full.i.i1 e1 (by rw [← hop]; rfl) (fun b _ => by rw [← hop]; rfl) ho (top0 := []) rfl hst1 (by simp)
          (by simp [Frame.slot?, Frame.blk?]) hs'
    · cases hop
  · rintro wa wb ⟨l, ha, rfl, hl', hb⟩
    have ra := r1.steps ha
    obtain ⟨e0, k0⟩ := Steps.log_mono ((Steps.refl w0 |>.tail (P := fun _ => True) _ trivial hc).trans ha)
    have hs2 := (Steps.refl wa |>.tail (P := fun _ => True) _ trivial hl').trans hb
    obtain ⟨e2, k2⟩ := Steps.log_mono hs2
    have ee : evs = e2 ++ e0 := by
      refine List.append_cancel_right (he.symm.trans (k2.trans ?_)); rw [k0, List.append_assoc]
    obtain ⟨⟨pc', hst'⟩, -⟩ := erasing h hc ha e0 k0 fun ev hm => hq ev (by rw [ee]; exact List.mem_append_right _ hm)
    refine SameView.of ra hl' hst' (.inr ⟨g, tgt, pc', rfl, ?_⟩)
    refine Classical.byContradiction fun hn => ?_
    obtain ⟨pc2, h5, -, -, h6⟩ := erase_past hst' ⟨fun e => hn (.inl e), fun e => hn (.inr (.inl e)), fun e => hn (.inr (.inr e))⟩ hs2 e2 k2 fun ev hm =>
      hq ev (by rw [ee]; exact List.mem_append_left _ hm)
    rw [hst] at h5; injection h5 with h5; injection h5 with _ _ h5; exact h6 h5.symm
  · exact SameView.of r2 hr hst (.inr ⟨g, tgt, .clone, rfl, .inr (.inr rfl)⟩)

/-- A thread about to copy the list of a signal has found, in its last step, that the vector has another owner: a running emission. -/
theorem clone_tested (h : Reachable E w) (hub : w.ub = none) {f f' : Frame} {rest : List Frame} {g : SigId} (hst : w.stacks t = f :: rest)
    (hf : f.det = some (g, f')) :
    ∃ w0 w1 f0 b, Reachable E w0 ∧ step E w0 (.run t) = some w1 ∧ Steps E (fun l => l.tid ≠ t) w1 w ∧
      w0.stacks t = f0 :: rest ∧ f0.tst true = some (g, f) ∧ (w0.sigs g).list = some b ∧
      ∃ t' m pc, Frame.emit m pc ∈ w0.stacks t' ∧ pc.blk? = some b := by
  obtain ⟨n, hs⟩ := h
  induction hs with
  | refl => cases hst
  | @tail w w' l hs' _ hl ih =>
    have hr : Reachable E w := ⟨n, hs'⟩
    have I := hr.full.i
    obtain ⟨hub0, -, R⟩ := step_inv hl
    by_cases ht : l.tid = t
    · have hlk := (Frame.det_locks hf).1
      have key : ∃ f0 b, w.stacks t = f0 :: rest ∧ f0.tst true = some (g, f) ∧ (w.sigs g).list = some b ∧
          w.shared g b = true := by
        rw [ht] at R
        have top : ∀ {f1 : Frame} {rest1 : List Frame}, w'.stacks t = f1 :: rest1 → f1.det = none → False := fun e1 e2 => by
          rw [hst] at e1; injection e1 with e1; rw [e1, e2] at hf; cases hf
        have rl : ∀ {f1 : Frame} {rest1 : List Frame}, w.stacks t = f1 :: rest1 → f1.isCall = false → w'.stacks t = rest1 → False :=
          fun h1 hc e => by
            have := I.i1.stk t; rw [h1] at this
            have := (this.tail hc).topLocks
            rw [← e, hst] at this; change f.locks = none at this; rw [hlk] at this; cases this
        have rl2 : ∀ {s pc m p} {rest1 : List Frame}, w.stacks t = .call s pc :: .emit m p :: rest1 → w'.stacks t = rest1 → False :=
          fun h1 e => by
            have := I.i1.stk t; rw [h1] at this
            have := this.callTail.topLocks
            rw [← e, hst] at this; change f.locks = none at this; rw [hlk] at this; cases this
        have delv : ∀ (c : Comb) (m : Em) (b : BlkId) (pos : Nat) (acc r : Option Val),
            (Frame.emit m (deliver c b pos acc r)).det = none := by
          intro c m b pos acc r; cases c <;> rfl
        have user : userCtx (w.stacks t) = true → w'.stacks t = w.stacks t → False := fun hu e => by
          have := userCtx_topLocks hu
          rw [← e, hst] at this; change f.locks = none at this; rw [hlk] at this; cases this
        cases R
        case ub => cases hub
        case acq f0 f1 rest1 g1 h1 hf1 ha hm =>
          refine (top (upd_same _ _ _) ?_).elim
          unfold Frame.acq at hf1; split at hf1 <;> simp at hf1 <;> obtain ⟨rfl, rfl⟩ := hf1 <;> rfl
        case det f0 f1 rest1 g1 b h1 hf1 hl1 =>
          refine (top (f1 := f1) (upd_same _ _ _) ?_).elim
          unfold Frame.det at hf1; split at hf1 <;> simp at hf1 <;> obtain ⟨rfl, rfl⟩ := hf1 <;> rfl
        case tst f0 f1 rest1 g1 b h1 hf1 hl1 =>
          have e1 : (w.setStack t (f1 :: rest1)).stacks t = f1 :: rest1 := upd_same _ _ _
          rw [e1] at hst; injection hst with e2 e3; subst e2 e3
          cases hc : w.shared g1 b with
          | true =>
            rw [hc] at hf1
            have : g1 = g := by
              have := (Frame.tst_locks hf1).2.1; rw [hlk] at this; injection this with this; exact this.symm
            subst this
            exact ⟨f0, b, h1, hf1, hl1, hc⟩
          | false =>
            rw [hc] at hf1
            unfold Frame.tst at hf1; split at hf1 <;> simp at hf1 <;> obtain ⟨rfl, rfl⟩ := hf1 <;> cases hf
        all_goals first
          | exact (user ‹_› rfl).elim
          | exact (top (upd_same _ _ _) rfl).elim
          | exact (top (upd_same _ _ _) (delv _ _ _ _ _ _)).elim
          | exact (rl ‹_› rfl (upd_same _ _ _)).elim
          | exact (rl2 ‹_› (upd_same _ _ _)).elim
          | exact (rl ‹_› (Frame.allocs_isCall ‹_›) (upd_same _ _ _)).elim
      obtain ⟨f0, b, h1, h2, h3, h4⟩ := key
      refine ⟨w, w', f0, b, hr, ?_, .refl _, h1, h2, h3, ?_⟩
      · have hlbl : l = .run t := by
          have hu : userCtx (w.stacks t) = false := by
            rw [h1]; unfold Frame.tst at h2; split at h2 <;> first | rfl | cases h2
          cases l with
          | run t' => exact congrArg _ ht
          | call t' a => have := (step_call hl).2.2.1; rw [show t' = t from ht, hu] at this; cases this
          | ret t' v =>
            obtain ⟨-, -, s, o, m, b, pos, acc, rest', h5, -⟩ := step_ret hl
            rw [show t' = t from ht] at h5; rw [h5] at hu; cases hu
          | throw t' v =>
            obtain ⟨-, -, s, o, m, b, pos, acc, rest', h5, -⟩ := step_throw hl
            rw [show t' = t from ht] at h5; rw [h5] at hu; cases hu
          | ctl t' =>
            obtain ⟨-, -, -, f1, f2, rest', g', b', h5, h6, -⟩ := step_ctl hl
            rw [show t' = t from ht, h1] at h5; cases h5
            unfold Frame.tst at h2
            split at h2 <;> first | (cases h6; done) | cases h2
          | fail t' =>
            obtain ⟨-, -, h5⟩ := step_fail hl
            rw [show t' = t from ht] at h5
            unfold Frame.tst at h2
            split at h2 <;> first | (simp [allocFail, h1] at h5; done) | cases h2
        rw [← hlbl]; exact hl
      · simp only [World.shared, World.anyFrame, Bool.or_eq_true, List.any_eq_true, List.mem_range, Bool.and_eq_true, bne_iff_ne,
          beq_iff_eq] at h4
        rcases h4 with ⟨t', -, f1, hf1, hfb⟩ | ⟨g', -, hne, hg'⟩
        · cases f1 with
          | emit m pc => exact ⟨t', m, pc, hf1, by cases pc <;> first | exact hfb | cases hfb⟩
          | _ => cases hfb
        · exact absurd (I.i2.uniq g' g b hg' h3) hne
    · have hst' : w.stacks t = f :: rest := by rw [← stacks_other R (Ne.symm ht)]; exact hst
      obtain ⟨w0, w1, f0, b, k1, k2, k3, k⟩ := ih hub0 hst'
      exact ⟨w0, w1, f0, b, k1, k2, k3.tail l ht hl, k⟩

/-- C55, where the program is terminated instead: the step was one that copies the list of a signal, and the thread has found in its last step before that the
vector of the signal is also the snapshot of a running emission. If it was the vector that could not be allocated, the thread is in the `disconnect()` of
a handle (or the destructor of a `scoped_connection` and so on), which has already marked its listener as disconnected. If it was the control block, it may be
in `connect` or `signal::disconnect` just as well. -/
theorem C55_terminate_partial (h : Reachable E w) {l : Label} (hs : step E w l = some w') (hu : w'.ub = some .terminate) :
    ∃ f0 f g rest w0 w1 b, Reachable E w0 ∧ step E w0 (.run l.tid) = some w1 ∧ Steps E (fun l' => l'.tid ≠ l.tid) w1 w ∧
      w0.stacks l.tid = f0 :: rest ∧ w.stacks l.tid = f :: rest ∧ (w0.sigs g).list = some b ∧
      (∃ t' m pc, Frame.emit m pc ∈ w0.stacks t' ∧ pc.blk? = some b) ∧
      ((∃ s k, f0 = .disc s k (.crit g .detach) ∧ f = .disc s k (.crit g .clone) ∧ Event.exch s true ∈ w.log ∧ (l = .fail l.tid ∨ l = .ctl l.tid)) ∨
       (∃ s d, f0 = .add g s d .detach ∧ f = .add g s d .clone ∧ l = .ctl l.tid) ∨
       (∃ tgt, f0 = .erase g tgt .detach ∧ f = .erase g tgt .clone ∧ l = .ctl l.tid)) := by
  have I := h.full.i
  cases l with
  | run t =>
    obtain ⟨hub, -, hr⟩ := step_run hs
    obtain ⟨-, -, -, -, -, ⟨e, -⟩ | ⟨e, -⟩⟩ := run_ub I hub hr hu <;> cases e
  | call t a =>
    obtain ⟨hub, -, -, hr⟩ := step_call hs
    rcases call_ub hub hr hu with ⟨e, -⟩ | ⟨e, -⟩ | ⟨e, -⟩ | ⟨e, -⟩ <;> cases e
  | ret t v =>
    obtain ⟨hub, -, s, o, m, b, pos, acc, rest, hst, rfl⟩ := step_ret hs
    simp [World.emitEv, World.setStack, hub] at hu
  | throw t c =>
    obtain ⟨hub, -, s, o, m, b, pos, acc, rest, hst, ⟨-, rfl⟩ | ⟨-, -, rfl⟩⟩ := step_throw hs <;>
      simp [World.emitEv, World.setStack, hub] at hu
  | fail t =>
    rcases step_fail_cases hs with ⟨-, s, k, g, rest, b, hst, hb⟩ | ⟨f, rest, g, s, b, -, -, -, rfl⟩
    · obtain ⟨w0, w1, f0, b, k1, k2, k3, k4, k5, k6, k7⟩ := clone_tested h (step_ub hs) hst rfl
      refine ⟨f0, _, g, rest, w0, w1, b, k1, k2, k3, k4, hst, k6, k7, .inl ⟨s, k, ?_, rfl, ?_, .inl rfl⟩⟩
      · unfold Frame.tst at k5; split at k5 <;> simp at k5
        obtain ⟨rfl, rfl, rfl, -⟩ := k5
        rfl
      · exact (h.full.d.fh t (.disc s k (.crit g .clone)) (by rw [hst]; exact List.mem_cons_self)).1
    · simp [World.emitEv, World.setStack, World.setMutex, (step_fail hs).1] at hu
  | ctl t =>
    obtain ⟨hub, -, rfl, f, f', rest, g, -, hst, hf, -⟩ := step_ctl hs
    obtain ⟨w0, w1, f0, b, k1, k2, k3, k4, k5, k6, k7⟩ := clone_tested h hub hst hf
    refine ⟨f0, f, g, rest, w0, w1, b, k1, k2, k3, k4, hst, k6, k7, ?_⟩
    unfold Frame.det at hf
    split at hf <;> cases hf <;> unfold Frame.tst at k5 <;> split at k5 <;> simp at k5
    · obtain ⟨rfl, rfl, rfl, rfl⟩ := k5; exact .inr (.inl ⟨_, _, rfl, rfl, rfl⟩)
    · obtain ⟨rfl, rfl, rfl⟩ := k5; exact .inr (.inr ⟨_, rfl, rfl, rfl⟩)
    · rename_i s k g
      obtain ⟨rfl, rfl, rfl, -⟩ := k5
      exact .inl ⟨_, _, rfl, rfl, (h.full.d.fh t (.disc _ _ (.crit _ .clone)) (by rw [hst]; exact List.mem_cons_self)).1, .inr rfl⟩

namespace Demo

/-- While thread 1 emits, thread 0 connects a third listener (with a step of thread 1 in between) and has to copy the list. -/
def joinFails : List Label := [.run 0, .run 1, .run 0]

/-- While thread 1 emits, thread 0 disconnects its first listener. -/
def leaveFails : List Label := shared2 ++ [.call 0 (.disconnect (.conn 0))] ++ go 0 3

end Demo

/-- The hypotheses of `C55_connect_partial` hold of a concrete call. -/
example : ∃ w0 w1 w2 w3 evs, Reachable Demo.E0 w0 ∧
    step Demo.E0 w0 (.call 0 (.connect 0 (Demo.fn 12) [] true true (.scoped 3))) = some w1 ∧
    Steps Demo.E0 (fun _ => True) w1 w2 ∧ w2.log = evs ++ w0.log ∧
    (∀ ev ∈ evs, ev.endsConnect 0 = false) ∧ step Demo.E0 w2 (.fail 0) = some w3 ∧
    w3.log = .failed 0 0 (some 2) :: w2.log ∧ w3.listOf 0 = [0, 1] ∧ w3.connValid (some 0) = true := by
  let c : List Label := [.call 0 (.connect 0 (Demo.fn 12) [] true true (.scoped 3))]
  let log := (Demo.world 2 (Demo.shared2 ++ c ++ Demo.joinFails)).log
  refine ⟨_, _, Demo.world 2 (Demo.shared2 ++ c ++ Demo.joinFails), _, log.takeWhile (· ≠ .snap ⟨0, 0, .lastValue, []⟩ [0, 1]),
    Demo.reach 2 Demo.shared2, Demo.world_step 2 Demo.shared2 _ (by decide +kernel),
    Demo.world_more 2 (Demo.shared2 ++ c) Demo.joinFails (by decide +kernel) fun _ _ => trivial, by decide +kernel, ?_,
    Demo.world_step 2 (Demo.shared2 ++ c ++ Demo.joinFails) (.fail 0) (by decide +kernel), by decide +kernel⟩
  have : log.takeWhile (· ≠ .snap ⟨0, 0, .lastValue, []⟩ [0, 1]) = [.visit 0 0 0, .created 0 2 true true] := by decide +kernel
  rw [this]; decide

/-- `connect` can also fail in `push_back`, without any emission. -/
example : ∃ w', step Demo.E0 (Demo.world 1 ([.call 0 (.newSig false), .call 0 (.connect 0 (Demo.fn 12) [] true true (.conn 0))] ++
    Demo.go 0 2)) (.fail 0) = some w' ∧ w'.log.head? = some (.failed 0 0 (some 0)) ∧ w'.connValid (some 0) = false :=
  ⟨_, Demo.world_step 1 _ _ (by decide +kernel), by decide +kernel⟩

/-- The hypotheses of `C55_erase_partial` hold of a concrete call. -/
example : ∃ w0 w1 w2 w3 evs, Reachable Demo.E0 w0 ∧
    step Demo.E0 w0 (.call 0 (.sigDisconnect 0 (some (Demo.fn 10)))) = some w1 ∧
    Steps Demo.E0 (fun _ => True) w1 w2 ∧ w2.log = evs ++ w0.log ∧
    (∀ ev ∈ evs, ev.endsErase 0 = false) ∧ step Demo.E0 w2 (.fail 0) = some w3 ∧
    w3.log = .failed 0 0 none :: w2.log ∧ w3.listOf 0 = [0, 1] := by
  let c : List Label := [.call 0 (.sigDisconnect 0 (some (Demo.fn 10)))]
  let log := (Demo.world 2 (Demo.shared2 ++ c ++ Demo.joinFails)).log
  refine ⟨_, _, Demo.world 2 (Demo.shared2 ++ c ++ Demo.joinFails), _, log.takeWhile (· ≠ .snap ⟨0, 0, .lastValue, []⟩ [0, 1]),
    Demo.reach 2 Demo.shared2, Demo.world_step 2 Demo.shared2 _ (by decide +kernel),
    Demo.world_more 2 (Demo.shared2 ++ c) Demo.joinFails (by decide +kernel) fun _ _ => trivial, by decide +kernel, ?_,
    Demo.world_step 2 (Demo.shared2 ++ c ++ Demo.joinFails) (.fail 0) (by decide +kernel), by decide +kernel⟩
  have : log.takeWhile (· ≠ .snap ⟨0, 0, .lastValue, []⟩ [0, 1]) = [.visit 0 0 0] := by decide +kernel
  rw [this]; decide

/-- C55 as stated is false: a program whose only operation in progress besides an emission is `connection::disconnect()` is terminated when memory
runs out (`slot::disconnect` and `connection::disconnect` are `noexcept`, but the list has to be copied). -/
theorem C55_false : ∃ w w', Reachable Demo.E0 w ∧ step Demo.E0 w (.fail 0) = some w' ∧
    w.stacks 0 = [.disc 0 .ret (.crit 0 .clone)] ∧ w.ub = none ∧ w'.ub = some .terminate :=
  ⟨_, _, Demo.reach 2 Demo.leaveFails, Demo.world_step 2 Demo.leaveFails (.fail 0) (by decide +kernel), by decide +kernel⟩

/-- C55 is false of `connect` too: the vector is copied, and then there is no memory for the control block that `std::shared_ptr(p)` allocates. It is allocated
in a constructor of `cow_ptr` that is `noexcept` (521-523), so the program is terminated instead of `connect` throwing `std::bad_alloc`. -/
theorem C55_connect_false : ∃ w w', Reachable Demo.E0 w ∧ step Demo.E0 w (.ctl 0) = some w' ∧
    w.stacks 0 = [.add 0 2 (.scoped 3) .clone] ∧ w.ub = none ∧ w'.ub = some .terminate :=
  ⟨_, _, Demo.reach 2 (Demo.shared2 ++ [.call 0 (.connect 0 (Demo.fn 12) [] true true (.scoped 3))] ++ Demo.joinFails),
    Demo.world_step 2 _ (.ctl 0) (by decide +kernel), by decide +kernel⟩

/-- … and of `signal::disconnect`. -/
theorem C55_erase_false : ∃ w w', Reachable Demo.E0 w ∧ step Demo.E0 w (.ctl 0) = some w' ∧
    w.stacks 0 = [.erase 0 (some (Demo.fn 10)) .clone] ∧ w.ub = none ∧ w'.ub = some .terminate :=
  ⟨_, _, Demo.reach 2 (Demo.shared2 ++ [.call 0 (.sigDisconnect 0 (some (Demo.fn 10)))] ++ Demo.joinFails),
    Demo.world_step 2 _ (.ctl 0) (by decide +kernel), by decide +kernel⟩

end Verif
