import Verif.Props.Lists
import Verif.Mach.Erase
import Verif.Mach.Rem
import Verif.Mach.StepL

/-!
# C01: `connect`

The main theorem follows one call from the step that makes it (`w0` to `w1`), through any interleaving of other threads
(`w1` to `w2`), to the step that returns (`w2` to `w3`).
-/

namespace Verif

variable {E : Env} {w w' : World} {t : Tid}

/-- The handle into which the returned connection is stored. -/
def Dest.handle : Dest → Handle
  | .conn x => .conn x
  | .scoped x => .scoped x

/-- A thread inside `connect` stays there until it returns. -/
theorem add_step {l : Label} {g : SigId} {s : SlotId} {d : Dest} {pc : CritPc} {rest : List Frame}
    (hst : w.stacks l.tid = .add g s d pc :: rest) (hs : step E w l = some w') :
    (∃ pc', w'.stacks l.tid = .add g s d pc' :: rest ∧
      (w'.log = .added g s :: w.log ∨ (pc' ≠ .unlock ∧ w'.log = w.log))) ∨
      (pc = .unlock ∧ w'.stacks l.tid = rest ∧ w'.log = .connRet l.tid g s :: w.log ∧ w'.hval d.handle = some s ∧
        (w'.sigs g).mutex = none ∧ w'.slots = w.slots ∧ w'.nSlots = w.nSlots ∧ w'.listOf g = w.listOf g) ∨
      ((pc = .clone ∨ pc = .write) ∧ l = .fail l.tid ∧
        w' = ((w.setMutex g none).setStack l.tid rest).emitEv (.failed l.tid g (some s))) := by
  cases l with
  | run t =>
    obtain ⟨-, -, hr⟩ := step_run hs
    simp only [Label.tid] at hst ⊢
    simp only [runTop, hst] at hr
    cases pc with
    | wait =>
      simp only [runAdd, acquire] at hr
      split at hr
      · injection hr with hr; subst hr; exact .inl ⟨_, hst, .inr ⟨by simp, rfl⟩⟩
      · split at hr
        · cases hr
        · injection hr with hr; subst hr; exact .inl ⟨_, upd_same _ _ _, .inr ⟨by simp, rfl⟩⟩
    | detach =>
      simp only [runAdd] at hr
      split at hr
      · injection hr with hr; subst hr; exact .inl ⟨_, hst, .inr ⟨by simp, rfl⟩⟩
      · injection hr with hr; subst hr; exact .inl ⟨_, upd_same _ _ _, .inr ⟨by split <;> simp, rfl⟩⟩
    | clone =>
      simp only [runAdd] at hr
      split at hr
      · injection hr with hr; subst hr; exact .inl ⟨_, hst, .inr ⟨by simp, rfl⟩⟩
      · injection hr with hr; subst hr; exact .inl ⟨_, upd_same _ _ _, .inr ⟨by simp, rfl⟩⟩
    | write =>
      simp only [runAdd] at hr
      split at hr
      · injection hr with hr; subst hr; exact .inl ⟨_, hst, .inr ⟨by simp, rfl⟩⟩
      · injection hr with hr; subst hr; exact .inl ⟨_, upd_same _ _ _, .inl rfl⟩
    | unlock =>
      right; left
      simp only [runAdd] at hr
      cases d with
      | conn x =>
        injection hr with hr; subst hr
        refine ⟨rfl, upd_same _ _ _, rfl, ?_, ?_, rfl, rfl, ?_⟩
        · simp [World.hval, Dest.handle, upd_same]
        · simp [World.emitEv, World.setStack, World.setMutex, upd_same]
        · simp [World.listOf, World.emitEv, World.setStack, World.setMutex, upd_same]
      | «scoped» x =>
        injection hr with hr; subst hr
        refine ⟨rfl, upd_same _ _ _, rfl, ?_, ?_, rfl, rfl, ?_⟩
        · simp [World.hval, Dest.handle, upd_same]
        · simp [World.emitEv, World.setStack, World.setMutex, upd_same]
        · simp [World.listOf, World.emitEv, World.setStack, World.setMutex, upd_same]
  | call t a =>
    obtain ⟨-, -, hu, -⟩ := step_call hs
    rw [show w.stacks t = _ from hst] at hu
    simp [userCtx] at hu
  | ret t v =>
    obtain ⟨-, -, s, o, m, b, pos, acc, rest', h1, -⟩ := step_ret hs
    rw [show w.stacks t = _ from hst] at h1; cases h1
  | throw t c =>
    obtain ⟨-, -, s, o, m, b, pos, acc, rest', h1, -⟩ := step_throw hs
    rw [show w.stacks t = _ from hst] at h1; cases h1
  | fail t =>
    obtain ⟨-, -, hf⟩ := step_fail hs
    simp only [Label.tid] at hst ⊢
    simp only [allocFail, hst] at hf
    right; right
    cases pc <;> simp only at hf <;> try (cases hf; done)
    · split at hf
      · injection hf with hf; exact ⟨.inl rfl, trivial, hf.symm⟩
      · cases hf
    · split at hf
      · injection hf with hf; exact ⟨.inr rfl, trivial, hf.symm⟩
      · cases hf
  | ctl t =>
    obtain ⟨-, -, rfl, f, f', rest', g', b, h1, h2, -⟩ := step_ctl hs
    rw [show w.stacks t = _ from hst] at h1
    cases h1
    exact .inl ⟨pc, hst, .inr ⟨(fun e => by rw [e] at h2; cases h2), rfl⟩⟩

/-- After the history `base`, listener `s` was added to `g`, and `g`'s list has not been touched since. -/
def AddedSince (base log : List Event) (g : SigId) (s : SlotId) : Prop :=
  ∃ mid old, log = mid ++ .added g s :: old ∧ base <:+ old ∧ ∀ ev ∈ mid, ev.touches g = false

theorem adding {w0 w1 w2 : World} {g : SigId} {fn : Callable} {cs : List Bool} {c b : Bool} {d : Dest}
    (h : Reachable E w0) (hc : step E w0 (.call t (.connect g fn cs c b d)) = some w1)
    (hs : Steps E (fun _ => True) w1 w2) :
    ∀ evs, w2.log = evs ++ w0.log → (∀ ev ∈ evs, ev.endsConnect t = false) →
      ∃ pc, w2.stacks t = .add g w0.nSlots d pc :: w0.stacks t ∧
        (pc = .unlock → AddedSince w0.log w2.log g w0.nSlots) ∧
        Event.created g w0.nSlots c b ∈ evs ∧ (w2.slots w0.nSlots).fn = fn ∧ w0.nSlots < w2.nSlots := by
  have h1 : Reachable E w1 := h.step hc
  induction hs with
  | refl =>
    intro evs he _
    obtain ⟨-, -, -, hop⟩ := step_call hc
    simp only [userOp] at hop
    split at hop
    · injection hop with hop; subst hop
      have : evs = [.created g w0.nSlots c b] := List.append_cancel_right (he.symm.trans rfl)
      refine ⟨.wait, upd_same _ _ _, by simp, by simp [this], ?_, Nat.lt_succ_self _⟩
      simp only [World.emitEv, World.setStack, upd_same]
    · cases hop
  | @tail w2 w3 l hs' _ hl ih =>
    intro evs he hq
    have r2 : Reachable E w2 := h1.steps hs'
    have r3 : Reachable E w3 := r2.step hl
    obtain ⟨hub, hlt, R⟩ := step_inv hl
    have F := fixed R
    obtain ⟨ev0, e0⟩ := Steps.log_mono (E := E) (P := fun _ => True) (.tail l (.refl w2) trivial hl)
    obtain ⟨ev1, e1⟩ := Steps.log_mono ((Steps.refl w0 |>.tail (P := fun _ => True) _ trivial hc).trans hs')
    have ee : evs = ev0 ++ ev1 := by
      have := he.symm.trans (e0.trans (by rw [e1, ← List.append_assoc]))
      exact List.append_cancel_right this
    obtain ⟨pc, hst, hA, hcr, hfn, hn⟩ := ih ev1 e1 fun ev hm =>
      hq ev (by rw [ee]; exact List.mem_append_right _ hm)
    have hcr' : Event.created g w0.nSlots c b ∈ evs := by rw [ee]; exact List.mem_append_right _ hcr
    have hfn' : (w3.slots w0.nSlots).fn = fn := by rw [F.fn _ hn]; exact hfn
    have hn' : w0.nSlots < w3.nSlots := Nat.lt_of_lt_of_le hn F.nSlots
    by_cases ht : t = l.tid
    · subst ht
      rcases add_step hst hl with ⟨pc', h1, h2⟩ | ⟨-, -, h3, -⟩ | ⟨-, -, rfl⟩
      · refine ⟨pc', h1, fun hp => ?_, hcr', hfn', hn'⟩
        rcases h2 with h2 | ⟨h2, -⟩
        · exact ⟨[], w2.log, h2, ⟨ev1, e1.symm⟩, by simp⟩
        · exact absurd hp h2
      · exfalso
        have : ev0 = [.connRet l.tid g w0.nSlots] := by
          have : ev0 ++ w2.log = [.connRet l.tid g w0.nSlots] ++ w2.log := e0.symm.trans h3
          exact List.append_cancel_right this
        exact absurd (hq (.connRet l.tid g w0.nSlots) (by rw [ee, this]; simp)) (by simp [Event.endsConnect])
      · exfalso
        have : ev0 = [.failed l.tid g (some w0.nSlots)] := by
          have : ev0 ++ w2.log = [.failed l.tid g (some w0.nSlots)] ++ w2.log := e0.symm
          exact List.append_cancel_right this
        exact absurd (hq (.failed l.tid g (some w0.nSlots)) (by rw [ee, this]; simp)) (by simp [Event.endsConnect])
    · refine ⟨pc, by rw [stacks_other R ht]; exact hst, fun hp => ?_, hcr', hfn', hn'⟩
      subst hp
      obtain ⟨mid, old, a1, a2, a3⟩ := hA rfl
      obtain ⟨-, evs', b1, b2⟩ := others_quiet r2.full.i R ht (g := g) (by rw [hst]; rfl)
      refine ⟨evs' ++ mid, old, by rw [b1, a1, List.append_assoc], a2, fun ev hev => ?_⟩
      rcases List.mem_append.1 hev with hev | hev
      · exact b2 ev hev
      · exact a3 ev hev

theorem replay_untouched {g : SigId} {mid log : List Event} (h : ∀ ev ∈ mid, ev.touches g = false) :
    replay (mid ++ log) g = replay log g := by
  induction mid with
  | nil => rfl
  | cons ev mid ih =>
    have ih := ih fun x hx => h x (List.mem_cons_of_mem _ hx)
    have hev := h ev (by simp)
    rw [List.cons_append, ← ih]
    cases ev <;> simp only [Event.touches, decide_eq_false_iff_not, Bool.or_eq_false_iff] at hev <;>
      simp only [replay, upd_apply]
    all_goals first
      | rfl
      | (rw [if_neg (fun e => hev e.symm)])
      | (rw [if_neg (fun e => hev.1 e.symm), if_neg (fun e => hev.2 e.symm)])

theorem initial_flags {s : SlotId} {g : SigId} {c b : Bool} : ∀ {log : List Event}, Event.created g s c b ∈ log →
    (∀ g' c' b', Event.created g' s c' b' ∈ log → c' = c ∧ b' = b) → (∀ ev ∈ log, ev.flagEv s = false) →
    blockedAfter log s = b ∧ connectedAfter log s = c
  | [], h, _, _ => by cases h
  | ev :: log, h, hu, hf => by
    have ih : Event.created g s c b ∈ log → blockedAfter log s = b ∧ connectedAfter log s = c := fun h =>
      initial_flags h (fun g' c' b' h' => hu g' c' b' (List.mem_cons_of_mem _ h'))
        fun x hx => hf x (List.mem_cons_of_mem _ hx)
    have hev := hf ev (by simp)
    by_cases hc : ∃ g' c' b', ev = .created g' s c' b'
    · obtain ⟨g', c', b', rfl⟩ := hc
      obtain ⟨rfl, rfl⟩ := hu g' c' b' (by simp)
      simp [blockedAfter, connectedAfter]
    · have hm : Event.created g s c b ∈ log := by
        rcases List.mem_cons.1 h with e | h
        · exact absurd ⟨_, _, _, e.symm⟩ hc
        · exact h
      rw [← (ih hm).1, ← (ih hm).2]
      cases ev with
      | created g' s' c' b' =>
        have : s' ≠ s := by rintro rfl; exact hc ⟨_, _, _, rfl⟩
        simp [blockedAfter, connectedAfter, this]
      | blockSet s' c' => 
        have : s' ≠ s := by simpa [Event.flagEv] using hev
        simp [blockedAfter, connectedAfter, this]
      | exch s' c' => 
        have : s' ≠ s := by simpa [Event.flagEv] using hev
        simp [blockedAfter, connectedAfter, this]
      | skip e s' y =>
        have : s' ≠ s := by simpa [Event.flagEv] using hev
        cases y <;> simp [blockedAfter, connectedAfter, this]
      | _ => exact ⟨rfl, rfl⟩

/-- C01: `connect` of the callable `fn` (from a slot with flags `c`, `b`) on signal `g`, stored in `d`. When it returns,
a listener `s` that did not exist before holds `fn`; there is one moment between call and return (after the history
`old`) at which `s` was put at the end of the list of `g`, and the list has not changed since. The returned connection
refers to `s`, it is valid, it is connected (if `c`, and unless the listener is bound to an object that has expired), it is
blocked iff `b`. Control is back with the caller and the mutex is free. -/
theorem C01 {w0 w1 w2 w3 : World} {g g' : SigId} {fn : Callable} {cs : List Bool} {c b : Bool} {d : Dest} {s : SlotId}
    {l : Label} {evs : List Event} (h : Reachable E w0)
    (hc : step E w0 (.call t (.connect g fn cs c b d)) = some w1) (hs : Steps E (fun _ => True) w1 w2)
    (he : w2.log = evs ++ w0.log) (hq : ∀ ev ∈ evs, ev.endsConnect t = false)
    (hr : step E w2 l = some w3) (hl : w3.log = .connRet t g' s :: w2.log) :
    g' = g ∧ w0.nSlots ≤ s ∧ (w3.slots s).fn = fn ∧
    (∃ mid old, w2.log = mid ++ .added g s :: old ∧ w0.log <:+ old ∧ (∀ ev ∈ mid, ev.touches g = false) ∧
      w3.listOf g = replay old g ++ [s]) ∧
    w3.log.countP (Event.adds s) = 1 ∧
    w3.hval d.handle = some s ∧ w3.connValid (some s) = true ∧
    w3.connConnected (some s) = (c && match fn.obj? with | some o => w3.objAlive o | none => true) ∧
    w3.connBlocked (some s) = b ∧ w3.stacks t = w0.stacks t ∧ (w3.sigs g).mutex = none := by
  obtain ⟨pc, hst, hA, hcr, hfn, hn⟩ := adding h hc hs evs he hq
  have r2 : Reachable E w2 := (h.step hc).steps hs
  have r3 : Reachable E w3 := r2.step hr
  obtain ⟨-, -, R⟩ := step_inv hr
  have ht : l.tid = t := by
    have gen : ∀ {x}, StepR E w2 x w3 → x = t := by
      intro x R
      cases R <;> try (simp [World.setUB, World.setH, World.setStack, World.emitEv, World.setBlocked, World.setMutex,
        World.setIndex, World.setBlk, World.setConnected, World.setList] at hl; done)
      case det f f' rest g b hst hf hl' =>
        have e1 : ((cloneBlk w2 g b).setStack x (f' :: rest)).log = w2.log := by rfl
        rw [e1] at hl; simp at hl
      case addUnlock g0 tgt0 r0 rest _ _ _ hst' _ =>
        simp only [World.emitEv, World.setStack, World.setMutex, World.setH, List.cons.injEq, and_true] at hl
        injection hl
    exact gen R
  subst ht
  rcases add_step hst hr with ⟨pc', -, h2⟩ | ⟨rfl, h1, h2, h3, h4, h5, h6, h7⟩ | ⟨-, -, rfl⟩
  · exfalso
    rcases h2 with h2 | ⟨-, h2⟩
    · rw [h2] at hl; simp at hl
    · rw [h2] at hl; simp at hl
  · rw [h2] at hl
    simp only [List.cons.injEq, and_true] at hl
    injection hl with _ e1 e2
    subst e1 e2
    obtain ⟨mid, old, a1, a2, a3⟩ := hA rfl
    have hlist : w3.listOf g = replay old g ++ [w0.nSlots] := by
      rw [h7, C20_serial r2, a1, replay_untouched a3]
      simp [replay, upd_same]
    have hal : w3.slotAlive w0.nSlots = true := (slotAlive_iff r3.full.i.i1).2 (.inl ⟨g, by rw [hlist]; simp⟩)
    have K := r2.inv7.add l.tid
    rw [hst] at K
    obtain ⟨-, hfl, -⟩ := K
    have hb : (w3.slots w0.nSlots).blocked = b ∧ (w3.slots w0.nSlots).connected = c := by
      rw [h5, r2.full.k.blk _ hn, r2.full.k.con _ hn]
      have hm : Event.created g w0.nSlots c b ∈ w2.log := by rw [he]; exact List.mem_append_left _ hcr
      exact initial_flags hm (fun g' c' b' h' => (created_unique r2.full.h h' hm).2) hfl
    refine ⟨rfl, Nat.le_refl _, by rw [h5]; exact hfn, ⟨mid, old, a1, a2, a3, hlist⟩, ?_, h3, hal, ?_, ?_, h1, h4⟩
    · exact (C43_counts r3 (g := g) (by rw [hlist]; simp)).1
    · simp only [World.connConnected, hal, Bool.true_and, World.slotConnected, hb.2]
      rw [show (w3.slots w0.nSlots).fn = fn by rw [h5]; exact hfn]
      exact Bool.and_comm _ _
    · simp [World.connBlocked, hal, hb.1]
  · simp [World.emitEv, World.setStack, World.setMutex] at hl

/-- C01: the steps of `connect` change the list of no other signal and no other listener; the only change to the list of
`g` is that the new listener is appended. -/
theorem C01_only {g : SigId} {s : SlotId} {d : Dest} {pc : CritPc} {rest : List Frame} (h : Reachable E w)
    (hst : w.stacks t = .add g s d pc :: rest) (hs : step E w (.run t) = some w') :
    (∀ g', g' ≠ g → w'.listOf g' = w.listOf g') ∧ (∀ s', s' ≠ s → w'.slots s' = w.slots s') ∧
    (w'.listOf g = w.listOf g ∨ (w'.listOf g = w.listOf g ++ [s] ∧ w'.log = .added g s :: w.log)) := by
  obtain ⟨-, -, R⟩ := step_inv hs
  have R : StepR E w t w' := R
  have hA : ∀ {ev : Event}, w'.log = ev :: w.log → ev = .added g s ∨ ev = .connRet t g s := by
    intro ev e
    rcases add_step (l := .run t) hst hs with ⟨-, -, h2 | ⟨-, h2⟩⟩ | ⟨-, -, h2, -⟩ | ⟨-, h2, -⟩
    · rw [e] at h2; injection h2 with h2; exact .inl h2
    · rw [e] at h2; simp at h2
    · rw [e] at h2; injection h2 with h2; exact .inr h2
    · cases h2
  have hsl : ∀ s', s' ≠ s → w'.slots s' = w.slots s' := by
    intro s' hne
    obtain ⟨-, -, hr⟩ := step_run hs
    simp only [runTop, hst] at hr
    cases pc <;> simp only [runAdd, acquire] at hr
    · split at hr
      · injection hr with hr; subst hr; rfl
      · split at hr
        · cases hr
        · injection hr with hr; subst hr; rfl
    · split at hr <;> injection hr with hr <;> subst hr <;> rfl
    · split at hr <;> injection hr with hr <;> subst hr <;> rfl
    · split at hr
      · injection hr with hr; subst hr; rfl
      · injection hr with hr; subst hr
        simp [World.setIndex, World.setBlk, World.setStack, World.emitEv, upd_apply, hne]
    · cases d <;> injection hr with hr <;> subst hr <;> rfl
  cases listEff h.full.i.i1 h.full.i.i2 R with
  | same hl => exact ⟨fun g' _ => hl g', hsl, .inl (hl g)⟩
  | add g0 s0 b dest rest' hst' hb hl hi hlog =>
    rw [hst] at hst'
    injection hst' with e; injection e with e1 e2
    subst e1 e2
    exact ⟨fun g' hg => by rw [hl, if_neg hg], hsl, .inr ⟨by rw [hl, if_pos rfl], hlog⟩⟩
  | rem g0 i v ev hst' hv h0 hi hev hlog =>
    rcases hA hlog with rfl | rfl <;> rcases hev with hev | ⟨_, hev⟩ <;> cases hev
  | move g0 g1 hne hst' h0 hd h1 hi hlog => rcases hA hlog with e | e <;> cases e
  | destroy g0 hm h1 hi hlog => rcases hA hlog with e | e <;> cases e

/-- C01: the call itself only makes the new listener. -/
theorem C01_call {g : SigId} {fn : Callable} {cs : List Bool} {c b : Bool} {d : Dest}
    (hs : step E w (.call t (.connect g fn cs c b d)) = some w') :
    (∀ g', w'.listOf g' = w.listOf g') ∧ (∀ s, s ≠ w.nSlots → w'.slots s = w.slots s) ∧
      w'.nSlots = w.nSlots + 1 := by
  obtain ⟨-, -, -, hop⟩ := step_call hs
  simp only [userOp] at hop
  split at hop
  · injection hop with hop; subst hop
    refine ⟨fun _ => rfl, fun s hne => ?_, rfl⟩
    simp [World.setStack, World.emitEv, upd_apply, hne]
  · cases hop

namespace Demo

/-- Signal 0 with two listeners; thread 1 is emitting (it has its snapshot), so `connect` has to clone the list. -/
def shared2 : List Label :=
  [.call 0 (.newSig false)] ++ connect 0 10 0 ++ connect 0 11 1 ++ [.call 1 (.emit 0 .lastValue [])] ++ go 1 4

/-- `connect` from a blocked slot, with steps of thread 1 in between. -/
def joining : List Label := go 0 2 ++ go 1 2 ++ go 0 2 ++ go 1 1

end Demo

/-- The hypotheses of `C01` hold of a concrete call. -/
example : ∃ w0 w1 w2 w3 evs, Reachable Demo.E0 w0 ∧
    step Demo.E0 w0 (.call 0 (.connect 0 (Demo.fn 12) [] true true (.scoped 3))) = some w1 ∧
    Steps Demo.E0 (fun _ => True) w1 w2 ∧ w2.log = evs ++ w0.log ∧
    (∀ ev ∈ evs, ev.endsConnect 0 = false) ∧ step Demo.E0 w2 (.run 0) = some w3 ∧
    w3.log = .connRet 0 0 2 :: w2.log ∧ w3.listOf 0 = [0, 1, 2] ∧ w3.connBlocked (some 2) = true := by
  let c : List Label := [.call 0 (.connect 0 (Demo.fn 12) [] true true (.scoped 3))]
  let log := (Demo.world 2 (Demo.shared2 ++ c ++ Demo.joining)).log
  refine ⟨_, _, Demo.world 2 (Demo.shared2 ++ c ++ Demo.joining), _, log.takeWhile (· ≠ .snap ⟨0, 0, .lastValue, []⟩ [0, 1]),
    Demo.reach 2 Demo.shared2, Demo.world_step 2 Demo.shared2 _ (by decide +kernel),
    Demo.world_more 2 (Demo.shared2 ++ c) Demo.joining (by decide +kernel) fun _ _ => trivial, by decide +kernel, ?_,
    Demo.world_step 2 (Demo.shared2 ++ c ++ Demo.joining) (.run 0) (by decide +kernel), by decide +kernel⟩
  have : log.takeWhile (· ≠ .snap ⟨0, 0, .lastValue, []⟩ [0, 1]) =
    [.added 0 2, .visit 0 0 0, .created 0 2 true true] := by decide +kernel
  rw [this]; decide

example : (Demo.world 2 (Demo.shared2 ++ [.call 0 (.connect 0 (Demo.fn 12) [] true true (.scoped 3))] ++
    Demo.go 0 2)).stacks 0 = [.add 0 2 (.scoped 3) .clone] := by decide +kernel

end Verif
