import Verif.Props.Handles

/-!
# C12, C13, C14: blocking
-/

namespace Verif

variable {E : Env} {w w' : World} {t : Tid}

/-! ### C12 -/

/-- C12: a listener that is skipped as blocked was blocked at that moment. -/
theorem C12_skip (h : Reachable E w) {post pre : List Event} {e : EmId} {s : SlotId}
    (hl : w.log = post ++ .skip e s .blocked :: pre) : blockedAfter pre s = true :=
  h.full.h.at hl

/-- C12: a listener that is called was unblocked at some moment since the emission came to it. -/
theorem C12_call (h : Reachable E w) {post pre : List Event} {e : EmId} {s : SlotId} {a : List Arg}
    (hl : w.log = post ++ .enter e s a :: pre) :
    ∃ l1 l0 pos old, pre = l1 ++ (l0 ++ .visit e pos s :: old) ∧ (∀ ev ∈ l1 ++ l0, ev.em ≠ some e) ∧
      blockedAfter (l0 ++ .visit e pos s :: old) s = false := by
  obtain ⟨⟨pos, l1, old, e1, e2, ⟨m1, m0, old', f1, ⟨⟨q, f2⟩, f3⟩, ⟨⟨q', f4⟩, f5⟩, f6⟩, -⟩, -⟩ := h.full.h.at hl
  subst e1
  subst f1
  refine ⟨l1 ++ m1, m0, pos, q', by rw [f4]; simp, fun ev hev => ?_, by rw [← f4]; exact f6⟩
  simp only [List.mem_append] at hev
  rcases hev with (h1 | h1) | h1
  · exact e2 ev h1
  · exact f3 ev (by simp [h1])
  · exact f5 ev h1

/-- After an emission has come to a listener, its next event is the call of that listener or a skip. -/
theorem after_visit {e : EmId} {m : Em} {items : List SlotId} {args : List Arg} {tail B : List Event} {i : Nat}
    {s : SlotId} {ev : Event} {us : List Visit} (ht : Tail e m items us args tail) : ∀ (vs : List Visit) (A : List Event),
    vs.flatMap (·.events e) ++ tail = A ++ .visit e i s :: ev :: B →
    (∃ why, ev = .skip e s why) ∨ ∃ a, ev = .enter e s a
  | [], A, h => by
    simp only [List.flatMap_nil, List.nil_append] at h
    cases ht
    case enter i' s' _ _ _ =>
      rcases A with _ | ⟨a, A⟩
      · simp only [List.nil_append, List.cons.injEq, Event.visit.injEq] at h
        obtain ⟨⟨-, -, rfl⟩, rfl, -⟩ := h
        exact .inr ⟨_, rfl⟩
      · have := congrArg List.length h
        simp at this; omega
    all_goals
      have := congrArg List.length h
      simp at this <;> omega
  | v :: vs, A, h => by
    rw [List.flatMap_cons, List.append_assoc] at h
    have ih := after_visit (B := B) (i := i) (s := s) (ev := ev) ht vs
    unfold Visit.events at h
    split at h
    · rcases A with _ | ⟨a, _ | ⟨b, A⟩⟩
      · simp only [List.nil_append, List.cons_append, List.cons.injEq, Event.visit.injEq] at h
        obtain ⟨⟨-, -, rfl⟩, rfl, -⟩ := h
        exact .inl ⟨_, rfl⟩
      · simp at h
      · simp only [List.cons_append, List.cons.injEq, List.nil_append] at h
        exact ih A h.2.2
    all_goals
      rcases A with _ | ⟨a, _ | ⟨b, _ | ⟨c, A⟩⟩⟩
      · simp only [List.nil_append, List.cons_append, List.cons.injEq, Event.visit.injEq] at h
        obtain ⟨⟨-, -, rfl⟩, rfl, -⟩ := h
        exact .inr ⟨_, rfl⟩
      · simp at h
      · simp at h
      · simp only [List.cons_append, List.cons.injEq, List.nil_append] at h
        exact ih A h.2.2.2

/-- C12: a listener that stays blocked from before an emission comes to it until that emission's next event is passed
over. -/
theorem C12_blocked (h : Reachable E w) {post mid pre : List Event} {e : EmId} {s : SlotId} {pos : Nat} {ev : Event}
    (hl : w.log = post ++ ev :: (mid ++ .visit e pos s :: pre)) (hev : ev.em = some e)
    (hmid : ∀ ev ∈ mid, ev.em ≠ some e)
    (hb : ∀ l0 l1, mid = l1 ++ l0 → blockedAfter (l0 ++ .visit e pos s :: pre) s = true) :
    ∃ why, ev = .skip e s why := by
  have next : (∃ why, ev = .skip e s why) ∨ ∃ a, ev = .enter e s a := by
    have hm : ev ∈ trace w.log e := mem_tr (by rw [hl]; simp) hev
    have hv : Event.visit e pos s ∈ trace w.log e := mem_tr (by rw [hl]; simp) rfl
    obtain ⟨m, items, hs⟩ := (h.full.shape e).has_snap hv (by intro t m h; cases h)
    obtain ⟨t, vs, args, tail, he, -, htl, htr⟩ := (h.full.shape e).of_snap hs
    have ht : trace w.log e = trace pre e ++ .visit e pos s :: ev :: trace post e := by
      rw [hl, trace_append, trace_cons hev, trace_append, trace_cons rfl, trace_nil_iff.2 hmid]
      simp
    rw [htr] at ht
    cases hA : trace pre e with
    | nil => rw [hA] at ht; simp at ht
    | cons x A =>
      rw [hA] at ht
      cases A with
      | nil => simp at ht
      | cons y A =>
        simp only [List.cons_append, List.cons.injEq] at ht
        exact after_visit htl vs A ht.2.2
  rcases next with h1 | ⟨a, rfl⟩
  · exact h1
  · exfalso
    obtain ⟨l1, l0, pos', old, e1, e2, e3⟩ := C12_call h hl
    have : mid = l1 ++ l0 ∧ Event.visit e pos s :: pre = .visit e pos' s :: old := by
      rw [← List.append_assoc] at e1
      rcases List.append_eq_append_iff.1 e1 with ⟨c, h1, h2⟩ | ⟨c, h1, h2⟩
      · cases c with
        | nil => simp at h1 h2; exact ⟨h1.symm, by rw [h2.1, h2.2]⟩
        | cons y c =>
          exfalso
          simp only [List.cons_append, List.cons.injEq] at h2
          exact e2 y (by rw [h1]; simp) (by rw [← h2.1]; rfl)
      · cases c with
        | nil => simp at h1 h2; exact ⟨h1, by rw [h2.1, h2.2]⟩
        | cons y c =>
          exfalso
          simp only [List.cons_append, List.cons.injEq] at h2
          exact hmid y (by rw [h1]; simp) (by rw [← h2.1]; rfl)
    have h4 := hb l0 l1 this.1
    rw [this.2] at h4
    rw [h4] at e3; cases e3

/-- C12: a step that skips a listener removes nothing and changes no flag. -/
theorem C12_keeps {l : Label} (hs : step E w l = some w') {e : EmId} {s : SlotId}
    (hl : w'.log = .skip e s .blocked :: w.log) :
    (w.slots s).blocked = true ∧ w'.slots = w.slots ∧ w'.blks = w.blks ∧ w'.sigs = w.sigs := by
  obtain ⟨-, -, R⟩ := step_inv hs
  cases R <;> try (simp [World.setUB, World.setH, World.setStack, World.emitEv, World.setBlocked,
      World.setMutex, World.setIndex, World.setBlk, World.setConnected, World.setList] at hl; done)
  case det f f' rest g b hst hf hlst =>
    have : ((cloneBlk w g b).setStack l.tid (f' :: rest)).log = w.log := by
      simp only [World.setStack]; rfl
    rw [this] at hl; simp at hl
  case callSkip s' pc why m b pos acc rest hst hpc =>
    simp only [World.emitEv, World.setStack, List.cons.injEq, Event.skip.injEq, and_true] at hl
    obtain ⟨-, rfl, rfl⟩ := hl
    refine ⟨?_, rfl, rfl, rfl⟩
    rcases hpc with ⟨-, -, h⟩ | ⟨-, h, -⟩ | ⟨_, -, h, -⟩
    · exact h
    · cases h
    · cases h

/-- C12: blocking or unblocking a listener, by whatever means, changes the blocked flag of that listener to the new
value and nothing else in any listener, list, signal or running call. -/
theorem C12_only {l : Label} (hs : step E w l = some w') {s : SlotId} {c : Bool}
    (hl : w'.log = .blockSet s c :: w.log) :
    w'.slots s = { w.slots s with blocked := c } ∧ (∀ s', s' ≠ s → w'.slots s' = w.slots s') ∧
    w'.blks = w.blks ∧ w'.sigs = w.sigs ∧ w'.stacks = w.stacks ∧ (∀ g, w'.listOf g = w.listOf g) ∧
    ∀ h, w'.connConnected h = w.connConnected h := by
  obtain ⟨-, -, R⟩ := step_inv hs
  cases R <;> try (simp [World.setUB, World.setH, World.setStack, World.emitEv, World.setBlocked,
      World.setMutex, World.setIndex, World.setBlk, World.setConnected, World.setList] at hl; done)
  case det f f' rest g b hst hf hlst =>
    have : ((cloneBlk w g b).setStack l.tid (f' :: rest)).log = w.log := by
      simp only [World.setStack]; rfl
    rw [this] at hl; simp at hl
  case flag s' c' cv sv bv hu hsub hh ha =>
    simp only [World.emitEv, World.setBlocked, World.setH, List.cons.injEq, Event.blockSet.injEq, and_true] at hl
    obtain ⟨rfl, rfl⟩ := hl
    refine ⟨upd_same _ _ _, fun s' hne => ?_, rfl, rfl, rfl, fun _ => rfl, fun h => ?_⟩
    · simp [World.emitEv, World.setBlocked, World.setH, upd_apply, hne]
    · cases h with
      | none => rfl
      | some x =>
        have e1 : (((w.setH cv sv bv).setBlocked s' c').emitEv (.blockSet s' c')).slotAlive x = w.slotAlive x := rfl
        have e2 : (((w.setH cv sv bv).setBlocked s' c').emitEv (.blockSet s' c')).slotConnected x =
            w.slotConnected x := by
          by_cases e : x = s'
          · subst e
            simp only [World.slotConnected, World.emitEv, World.setBlocked, World.setH, upd_same]; rfl
          · simp only [World.slotConnected, World.emitEv, World.setBlocked, World.setH, upd_apply, if_neg e]; rfl
        simp only [World.connConnected, e1, e2]

theorem connSetBlocked_ne {v : Option SlotId} {c : Bool} {s : SlotId}
    (hne : ((w.connSetBlocked v c).slots s).blocked ≠ (w.slots s).blocked) :
    v = some s ∧ (w.connSetBlocked v c).log = .blockSet s c :: w.log ∧ ((w.connSetBlocked v c).slots s).blocked = c := by
  unfold World.connSetBlocked at hne ⊢
  split at hne
  · rename_i s'
    split at hne
    · by_cases e : s = s'
      · subst e
        rename_i ha
        simp [ha, World.emitEv, World.setBlocked, upd_same]
      · simp [World.emitEv, World.setBlocked, upd_apply, e] at hne
    · exact absurd rfl hne
  · exact absurd rfl hne

theorem discReturn_slots {rest : List Frame} {s : Option SlotId} {k : DiscK} {b : Bool} :
    (discReturn w t rest s k b).slots = w.slots := by
  unfold discReturn; cases k with
  | ret => rfl
  | assign x y => simp only; split <;> rfl

theorem discStart_slots {h : Option SlotId} {k : DiscK} : (discStart w t h k).slots = w.slots := by
  unfold discStart
  split
  · split
    · rfl
    · exact discReturn_slots
  · exact discReturn_slots

/-- C12: and nothing else changes a blocked flag. -/
theorem C12_changes {l : Label} (hs : step E w l = some w') {s : SlotId} (hlt : s < w.nSlots)
    (hne : (w'.slots s).blocked ≠ (w.slots s).blocked) :
    w'.log = .blockSet s (w'.slots s).blocked :: w.log ∧
    ∃ t, (∃ hd, l = .call t (.block hd) ∧ w.hval hd = some s) ∨ (∃ hd, l = .call t (.unblock hd) ∧ w.hval hd = some s) ∨
      (∃ x hd, l = .call t (.blockerOf x hd) ∧ w.hval hd = some s) ∨
      (∃ x, l = .call t (.blockerDtor x) ∧ w.bv x = some (some s)) ∨
      (∃ x y, l = .call t (.blockerMoveAssign x y) ∧ w.bv x = some (some s)) := by
  cases l with
  | run t =>
    exfalso
    have hu := run_ctx hs
    have R : StepR E w t w' := (step_inv hs).2.2
    cases R
    case det f f' rest g b h1 hf hlst =>
      apply hne
      simp only [World.setStack]; rfl
    case eraseHit => exact hne (removeAt_flags ..).1
    case discWrite => exact hne (removeAt_flags ..).1
    all_goals first
      | exact hne rfl
      | (rw [‹userCtx _ = true›] at hu; cases hu; done)
      | (apply hne
         simp only [World.emitEv, World.setStack, World.setConnected, World.setIndex, World.setBlk, upd_apply]
         split <;> simp_all)
  | call t a =>
    obtain ⟨-, -, -, hop⟩ := step_call hs
    cases a <;> simp only [userOp] at hop
    case block hd =>
      injection hop with hop; subst hop
      obtain ⟨h1, h2, h3⟩ := connSetBlocked_ne hne
      exact ⟨by rw [h3]; exact h2, t, .inl ⟨hd, rfl, h1⟩⟩
    case unblock hd =>
      injection hop with hop; subst hop
      obtain ⟨h1, h2, h3⟩ := connSetBlocked_ne hne
      exact ⟨by rw [h3]; exact h2, t, .inr (.inl ⟨hd, rfl, h1⟩)⟩
    case blockerOf x hd =>
      split at hop
      · injection hop with hop; subst hop
        obtain ⟨h1, h2, h3⟩ := connSetBlocked_ne (w := { w with bv := upd w.bv x (some (w.hval hd)) }) hne
        exact ⟨by rw [h3]; exact h2, t, .inr (.inr (.inl ⟨x, hd, rfl, h1⟩))⟩
      · cases hop
    case blockerDtor x =>
      split at hop
      · rename_i v hv
        injection hop with hop; subst hop
        obtain ⟨h1, h2, h3⟩ := connSetBlocked_ne (w := { w with bv := upd w.bv x none }) hne
        subst h1
        exact ⟨by rw [h3]; exact h2, t, .inr (.inr (.inr (.inl ⟨x, rfl, hv⟩)))⟩
      · cases hop
    case blockerMoveAssign x y =>
      split at hop
      · rename_i v v' hv hv'
        split at hop <;> injection hop with hop <;> subst hop
        · obtain ⟨h1, h2, h3⟩ := connSetBlocked_ne hne
          subst h1
          exact ⟨by rw [h3]; exact h2, t, .inr (.inr (.inr (.inr ⟨x, y, rfl, hv⟩)))⟩
        · obtain ⟨h1, h2, h3⟩ := connSetBlocked_ne (w := w) (v := v) (c := false) (s := s) hne
          subst h1
          exact ⟨by simp only [h3]; exact h2, t, .inr (.inr (.inr (.inr ⟨x, y, rfl, hv⟩)))⟩
      · cases hop
    case connect g fn cons c b d =>
      split at hop
      · injection hop with hop; subst hop
        exfalso; apply hne
        have : s ≠ w.nSlots := by omega
        simp [World.emitEv, World.setStack, upd_apply, this]
      · cases hop
    case disconnect hd => injection hop with hop; subst hop; rw [discStart_slots] at hne; exact absurd rfl hne
    case scopedDtor x =>
      split at hop
      · injection hop with hop; subst hop; rw [discStart_slots] at hne; exact absurd rfl hne
      · cases hop
    case scopedMoveAssign x y =>
      split at hop
      · injection hop with hop; subst hop; rw [discStart_slots] at hne; exact absurd rfl hne
      · cases hop
    case connMove x hd =>
      split at hop <;> injection hop with hop <;> subst hop
      · exact absurd rfl hne
      · cases hd <;> exact absurd rfl hne
    case destroySig g =>
      split at hop
      · split at hop
        · injection hop with hop; subst hop; exact absurd rfl hne
        · split at hop <;> injection hop with hop <;> subst hop <;> exact absurd rfl hne
      · cases hop
    case moveSig g =>
      split at hop
      · split at hop <;> injection hop with hop <;> subst hop <;> exact absurd rfl hne
      · cases hop
    case combDeref i =>
      split at hop
      · split at hop <;> injection hop with hop <;> subst hop <;> exact absurd rfl hne
      · cases hop
    all_goals first
      | (injection hop with hop; subst hop; exact absurd rfl hne)
      | (split at hop <;> first | (injection hop with hop; subst hop; exact absurd rfl hne) | cases hop)
  | ret t v =>
    obtain ⟨-, -, s', o, m, b, pos, acc, rest, -, rfl⟩ := step_ret hs; exact absurd rfl hne
  | throw t c =>
    obtain ⟨-, -, s', o, m, b, pos, acc, rest, -, h⟩ := step_throw hs
    rcases h with ⟨-, rfl⟩ | ⟨-, -, rfl⟩ <;> exact absurd rfl hne
  | fail t => rcases step_fail_cases hs with ⟨rfl, -⟩ | ⟨f, rest, g, s, b, -, -, -, rfl⟩ <;> exact absurd rfl hne
  | ctl t => obtain ⟨-, -, rfl, -⟩ := step_ctl hs; exact absurd rfl hne

namespace Demo

/-- Listener 1 is blocked through a copy of its connection before an emission, and unblocked after. -/
def muffled : List Label :=
  [.call 0 (.newSig false)] ++ connect 0 10 0 ++ connect 0 11 1 ++ connect 0 12 2 ++
  [.call 0 (.block (.conn 1)), .call 0 (.emit 0 .lastValue [])] ++ go 0 8 ++ [.ret 0 7] ++ go 0 6 ++ [.ret 0 9] ++ go 0 1

end Demo

/-- In `muffled`, listener 1 is skipped and the others are called; after unblocking it is called again, in its place. -/
example : ∃ w post mid pre, Reachable Demo.E0 w ∧
    w.log = post ++ .skip 0 1 .blocked :: (mid ++ .visit 0 1 1 :: pre) ∧ mid = [] ∧
    blockedAfter (.visit 0 1 1 :: pre) 1 = true ∧ Event.done 0 (some 9) ∈ w.log ∧ w.listOf 0 = [0, 1, 2] :=
  ⟨Demo.world 1 Demo.muffled, (Demo.world 1 Demo.muffled).log.takeWhile (· ≠ .skip 0 1 .blocked), [],
    (Demo.world 1 Demo.muffled).log.drop ((Demo.world 1 Demo.muffled).log.idxOf (.visit 0 1 1) + 1), Demo.reach 1 _,
    by decide +kernel, rfl, by decide +kernel, by decide +kernel, by decide +kernel⟩

example : Event.enter 1 1 [] ∈ (Demo.world 1 (Demo.muffled ++
    [.call 0 (.unblock (.conn 1)), .call 0 (.emit 0 .lastValue [])] ++ Demo.go 0 8 ++ [.ret 0 1] ++ Demo.go 0 4)).log := by
  decide +kernel

/-! ### C13 -/

theorem discReturn_bv {rest : List Frame} {s : Option SlotId} {k : DiscK} {b : Bool} :
    (discReturn w t rest s k b).bv = w.bv := by
  unfold discReturn; cases k with
  | ret => rfl
  | assign x y => simp only; split <;> rfl

theorem discStart_bv {h : Option SlotId} {k : DiscK} : (discStart w t h k).bv = w.bv := by
  unfold discStart
  split
  · split
    · rfl
    · exact discReturn_bv
  · exact discReturn_bv

theorem connSetBlocked_bv {h : Option SlotId} {c : Bool} : (w.connSetBlocked h c).bv = w.bv := by
  unfold World.connSetBlocked
  split
  · split <;> rfl
  · rfl

theorem acquire_bv {g : SigId} {next : List Frame} (h : acquire w t g next = some w') : w'.bv = w.bv := by
  unfold acquire at h
  split at h
  · injection h with h; subst h; rfl
  · split at h
    · cases h
    · injection h with h; subst h; rfl

theorem removeAt_bv {b : BlkId} {i : Nat} : (removeAt w b i).bv = w.bv := by
  unfold removeAt; split <;> rfl

/-- Labels that assign to blockers. -/
def Label.blocker : Label → Prop
  | .call _ (.blockerNew _) => True
  | .call _ (.blockerOf _ _) => True
  | .call _ (.blockerMoveCtor _ _) => True
  | .call _ (.blockerMoveAssign _ _) => True
  | .call _ (.blockerSwap _ _) => True
  | .call _ (.blockerDtor _) => True
  | _ => False

/-- Blocker variables change only by operations on blockers. -/
theorem bv_keeps {l : Label} (hs : step E w l = some w') (hn : ¬ l.blocker) : w'.bv = w.bv := by
  cases l with
  | run t =>
    obtain ⟨-, -, h⟩ := step_run hs
    unfold runTop at h
    split at h
    · rename_i m pc rest hst
      unfold runEmit at h
      split at h
      · split at h
        · injection h with h; subst h; rfl
        · split at h <;> injection h with h <;> subst h <;> rfl
      · rw [acquire_bv h]
      · injection h with h; subst h; rfl
      · injection h with h; subst h; rfl
      · injection h with h; subst h; rfl
      · split at h
        · cases h
        · split at h <;> injection h with h <;> subst h <;> rfl
    · rename_i s pc m b pos acc rest hst
      unfold runCall at h
      split at h
      · split at h <;> injection h with h <;> subst h <;> rfl
      · split at h
        · split at h <;> injection h with h <;> subst h <;> rfl
        · injection h with h; subst h; rfl
      · injection h with h; subst h; rfl
      · split at h <;> injection h with h <;> subst h <;> rfl
      · split at h <;> injection h with h <;> subst h <;> rfl
      · cases h
    · rename_i g s dest pc rest hst
      unfold runAdd at h
      split at h
      · rw [acquire_bv h]
      · split at h <;> injection h with h <;> subst h <;> rfl
      · split at h <;> injection h with h <;> subst h <;> rfl
      · split at h <;> injection h with h <;> subst h <;> rfl
      · simp only at h
        split at h <;> injection h with h <;> subst h <;> rfl
    · rename_i g tgt pc rest hst
      unfold runErase at h
      split at h
      · rw [acquire_bv h]
      · split at h <;> injection h with h <;> subst h <;> rfl
      · split at h <;> injection h with h <;> subst h <;> rfl
      · split at h
        · injection h with h; subst h; rfl
        · split at h
          · injection h with h; subst h; rfl
          · split at h <;> injection h with h <;> subst h
            · rfl
            · simp only [World.setStack, World.emitEv, removeAt_bv]
            · rfl
      · injection h with h; subst h; rfl
    · rename_i s k pc rest hst
      unfold runDisc at h
      split at h
      · split at h <;> injection h with h <;> subst h
        · rfl
        · rw [discReturn_bv]; rfl
      · rw [acquire_bv h]
      · split at h <;> injection h with h <;> subst h <;> rfl
      · split at h <;> injection h with h <;> subst h <;> rfl
      · split at h
        · injection h with h; subst h; rfl
        · split at h <;> injection h with h <;> subst h
          · simp only [World.setStack, World.emitEv, removeAt_bv]
          · rfl
      · injection h with h; subst h; rfl
      · injection h with h; subst h
        rw [discReturn_bv]
    · rename_i g' g pc rest hst
      unfold runMov at h
      split at h
      · rw [acquire_bv h]
      · injection h with h; subst h; rfl
      · injection h with h; subst h; rfl
    · cases h
  | call t a =>
    obtain ⟨-, -, -, h⟩ := step_call hs
    cases a <;> simp only [userOp] at h
    case connMove y h' =>
      split at h
      · injection h with h; subst h; rfl
      · injection h with h; subst h
        cases h' <;> rfl
    case destroySig g =>
      split at h
      · split at h
        · injection h with h; subst h; rfl
        · split at h <;> injection h with h <;> subst h <;> rfl
      · cases h
    case disconnect h' => injection h with h; subst h; rw [discStart_bv]
    case block h' => injection h with h; subst h; rw [connSetBlocked_bv]
    case unblock h' => injection h with h; subst h; rw [connSetBlocked_bv]
    case scopedMoveAssign y z =>
      split at h
      · injection h with h; subst h; rw [discStart_bv]
      · cases h
    case scopedDtor y =>
      split at h
      · injection h with h; subst h; rw [discStart_bv]
      · cases h
    case blockerNew => exact absurd trivial hn
    case blockerOf => exact absurd trivial hn
    case blockerMoveCtor => exact absurd trivial hn
    case blockerMoveAssign => exact absurd trivial hn
    case blockerSwap => exact absurd trivial hn
    case blockerDtor => exact absurd trivial hn
    all_goals
      first
        | (injection h with h; subst h; rfl)
        | (split at h <;> first | (injection h with h; subst h; rfl) | cases h)
        | (split at h
           · split at h <;> first | (injection h with h; subst h; rfl) | cases h
           · cases h)
  | ret t v =>
    obtain ⟨-, -, s, o, m, b, pos, acc, rest, -, rfl⟩ := step_ret hs; rfl
  | throw t c =>
    obtain ⟨-, -, s, o, m, b, pos, acc, rest, -, h⟩ := step_throw hs
    rcases h with ⟨-, rfl⟩ | ⟨-, -, rfl⟩ <;> rfl
  | fail t => rcases step_fail_cases hs with ⟨rfl, -⟩ | ⟨f, rest, g, s, b, -, -, -, rfl⟩ <;> rfl
  | ctl t => obtain ⟨-, -, rfl, -⟩ := step_ctl hs; rfl

theorem Steps.weaken {P P' : Label → Prop} {w0 : World} (h : Steps E P w0 w) (hp : ∀ l, P l → P' l) :
    Steps E P' w0 w := by
  induction h with
  | refl => exact .refl _
  | tail l _ h1 h2 ih => exact ih.tail l (hp l h1) h2

theorem slotAlive_lt (I : Inv1 w) {s : SlotId} (h : w.slotAlive s = true) : s < w.nSlots := by
  rcases (slotAlive_iff I).1 h with ⟨g, hg⟩ | ⟨t, f, hf, h1 | ⟨b, -, hb⟩⟩ | hp
  · unfold World.listOf at hg
    split at hg
    · exact I.blk _ _ hg
    · cases hg
  · have := I.rng t f hf
    cases f <;> simp only [Frame.slot?, reduceCtorEq] at h1
    · rename_i g s' d pc
      cases pc <;> simp only [Frame.slot?, Option.some.injEq, reduceCtorEq] at h1 <;> subst h1 <;> exact this.2
    · injection h1 with h1; subst h1; exact this.1
  · exact I.blk _ _ hb
  · exact I.hld s (.inr (.inr (.inr hp)))

theorem discReturn_nSlots {rest : List Frame} {s : Option SlotId} {k : DiscK} {b : Bool} :
    (discReturn w t rest s k b).nSlots = w.nSlots := by
  unfold discReturn; cases k with
  | ret => rfl
  | assign x y => simp only; split <;> rfl

theorem discStart_nSlots {h : Option SlotId} {k : DiscK} : (discStart w t h k).nSlots = w.nSlots := by
  unfold discStart
  split
  · split
    · rfl
    · exact discReturn_nSlots
  · exact discReturn_nSlots

theorem connSetBlocked_nSlots {h : Option SlotId} {c : Bool} : (w.connSetBlocked h c).nSlots = w.nSlots := by
  unfold World.connSetBlocked
  split
  · split <;> rfl
  · rfl

/-- Only `connect` makes listeners. -/
theorem nSlots_step {l : Label} (hs : step E w l = some w') : w'.nSlots = w.nSlots ∨
    ∃ t g fn cs c b d, l = .call t (.connect g fn cs c b d) := by
  cases l with
  | run t =>
    left
    have hu := run_ctx hs
    have R : StepR E w t w' := (step_inv hs).2.2
    cases R
    case det => simp only [World.setStack]; rfl
    case eraseHit => exact (removeAt_same ..).2.2.2.1
    case discWrite => exact (removeAt_same ..).2.2.2.1
    all_goals first
      | rfl
      | (rw [‹userCtx _ = true›] at hu; cases hu; done)
  | call t a =>
    obtain ⟨-, -, -, hop⟩ := step_call hs
    cases a <;> simp only [userOp] at hop
    case connect g fn cs c b d => exact .inr ⟨t, g, fn, cs, c, b, d, rfl⟩
    all_goals
      left
      first
        | (injection hop with hop; subst hop
           first | rfl | exact discStart_nSlots | exact connSetBlocked_nSlots)
        | (split at hop <;> first
            | (injection hop with hop; subst hop
               first | rfl | exact discStart_nSlots | exact connSetBlocked_nSlots)
            | (cases hop; done)
            | (split at hop <;> first
                | (injection hop with hop; subst hop
                   first | rfl | exact discStart_nSlots | exact connSetBlocked_nSlots)
                | (split at hop <;> first
                    | (injection hop with hop; subst hop; rfl)
                    | (cases hop; done))))
        | skip
    case connMove x hd =>
      split at hop <;> injection hop with hop <;> subst hop
      · rfl
      · cases hd <;> rfl
  | ret t v =>
    obtain ⟨-, -, s', o, m, b, pos, acc, rest, -, rfl⟩ := step_ret hs; exact .inl rfl
  | throw t c =>
    obtain ⟨-, -, s', o, m, b, pos, acc, rest, -, h⟩ := step_throw hs
    rcases h with ⟨-, rfl⟩ | ⟨-, -, rfl⟩ <;> exact .inl rfl
  | fail t => rcases step_fail_cases hs with ⟨rfl, -⟩ | ⟨f, rest, g, s, b, -, -, -, rfl⟩ <;> exact .inl rfl
  | ctl t => obtain ⟨-, -, rfl, -⟩ := step_ctl hs; exact .inl rfl

/-- Executions all of whose labels satisfy `P` and all of whose worlds satisfy `Q`. -/
inductive Runs (E : Env) (P : Label → Prop) (Q : World → Prop) (w0 : World) : World → Prop where
  | refl (hq : Q w0) : Runs E P Q w0 w0
  | tail {w1 w2 : World} (l : Label) : Runs E P Q w0 w1 → P l → step E w1 l = some w2 → Q w2 → Runs E P Q w0 w2

theorem Runs.last {P : Label → Prop} {Q : World → Prop} {w0 : World} (h : Runs E P Q w0 w) : Q w := by
  cases h <;> assumption

theorem Runs.steps {P : Label → Prop} {Q : World → Prop} {w0 : World} (h : Runs E P Q w0 w) : Steps E P w0 w := by
  induction h with
  | refl => exact .refl _
  | tail l _ hp hs _ ih => exact ih.tail l hp hs

/-- Blocking is done by blockers only: nobody calls `block()` or `unblock()`, no listener starts out blocked, no
blocker is move-assigned to itself. -/
def BlockersOnly : Label → Prop
  | .call _ (.block _) => False
  | .call _ (.unblock _) => False
  | .call _ (.connect _ _ _ _ b _) => b = false
  | .call _ (.blockerMoveAssign x y) => x ≠ y
  | _ => True

/-- No two blockers refer to the same listener. -/
def OneBlocker (w : World) : Prop :=
  ∀ s x y, w.bv x = some (some s) → w.bv y = some (some s) → x = y

/-- C13: if blocking is done by blockers only and never by two for the same listener, then at every moment a
listener (that still exists) is blocked exactly if a blocker for it exists. -/
theorem C13 {n : Nat} (h : Runs E BlockersOnly OneBlocker (World.init n) w) {s : SlotId} (ha : w.slotAlive s = true) :
    (w.slots s).blocked = true ↔ ∃ x, w.bv x = some (some s) := by
  induction h generalizing s with
  | refl hq => simp [World.slotAlive, World.init, World.anyFrame] at ha
  | @tail w1 w2 l hr hp hs hq ih =>
    have h1 : Reachable E w1 := ⟨n, hr.steps.weaken fun _ _ => trivial⟩
    have h2 : Reachable E w2 := h1.step hs
    have I1 := h1.full.i.i1
    have hu := hr.last
    -- blockers refer to listeners that exist
    have hb : ∀ x s, w1.bv x = some (some s) → s < w1.nSlots := fun x s h => I1.hld s (held_bv h)
    -- steps that do not concern blockers
    have old : s < w1.nSlots → w2.bv = w1.bv → (w2.slots s).blocked = (w1.slots s).blocked →
        ((w2.slots s).blocked = true ↔ ∃ x, w2.bv x = some (some s)) := by
      intro hlt e1 e2
      rw [e1, e2]
      refine ih ?_
      rw [← Bool.not_eq_false]
      intro hd
      rw [slot_dead_stays h1.full.i h2.full.i.i1 (step_inv hs).2.2 hlt hd] at ha
      cases ha
    have fresh : ¬ s < w1.nSlots → w2.bv = w1.bv → (w2.slots s).blocked = false →
        ((w2.slots s).blocked = true ↔ ∃ x, w2.bv x = some (some s)) := by
      intro hlt e1 e2
      rw [e1, e2]
      constructor
      · intro h; cases h
      · rintro ⟨x, hx⟩; exact absurd (hb x s hx) hlt
    by_cases hbl : l.blocker
    · -- operations on blockers
      cases l with
      | call t a =>
        obtain ⟨-, -, -, hop⟩ := step_call hs
        cases a <;> simp only [Label.blocker] at hbl <;> simp only [userOp] at hop
        case blockerNew x =>
          split at hop
          · injection hop with hop; subst hop
            rename_i hx
            have hx : w1.bv x = none := by simpa using hx
            have := ih (s := s) ha
            rw [show (∃ z, upd w1.bv x (some none) z = some (some s)) ↔ ∃ z, w1.bv z = some (some s) from ?_]
            · exact this
            · constructor
              · rintro ⟨z, hz⟩; rw [upd_apply] at hz; split at hz
                · simp at hz
                · exact ⟨z, hz⟩
              · rintro ⟨z, hz⟩; refine ⟨z, ?_⟩; rw [upd_apply, if_neg]; exact hz
                rintro rfl; rw [hx] at hz; cases hz
          · cases hop
        case blockerOf x hd =>
          split at hop
          · injection hop with hop
            rename_i hx
            have hx : w1.bv x = none := by simpa using hx
            have hbv : w2.bv = upd w1.bv x (some (w1.hval hd)) := by rw [← hop, connSetBlocked_bv]
            have hal : w1.slotAlive s = true := by
              rw [← hop] at ha; unfold World.connSetBlocked at ha
              split at ha
              · split at ha <;> exact ha
              · exact ha
            have hB : (∃ z, w2.bv z = some (some s)) ↔ (w1.hval hd = some s ∨ ∃ z, w1.bv z = some (some s)) := by
              rw [hbv]
              constructor
              · rintro ⟨z, hz⟩; rw [upd_apply] at hz; split at hz
                · simp only [Option.some.injEq] at hz; exact .inl hz
                · exact .inr ⟨z, hz⟩
              · rintro (h | ⟨z, hz⟩)
                · exact ⟨x, by rw [upd_same, h]⟩
                · refine ⟨z, ?_⟩; rw [upd_apply, if_neg]; exact hz
                  rintro rfl; rw [hx] at hz; cases hz
            have hF : (w2.slots s).blocked = true ↔ (w1.hval hd = some s ∨ (w1.slots s).blocked = true) := by
              rw [← hop]; unfold World.connSetBlocked
              split
              · rename_i s0 e
                by_cases es : s = s0
                · subst es
                  have : World.slotAlive { w1 with bv := upd w1.bv x (some (w1.hval hd)) } s = true := hal
                  rw [this]
                  simp [World.setBlocked, World.emitEv, upd_same, e]
                · have : w1.hval hd ≠ some s := by rw [e]; simp [Ne.symm es]
                  simp only [this, false_or]
                  split
                  · simp [World.setBlocked, World.emitEv, upd_apply, es]
                  · rfl
              · rename_i e; rw [e]; simp
            rw [hB, hF, ih hal]
          · cases hop
        case blockerMoveCtor x y =>
          split at hop
          · rename_i v hx hy
            injection hop with hop; subst hop
            have := ih (s := s) ha
            rw [show (∃ z, upd (upd w1.bv x (some v)) y (some none) z = some (some s)) ↔
              ∃ z, w1.bv z = some (some s) from ?_]
            · exact this
            · have hxy : x ≠ y := by rintro rfl; rw [hx] at hy; cases hy
              constructor
              · rintro ⟨z, hz⟩; simp only [upd_apply] at hz; split at hz
                · simp at hz
                · split at hz
                  · simp only [Option.some.injEq] at hz; subst hz; exact ⟨y, hy⟩
                  · exact ⟨z, hz⟩
              · rintro ⟨z, hz⟩
                by_cases ezy : z = y
                · subst ezy; rw [hy] at hz; simp only [Option.some.injEq] at hz; subst hz
                  exact ⟨x, by simp [upd_apply, hxy]⟩
                · refine ⟨z, ?_⟩
                  have : z ≠ x := by rintro rfl; rw [hx] at hz; cases hz
                  simp [upd_apply, ezy, this, hz]
          · cases hop
        case blockerSwap x y =>
          split at hop
          · rename_i v v' hx hy
            injection hop with hop; subst hop
            have := ih (s := s) ha
            rw [show (∃ z, upd (upd w1.bv x (some v')) y (some v) z = some (some s)) ↔
              ∃ z, w1.bv z = some (some s) from ?_]
            · exact this
            · constructor
              · rintro ⟨z, hz⟩; simp only [upd_apply] at hz; split at hz
                · simp only [Option.some.injEq] at hz; subst hz; exact ⟨x, hx⟩
                · split at hz
                  · simp only [Option.some.injEq] at hz; subst hz; exact ⟨y, hy⟩
                  · exact ⟨z, hz⟩
              · rintro ⟨z, hz⟩
                by_cases ezy : z = y
                · subst ezy
                  by_cases exy : x = z
                  · subst exy; rw [hx] at hz; simp only [Option.some.injEq] at hz; subst hz
                    exact ⟨x, by simp [upd_apply]⟩
                  · rw [hy] at hz; simp only [Option.some.injEq] at hz; subst hz
                    exact ⟨x, by simp [upd_apply, exy]⟩
                · by_cases ezx : z = x
                  · subst ezx; rw [hx] at hz; simp only [Option.some.injEq] at hz; subst hz
                    exact ⟨y, by simp [upd_apply]⟩
                  · exact ⟨z, by simp [upd_apply, ezy, ezx, hz]⟩
          · cases hop
        case blockerDtor x =>
          split at hop
          · rename_i v hx
            injection hop with hop
            have hbv : w2.bv = upd w1.bv x none := by rw [← hop, connSetBlocked_bv]
            have hal : w1.slotAlive s = true := by
              rw [← hop] at ha; unfold World.connSetBlocked at ha
              split at ha
              · split at ha <;> exact ha
              · exact ha
            have hB : (∃ z, w2.bv z = some (some s)) ↔ (v ≠ some s ∧ ∃ z, w1.bv z = some (some s)) := by
              rw [hbv]
              constructor
              · rintro ⟨z, hz⟩; rw [upd_apply] at hz; split at hz
                · cases hz
                · rename_i hne
                  refine ⟨?_, z, hz⟩
                  rintro rfl
                  exact hne (hu s z x hz hx)
              · rintro ⟨hne, z, hz⟩
                refine ⟨z, ?_⟩; rw [upd_apply, if_neg]; exact hz
                rintro rfl; rw [hx] at hz; injection hz with hz; exact hne hz
            have hF : (w2.slots s).blocked = true ↔ (v ≠ some s ∧ (w1.slots s).blocked = true) := by
              rw [← hop]; unfold World.connSetBlocked
              split
              · rename_i s0
                by_cases es : s = s0
                · subst es
                  have : World.slotAlive { w1 with bv := upd w1.bv x none } s = true := hal
                  rw [this]
                  simp [World.setBlocked, World.emitEv, upd_same]
                · have : (some s0 : Option Nat) ≠ some s := by simp [Ne.symm es]
                  simp only [this, ne_eq, not_false_eq_true, true_and]
                  split
                  · simp [World.setBlocked, World.emitEv, upd_apply, es]
                  · rfl
              · simp
            rw [hB, hF, ih hal]
          · cases hop
        case blockerMoveAssign x y =>
          have hxy : x ≠ y := hp
          split at hop
          · rename_i v v' hx hy
            rw [if_neg hxy] at hop
            injection hop with hop
            have hbv : w2.bv = upd (upd w1.bv x (some v')) y (some none) := by
              rw [← hop]; simp only [connSetBlocked_bv]
            have hal : w1.slotAlive s = true := by
              rw [← hop] at ha; unfold World.connSetBlocked at ha
              split at ha
              · split at ha <;> exact ha
              · exact ha
            have hB : (∃ z, w2.bv z = some (some s)) ↔ (v ≠ some s ∧ ∃ z, w1.bv z = some (some s)) := by
              rw [hbv]
              constructor
              · rintro ⟨z, hz⟩; simp only [upd_apply] at hz; split at hz
                · simp at hz
                · split at hz
                  · simp only [Option.some.injEq] at hz; subst hz
                    refine ⟨?_, y, hy⟩
                    rintro rfl
                    exact hxy (hu s x y hx hy)
                  · rename_i h1 h2
                    refine ⟨?_, z, hz⟩
                    rintro rfl
                    exact h2 (hu s z x hz hx)
              · rintro ⟨hne, z, hz⟩
                by_cases ezy : z = y
                · subst ezy; rw [hy] at hz; simp only [Option.some.injEq] at hz; subst hz
                  exact ⟨x, by simp [upd_apply, hxy]⟩
                · refine ⟨z, ?_⟩
                  have : z ≠ x := by rintro rfl; rw [hx] at hz; injection hz with hz; exact hne hz
                  simp [upd_apply, ezy, this, hz]
            have hF : (w2.slots s).blocked = true ↔ (v ≠ some s ∧ (w1.slots s).blocked = true) := by
              rw [← hop]; unfold World.connSetBlocked
              split
              · rename_i s0
                by_cases es : s = s0
                · subst es
                  rw [hal]
                  simp [World.setBlocked, World.emitEv, upd_same]
                · have : (some s0 : Option Nat) ≠ some s := by simp [Ne.symm es]
                  simp only [this, ne_eq, not_false_eq_true, true_and]
                  split
                  · simp [World.setBlocked, World.emitEv, upd_apply, es]
                  · rfl
              · simp
            rw [hB, hF, ih hal]
          · cases hop
      | run t => exact absurd hbl (by simp [Label.blocker])
      | ret t v => exact absurd hbl (by simp [Label.blocker])
      | throw t c => exact absurd hbl (by simp [Label.blocker])
      | fail t => exact absurd hbl (by simp [Label.blocker])
      | ctl t => exact absurd hbl (by simp [Label.blocker])
    · have hbv := bv_keeps hs hbl
      by_cases hlt : s < w1.nSlots
      · refine old hlt hbv ?_
        refine Classical.byContradiction fun hne => ?_
        obtain ⟨-, t, ⟨hd, rfl, -⟩ | ⟨hd, rfl, -⟩ | ⟨x, hd, rfl, -⟩ | ⟨x, rfl, -⟩ | ⟨x, y, rfl, -⟩⟩ :=
          C12_changes hs hlt hne
        · exact hp
        · exact hp
        all_goals exact hbl trivial
      · refine fresh hlt hbv ?_
        have hlt2 := slotAlive_lt h2.full.i.i1 ha
        rcases nSlots_step hs with e | ⟨t, g, fn, cs, c, b, d, rfl⟩
        · omega
        · obtain ⟨-, -, -, hop⟩ := step_call hs
          simp only [userOp] at hop
          split at hop
          · injection hop with hop; subst hop
            have hb0 : b = false := hp
            have : s = w1.nSlots := by simp only [World.emitEv, World.setStack] at hlt2; omega
            subst this
            simp only [World.emitEv, World.setStack, upd_same, hb0]
          · cases hop

/-- C13: destroying a blocker, or move-assigning another one to it, unblocks exactly the listener it refers to; if that is
gone, or the blocker is empty or moved-from, no listener changes. -/
theorem C13_release {a : Api} {x : Var} (ha : a = .blockerDtor x ∨ ∃ y, a = .blockerMoveAssign x y)
    (hs : step E w (.call t a) = some w') :
    ∃ v, w.bv x = some v ∧
      (∀ s, v = some s → w.slotAlive s = true → w'.slots s = { w.slots s with blocked := false }) ∧
      (∀ s, v ≠ some s → w'.slots s = w.slots s) ∧ (w.connValid v = false → w'.slots = w.slots) ∧
      w'.blks = w.blks ∧ w'.sigs = w.sigs ∧ w'.stacks = w.stacks := by
  have key : ∀ {w0 : World} {v : Option SlotId},
      (∀ s, v = some s → w0.slotAlive s = true →
        (w0.connSetBlocked v false).slots s = { w0.slots s with blocked := false }) ∧
      (∀ s, v ≠ some s → (w0.connSetBlocked v false).slots s = w0.slots s) ∧
      (w0.connValid v = false → (w0.connSetBlocked v false).slots = w0.slots) ∧
      (w0.connSetBlocked v false).blks = w0.blks ∧ (w0.connSetBlocked v false).sigs = w0.sigs ∧
      (w0.connSetBlocked v false).stacks = w0.stacks := by
    intro w0 v
    unfold World.connSetBlocked
    cases v with
    | none => simp
    | some s0 =>
      simp only
      cases hal : w0.slotAlive s0 with
      | false =>
        simp only [Bool.false_eq_true, if_false]
        refine ⟨fun s e h => ?_, fun _ _ => ?_, fun _ => ?_, ?_, ?_, ?_⟩
        · injection e with e; subst e; rw [hal] at h; cases h
        all_goals trivial
      | true =>
        simp only [if_true]
        refine ⟨fun s e h => ?_, fun s hne => ?_, fun h => ?_, rfl, rfl, rfl⟩
        · injection e with e; subst e; exact upd_same _ _ _
        · have : s ≠ s0 := by rintro rfl; exact hne rfl
          simp [World.setBlocked, World.emitEv, upd_apply, this]
        · simp only [World.connValid] at h; rw [hal] at h; cases h
  obtain ⟨-, -, -, hop⟩ := step_call hs
  rcases ha with rfl | ⟨y, rfl⟩
  · simp only [userOp] at hop
    split at hop
    · rename_i v hv
      injection hop with hop; subst hop
      exact ⟨v, hv, key (w0 := { w with bv := upd w.bv x none })⟩
    · cases hop
  · simp only [userOp] at hop
    split at hop
    · rename_i v v' hv hv'
      refine ⟨v, hv, ?_⟩
      split at hop <;> injection hop with hop <;> subst hop
      · exact key
      · exact key (w0 := w)
    · cases hop

namespace Demo

/-- A blocker for listener 0 is made and moved to another variable. -/
def shield : List Label :=
  [.call 0 (.newSig false)] ++ connect 0 10 0 ++ connect 0 11 1 ++
  [.call 0 (.blockerOf 0 (.conn 0)), .call 0 (.blockerMoveCtor 1 0)]

end Demo

/-- Destroying the moved-from blocker leaves the listener blocked, destroying the other one unblocks it. -/
example : ((Demo.world 1 Demo.shield).slots 0).blocked = true ∧ ((Demo.world 1 Demo.shield).slots 1).blocked = false ∧
    ((Demo.world 1 (Demo.shield ++ [.call 0 (.blockerDtor 0)])).slots 0).blocked = true ∧
    ((Demo.world 1 (Demo.shield ++ [.call 0 (.blockerDtor 0), .call 0 (.blockerDtor 1)])).slots 0).blocked = false := by
  decide +kernel

/-- The hypotheses of `C13` hold of an execution with a blocker. -/
example : ∃ w, Runs Demo.E0 BlockersOnly OneBlocker (World.init 1) w ∧ w.slotAlive 0 = true ∧
    w.bv 0 = some (some 0) := by
  have h0 : OneBlocker (World.init 1) := by intro s x y h; simp [World.init] at h
  have run : ∀ {ls : List Label} {w w' : World}, Runs Demo.E0 BlockersOnly OneBlocker (World.init 1) w →
      (∀ l ∈ ls, BlockersOnly l) → (∀ l ∈ ls, ¬ l.blocker) → exec Demo.E0 w ls = some w' →
      Runs Demo.E0 BlockersOnly OneBlocker (World.init 1) w' := by
    intro ls
    induction ls with
    | nil => intro w w' h _ _ e; simp [exec] at e; subst e; exact h
    | cons l ls ih =>
      intro w w' h h1 h2 e
      simp only [exec] at e
      split at e
      · rename_i w1 e1
        refine ih (h.tail l (h1 l (by simp)) e1 ?_) (fun x hx => h1 x (List.mem_cons_of_mem _ hx))
          (fun x hx => h2 x (List.mem_cons_of_mem _ hx)) e
        have := bv_keeps e1 (h2 l (by simp))
        intro s x y
        rw [this]; exact h.last s x y
      · cases e
  have e1 : exec Demo.E0 (World.init 1) ([.call 0 (.newSig false)] ++ Demo.connect 0 10 0) =
      some (Demo.world 1 ([.call 0 (.newSig false)] ++ Demo.connect 0 10 0)) := by
    have : (exec Demo.E0 (World.init 1) ([.call 0 (.newSig false)] ++ Demo.connect 0 10 0)).isSome = true := by
      decide +kernel
    obtain ⟨x, hx⟩ := Option.isSome_iff_exists.1 this
    unfold Demo.world; rw [hx]; rfl
  have r1 := run (.refl h0) (by simp [Demo.connect, Demo.go, List.replicate, BlockersOnly])
    (by simp [Demo.connect, Demo.go, List.replicate, Label.blocker]) e1
  have e2 : (step Demo.E0 (Demo.world 1 ([.call 0 (.newSig false)] ++ Demo.connect 0 10 0))
      (.call 0 (.blockerOf 0 (.conn 0)))).isSome = true := by decide +kernel
  obtain ⟨w, hw⟩ := Option.isSome_iff_exists.1 e2
  have ew : w = (step Demo.E0 (Demo.world 1 ([.call 0 (.newSig false)] ++ Demo.connect 0 10 0))
      (.call 0 (.blockerOf 0 (.conn 0)))).getD (World.init 0) := by rw [hw]; rfl
  refine ⟨w, r1.tail _ (by simp [BlockersOnly]) hw ?_, by rw [ew]; decide +kernel, by rw [ew]; decide +kernel⟩
  obtain ⟨-, -, -, hop⟩ := step_call hw
  simp only [userOp] at hop
  split at hop
  · injection hop with hop
    have hb : (Demo.world 1 ([.call 0 (.newSig false)] ++ Demo.connect 0 10 0)).bv = fun _ => none := by
      have h1 := fun (x : Nat) => r1
      have : ∀ x, (Demo.world 1 ([.call 0 (.newSig false)] ++ Demo.connect 0 10 0)).bv x = none := by
        intro x; rfl
      exact funext this
    intro s x y hx hy
    rw [← hop, connSetBlocked_bv] at hx hy
    simp only [hb, upd_apply] at hx hy
    split at hx
    · split at hy
      · subst_vars; rfl
      · cases hy
    · cases hx
  · cases hop

/-! ### C14 -/

/-- C14 is false: two blockers for listener 0, one of them is destroyed; the listener is unblocked although the other
blocker exists. -/
theorem C14_false : ∃ w, Reachable Demo.E0 w ∧ w.slotAlive 0 = true ∧ w.bv 1 = some (some 0) ∧
    (w.slots 0).blocked = false ∧
    (∃ w0, Reachable Demo.E0 w0 ∧ w0.bv 0 = some (some 0) ∧ w0.bv 1 = some (some 0) ∧ (w0.slots 0).blocked = true ∧
      step Demo.E0 w0 (.call 0 (.blockerDtor 0)) = some w) := by
  have : (step Demo.E0 (Demo.world 1 ([.call 0 (.newSig false)] ++ Demo.connect 0 10 0 ++
    [.call 0 (.blockerOf 0 (.conn 0)), .call 0 (.blockerOf 1 (.conn 0))])) (.call 0 (.blockerDtor 0))).isSome = true := by
    decide +kernel
  obtain ⟨w, hw⟩ := Option.isSome_iff_exists.1 this
  have ew : w = (step Demo.E0 (Demo.world 1 ([.call 0 (.newSig false)] ++ Demo.connect 0 10 0 ++
    [.call 0 (.blockerOf 0 (.conn 0)), .call 0 (.blockerOf 1 (.conn 0))])) (.call 0 (.blockerDtor 0))).getD
      (World.init 0) := by rw [hw]; rfl
  refine ⟨w, (Demo.reach 1 _).step hw, ?_, ?_, ?_, _, Demo.reach 1 _, ?_, ?_, ?_, hw⟩
  · rw [ew]; decide +kernel
  · rw [ew]; decide +kernel
  · rw [ew]; decide +kernel
  all_goals decide +kernel

/-- The same happens when a blocker is move-assigned to itself: it still exists, but no longer blocks. This is why
`C13` excludes it. -/
theorem C13_self_move_false : ∃ w, Reachable Demo.E0 w ∧ w.slotAlive 0 = true ∧ w.bv 0 = some (some 0) ∧
    (w.slots 0).blocked = false :=
  ⟨Demo.world 1 ([.call 0 (.newSig false)] ++ Demo.connect 0 10 0 ++
    [.call 0 (.blockerOf 0 (.conn 0)), .call 0 (.blockerMoveAssign 0 0)]), Demo.reach 1 _, by decide +kernel⟩

/-- C14 (partial: only for a blocker whose listener has no other one; what is missing is the case of two blockers, which
is false). While the only blocker of a listener exists, the listener stays blocked. -/
theorem C14_partial {n : Nat} (h : Runs E BlockersOnly OneBlocker (World.init n) w) {s : SlotId} {x : Var}
    (ha : w.slotAlive s = true) (hx : w.bv x = some (some s)) : w.connBlocked (some s) = true := by
  simp [World.connBlocked, ha, (C13 h ha).2 ⟨x, hx⟩]

end Verif
