import Verif.Props.Lifetime
import Verif.Props.Connect
import Verif.Props.Fine

/-!
# C63: who destroys a listener, and functions of handles that are overtaken by a removal

`connection::connected`, `blocked`, `block`, `unblock` (1498-1530) and the constructor and `release` of `connection_blocker` (1452-1467) hold a
`shared_ptr` to the listener from `m_Slot.lock()` to the end of the function.
-/

namespace Verif

variable {E : Env} {w w' : World} {t : Tid}

/-! ### The specification -/

/-- The ways in which the last owner of listener `s` can give it up, as seen in the label and the history. -/
inductive Dies (w w' : World) (l : Label) (s : SlotId) : Prop where
  /-- `signal::disconnect(f)` takes it out of the list -/
  | erased (g : SigId) (h : w'.log = .erased g s :: w.log)
  /-- a `disconnect()` of another listener takes it out by mistake -/
  | mistaken (g : SigId) (r : SlotId) (hr : r ≠ s) (h : w'.log = .removed g r s :: w.log)
  /-- its signal is destroyed -/
  | signal (g : SigId) (hg : home w.log s = some g) (h : w'.log = .destroyed g :: w.log)
  /-- its `disconnect()` returns -/
  | disc (b : Bool) (rest : List Event) (h : w'.log = .discRet l.tid (some s) b :: rest)
  /-- an emission that has it in its snapshot ends -/
  | emission (m : Em) (items : List SlotId) (hm : Event.snap m items ∈ w.log) (hs : s ∈ items) (h : ¬ ended w.log m.e)
      (h' : ended w'.log m.e)
  /-- its `connect` throws `std::bad_alloc` -/
  | failed (g : SigId) (h : w'.log = .failed l.tid g (some s) :: w.log)
  /-- a function of a handle returns -/
  | unpin (h : l = .call l.tid (.unpin s))


/-- The label that gives up a pointer to `s`. -/
def Label.unpins (s : SlotId) : Label → Bool
  | .call _ (.unpin s') => s' == s
  | _ => false

/-! ### Proof -/

theorem discStart_pins {h : Option SlotId} {k : DiscK} : (discStart w t h k).pins = w.pins := by
  unfold discStart discReturn
  split
  · split
    · rfl
    · split
      · rfl
      · dsimp only; split <;> rfl
  · split
    · rfl
    · dsimp only; split <;> rfl

theorem connSetBlocked_pins {h : Option SlotId} {c : Bool} : (w.connSetBlocked h c).pins = w.pins := by
  unfold World.connSetBlocked
  split
  · split <;> rfl
  · rfl

/-- In user code there is nothing to run. -/
theorem run_user (hu : userCtx (w.stacks t) = true) : runTop E w t = none := by
  unfold userCtx at hu
  split at hu
  · rename_i e; simp only [runTop, e]
  · rename_i e
    simp only [runTop, e]
    split
    all_goals first
      | (simp_all; done)
      | (rename_i h; injection h with h; injection h with h1 h2; subst h2; rfl)
      | rfl
  · rename_i e; simp only [runTop, e, runEmit]
  · cases hu

/-- Only `pin` and `unpin` change the pins. -/
theorem pins_label {l : Label} (hs : step E w l = some w') :
    w'.pins = w.pins ∨ (∃ t x, l = .call t (.pin x) ∧ w'.pins = ((w.pval x).filter w.slotAlive).toList ++ w.pins) ∨
      ∃ t s, l = .call t (.unpin s) ∧ s ∈ w.pins ∧ w'.pins = w.pins.erase s := by
  cases l with
  | call t a =>
    obtain ⟨-, -, -, ho⟩ := step_call hs
    cases a
    case unpin s' =>
      simp only [userOp] at ho
      split at ho
      · rename_i hm
        injection ho with ho; subst ho
        exact .inr (.inr ⟨t, s', rfl, hm, rfl⟩)
      · cases ho
    case pin x =>
      simp only [userOp] at ho
      injection ho with ho; subst ho
      exact .inr (.inl ⟨t, x, rfl, rfl⟩)
    all_goals
      left
      simp only [userOp] at ho
      repeat' split at ho
      all_goals first
        | (cases ho; done)
        | (cases ho; rfl)
        | (cases ho; exact connSetBlocked_pins)
        | (cases ho; exact discStart_pins)
        | (cases ho; show (World.connSetBlocked _ _ _).pins = _; exact connSetBlocked_pins)
        | (injection ho with ho; subst ho; unfold World.clearHandle; split <;> rfl)
  | ret t v => obtain ⟨-, -, _, _, _, _, _, _, _, -, rfl⟩ := step_ret hs; exact .inl rfl
  | throw t c =>
    obtain ⟨-, -, _, _, _, _, _, _, _, -, ⟨-, rfl⟩ | ⟨-, -, rfl⟩⟩ := step_throw hs <;> exact .inl rfl
  | fail t =>
    rcases step_fail_cases hs with ⟨rfl, -⟩ | ⟨_, _, _, _, _, -, -, -, rfl⟩ <;> exact .inl rfl
  | ctl t => obtain ⟨-, -, rfl, -⟩ := step_ctl hs; exact .inl rfl
  | run t =>
    rcases pins_step (step_inv hs).2.2 with e | ⟨hu, -⟩
    · exact .inl e
    · exact absurd (step_run hs).2.2 (by rw [run_user (t := t) hu]; simp)

/-- Only `unpin s` gives up a pointer to `s`. -/
theorem unpin_step {l : Label} (hs : step E w l = some w') {s : SlotId} (h : s ∈ w.pins) (h' : s ∉ w'.pins) :
    l = .call l.tid (.unpin s) := by
  rcases pins_label hs with e | ⟨t, x, -, e⟩ | ⟨t, s', rfl, -, e⟩
  · exact absurd (e ▸ h) h'
  · exact absurd (by rw [e]; exact List.mem_append_right _ h) h'
  · by_cases hne : s = s'
    · subst hne; rfl
    · exact absurd (by rw [e]; exact (List.mem_erase_of_ne hne).2 h) h'

/-- A `disconnect()` goes on or returns. -/
theorem disc_kept (R : StepR E w t w') {s : SlotId} {k : DiscK} {pc : DiscPc} {rest : List Frame} (hst : w.stacks t = .disc s k pc :: rest) :
    (∃ pc', w'.stacks t = .disc s k pc' :: rest) ∨ ∃ b old, w'.log = .discRet t (some s) b :: old := by
  have hn : userCtx (w.stacks t) = true → False := fun hu => by rw [hst] at hu; cases hu
  have top : ∀ {f : Frame} {r : List Frame}, w.stacks t = f :: r → f = .disc s k pc ∧ r = rest := fun e => by
    rw [hst] at e; injection e with h1 h2; exact ⟨h1.symm, h2.symm⟩
  cases R
  case ub => exact .inl ⟨pc, hst⟩
  case acq f f' r g h0 hf ha hm =>
    obtain ⟨rfl, rfl⟩ := top h0
    cases pc with
    | crit g' c =>
      cases c <;> simp only [Frame.acq, Option.some.injEq, Prod.mk.injEq, reduceCtorEq] at hf
      obtain ⟨rfl, rfl⟩ := hf
      exact .inl ⟨_, upd_same _ _ _⟩
    | _ => cases hf
  case tst f f' r g b h0 hf hl =>
    obtain ⟨rfl, rfl⟩ := top h0
    cases pc with
    | crit g' c =>
      cases c <;> simp only [Frame.tst, Option.some.injEq, Prod.mk.injEq, reduceCtorEq] at hf
      obtain ⟨rfl, rfl⟩ := hf
      exact .inl ⟨_, upd_same _ _ _⟩
    | _ => cases hf
  case det f f' r g b h0 hf hl =>
    obtain ⟨rfl, rfl⟩ := top h0
    cases pc with
    | crit g' c =>
      cases c <;> simp only [Frame.det, Option.some.injEq, Prod.mk.injEq, reduceCtorEq] at hf
      obtain ⟨rfl, rfl⟩ := hf
      exact .inl ⟨_, upd_same _ _ _⟩
    | _ => cases hf
  case fail f r g s' h0 hf =>
    obtain ⟨rfl, rfl⟩ := top h0
    cases hf
  case exchTrue h0 _ => obtain ⟨e, rfl⟩ := top h0; cases e; exact .inl ⟨_, upd_same _ _ _⟩
  case exchFalse h0 _ _ => obtain ⟨e, rfl⟩ := top h0; cases e; exact .inr ⟨_, _, rfl⟩
  case discWrite h0 _ _ => obtain ⟨e, rfl⟩ := top h0; cases e; exact .inl ⟨_, upd_same _ _ _⟩
  case discMiss h0 _ _ => obtain ⟨e, rfl⟩ := top h0; cases e; exact .inl ⟨_, upd_same _ _ _⟩
  case discUnlock h0 => obtain ⟨e, rfl⟩ := top h0; cases e; exact .inl ⟨_, upd_same _ _ _⟩
  case discDrop h0 _ => obtain ⟨e, rfl⟩ := top h0; cases e; exact .inr ⟨_, _, rfl⟩
  all_goals first
    | exact (hn ‹_›).elim
    | (have e := (top ‹_›).1; cases e)

/-- C63: a listener, and with it the user's callable, is destroyed only when it is taken out of its list by `signal::disconnect(f)` or in place of
another one, when its signal is destroyed, or when its `disconnect()`, an emission that has it in its snapshot, its `connect` that throws, or
a function of a handle to it ends. In particular no other step of an emission destroys a listener, and neither does a `connect` that succeeds
or a move of the signal. -/
theorem C63_dies (h : Reachable E w) {l : Label} (hs : step E w l = some w') {s : SlotId}
    (ha : w.connValid (some s) = true) (hd : w'.connValid (some s) = false) : Dies w w' l s := by
  have h' := h.step hs
  have I := h.full.i
  have I' := h'.full.i
  obtain ⟨hub, hlt, R⟩ := step_inv hs
  obtain ⟨evs, hlog⟩ := log_grows R
  have dead : ¬ _ := mt (C49 h').2 (by rw [hd]; simp)
  rcases (C49 h).1 ha with ⟨g0, hg⟩ | ⟨m, items, h1, h2, h3⟩ | ⟨t', g, d, pc, rest, hst, hpc⟩ | ⟨t', k, pc, rest, hst⟩ | hp
  · have hm := (I.i3.hom g0 s).2 hg
    have no : ∀ g, s ∉ w'.listOf g := fun g hm => dead (.inl ⟨g, (I'.i3.hom g s).1 hm⟩)
    cases listEff I.i1 I.i2 R with
    | same h1 _ _ => exact absurd (by rw [h1]; exact hm) (no g0)
    | add g1 s1 b dest rest hst hb h1 _ _ =>
      refine absurd ?_ (no g0)
      rw [h1]; split
      · rename_i e; subst e; exact List.mem_append_left _ hm
      · exact hm
    | rem g1 i v ev hst hv h1 _ hev hlog =>
      have e : g0 = g1 := by
        refine Decidable.byContradiction fun n => no g0 ?_
        rw [h1, if_neg n]; exact hm
      subst e
      have e : s = v := by
        refine Decidable.byContradiction fun n => no g0 ?_
        rw [h1, if_pos rfl]
        exact (mem_swapPop_iff (I.i3.nodup g0) hv).2 ⟨hm, n⟩
      subst e
      rcases hev with rfl | ⟨r, rfl⟩
      · exact .erased _ hlog
      · refine .mistaken _ r ?_ hlog
        rintro rfl
        obtain ⟨k, g1, rest, e⟩ := removed_step R hlog
        exact dead (.inr (.inr (.inr (.inl ⟨_, _, _, _, e⟩))))
    | move g1 g2 hne hst h0 hdd h1 _ _ =>
      by_cases e : g0 = g1
      · subst e
        exact absurd (by rw [h1, if_neg hne, if_pos rfl]; exact hm) (no g2)
      · by_cases e2 : g0 = g2
        · subst e2; rw [h0] at hm; cases hm
        · exact absurd (by rw [h1, if_neg e, if_neg e2]; exact hm) (no g0)
    | destroy g1 hm1 h1 _ hlog =>
      have e : g0 = g1 := by
        refine Decidable.byContradiction fun n => no g0 ?_
        rw [h1, if_neg n]; exact hm
      subst e
      exact .signal _ hg hlog
  · refine .emission m items h1 h2 h3 (Classical.byContradiction fun n => dead (.inr (.inl ⟨m, items, ?_, h2, n⟩)))
    rw [hlog]; exact List.mem_append_right _ h1
  · have e : t' = l.tid := Decidable.byContradiction fun e =>
      dead (.inr (.inr (.inl ⟨t', g, d, pc, rest, by rw [stacks_other R e]; exact hst, hpc⟩)))
    subst e
    rcases add_step hst hs with ⟨pc', h1, h2 | ⟨h2, -⟩⟩ | ⟨h1, -⟩ | ⟨-, -, h1⟩
    · have : home w'.log s = some g := by rw [h2]; simp [home]
      exact (dead (.inl ⟨g, this⟩)).elim
    · exact (dead (.inr (.inr (.inl ⟨_, _, _, _, _, h1, h2⟩)))).elim
    · exact absurd h1 hpc
    · exact .failed g (by rw [h1]; rfl)
  · have e : t' = l.tid := Decidable.byContradiction fun e =>
      dead (.inr (.inr (.inr (.inl ⟨t', k, pc, rest, by rw [stacks_other R e]; exact hst⟩))))
    subst e
    rcases disc_kept R hst with ⟨pc', h1⟩ | ⟨b, old, h1⟩
    · exact (dead (.inr (.inr (.inr (.inl ⟨_, _, _, _, h1⟩))))).elim
    · exact .disc b old h1
  · exact .unpin (unpin_step hs hp fun hp' => dead (.inr (.inr (.inr (.inr hp')))))

theorem pins_count {ls : List Label} {s : SlotId} (hs : exec E w ls = some w') :
    w.pins.count s ≤ w'.pins.count s + ls.countP (Label.unpins s) := by
  induction ls generalizing w with
  | nil => simp only [exec, Option.some.injEq] at hs; subst hs; simp
  | cons l ls ih =>
    simp only [exec] at hs
    split at hs
    case h_2 => cases hs
    rename_i v h1
    have := ih hs
    rw [List.countP_cons]
    rcases pins_label h1 with e | ⟨t, x, -, e⟩ | ⟨t, s', rfl, hm, e⟩
    · rw [e] at this; omega
    · rw [e, List.count_append] at this; omega
    · rw [e, List.count_erase] at this
      simp only [Label.unpins]
      split at this <;> simp_all <;> omega

/-- C63: once a function of a handle has got hold of its listener, the listener stays until the function ends, whatever all threads do in the
meantime: also if it is disconnected, its signal is destroyed, and all others that were in a function of a handle leave. And
`block()`/`unblock()` in it have their effect on that listener. -/
theorem C63_inside {w0 w1 w2 : World} {x : Handle ⊕ Var} {s : SlotId} {ls : List Label} (h : Reachable E w0)
    (hs : step E w0 (.call t (.pin x)) = some w1) (hx : w0.pval x = some s) (ha : w0.connValid (some s) = true)
    (he : exec E w1 ls = some w2) (hn : ls.countP (Label.unpins s) ≤ w0.pins.count s) :
    w2.connValid (some s) = true ∧
    ∀ hd t' w3, w2.hval hd = some s →
      (step E w2 (.call t' (.block hd)) = some w3 → w3.ub = none ∧ w3.connBlocked (some s) = true) ∧
      (step E w2 (.call t' (.unblock hd)) = some w3 → w3.ub = none ∧ w3.connBlocked (some s) = false) := by
  have hr : Reachable E w2 := (h.step hs).steps (exec_steps (P := fun _ => True) (.refl _) (fun _ _ => trivial) he)
  have h1 : w1.pins.count s = w0.pins.count s + 1 := by
    have := (step_call hs).2.2.2
    simp only [userOp, Option.some.injEq] at this
    subst this
    simp only [hx, World.connValid] at ha ⊢
    simp [Option.filter, ha]
  have hc := pins_count (s := s) he
  have hm : s ∈ w2.pins := List.count_pos_iff.1 (by omega)
  have alive : w2.slotAlive s = true := (slotAlive_iff hr.full.i.i1).2 (.inr (.inr hm))
  refine ⟨alive, fun hd t' w3 hv => ⟨fun h3 => ?_, fun h3 => ?_⟩⟩
  all_goals
    obtain ⟨hub, -, -, ho⟩ := step_call h3
    simp only [userOp, World.connSetBlocked, hv, alive, if_true, Option.some.injEq] at ho
    subst ho
    refine ⟨hub, ?_⟩
    show (w2.slotAlive s && _) = _
    simp [alive, World.setBlocked, World.emitEv, upd_same]

/-! ### Witnesses -/

namespace Demo

/-- Listener 0 of signal 0 is connected; thread 1 is inside a function of the connection. -/
def pinned : List Label :=
  [.call 0 (.newSig false)] ++ connect 0 10 0 ++ [.call 1 (.pin (.inl (.conn 0)))]

/-- ... and thread 0 disconnects the listener and destroys the signal; thread 1 then blocks the listener, which nobody else owns any more. -/
def overtaken : List Label :=
  pinned ++ [.call 0 (.disconnect (.conn 0))] ++ go 0 6 ++ [.call 0 (.destroySig 0), .call 1 (.block (.conn 0))]

/-- Thread 0 enters such a function too; thread 1 leaves its one, and thread 2 destroys the signal. -/
def second : Label := .call 0 (.pin (.inl (.conn 0)))
@[inherit_doc second] def leave : List Label := [.call 1 (.unpin 0), .call 2 (.destroySig 0)]

/-- An emission whose only listener has been disconnected by its own body, about to end. -/
def emptied : List Label :=
  [.call 0 (.newSig false)] ++ connect 0 10 0 ++ [.call 0 (.emit 0 .lastValue [])] ++ go 0 8 ++
  [.call 0 (.disconnect (.conn 0))] ++ go 0 7 ++ [.ret 0 5]

/-- Listener `s` dies in the step `l` after `ls`. -/
def dies (n : Nat) (ls : List Label) (l : Label) (s : SlotId) : Bool :=
  (exec E0 (World.init n) (ls ++ [l])).isSome && (world n ls).connValid (some s) && !(world n (ls ++ [l])).connValid (some s)

end Demo

-- a function of a handle is the last owner: `block()` of thread 1 destroys the callable
example : Demo.dies 2 Demo.overtaken (.call 1 (.unpin 0)) 0 = true := by decide +kernel
example : (Demo.world 2 Demo.overtaken).connBlocked (some 0) = true ∧ Event.destroyed 0 ∈ (Demo.world 2 Demo.overtaken).log ∧
    Event.discRet 0 (some 0) true ∈ (Demo.world 2 Demo.overtaken).log := by decide +kernel
-- the other ends of a listener
example : Demo.dies 1 Demo.erasing (.run 0) 0 = true := by decide +kernel
example : Demo.dies 1 Demo.leaving (.run 0) 0 = true := by decide +kernel
example : Demo.dies 1 ([.call 0 (.newSig false)] ++ Demo.connect 0 10 0) (.call 0 (.destroySig 0)) 0 = true := by decide +kernel
example : Demo.dies 1 Demo.emptied (.run 0) 0 = true := by decide +kernel
example : Demo.dies 1 Demo.removing (.run 0) 1 = true := by decide +kernel
example : Demo.dies 1 ([.call 0 (.newSig false)] ++ (Demo.connect 0 10 0).take 3) (.fail 0) 0 = true := by decide +kernel

-- the hypotheses of `C63_inside`, with a pin of another thread that ends in the meantime
example : ∃ w0 w1 w2 : World, Reachable Demo.E0 w0 ∧ step Demo.E0 w0 (.call 0 (.pin (.inl (.conn 0)))) = some w1 ∧
    w0.pval (.inl (.conn 0)) = some 0 ∧ w0.connValid (some 0) = true ∧
    exec Demo.E0 w1 [.call 1 (.unpin 0), .call 2 (.destroySig 0)] = some w2 ∧ w2.hval (.conn 0) = some 0 ∧ w0.pins.count 0 = 1 :=
  ⟨Demo.world 3 Demo.pinned, Demo.world 3 (Demo.pinned ++ [Demo.second]), Demo.world 3 (Demo.pinned ++ [Demo.second] ++ Demo.leave),
    Demo.reach 3 _, by rw [← Demo.world_step 3 Demo.pinned Demo.second (by decide +kernel)]; rfl, by decide +kernel, by decide +kernel,
    by rw [← Demo.world_from 3 (Demo.pinned ++ [Demo.second]) Demo.leave (by decide +kernel)]; rfl, by decide +kernel, by decide +kernel⟩

end Verif
