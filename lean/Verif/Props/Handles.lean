import Verif.Props.Disconnect

/-!
# C15, C41, C42: connection objects
-/

namespace Verif

variable {E : Env} {w w' : World} {t : Tid}

/-! ### C41: copies agree -/

/-- Everything outside the handle variables is as before. -/
def World.sameState (w w' : World) : Prop :=
  w'.slots = w.slots ∧ w'.nSlots = w.nSlots ∧ w'.blks = w.blks ∧ w'.sigs = w.sigs ∧ w'.objs = w.objs ∧
  w'.stacks = w.stacks ∧ w'.log = w.log ∧ w'.ub = w.ub

/-- C41: copying a connection (or a `scoped_connection` as a connection) makes the target refer to the same listener,
leaves the source and every other handle as they are, and does nothing else. -/
theorem C41_copy {x : Var} {h : Handle} (hs : step E w (.call t (.connCopy x h)) = some w') :
    w'.cv x = w.hval h ∧ w'.hval h = w.hval h ∧ (∀ h', h' ≠ .conn x → w'.hval h' = w.hval h') ∧ w'.bv = w.bv ∧
    w.sameState w' := by
  obtain ⟨-, -, -, hop⟩ := step_call hs
  simp only [userOp, Option.some.injEq] at hop
  subst hop
  refine ⟨upd_same _ _ _, ?_, fun h' hne => ?_, rfl, rfl, rfl, rfl, rfl, rfl, rfl, rfl, rfl⟩
  · cases h with
    | conn y => by_cases e : y = x <;> simp [World.hval, upd, e]
    | «scoped» y => rfl
  · cases h' with
    | conn y => simp only [World.hval, upd_apply]; rw [if_neg]; rintro rfl; exact hne rfl
    | «scoped» y => rfl

/-- C41: moving a connection transfers the listener to the target and leaves the source empty (moving onto itself
changes nothing). -/
theorem C41_move {x : Var} {h : Handle} (hs : step E w (.call t (.connMove x h)) = some w') :
    w'.cv x = w.hval h ∧ (h ≠ .conn x → w'.hval h = none) ∧
    (∀ h', h' ≠ .conn x → h' ≠ h → w'.hval h' = w.hval h') ∧ w'.bv = w.bv ∧ w.sameState w' := by
  obtain ⟨-, -, -, hop⟩ := step_call hs
  simp only [userOp] at hop
  split at hop
  · rename_i e
    subst e
    injection hop with hop; subst hop
    exact ⟨rfl, fun h => absurd rfl h, fun _ _ _ => rfl, rfl, rfl, rfl, rfl, rfl, rfl, rfl, rfl, rfl⟩
  · rename_i e
    injection hop with hop; subst hop
    refine ⟨upd_same _ _ _, fun _ => ?_, fun h' hne hne' => ?_, by cases h <;> rfl, ?_⟩
    · cases h with
      | conn y =>
        simp only [World.hval, World.clearHandle, upd_apply]
        rw [if_neg (by rintro rfl; exact e rfl)]; simp
      | «scoped» y => simp [World.hval, World.clearHandle, upd_apply]
    · cases h' with
      | conn y =>
        simp only [World.hval, upd_apply]
        rw [if_neg (by rintro rfl; exact hne rfl)]
        cases h with
        | conn z => simp only [World.clearHandle, upd_apply]; rw [if_neg (by rintro rfl; exact hne' rfl)]
        | «scoped» z => rfl
      | «scoped» y =>
        cases h with
        | conn z => rfl
        | «scoped» z =>
          simp only [World.hval, World.clearHandle, upd_apply]
          rw [if_neg (by rintro rfl; exact hne' rfl)]
    · cases h <;> exact ⟨rfl, rfl, rfl, rfl, rfl, rfl, rfl, rfl⟩

/-- C41: swapping exchanges what two connections refer to. -/
theorem C41_swap {x y : Var} (hs : step E w (.call t (.connSwap x y)) = some w') :
    w'.cv x = w.cv y ∧ w'.cv y = w.cv x ∧
    (∀ h', h' ≠ .conn x → h' ≠ .conn y → w'.hval h' = w.hval h') ∧ w'.bv = w.bv ∧ w.sameState w' := by
  obtain ⟨-, -, -, hop⟩ := step_call hs
  simp only [userOp, Option.some.injEq] at hop
  subst hop
  refine ⟨?_, upd_same _ _ _, fun h' h1 h2 => ?_, rfl, rfl, rfl, rfl, rfl, rfl, rfl, rfl, rfl⟩
  · simp only [upd_apply]; split
    · rename_i e; rw [e]
    · simp
  · cases h' with
    | conn z =>
      simp only [World.hval, upd_apply]
      rw [if_neg (by rintro rfl; exact h2 rfl), if_neg (by rintro rfl; exact h1 rfl)]
    | «scoped» z => rfl

/-- The `connection` variables a label assigns to, in world `w`. -/
def Label.assigns (w : World) (x : Var) : Label → Prop
  | .call _ (.connCopy y _) => y = x
  | .call _ (.connMove y h) => y = x ∨ h = .conn x
  | .call _ (.connSwap y z) => y = x ∨ z = x
  | .call _ (.scopedRelease y _) => y = x
  | .run t => ∃ g s rest, w.stacks t = .add g s (.conn x) .unlock :: rest
  | _ => False

theorem discReturn_cv {rest : List Frame} {s : Option SlotId} {k : DiscK} {b : Bool} :
    (discReturn w t rest s k b).cv = w.cv := by
  unfold discReturn; cases k with
  | ret => rfl
  | assign x y => simp only; split <;> rfl

theorem discStart_cv {h : Option SlotId} {k : DiscK} : (discStart w t h k).cv = w.cv := by
  unfold discStart
  split
  · split
    · rfl
    · exact discReturn_cv
  · exact discReturn_cv

theorem connSetBlocked_cv {h : Option SlotId} {c : Bool} : (w.connSetBlocked h c).cv = w.cv := by
  unfold World.connSetBlocked
  split
  · split <;> rfl
  · rfl

theorem acquire_cv {g : SigId} {next : List Frame} (h : acquire w t g next = some w') : w'.cv = w.cv := by
  unfold acquire at h
  split at h
  · injection h with h; subst h; rfl
  · split at h
    · cases h
    · injection h with h; subst h; rfl

theorem removeAt_cv {b : BlkId} {i : Nat} : (removeAt w b i).cv = w.cv := by
  unfold removeAt; split <;> rfl

/-- C41: a connection variable keeps referring to the same listener until it is assigned to. -/
theorem C41_keeps {l : Label} (hs : step E w l = some w') {x : Var} (hn : ¬ l.assigns w x) : w'.cv x = w.cv x := by
  cases l with
  | run t =>
    obtain ⟨-, -, h⟩ := step_run hs
    unfold runTop at h
    split at h
    · rename_i m pc rest hst
      unfold runEmit at h
      split at h
      · split at h
        · injection h with h; subst h; rfl
        · split at h <;> injection h with h <;> subst h <;> rfl
      · rw [acquire_cv h]
      · injection h with h; subst h; rfl
      · injection h with h; subst h; rfl
      · injection h with h; subst h; rfl
      · split at h
        · cases h
        · split at h <;> injection h with h <;> subst h <;> rfl
    · rename_i s pc m b pos acc rest hst
      unfold runCall at h
      split at h
      · split at h <;> injection h with h <;> subst h <;> rfl
      · split at h
        · split at h <;> injection h with h <;> subst h <;> rfl
        · injection h with h; subst h; rfl
      · injection h with h; subst h; rfl
      · split at h <;> injection h with h <;> subst h <;> rfl
      · split at h <;> injection h with h <;> subst h <;> rfl
      · cases h
    · rename_i g s dest pc rest hst
      unfold runAdd at h
      split at h
      · rw [acquire_cv h]
      · split at h <;> injection h with h <;> subst h <;> rfl
      · split at h <;> injection h with h <;> subst h <;> rfl
      · split at h <;> injection h with h <;> subst h <;> rfl
      · simp only at h
        split at h <;> injection h with h <;> subst h
        · rename_i y
          have : x ≠ y := by rintro rfl; exact hn ⟨g, s, rest, hst⟩
          simp [upd_apply, this, World.emitEv, World.setStack, World.setMutex]
        · rfl
    · rename_i g tgt pc rest hst
      unfold runErase at h
      split at h
      · rw [acquire_cv h]
      · split at h <;> injection h with h <;> subst h <;> rfl
      · split at h <;> injection h with h <;> subst h <;> rfl
      · split at h
        · injection h with h; subst h; rfl
        · split at h
          · injection h with h; subst h; rfl
          · split at h <;> injection h with h <;> subst h
            · rfl
            · simp only [World.setStack, World.emitEv, removeAt_cv]
            · rfl
      · injection h with h; subst h; rfl
    · rename_i s k pc rest hst
      unfold runDisc at h
      split at h
      · split at h <;> injection h with h <;> subst h
        · rfl
        · rw [discReturn_cv]; rfl
      · rw [acquire_cv h]
      · split at h <;> injection h with h <;> subst h <;> rfl
      · split at h <;> injection h with h <;> subst h <;> rfl
      · split at h
        · injection h with h; subst h; rfl
        · split at h <;> injection h with h <;> subst h
          · simp only [World.setStack, World.emitEv, removeAt_cv]
          · rfl
      · injection h with h; subst h; rfl
      · injection h with h; subst h
        rw [discReturn_cv]
    · rename_i g' g pc rest hst
      unfold runMov at h
      split at h
      · rw [acquire_cv h]
      · injection h with h; subst h; rfl
      · injection h with h; subst h; rfl
    · cases h
  | call t a =>
    obtain ⟨-, -, -, h⟩ := step_call hs
    cases a <;> simp only [userOp] at h
    case connCopy y h' =>
      injection h with h; subst h
      simp only [Label.assigns] at hn
      simp only [upd_apply]; rw [if_neg (fun e => hn e.symm)]
    case connMove y h' =>
      simp only [Label.assigns] at hn
      split at h
      · injection h with h; subst h; rfl
      · injection h with h; subst h
        simp only [upd_apply]; rw [if_neg (fun e => hn (.inl e.symm))]
        cases h' with
        | conn z =>
          simp only [World.clearHandle, upd_apply]; rw [if_neg]
          rintro rfl; exact hn (.inr rfl)
        | «scoped» z => rfl
    case connSwap y z =>
      injection h with h; subst h
      simp only [Label.assigns] at hn
      simp only [upd_apply]; rw [if_neg (fun e => hn (.inr e.symm)), if_neg (fun e => hn (.inl e.symm))]
    case scopedRelease y z =>
      simp only [Label.assigns] at hn
      split at h
      · injection h with h; subst h
        simp only [upd_apply]; rw [if_neg (fun e => hn e.symm)]
      · cases h
    case destroySig g =>
      split at h
      · split at h
        · injection h with h; subst h; rfl
        · split at h <;> injection h with h <;> subst h <;> rfl
      · cases h
    case disconnect h' => injection h with h; subst h; rw [discStart_cv]
    case block h' => injection h with h; subst h; rw [connSetBlocked_cv]
    case unblock h' => injection h with h; subst h; rw [connSetBlocked_cv]
    case scopedMoveAssign y z =>
      split at h
      · injection h with h; subst h; rw [discStart_cv]
      · cases h
    case scopedDtor y =>
      split at h
      · injection h with h; subst h; rw [discStart_cv]
      · cases h
    case blockerOf y h' =>
      split at h
      · injection h with h; subst h; rw [connSetBlocked_cv]
      · cases h
    case blockerMoveAssign y z =>
      split at h
      · split at h <;> injection h with h <;> subst h
        · rw [connSetBlocked_cv]
        · rw [← connSetBlocked_cv (w := w)]
      · cases h
    case blockerDtor y =>
      split at h
      · injection h with h; subst h; rw [connSetBlocked_cv]
      · cases h
    all_goals
      first
        | (injection h with h; subst h; rfl)
        | (split at h <;> first | (injection h with h; subst h; rfl) | cases h)
        | (split at h
           · split at h <;> first | (injection h with h; subst h; rfl) | cases h
           · cases h)
  | ret t v =>
    obtain ⟨-, -, s, o, m, b, pos, acc, rest, -, rfl⟩ := step_ret hs; rfl
  | throw t c =>
    obtain ⟨-, -, s, o, m, b, pos, acc, rest, -, h⟩ := step_throw hs
    rcases h with ⟨-, rfl⟩ | ⟨-, -, rfl⟩ <;> rfl
  | fail t =>
    rcases step_fail_cases hs with ⟨rfl, -⟩ | ⟨f, rest, g, s, b, -, -, -, rfl⟩ <;> rfl
  | ctl t => obtain ⟨-, -, rfl, -⟩ := step_ctl hs; rfl

/-- C41: blocking or unblocking through one handle is seen through every handle that refers to the same listener. -/
theorem C41_block {h : Handle} {c : Bool}
    (hs : step E w (.call t (if c then .block h else .unblock h)) = some w') (h' : Handle)
    (he : w.hval h' = w.hval h) :
    w'.hval h' = w.hval h' ∧ w'.connBlocked (w'.hval h') = (c && w.connValid (w.hval h')) ∧
    w'.connValid (w'.hval h') = w.connValid (w.hval h') ∧
    w'.connConnected (w'.hval h') = w.connConnected (w.hval h') := by
  obtain ⟨-, -, -, hop⟩ := step_call hs
  have hop : w' = w.connSetBlocked (w.hval h) c := by
    cases c <;> simp only [userOp, Bool.false_eq_true, if_false, if_true] at hop <;> injection hop with hop <;>
      exact hop.symm
  subst hop
  unfold World.connSetBlocked
  cases hv : w.hval h with
  | none =>
    simp only
    rw [hv] at he
    simp [he, World.connBlocked, World.connValid]
  | some s =>
    simp only
    rw [hv] at he
    cases ha : w.slotAlive s with
    | false => simp [he, World.connBlocked, World.connValid, ha]
    | true =>
      rw [if_pos rfl]
      have e1 : ((w.setBlocked s c).emitEv (.blockSet s c)).hval h' = some s := by
        rw [← he]; cases h' <;> rfl
      have e2 : ((w.setBlocked s c).emitEv (.blockSet s c)).slotAlive s = true := ha
      have e3 : ((w.setBlocked s c).emitEv (.blockSet s c)).slotConnected s = w.slotConnected s := by
        simp only [World.slotConnected, World.setBlocked, World.emitEv, upd_same]
        rfl
      rw [e1, he]
      refine ⟨rfl, ?_, ?_, ?_⟩
      · simp only [World.connBlocked, World.connValid, e2, ha]
        simp [World.setBlocked, World.emitEv, upd_same]
      · simp only [World.connValid, e2, ha]
      · simp only [World.connConnected, e2, ha, e3]

/-- C41: a `disconnect()` that has reached the listener is seen through every handle that refers to it, whenever and
however that handle was obtained. -/
theorem C41_disconnect (h : Reachable E w) {s : SlotId} {b : Bool} (hx : Event.exch s b ∈ w.log)
    (h' : Handle) (he : w.hval h' = some s) : w.connConnected (w.hval h') = false := by
  rw [he]; exact C04_flag h hx (P := fun _ => True) (.refl _)

namespace Demo

/-- A connection is copied, the copy moved, and two connections swapped. -/
def copies : List Label :=
  [.call 0 (.newSig false)] ++ connect 0 10 0 ++ connect 0 11 1 ++
  [.call 0 (.connCopy 2 (.conn 0)), .call 0 (.connMove 3 (.conn 2)), .call 0 (.connSwap 3 1)]

end Demo

example : (Demo.world 1 Demo.copies).cv 0 = some 0 ∧ (Demo.world 1 Demo.copies).cv 1 = some 0 ∧
    (Demo.world 1 Demo.copies).cv 2 = none ∧ (Demo.world 1 Demo.copies).cv 3 = some 1 ∧
    (Demo.world 1 (Demo.copies ++ [.call 0 (.block (.conn 1))])).connBlocked (some 0) = true ∧
    (Demo.world 1 (Demo.copies ++ [.call 0 (.disconnect (.conn 1)), .run 0])).connValid (some 0) = true ∧
    (Demo.world 1 (Demo.copies ++ [.call 0 (.disconnect (.conn 1)), .run 0])).connConnected (some 0) = false := by
  decide +kernel

/-! ### C42: empty and expired connections -/

/-- C42: a handle that is empty or whose listener is gone reports `false` throughout. -/
theorem C42_queries {v : Option SlotId} (hv : w.connValid v = false) :
    w.connConnected v = false ∧ w.connBlocked v = false := by
  cases v with
  | none => exact ⟨rfl, rfl⟩
  | some s => simp only [World.connValid] at hv; simp [World.connConnected, World.connBlocked, hv]

/-- C42: `block`, `unblock` on such a handle change nothing whatsoever. -/
theorem C42_block {h : Handle} (hv : w.connValid (w.hval h) = false) (c : Bool)
    (hs : step E w (.call t (if c then .block h else .unblock h)) = some w') : w' = w := by
  obtain ⟨-, -, -, hop⟩ := step_call hs
  have hop : w' = w.connSetBlocked (w.hval h) c := by
    cases c <;> simp only [userOp, Bool.false_eq_true, if_false, if_true] at hop <;> injection hop with hop <;>
      exact hop.symm
  subst hop
  unfold World.connSetBlocked
  split
  · rename_i s e
    rw [e] at hv; simp only [World.connValid] at hv
    rw [hv]; rfl
  · rfl

/-- C42: a blocker made from such a handle, and its destruction, change nothing but the blocker variable. -/
theorem C42_blocker {h : Handle} {x : Var} (hv : w.connValid (w.hval h) = false)
    (hs : step E w (.call t (.blockerOf x h)) = some w') :
    w.sameState w' ∧ w'.cv = w.cv ∧ w'.sv = w.sv ∧
    ∀ {w''}, step E w' (.call t (.blockerDtor x)) = some w'' → w.sameState w'' := by
  have key : ∀ {w1 : World} {v : Option SlotId} {c : Bool}, w1.connValid v = false → w1.connSetBlocked v c = w1 := by
    intro w1 v c h1
    unfold World.connSetBlocked
    split
    · simp only [World.connValid] at h1; rw [h1]; rfl
    · rfl
  obtain ⟨-, -, -, hop⟩ := step_call hs
  simp only [userOp] at hop
  split at hop
  · injection hop with hop
    rw [key (by exact hv)] at hop
    subst hop
    refine ⟨⟨rfl, rfl, rfl, rfl, rfl, rfl, rfl, rfl⟩, rfl, rfl, fun {w''} hs' => ?_⟩
    obtain ⟨-, -, -, hop⟩ := step_call hs'
    simp only [userOp, upd_same] at hop
    injection hop with hop
    rw [key (by exact hv)] at hop
    subst hop
    exact ⟨rfl, rfl, rfl, rfl, rfl, rfl, rfl, rfl⟩
  · cases hop

/-- C42: `disconnect()` on such a handle returns `false` at once and changes nothing. -/
theorem C42_disconnect {h : Handle} (hv : w.connValid (w.hval h) = false)
    (hs : step E w (.call t (.disconnect h)) = some w') :
    w' = w.emitEv (.discRet t (w.hval h) false) := by
  obtain ⟨-, -, -, hop⟩ := step_call hs
  simp only [userOp] at hop
  injection hop with hop
  subst hop
  have hsame : w.setStack t (w.stacks t) = w := by
    have : upd w.stacks t (w.stacks t) = w.stacks := by
      funext x; simp only [upd_apply]; split
      · rename_i e; rw [e]
      · rfl
    simp only [World.setStack, this]
  unfold discStart
  split
  · rename_i s e
    rw [e] at hv; simp only [World.connValid] at hv
    rw [hv]
    simp only [discReturn, hsame, Bool.false_eq_true, if_false, e]
  · rename_i e
    simp only [discReturn, hsame, e]

/-- C42: once the listener a handle refers to is gone, it is gone for ever. -/
theorem C42_forever (h : Reachable E w) {hd : Handle} {s : SlotId} (hh : w.hval hd = some s)
    (hv : w.connValid (some s) = false) {P : Label → Prop} (hs : Steps E P w w') :
    w'.connValid (some s) = false ∧ w'.connConnected (some s) = false ∧ w'.connBlocked (some s) = false := by
  have hlt : s < w.nSlots := h.full.i.i1.hld s (held_hval hh)
  have : s < w'.nSlots ∧ w'.slotAlive s = false := by
    induction hs with
    | refl => exact ⟨hlt, hv⟩
    | @tail w1 w2 l hs1 _ hst ih =>
      have R := (step_inv hst).2.2
      have h1 := h.steps hs1
      have h2 := h1.step hst
      exact ⟨Nat.lt_of_lt_of_le ih.1 (fixed R).nSlots,
        slot_dead_stays h1.full.i h2.full.i.i1 R ih.1 ih.2⟩
  exact ⟨this.2, C42_queries this.2⟩

/-- After its only listener has been disconnected, `c0` is expired; `c1` was never connected. -/
example : ∃ w, Reachable Demo.E0 w ∧ w.hval (.conn 0) = some 0 ∧ w.connValid (some 0) = false ∧
    w.connValid (w.hval (.conn 1)) = false :=
  ⟨Demo.world 1 ([.call 0 (.newSig false)] ++ Demo.connect 0 10 0 ++ [.call 0 (.disconnect (.conn 0))] ++ Demo.go 0 6),
    Demo.reach 1 _, by decide +kernel, by decide +kernel, by decide +kernel⟩

/-! ### C15: scoped_connection -/

/-- C15: constructing, moving, releasing and swapping scoped connections, and assigning to them as plain connections, disconnects nothing: no state outside the
handles changes. What the handles refer to changes as follows. -/
theorem C15_inert {a : Api} (hs : step E w (.call t a) = some w')
    (ha : (∃ x, a = .scopedNew x) ∨ (∃ x y, a = .scopedOfConn x y) ∨ (∃ x y, a = .scopedMoveCtor x y) ∨
      (∃ x y, a = .scopedRelease x y) ∨ (∃ x y, a = .scopedSwap x y) ∨ ∃ x h, a = .scopedBase x h) :
    w.sameState w' ∧ w'.bv = w.bv ∧
    (∀ x h, a = .scopedBase x h → w'.sv x = some (w.hval h) ∧ w'.cv = w.cv ∧ ∀ z, z ≠ x → w'.sv z = w.sv z) ∧
    (∀ x, a = .scopedNew x → w'.sv x = some none ∧ w'.cv = w.cv ∧ ∀ z, z ≠ x → w'.sv z = w.sv z) ∧
    (∀ x y, a = .scopedOfConn x y → w'.sv x = some (w.cv y) ∧ w'.cv = w.cv ∧ ∀ z, z ≠ x → w'.sv z = w.sv z) ∧
    (∀ x y, a = .scopedMoveCtor x y → x ≠ y ∧ w'.sv x = w.sv y ∧ w'.sv y = some none ∧ w'.cv = w.cv ∧
      ∀ z, z ≠ x → z ≠ y → w'.sv z = w.sv z) ∧
    (∀ x y, a = .scopedRelease x y → some (w'.cv x) = w.sv y ∧ w'.sv y = some none ∧
      (∀ z, z ≠ y → w'.sv z = w.sv z) ∧ ∀ z, z ≠ x → w'.cv z = w.cv z) ∧
    (∀ x y, a = .scopedSwap x y → w'.sv x = w.sv y ∧ w'.sv y = w.sv x ∧ w'.cv = w.cv ∧
      ∀ z, z ≠ x → z ≠ y → w'.sv z = w.sv z) := by
  obtain ⟨-, -, -, hop⟩ := step_call hs
  rcases ha with ⟨x, rfl⟩ | ⟨x, y, rfl⟩ | ⟨x, y, rfl⟩ | ⟨x, y, rfl⟩ | ⟨x, y, rfl⟩ | ⟨x, h, rfl⟩ <;>
    simp only [userOp] at hop <;> split at hop <;>
    first
      | (exfalso; cases hop; done)
      | (injection hop with hop; subst hop
         refine ⟨⟨rfl, rfl, rfl, rfl, rfl, rfl, rfl, rfl⟩, rfl, ?_, ?_, ?_, ?_, ?_, ?_⟩ <;>
           intros <;> simp_all [upd_apply] <;> grind)

/-- C15: destroying a `scoped_connection` starts `disconnect()` on the listener it refers to, if that still exists;
an empty, moved-from, released or expired one does nothing (`disconnect()` on it returns `false`). -/
theorem C15_dtor {x : Var} (hs : step E w (.call t (.scopedDtor x)) = some w') :
    ∃ v, w.sv x = some v ∧ w'.sv x = none ∧ (∀ z, z ≠ x → w'.sv z = w.sv z) ∧ w'.cv = w.cv ∧ w'.bv = w.bv ∧
      (∀ s, v = some s → w.slotAlive s = true →
        w'.stacks t = .disc s .ret .exch :: w.stacks t ∧ w'.log = w.log) ∧
      (w.connValid v = false → w'.stacks t = w.stacks t ∧ w'.log = .discRet t v false :: w.log) ∧
      w'.slots = w.slots ∧ w'.sigs = w.sigs ∧ w'.blks = w.blks := by
  obtain ⟨-, -, -, hop⟩ := step_call hs
  simp only [userOp] at hop
  split at hop
  · rename_i v hv
    injection hop with hop
    subst hop
    refine ⟨v, hv, ?_⟩
    unfold discStart
    split
    · rename_i s
      have ha : World.slotAlive { w with sv := upd w.sv x none } s = w.slotAlive s := rfl
      rw [ha]
      cases hal : w.slotAlive s with
      | true =>
        simp only [if_true]
        refine ⟨upd_same _ _ _, fun z hz => by simp [World.setStack, upd_apply, hz], rfl, rfl, ?_, ?_, rfl, rfl, rfl⟩
        · intro s' e _; injection e with e; subst e
          exact ⟨upd_same _ _ _, rfl⟩
        · simp [World.connValid, hal]
      | false =>
        simp only [Bool.false_eq_true, if_false, discReturn]
        refine ⟨upd_same _ _ _, fun z hz => by simp [World.setStack, World.emitEv, upd_apply, hz], rfl, rfl, ?_, ?_,
          rfl, rfl, rfl⟩
        · intro s' e h; injection e with e; subst e; rw [hal] at h; cases h
        · intro _; exact ⟨upd_same _ _ _, rfl⟩
    · simp only [discReturn]
      refine ⟨upd_same _ _ _, fun z hz => by simp [World.setStack, World.emitEv, upd_apply, hz], rfl, rfl, ?_, ?_,
          rfl, rfl, rfl⟩
      · intro s' e; cases e
      · intro _; exact ⟨upd_same _ _ _, rfl⟩
  · cases hop

/-- C15: move-assignment starts `disconnect()` on the listener the target referred to, before anything is taken over;
if there is no such listener the take-over follows at once. -/
theorem C15_assign {x y : Var} (hs : step E w (.call t (.scopedMoveAssign x y)) = some w') :
    ∃ v v', w.sv x = some v ∧ w.sv y = some v' ∧ w'.cv = w.cv ∧ w'.bv = w.bv ∧
      (∀ s, v = some s → w.slotAlive s = true →
        w'.stacks t = .disc s (.assign x y) .exch :: w.stacks t ∧ w'.log = w.log ∧ w'.sv = w.sv) ∧
      (w.connValid v = false → w'.stacks t = w.stacks t ∧ w'.log = .discRet t v false :: w.log ∧
        (x ≠ y → w'.sv x = some v' ∧ w'.sv y = some none) ∧ (x = y → w'.sv = w.sv) ∧
        ∀ z, z ≠ x → z ≠ y → w'.sv z = w.sv z) ∧
      w'.slots = w.slots ∧ w'.sigs = w.sigs ∧ w'.blks = w.blks := by
  obtain ⟨-, -, -, hop⟩ := step_call hs
  simp only [userOp] at hop
  split at hop
  · rename_i v v' hv hv'
    injection hop with hop
    subst hop
    refine ⟨v, v', hv, hv', discStart_cv, ?_⟩
    unfold discStart
    split
    · rename_i s
      cases hal : w.slotAlive s with
      | true =>
        simp only [if_true]
        refine ⟨rfl, ?_, ?_, rfl, rfl, rfl⟩
        · intro s' e _; injection e with e; subst e
          exact ⟨upd_same _ _ _, rfl, rfl⟩
        · simp [World.connValid, hal]
      | false =>
        simp only [Bool.false_eq_true, if_false, discReturn]
        split
        · rename_i e; subst e
          refine ⟨rfl, ?_, fun _ => ⟨upd_same _ _ _, rfl, fun h => absurd rfl h, fun _ => rfl, fun _ _ _ => rfl⟩,
            rfl, rfl, rfl⟩
          intro s' e h; injection e with e; subst e; rw [hal] at h; cases h
        · rename_i hne
          refine ⟨rfl, ?_, fun _ => ⟨upd_same _ _ _, rfl, fun _ => ⟨?_, upd_same _ _ _⟩, fun e => absurd e hne,
            fun z h1 h2 => ?_⟩, rfl, rfl, rfl⟩
          · intro s' e h; injection e with e; subst e; rw [hal] at h; cases h
          · simp only [World.setStack, World.emitEv, upd_apply, if_neg hne, if_true, hv']
          · simp only [World.setStack, World.emitEv, upd_apply, if_neg h1, if_neg h2]
    · simp only [discReturn]
      split
      · rename_i e; subst e
        refine ⟨rfl, ?_, fun _ => ⟨upd_same _ _ _, rfl, fun h => absurd rfl h, fun _ => rfl, fun _ _ _ => rfl⟩,
          rfl, rfl, rfl⟩
        intro s' e; cases e
      · rename_i hne
        refine ⟨rfl, ?_, fun _ => ⟨upd_same _ _ _, rfl, fun _ => ⟨?_, upd_same _ _ _⟩, fun e => absurd e hne,
          fun z h1 h2 => ?_⟩, rfl, rfl, rfl⟩
        · intro s' e; cases e
        · simp only [World.setStack, World.emitEv, upd_apply, if_neg hne, if_true, hv']
        · simp only [World.setStack, World.emitEv, upd_apply, if_neg h1, if_neg h2]
  · cases hop

/-- The handles after a `disconnect()` with continuation `k` has returned. -/
def afterDisc (sv : Var → Option (Option SlotId)) : DiscK → Var → Option (Option SlotId)
  | .ret => sv
  | .assign x y => if x = y then sv else fun z => if z = y then some none else if z = x then sv y else sv z

/-- C15: a `disconnect()` that has been started (by the destructor, by move-assignment or by the user) does not end before
it has reached the listener: when it returns, the listener's connection is down for ever (`C04_flag`), and
only then does move-assignment take over the new listener. Nothing but the library's own steps on that thread can intervene, and the
end of the program when memory runs out. -/
theorem C15_completes (h : Reachable E w) {s : SlotId} {k : DiscK} {pc : DiscPc} {rest : List Frame}
    (hst : w.stacks t = .disc s k pc :: rest) {l : Label} (ht : l.tid = t) (hs : step E w l = some w') :
    (l = .run t ∨ ((l = .fail t ∨ l = .ctl t) ∧ w' = w.setUB .terminate)) ∧
    ((∃ pc', w'.stacks t = .disc s k pc' :: rest ∧ w'.sv = w.sv) ∨
     (w'.stacks t = rest ∧ (∃ b, Event.discRet t (some s) b ∈ w'.log ∧ ∃ b', Event.exch s b' ∈ w'.log) ∧
      w'.sv = afterDisc w.sv k ∧ w'.connConnected (some s) = false)) := by
  have hl : l = .run t ∨ ((l = .fail t ∨ l = .ctl t) ∧ w' = w.setUB .terminate) := by
    cases l <;> simp only [Label.tid] at ht <;> subst ht
    · exact .inl rfl
    · obtain ⟨-, -, hu, -⟩ := step_call hs; rw [hst] at hu; simp [userCtx] at hu
    · obtain ⟨-, -, s', o, m, b, pos, acc, rest', hst', -⟩ := step_ret hs; rw [hst] at hst'; cases hst'
    · obtain ⟨-, -, s', o, m, b, pos, acc, rest', hst', -⟩ := step_throw hs; rw [hst] at hst'; cases hst'
    · right
      rcases step_fail_cases hs with ⟨e, -⟩ | ⟨f, rest', g, s', b, h1, h2, -⟩
      · exact ⟨.inl rfl, e⟩
      · rw [hst] at h1; injection h1 with h1; subst h1; cases h2
    · exact .inr ⟨.inr rfl, (step_ctl hs).2.2.1⟩
  refine ⟨hl, ?_⟩
  rcases hl with rfl | ⟨-, rfl⟩
  rotate_left
  · exact .inl ⟨pc, hst, rfl⟩
  have h' := h.step hs
  obtain ⟨-, -, hr⟩ := step_run hs
  have key : ∀ {w0 : World} {b}, w0.sv = w.sv → discReturn w0 t rest (some s) k b = w' →
      w'.stacks t = rest ∧ w'.sv = afterDisc w.sv k ∧ w'.log = .discRet t (some s) b :: w0.log := by
    intro w0 b e0 e
    subst e
    unfold discReturn
    cases k with
    | ret => exact ⟨upd_same _ _ _, e0, rfl⟩
    | assign x y =>
      simp only
      split
      · rename_i e; refine ⟨upd_same _ _ _, ?_, rfl⟩
        simp only [afterDisc, if_pos e]; exact e0
      · rename_i e; refine ⟨upd_same _ _ _, ?_, rfl⟩
        simp only [afterDisc, if_neg e]
        funext z
        simp only [World.setStack, World.emitEv, upd_apply, e0]
  simp only [runTop, hst] at hr
  unfold runDisc at hr
  split at hr
  · split at hr <;> injection hr with hr
    · subst hr
      exact .inl ⟨_, upd_same _ _ _, rfl⟩
    · obtain ⟨h1, h2, h3⟩ := key (w0 := w.emitEv (.exch s false)) rfl hr
      have hx : Event.exch s false ∈ w'.log := by rw [h3]; simp [World.emitEv]
      exact .inr ⟨h1, ⟨false, by rw [h3]; simp, false, hx⟩, h2, C04_flag h' hx (P := fun _ => True) (.refl _)⟩
  · left
    unfold acquire at hr
    split at hr
    · injection hr with hr; subst hr; exact ⟨_, hst, rfl⟩
    · split at hr
      · cases hr
      · injection hr with hr; subst hr; exact ⟨_, upd_same _ _ _, rfl⟩
  · left
    split at hr <;> injection hr with hr <;> subst hr
    · exact ⟨_, hst, rfl⟩
    · exact ⟨_, upd_same _ _ _, rfl⟩
  · left
    split at hr <;> injection hr with hr <;> subst hr
    · exact ⟨_, hst, rfl⟩
    · exact ⟨_, upd_same _ _ _, rfl⟩
  · left
    split at hr
    · injection hr with hr; subst hr; exact ⟨_, hst, rfl⟩
    · split at hr <;> injection hr with hr <;> subst hr
      · refine ⟨_, upd_same _ _ _, ?_⟩
        simp only [World.setStack, World.emitEv]; unfold removeAt; split <;> rfl
      · exact ⟨_, upd_same _ _ _, rfl⟩
  · injection hr with hr; subst hr
    exact .inl ⟨_, upd_same _ _ _, rfl⟩
  · right
    rename_i g
    injection hr with hr
    obtain ⟨h1, h2, h3⟩ := key (w0 := w) rfl hr
    have hx0 := (h.full.d.fh t (.disc s k (.drop g)) (by rw [hst]; simp)).1
    have hx : Event.exch s true ∈ w'.log := by rw [h3]; simp [hx0]
    exact ⟨h1, ⟨true, by rw [h3]; simp, true, hx⟩, h2, C04_flag h' hx (P := fun _ => True) (.refl _)⟩

theorem discStart_push {h : Option SlotId} {k k' : DiscK} {s : SlotId} {pc : DiscPc} {w0 : World}
    (hst : (discStart w0 t h k).stacks t = .disc s k' pc :: w0.stacks t) : h = some s := by
  have no : ∀ {st : List Frame} {f : Frame}, st ≠ f :: st := by
    intro st f e
    have := congrArg List.length e
    simp at this
  unfold discStart at hst
  split at hst
  · split at hst
    · simp only [World.setStack, upd_same] at hst; injection hst with hst; injection hst with hst; rw [hst]
    · exfalso; unfold discReturn at hst; cases k with
      | ret => simp only [World.setStack, World.emitEv, upd_same] at hst; exact no hst
      | assign x y =>
        simp only at hst
        split at hst <;> simp only [World.setStack, World.emitEv, upd_same] at hst <;> exact no hst
  · exfalso; unfold discReturn at hst; cases k with
    | ret => simp only [World.setStack, World.emitEv, upd_same] at hst; exact no hst
    | assign x y =>
      simp only at hst
      split at hst <;> simp only [World.setStack, World.emitEv, upd_same] at hst <;> exact no hst

/-- The library runs only when user code does not. -/
theorem run_ctx (h : step E w (.run t) = some w') : userCtx (w.stacks t) = false := by
  obtain ⟨-, -, hr⟩ := step_run h
  unfold userCtx
  split
  · rename_i e; simp [runTop, e] at hr
  · rename_i s o rest e
    exfalso
    unfold runTop at hr
    rw [e] at hr
    split at hr <;> first | (rename_i e'; cases e'; done) | skip
    · rename_i e'; injection e' with e1 e2; injection e1 with _ e1; subst e1; simp [runCall] at hr
    · cases hr
  · rename_i e; simp [runTop, e, runEmit] at hr
  · rfl

theorem connSetBlocked_stacks {h : Option SlotId} {c : Bool} : (w.connSetBlocked h c).stacks = w.stacks := by
  unfold World.connSetBlocked
  split
  · split <;> rfl
  · rfl

/-- C15: nothing else starts a `disconnect()`: only the user's own `disconnect()`, the destructor of a
`scoped_connection` and its move-assignment, and these only on the listener their handle refers to. -/
theorem C15_only {s : SlotId} {k : DiscK} {pc : DiscPc} {l : Label} (hs : step E w l = some w')
    (hst : w'.stacks t = .disc s k pc :: w.stacks t) :
    (∃ h, l = .call t (.disconnect h) ∧ w.hval h = some s) ∨
    (∃ x, l = .call t (.scopedDtor x) ∧ w.sv x = some (some s)) ∨
    (∃ x y, l = .call t (.scopedMoveAssign x y) ∧ w.sv x = some (some s)) := by
  have no : ∀ {st : List Frame} {f : Frame}, st ≠ f :: st := by
    intro st f e
    have := congrArg List.length e
    simp at this
  have ht : t = l.tid := by
    refine Classical.byContradiction fun hne => ?_
    rw [stacks_other (step_inv hs).2.2 hne] at hst
    exact no hst
  have ne2 : ∀ {f g : Frame} {rest : List Frame}, w.stacks t = g :: rest → f :: rest ≠ .disc s k pc :: w.stacks t := by
    intro f g rest h e
    rw [h] at e
    have := congrArg List.length e
    simp at this
  have ne1 : ∀ {g : Frame} {rest : List Frame}, w.stacks t = g :: rest → rest ≠ .disc s k pc :: w.stacks t := by
    intro g rest h e
    rw [h] at e
    have := congrArg List.length e
    simp at this; omega
  cases l with
  | run t' =>
    exfalso
    simp only [Label.tid] at ht; subst ht
    have hu := run_ctx hs
    have R : StepR E w t w' := (step_inv hs).2.2
    cases R
    case ub u => exact no hst
    case det f f' rest g b h1 hf hlst =>
      have : ((cloneBlk w g b).setStack t (f' :: rest)).stacks t = f' :: rest := upd_same _ _ _
      rw [this] at hst; exact ne2 h1 hst
    case eraseHit =>
      simp only [World.emitEv, World.setStack, upd_same] at hst; exact ne2 ‹_› hst
    case discWrite =>
      simp only [World.emitEv, World.setStack, upd_same] at hst; exact ne2 ‹_› hst
    all_goals
      simp only [World.emitEv, World.setStack, World.setH, World.setMutex, World.setIndex, World.setBlk, World.setList,
        World.setConnected, World.setBlocked, upd_same] at hst
      first
        | exact ne2 ‹_› hst
        | exact ne1 ‹_› hst
        | (rw [‹userCtx _ = true›] at hu; cases hu)
        | (injection hst with hst; cases hst; done)
        | (rename_i h1; rw [h1] at hst; injection hst with _ hst; injection hst with _ hst
           have := congrArg List.length hst; simp at this; done)
        | (rename_i h1 _; rw [h1] at hst; have := congrArg List.length hst; simp at this; omega)
        | (rename_i h1; rw [h1] at hst; have := congrArg List.length hst; simp at this; omega)
        | (rename_i h1 _ _; rw [h1] at hst; injection hst with hst; cases hst; done)
  | call t' a =>
    simp only [Label.tid] at ht; subst ht
    obtain ⟨-, -, -, hop⟩ := step_call hs
    cases a <;> simp only [userOp] at hop
    case disconnect h =>
      injection hop with hop; subst hop
      exact .inl ⟨h, rfl, discStart_push hst⟩
    case scopedDtor x =>
      split at hop
      · injection hop with hop; subst hop
        rename_i v hv
        have := discStart_push (w0 := { w with sv := upd w.sv x none }) hst
        subst this
        exact .inr (.inl ⟨x, rfl, hv⟩)
      · cases hop
    case scopedMoveAssign x y =>
      split at hop
      · injection hop with hop; subst hop
        rename_i v _ hv _
        have := discStart_push hst
        subst this
        exact .inr (.inr ⟨x, y, rfl, hv⟩)
      · cases hop
    case block h' => injection hop with h; subst h; rw [connSetBlocked_stacks] at hst; exact absurd hst no
    case unblock h' => injection hop with h; subst h; rw [connSetBlocked_stacks] at hst; exact absurd hst no
    case blockerOf y h' =>
      split at hop
      · injection hop with h; subst h; rw [connSetBlocked_stacks] at hst; exact absurd hst no
      · cases hop
    case blockerMoveAssign y z =>
      split at hop
      · rename_i v _ _ _
        have e := connSetBlocked_stacks (w := w) (h := v) (c := false)
        split at hop <;> injection hop with h <;> subst h
        · rw [e] at hst; exact absurd hst no
        · simp only [e] at hst; exact absurd hst no
      · cases hop
    case blockerDtor y =>
      split at hop
      · injection hop with h; subst h; rw [connSetBlocked_stacks] at hst; exact absurd hst no
      · cases hop
    case destroySig g =>
      split at hop
      · split at hop
        · injection hop with h; subst h; exact absurd hst no
        · split at hop <;> injection hop with h <;> subst h <;> exact absurd hst no
      · cases hop
    case connMove y h' =>
      split at hop
      · injection hop with h; subst h; exact absurd hst no
      · injection hop with h; subst h
        cases h' <;> exact absurd hst no
    case moveSig g =>
      split at hop
      · split at hop <;> injection hop with h <;> subst h
        · exact absurd hst no
        · simp only [World.setStack, upd_same] at hst; injection hst with hst; cases hst
      · cases hop
    case combDeref i =>
      split at hop
      · split at hop <;> injection hop with h <;> subst h
        · simp only [World.setStack, World.emitEv, upd_same] at hst; injection hst with hst; cases hst
        · exact absurd hst no
      · cases hop
    all_goals
      first
        | (injection hop with h; subst h; exact absurd hst no)
        | (split at hop <;> first
            | (injection hop with h; subst h; exact absurd hst no)
            | (injection hop with h; subst h
               simp only [World.setStack, World.emitEv, upd_same] at hst
               injection hst with hst; cases hst; done)
            | (injection hop with h; subst h
               simp only [World.setStack, World.emitEv, upd_same] at hst
               exact absurd hst (ne1 ‹_›))
            | cases hop)
  | ret t' v =>
    simp only [Label.tid] at ht; subst ht
    obtain ⟨-, -, s', o, m, b, pos, acc, rest, h1, rfl⟩ := step_ret hs
    simp only [World.setStack, World.emitEv, upd_same] at hst
    injection hst with hst; cases hst
  | throw t' c =>
    simp only [Label.tid] at ht; subst ht
    obtain ⟨-, -, s', o, m, b, pos, acc, rest, h1, h⟩ := step_throw hs
    rcases h with ⟨-, rfl⟩ | ⟨-, -, rfl⟩
    · simp only [World.setStack, World.emitEv, upd_same] at hst
      rw [h1] at hst
      have := congrArg List.length hst
      simp at this; omega
    · simp only [World.setStack, World.emitEv, upd_same] at hst
      injection hst with hst; cases hst
  | fail t' =>
    simp only [Label.tid] at ht; subst ht
    rcases step_fail_cases hs with ⟨rfl, -⟩ | ⟨f, rest, g, s', b, h1, -, -, rfl⟩
    · exact (no hst).elim
    · simp only [World.setStack, World.emitEv, upd_same] at hst
      exact (ne1 h1 hst).elim
  | ctl t' =>
    simp only [Label.tid] at ht; subst ht
    obtain ⟨-, -, rfl, -⟩ := step_ctl hs
    exact (no hst).elim

theorem connSetBlocked_sv {h : Option SlotId} {c : Bool} : (w.connSetBlocked h c).sv = w.sv := by
  unfold World.connSetBlocked; split
  · split <;> rfl
  · rfl

theorem discReturn_keeps {rest : List Frame} {s' : Option SlotId} {k : DiscK} {b : Bool} {x : Var} {s : SlotId}
    (hx : w.sv x = some (some s)) (hn : ∀ y, (discReturn w t rest s' k b).sv y ≠ some (some s)) : ∃ y, x ≠ y ∧ k = .assign x y := by
  unfold discReturn at hn
  cases k with
  | ret => exact absurd hx (hn x)
  | assign a b =>
    simp only at hn
    split at hn
    · exact absurd hx (hn x)
    · rename_i hne
      by_cases e : a = x
      · subst e; exact ⟨b, hne, rfl⟩
      · exfalso
        by_cases e2 : x = b
        · subst e2
          refine hn a ?_
          simp [World.setStack, World.emitEv, upd_apply, hne, hx]
        · refine hn x ?_
          simp [World.setStack, World.emitEv, upd_apply, e2, Ne.symm e, hx]

theorem removeAt_sv {b : BlkId} {i : Nat} : (removeAt w b i).sv = w.sv := by
  unfold removeAt; repeat' split
  all_goals rfl

/-- C15: a listener that a `scoped_connection` refers to does not get out of the hands of scoped connections unnoticed. After a step, some `scoped_connection` still
refers to it, or else its owner

* was destroyed (which disconnects the listener, `C15_dtor`),
* was released or moved into a plain connection, which refers to it now,
* was assigned another one; the listener has expired, or this is the last step of the `disconnect()` in that assignment (`C15_completes`),
* was assigned to as a `connection&`. This disconnects nothing (`C15_sliced`).

(The last case is none that C++ has: `connect` initialises its result, an object that does not exist before.) -/
theorem C15_keeps {l : Label} {x : Var} {s : SlotId} (hs : step E w l = some w') (hx : w.sv x = some (some s))
    (hn : ∀ y, w'.sv y ≠ some (some s)) :
    l = .call l.tid (.scopedDtor x) ∨
    (∃ y, l = .call l.tid (.scopedRelease y x) ∧ w'.cv y = some s) ∨
    (∃ y, l = .call l.tid (.connMove y (.scoped x)) ∧ w'.cv y = some s) ∨
    (∃ y, x ≠ y ∧ l = .call l.tid (.scopedMoveAssign x y) ∧ w.slotAlive s = false) ∨
    (∃ s' y pc rest, x ≠ y ∧ l = .run l.tid ∧ w.stacks l.tid = .disc s' (.assign x y) pc :: rest) ∨
    (∃ h, l = .call l.tid (.scopedBase x h)) ∨
    ∃ g s' rest, l = .run l.tid ∧ w.stacks l.tid = .add g s' (.scoped x) .unlock :: rest := by
  cases l with
  | ret t v => obtain ⟨-, -, _, _, _, _, _, _, _, -, rfl⟩ := step_ret hs; exact absurd hx (hn x)
  | throw t c =>
    obtain ⟨-, -, _, _, _, _, _, _, _, -, ⟨-, rfl⟩ | ⟨-, -, rfl⟩⟩ := step_throw hs <;> exact absurd hx (hn x)
  | fail t =>
    rcases step_fail_cases hs with ⟨rfl, -⟩ | ⟨_, _, _, _, _, -, -, -, rfl⟩ <;> exact absurd hx (hn x)
  | ctl t => obtain ⟨-, -, rfl, -⟩ := step_ctl hs; exact absurd hx (hn x)
  | run t =>
    simp only [Label.tid]
    obtain ⟨-, -, hr⟩ := step_run hs
    have acq : ∀ {g next}, acquire w t g next = some w' → False := by
      intro g next h
      unfold acquire at h
      split at h
      · cases h; exact hn x hx
      · split at h <;> cases h; exact hn x hx
    unfold runTop at hr
    split at hr
    · rename_i m pc rest hst
      exfalso
      cases pc <;> simp only [runEmit] at hr
      case wait => exact acq hr
      all_goals
        repeat' split at hr
        all_goals first
          | (cases hr; done)
          | (cases hr; exact hn x hx)
          | exact acq hr
    · rename_i hst
      exfalso
      unfold runCall at hr
      repeat' split at hr
      all_goals first
          | (cases hr; done)
          | (cases hr; exact hn x hx)
    · rename_i g s' d pc rest hst
      cases pc <;> simp only [runAdd] at hr
      case wait => exact (acq hr).elim
      case unlock =>
        split at hr
        · cases hr; exact absurd hx (hn x)
        · rename_i y
          cases hr
          by_cases e : y = x
          · subst e; exact .inr (.inr (.inr (.inr (.inr (.inr ⟨g, s', rest, trivial, hst⟩)))))
          · refine absurd ?_ (hn x)
            simp [World.setStack, World.emitEv, World.setMutex, upd_apply, Ne.symm e, hx]
      all_goals
        exfalso
        repeat' split at hr
        all_goals first
          | (cases hr; done)
          | (cases hr; exact hn x hx)
    · exfalso
      rename_i g tgt pc rest hst
      cases pc <;> simp only [runErase] at hr
      case wait => exact acq hr
      all_goals
        repeat' split at hr
        all_goals first
          | (cases hr; done)
          | (cases hr; exact hn x hx)
          | (cases hr; refine hn x ?_; simp only [World.setStack, World.emitEv]; rw [removeAt_sv]; exact hx)
    · rename_i s' k pc rest hst
      cases pc with
      | exch =>
        simp only [runDisc] at hr
        split at hr
        · cases hr; exact absurd hx (hn x)
        · cases hr
          obtain ⟨y, hxy, rfl⟩ := discReturn_keeps (by exact hx) hn
          exact .inr (.inr (.inr (.inr (.inl ⟨s', y, _, rest, hxy, trivial, hst⟩))))
      | drop g =>
        simp only [runDisc] at hr
        cases hr
        obtain ⟨y, hxy, rfl⟩ := discReturn_keeps (by exact hx) hn
        exact .inr (.inr (.inr (.inr (.inl ⟨s', y, _, rest, hxy, trivial, hst⟩))))
      | crit g pc =>
        exfalso
        cases pc <;> simp only [runDisc] at hr
        case wait => exact acq hr
        all_goals
          repeat' split at hr
          all_goals first
            | (cases hr; done)
            | (cases hr; exact hn x hx)
            | (cases hr; refine hn x ?_; simp only [World.setStack, World.emitEv]; rw [removeAt_sv]; exact hx)
    · exfalso
      rename_i hst
      unfold runMov at hr
      repeat' split at hr
      all_goals first
          | (cases hr; done)
          | (cases hr; exact hn x hx)
          | exact acq hr
    · cases hr
  | call t a =>
    simp only [Label.tid]
    obtain ⟨-, -, -, ho⟩ := step_call hs
    have ds : ∀ {w0 : World} {h : Option SlotId} {k : DiscK}, w0.sv x = some (some s) → w' = discStart w0 t h k → ∃ y, k = .assign x y ∧ x ≠ y ∧ w0.connValid h = false := by
      intro w0 h k hx e
      subst e
      unfold discStart at hn
      split at hn
      · split at hn
        · exact absurd hx (hn x)
        · rename_i hd
          obtain ⟨y, hxy, rfl⟩ := discReturn_keeps hx hn
          exact ⟨y, rfl, hxy, by simpa [World.connValid] using hd⟩
      · obtain ⟨y, hxy, rfl⟩ := discReturn_keeps hx hn
        exact ⟨y, rfl, hxy, rfl⟩
    cases a <;> simp only [userOp] at ho
    case scopedDtor y =>
      by_cases e : y = x
      · subst e; exact .inl rfl
      split at ho
      · cases ho
        obtain ⟨_, h, -⟩ := ds (by simp [upd_apply, Ne.symm e, hx]) rfl
        cases h
      · cases ho
    case scopedRelease y z =>
      by_cases e : z = x
      · subst e; rw [hx] at ho; cases ho; exact .inr (.inl ⟨y, rfl, by simp [upd_apply]⟩)
      split at ho
      · cases ho; refine absurd ?_ (hn x); simp [upd_apply, Ne.symm e, hx]
      · cases ho
    case connMove y h =>
      split at ho
      · cases ho; exact absurd hx (hn x)
      cases ho
      by_cases e : h = .scoped x
      · subst e; exact .inr (.inr (.inl ⟨y, rfl, by simp [upd_apply, World.hval, hx]⟩))
      · refine absurd ?_ (hn x)
        cases h with
        | conn z => exact hx
        | «scoped» z =>
          have : x ≠ z := fun h => e (by rw [h])
          simp [World.clearHandle, upd_apply, this, hx]
    case scopedMoveAssign a b =>
      split at ho
      · rename_i v v' hv hv'
        cases ho
        obtain ⟨y, h1, h0, h2⟩ := ds hx rfl
        cases h1
        rw [hx] at hv; cases hv
        exact .inr (.inr (.inr (.inl ⟨_, h0, rfl, h2⟩)))
      · cases ho
    case scopedBase y h =>
      by_cases e : y = x
      · subst e; exact .inr (.inr (.inr (.inr (.inr (.inl ⟨h, rfl⟩)))))
      split at ho
      · cases ho; refine absurd ?_ (hn x); simp [upd_apply, Ne.symm e, hx]
      · cases ho
    case disconnect h =>
      cases ho
      obtain ⟨y, h1, -⟩ := ds hx rfl
      cases h1
    case scopedNew y | scopedOfConn y z =>
      split at ho
      · rename_i hnone
        cases ho
        have : x ≠ y := by rintro rfl; rw [hx] at hnone; cases hnone
        refine absurd ?_ (hn x); simp [upd_apply, this, hx]
      · cases ho
    case scopedMoveCtor y z =>
      split at ho
      · rename_i v hnone hv
        cases ho
        have : x ≠ y := by rintro rfl; rw [hx] at hnone; cases hnone
        exfalso
        by_cases e : x = z
        · subst e; rw [hx] at hv; cases hv
          refine hn y ?_; simp [upd_apply, Ne.symm this]
        · refine hn x ?_; simp [upd_apply, this, e, hx]
      · cases ho
    case scopedSwap y z =>
      split at ho
      · rename_i v v' hy hz
        cases ho
        exfalso
        by_cases e : x = z
        · subst e; rw [hx] at hz; cases hz
          by_cases e2 : y = x
          · subst e2; rw [hx] at hy; cases hy; refine hn y ?_; simp [upd_apply]
          · refine hn y ?_; simp [upd_apply, e2]
        · by_cases e2 : x = y
          · subst e2; rw [hx] at hy; cases hy; refine hn z ?_; simp [upd_apply]
          · refine hn x ?_; simp [upd_apply, e, e2, hx]
      · cases ho
    all_goals
      exfalso
      repeat' split at ho
      all_goals first
        | (cases ho; done)
        | (cases ho; exact hn x hx)
        | (cases ho; refine hn x ?_; rw [connSetBlocked_sv]; exact hx)
        | (cases ho; refine hn x ?_; show (World.connSetBlocked _ _ _).sv x = _; rw [connSetBlocked_sv]; exact hx)

namespace Demo
/-- One listener is connected for a `scoped_connection`, another one for a plain connection; the latter is assigned to the base class of the former. -/
def sliced : List Label := [.call 0 (.newSig false), .call 0 (.connect 0 (fn 10) [] true false (.scoped 0))] ++ go 0 4 ++ connect 0 11 1

/-- … and the `scoped_connection` is destroyed, and the signal emitted. -/
def slicedEnd : List Label := [.call 0 (.scopedDtor 0)] ++ go 0 6 ++ [.call 0 (.emit 0 .lastValue [])] ++ go 0 8
end Demo

/-- C15, the way around it: a `scoped_connection` forgets its listener without disconnecting it when something is assigned to it as a
`connection&`. When it is destroyed it disconnects the other listener, and the first one, to which no handle refers, is still called. -/
theorem C15_sliced : ∃ w w' w'', Reachable Demo.E0 w ∧ step Demo.E0 w (.call 0 (.scopedBase 0 (.conn 1))) = some w' ∧
    Steps Demo.E0 (fun _ => True) w' w'' ∧ w.sv 0 = some (some 0) ∧ (∀ y, w'.sv y ≠ some (some 0)) ∧ (∀ y, w'.cv y ≠ some 0) ∧
    w''.sv 0 = none ∧ Event.exch 0 true ∉ w''.log ∧ w''.listOf 0 = [0] ∧ Event.enter 0 0 [] ∈ w''.log := by
  have e : (Demo.world 1 (Demo.sliced ++ [.call 0 (.scopedBase 0 (.conn 1))])).sv = upd (upd (fun _ => none) 0 (some (some 0))) 0 (some (some 1)) := rfl
  have e2 : (Demo.world 1 (Demo.sliced ++ [.call 0 (.scopedBase 0 (.conn 1))])).cv = upd (fun _ => none) 1 (some 1) := rfl
  refine ⟨_, _, _, Demo.reach 1 Demo.sliced, Demo.world_step 1 Demo.sliced _ (by decide +kernel),
    Demo.world_more 1 _ Demo.slicedEnd (by decide +kernel) fun _ _ => trivial, by decide +kernel, fun y => ?_, fun y => ?_, by decide +kernel,
    by decide +kernel, by decide +kernel, by decide +kernel⟩
  · rw [e]; unfold upd; split <;> simp_all
  · rw [e2]; unfold upd; split <;> simp_all

namespace Demo

/-- Two scoped connections, to listeners 0 and 1; the second is move-assigned to the first. -/
def scopes : List Label :=
  [.call 0 (.newSig false)] ++
  .call 0 (.connect 0 (fn 10) [] true false (.scoped 0)) :: go 0 4 ++
  .call 0 (.connect 0 (fn 11) [] true false (.scoped 1)) :: go 0 4 ++ [.call 0 (.scopedMoveAssign 0 1)]

end Demo

/-- In the middle of that assignment the old listener is being disconnected; afterwards the target refers to listener 1
and the source to nothing; destroying the source then changes nothing, destroying the target disconnects listener 1. -/
example :
    (∃ w, Reachable Demo.E0 w ∧ w.stacks 0 = [.disc 0 (.assign 0 1) .exch] ∧ w.sv 0 = some (some 0) ∧
      w.sv 1 = some (some 1)) ∧
    (∃ w, Reachable Demo.E0 w ∧ w.stacks 0 = [] ∧ w.sv 0 = some (some 1) ∧ w.sv 1 = some none ∧ w.listOf 0 = [1]) ∧
    (∃ w, Reachable Demo.E0 w ∧ w.stacks 0 = [] ∧ w.sv 0 = some (some 1) ∧ w.sv 1 = none ∧ w.listOf 0 = [1]) ∧
    (∃ w, Reachable Demo.E0 w ∧ w.stacks 0 = [] ∧ w.sv 0 = none ∧ w.listOf 0 = []) :=
  ⟨⟨Demo.world 1 Demo.scopes, Demo.reach 1 _, by decide +kernel⟩,
   ⟨Demo.world 1 (Demo.scopes ++ Demo.go 0 6), Demo.reach 1 _, by decide +kernel⟩,
   ⟨Demo.world 1 (Demo.scopes ++ Demo.go 0 6 ++ [.call 0 (.scopedDtor 1)]), Demo.reach 1 _, by decide +kernel⟩,
   ⟨Demo.world 1 (Demo.scopes ++ Demo.go 0 6 ++ [.call 0 (.scopedDtor 0)] ++ Demo.go 0 6), Demo.reach 1 _,
     by decide +kernel⟩⟩

end Verif
