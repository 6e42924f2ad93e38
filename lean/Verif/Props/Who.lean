import Verif.Props.Apart
import Verif.Props.Terminate

/-!
# C67: nothing changes behind the user's back

Who changes what: for the flags of a listener, for every variable of the program, for the owners of tracked objects and for the lists, the
operations that change them, and to what.
-/

namespace Verif

variable {E : Env} {w w' : World} {t : Tid}

/-! ### The specification -/

/-- The call is a `disconnect()` of listener `s`. -/
def Api.disconnects (w : World) (s : SlotId) : Api → Prop
  | .disconnect h => w.hval h = some s
  | .scopedDtor x => w.sv x = some (some s)
  | .scopedMoveAssign x _ => w.sv x = some (some s)
  | _ => False

/-- The call blocks (`c`) or unblocks listener `s`. -/
def Api.blocks (w : World) (s : SlotId) (c : Bool) : Api → Prop
  | .block h => w.hval h = some s ∧ c = true
  | .unblock h => w.hval h = some s ∧ c = false
  | .blockerOf _ h => w.hval h = some s ∧ c = true
  | .blockerMoveAssign x _ => w.bv x = some (some s) ∧ c = false
  | .blockerDtor x => w.bv x = some (some s) ∧ c = false
  | _ => False

/-- The step marks `s` as disconnected: it is the test in a `disconnect()` of `s`, or an emission is about to call `s` and finds that the
object that `s` tracks is gone. -/
def Label.disconnects (w : World) (s : SlotId) : Label → Prop
  | .run t => (∃ k rest, w.stacks t = .disc s k .exch :: rest) ∨
      ∃ o rest, w.stacks t = .call s (.lockObj o) :: rest ∧ (w.slots s).fn.obj? = some o ∧ w.objAlive o = false
  | _ => False

/-- The step assigns `v` to the `connection` variable `x`. -/
def Label.setsConn (w : World) (x : Var) (v : Option SlotId) : Label → Prop
  | .call _ (.connCopy y h) => y = x ∧ v = w.hval h
  | .call _ (.connMove y h) => (y = x ∧ v = w.hval h) ∨ (y ≠ x ∧ h = .conn x ∧ v = none)
  | .call _ (.connSwap y z) => (y = x ∧ v = w.cv z) ∨ (z = x ∧ v = w.cv y)
  | .call _ (.scopedRelease y z) => y = x ∧ some v = w.sv z
  | .run t => ∃ g s rest, w.stacks t = .add g s (.conn x) .unlock :: rest ∧ v = some s
  | _ => False

/-- The next step of `disconnect()` of `s` is its last: the listener was removed, or it is not connected any more. -/
def DiscPc.last (w : World) (s : SlotId) : DiscPc → Prop
  | .exch => (w.slots s).connected = false
  | .crit _ _ => False
  | .drop _ => True

/-- The step assigns `v` to the `scoped_connection` variable `x`, or makes (`some`) or destroys (`none`) it. -/
def Label.setsScoped (w : World) (x : Var) (v : Option (Option SlotId)) : Label → Prop
  | .call _ (.connMove _ h) => h = .scoped x ∧ v = some none
  | .call _ (.scopedNew y) => y = x ∧ w.sv x = none ∧ v = some none
  | .call _ (.scopedOfConn y z) => y = x ∧ w.sv x = none ∧ v = some (w.cv z)
  | .call _ (.scopedMoveCtor y z) => (y = x ∧ w.sv x = none ∧ v = w.sv z) ∨ (z = x ∧ v = some none)
  | .call _ (.scopedMoveAssign y z) => y ≠ z ∧ (∀ s, w.sv y = some (some s) → w.slotAlive s = false) ∧
      ((y = x ∧ v = w.sv z) ∨ (z = x ∧ v = some none))
  | .call _ (.scopedRelease _ z) => z = x ∧ v = some none
  | .call _ (.scopedSwap y z) => (y = x ∧ v = w.sv z) ∨ (z = x ∧ v = w.sv y)
  | .call _ (.scopedDtor y) => y = x ∧ v = none
  | .call _ (.scopedBase y h) => y = x ∧ v = some (w.hval h)
  | .run t => (∃ g s rest, w.stacks t = .add g s (.scoped x) .unlock :: rest ∧ v = some (some s)) ∨
      ∃ s y z pc rest, w.stacks t = .disc s (.assign y z) pc :: rest ∧ pc.last w s ∧ y ≠ z ∧
        ((y = x ∧ v = w.sv z) ∨ (z = x ∧ v = some none))
  | _ => False

/-- The step assigns `v` to the `connection_blocker` variable `x`, or makes or destroys it. -/
def Label.setsBlocker (w : World) (x : Var) (v : Option (Option SlotId)) : Label → Prop
  | .call _ (.blockerNew y) => y = x ∧ w.bv x = none ∧ v = some none
  | .call _ (.blockerOf y h) => y = x ∧ w.bv x = none ∧ v = some (w.hval h)
  | .call _ (.blockerMoveCtor y z) => (y = x ∧ w.bv x = none ∧ v = w.bv z) ∨ (z = x ∧ v = some none)
  | .call _ (.blockerMoveAssign y z) => y ≠ z ∧ ((y = x ∧ v = w.bv z) ∨ (z = x ∧ v = some none))
  | .call _ (.blockerSwap y z) => (y = x ∧ v = w.bv z) ∨ (z = x ∧ v = w.bv y)
  | .call _ (.blockerDtor y) => y = x ∧ v = none
  | _ => False

/-- The user makes (`n`: one more) or drops (one less) a `shared_ptr` to object `o`. -/
def Label.owns (w : World) (o : ObjId) (n : Nat) : Label → Prop
  | .call _ (.objShare o') => o' = o ∧ n = w.objs o + 1
  | .call _ (.objDrop o') => o' = o ∧ n + 1 = w.objs o
  | _ => False

/-- The step is part of a `connect`, a `disconnect` of either kind, or a move of signal `g`, or is its destruction. -/
def Label.edits (w : World) (g : SigId) : Label → Prop
  | .call _ (.destroySig g') => g' = g
  | .run t => ∃ f rest, w.stacks t = f :: rest ∧ f.on w g ∧ ∀ m pc, f ≠ .emit m pc
  | _ => False

/-! ### Variables -/

/-- What the library does to variables. -/
theorem run_vars (h : runTop E w t = some w') :
    (w'.cv = w.cv ∧ w'.sv = w.sv ∧ w'.bv = w.bv) ∨
    (∃ g s x rest, w.stacks t = .add g s (.conn x) .unlock :: rest ∧ w'.cv = upd w.cv x (some s) ∧ w'.sv = w.sv ∧ w'.bv = w.bv) ∨
    (∃ g s x rest, w.stacks t = .add g s (.scoped x) .unlock :: rest ∧ w'.cv = w.cv ∧ w'.sv = upd w.sv x (some (some s)) ∧ w'.bv = w.bv) ∨
    (∃ s x y pc rest, w.stacks t = .disc s (.assign x y) pc :: rest ∧ pc.last w s ∧ x ≠ y ∧ w'.cv = w.cv ∧
      w'.sv = upd (upd w.sv x (w.sv y)) y (some none) ∧ w'.bv = w.bv) := by
  have acq : ∀ {g st}, acquire w t g st = some w' → w'.cv = w.cv ∧ w'.sv = w.sv ∧ w'.bv = w.bv := by
    intro g st h
    unfold acquire at h
    repeat' split at h
    all_goals first | (cases h; done) | (cases h; exact ⟨rfl, rfl, rfl⟩)
  have rem : ∀ b i, (removeAt w b i).cv = w.cv ∧ (removeAt w b i).sv = w.sv ∧ (removeAt w b i).bv = w.bv := by
    intro b i
    unfold removeAt
    split <;> exact ⟨rfl, rfl, rfl⟩
  unfold runTop at h
  split at h
  · exact .inl (by
      unfold runEmit at h
      repeat' split at h
      all_goals first | (cases h; done) | exact acq h | (cases h; exact ⟨rfl, rfl, rfl⟩))
  · exact .inl (by
      unfold runCall at h
      repeat' split at h
      all_goals first | (cases h; done) | (cases h; exact ⟨rfl, rfl, rfl⟩))
  · rename_i g s dest pc rest hst
    unfold runAdd at h
    split at h
    · exact .inl (acq h)
    · split at h <;> cases h <;> exact .inl ⟨rfl, rfl, rfl⟩
    · split at h <;> cases h <;> exact .inl ⟨rfl, rfl, rfl⟩
    · split at h <;> cases h <;> exact .inl ⟨rfl, rfl, rfl⟩
    · dsimp only at h
      split at h <;> cases h
      · exact .inr (.inl ⟨g, s, _, rest, hst, rfl, rfl, rfl⟩)
      · exact .inr (.inr (.inl ⟨g, s, _, rest, hst, rfl, rfl, rfl⟩))
  · exact .inl (by
      unfold runErase at h
      repeat' split at h
      all_goals first | (cases h; done) | exact acq h | (cases h; exact rem _ _) | (cases h; exact ⟨rfl, rfl, rfl⟩))
  · rename_i s k pc rest hst
    have ret : ∀ (w0 : World) x b, w0.cv = w.cv → w0.sv = w.sv → w0.bv = w.bv → w' = discReturn w0 t rest x k b → pc.last w s →
        (w'.cv = w.cv ∧ w'.sv = w.sv ∧ w'.bv = w.bv) ∨ ∃ x y, k = .assign x y ∧ pc.last w s ∧ x ≠ y ∧ w'.cv = w.cv ∧
          w'.sv = upd (upd w.sv x (w.sv y)) y (some none) ∧ w'.bv = w.bv := by
      intro w0 x b h1 h2 h3 e hp
      subst e
      unfold discReturn
      split
      · exact .inl ⟨h1, h2, h3⟩
      · split
        · exact .inl ⟨h1, h2, h3⟩
        · rename_i x y hxy
          exact .inr ⟨x, y, rfl, hp, hxy, h1, by show upd (upd w0.sv x (w0.sv y)) y _ = _; rw [h2], h3⟩
    suffices hh : (w'.cv = w.cv ∧ w'.sv = w.sv ∧ w'.bv = w.bv) ∨ ∃ x y, k = .assign x y ∧ pc.last w s ∧ x ≠ y ∧ w'.cv = w.cv ∧
        w'.sv = upd (upd w.sv x (w.sv y)) y (some none) ∧ w'.bv = w.bv by
      rcases hh with hh | ⟨x, y, rfl, hh⟩
      · exact .inl hh
      · exact .inr (.inr (.inr ⟨s, x, y, pc, rest, hst, hh⟩))
    unfold runDisc at h
    repeat' split at h
    all_goals first
      | (cases h; done)
      | exact .inl (acq h)
      | (cases h; exact .inl (rem _ _))
      | (cases h; exact .inl ⟨rfl, rfl, rfl⟩)
      | (cases h; exact ret w _ _ rfl rfl rfl rfl trivial)
      | (rename_i hc; cases h; exact ret (w.emitEv (.exch s false)) _ _ rfl rfl rfl rfl (show (w.slots s).connected = false from Bool.eq_false_iff.2 hc))
  · exact .inl (by
      unfold runMov at h
      repeat' split at h
      all_goals first | (cases h; done) | exact acq h | (cases h; exact ⟨rfl, rfl, rfl⟩))
  · cases h

theorem setBlocked_vars (w : World) (v : Option SlotId) (c : Bool) : (w.connSetBlocked v c).cv = w.cv ∧ (w.connSetBlocked v c).sv = w.sv ∧
    (w.connSetBlocked v c).bv = w.bv ∧ (w.connSetBlocked v c).objs = w.objs := by
  unfold World.connSetBlocked
  repeat' split
  all_goals exact ⟨rfl, rfl, rfl, rfl⟩

theorem discStart_vars (w : World) (v : Option SlotId) (k : DiscK) : (discStart w t v k).cv = w.cv ∧ (discStart w t v k).bv = w.bv ∧
    (discStart w t v k).objs = w.objs ∧
    ((discStart w t v k).sv = w.sv ∨ ∃ x y, k = .assign x y ∧ (∀ s, v = some s → w.slotAlive s = false) ∧ x ≠ y ∧
      (discStart w t v k).sv = upd (upd w.sv x (w.sv y)) y (some none)) := by
  have ret : ∀ x, (∀ s, v = some s → w.slotAlive s = false) → (discReturn w t (w.stacks t) x k false).cv = w.cv ∧ (discReturn w t (w.stacks t) x k false).bv = w.bv ∧
      (discReturn w t (w.stacks t) x k false).objs = w.objs ∧
      ((discReturn w t (w.stacks t) x k false).sv = w.sv ∨ ∃ a b, k = .assign a b ∧ (∀ s, v = some s → w.slotAlive s = false) ∧ a ≠ b ∧
        (discReturn w t (w.stacks t) x k false).sv = upd (upd w.sv a (w.sv b)) b (some none)) := by
    intro x hv
    unfold discReturn
    split
    · exact ⟨rfl, rfl, rfl, .inl rfl⟩
    · split
      · exact ⟨rfl, rfl, rfl, .inl rfl⟩
      · rename_i a b hab
        exact ⟨rfl, rfl, rfl, .inr ⟨a, b, rfl, hv, hab, rfl⟩⟩
  unfold discStart
  split
  · split
    · exact ⟨rfl, rfl, rfl, .inl rfl⟩
    · rename_i ha
      exact ret _ fun s e => by cases e; exact Bool.not_eq_true _ ▸ ha
  · exact ret _ fun s e => by cases e

/-- The value of an updated function. -/
theorem upd_or {α : Type} (f : Nat → α) (a : Nat) (v : α) (x : Nat) : upd f a v x = f x ∨ (a = x ∧ upd f a v x = v) := by
  rw [upd_apply]
  split
  · rename_i e; exact .inr ⟨e.symm, rfl⟩
  · exact .inl rfl

/-- ... after two updates. -/
theorem upd_or₂ {α : Type} (f : Nat → α) (a b : Nat) (u v : α) (x : Nat) :
    upd (upd f a u) b v x = f x ∨ (a = x ∧ b ≠ x ∧ upd (upd f a u) b v x = u) ∨ (b = x ∧ upd (upd f a u) b v x = v) := by
  rw [upd_apply]
  split
  · rename_i e; exact .inr (.inr ⟨e.symm, rfl⟩)
  · rename_i e
    rcases upd_or f a u x with h | ⟨rfl, h⟩
    · exact .inl h
    · exact .inr (.inl ⟨rfl, fun e' => e e'.symm, h⟩)

/-- What holds of the variables after a step. -/
structure Vars (w w' : World) (l : Label) : Prop where
  cv : ∀ x, w'.cv x = w.cv x ∨ l.setsConn w x (w'.cv x)
  sv : ∀ x, w'.sv x = w.sv x ∨ l.setsScoped w x (w'.sv x)
  bv : ∀ x, w'.bv x = w.bv x ∨ l.setsBlocker w x (w'.bv x)
  ob : ∀ o, o < w.nObjs → w'.objs o = w.objs o ∨ l.owns w o (w'.objs o)

theorem Vars.same {l : Label} (h1 : w'.cv = w.cv) (h2 : w'.sv = w.sv) (h3 : w'.bv = w.bv) (h4 : w'.objs = w.objs) : Vars w w' l :=
  ⟨fun _ => .inl (by rw [h1]), fun _ => .inl (by rw [h2]), fun _ => .inl (by rw [h3]), fun _ _ => .inl (by rw [h4])⟩

theorem vars_call {a : Api} (hs : userOp w t a = some w') : Vars w w' (.call t a) := by
  cases a
  case connCopy x h =>
    cases hs
    exact ⟨fun y => (upd_or w.cv x (w.hval h) y), fun _ => .inl rfl, fun _ => .inl rfl, fun _ _ => .inl rfl⟩
  case connMove x h =>
    simp only [userOp] at hs
    split at hs
    · cases hs; exact .same rfl rfl rfl rfl
    · rename_i hne
      cases hs
      cases h with
      | conn z =>
        refine ⟨fun y => ?_, fun _ => .inl rfl, fun _ => .inl rfl, fun _ _ => .inl rfl⟩
        have hne : z ≠ x := fun e => hne (by rw [e])
        show upd (upd w.cv z none) x (w.cv z) y = _ ∨ _
        rcases upd_or₂ w.cv z x none (w.cv z) y with e | ⟨rfl, h2, e⟩ | ⟨rfl, e⟩
        · exact .inl e
        · exact .inr (.inr ⟨h2, rfl, e⟩)
        · exact .inr (.inl ⟨rfl, e⟩)
      | «scoped» z =>
        refine ⟨fun y => ?_, fun y => ?_, fun _ => .inl rfl, fun _ _ => .inl rfl⟩
        · rcases upd_or w.cv x (w.hval (.scoped z)) y with e | ⟨rfl, e⟩
          · exact .inl e
          · exact .inr (.inl ⟨rfl, e⟩)
        · rcases upd_or w.sv z (some none) y with e | ⟨rfl, e⟩
          · exact .inl e
          · exact .inr ⟨rfl, e⟩
  case connSwap x y =>
    cases hs
    refine ⟨fun z => ?_, fun _ => .inl rfl, fun _ => .inl rfl, fun _ _ => .inl rfl⟩
    rcases upd_or₂ w.cv x y (w.cv y) (w.cv x) z with e | ⟨h1, h2, e⟩ | ⟨h1, e⟩
    · exact .inl e
    · exact .inr (.inl ⟨h1, e⟩)
    · exact .inr (.inr ⟨h1, e⟩)
  case scopedNew x =>
    simp only [userOp] at hs
    split at hs
    · rename_i hn
      cases hs
      refine ⟨fun _ => .inl rfl, fun z => ?_, fun _ => .inl rfl, fun _ _ => .inl rfl⟩
      rcases upd_or w.sv x (some none) z with e | ⟨rfl, e⟩
      · exact .inl e
      · exact .inr ⟨rfl, Option.isNone_iff_eq_none.1 hn, e⟩
    · cases hs
  case scopedOfConn x y =>
    simp only [userOp] at hs
    split at hs
    · rename_i hn
      cases hs
      refine ⟨fun _ => .inl rfl, fun z => ?_, fun _ => .inl rfl, fun _ _ => .inl rfl⟩
      rcases upd_or w.sv x (some (w.cv y)) z with e | ⟨rfl, e⟩
      · exact .inl e
      · exact .inr ⟨rfl, Option.isNone_iff_eq_none.1 hn, e⟩
    · cases hs
  case scopedMoveCtor x y =>
    simp only [userOp] at hs
    split at hs
    · rename_i v hx hy
      cases hs
      refine ⟨fun _ => .inl rfl, fun z => ?_, fun _ => .inl rfl, fun _ _ => .inl rfl⟩
      rcases upd_or₂ w.sv x y (some v) (some none) z with e | ⟨rfl, h2, e⟩ | ⟨h1, e⟩
      · exact .inl e
      · exact .inr (.inl ⟨rfl, hx, e.trans hy.symm⟩)
      · exact .inr (.inr ⟨h1, e⟩)
    · cases hs
  case scopedMoveAssign x y =>
    simp only [userOp] at hs
    split at hs
    · rename_i v v' hx hy
      cases hs
      obtain ⟨h1, h2, h3, h4⟩ := discStart_vars (t := t) w _ (.assign x y)
      refine ⟨fun _ => .inl (by rw [h1]), fun z => ?_, fun _ => .inl (by rw [h2]), fun _ _ => .inl (by rw [h3])⟩
      rcases h4 with h4 | ⟨a, b, hk, hd, hab, h4⟩
      · exact .inl (by rw [h4])
      · cases hk
        rw [h4]
        have hd : ∀ s, w.sv x = some (some s) → w.slotAlive s = false := fun s e => hd s (Option.some.inj (hx.symm.trans e))
        rcases upd_or₂ w.sv x y (w.sv y) (some none) z with e | ⟨h1, h2, e⟩ | ⟨h1, e⟩
        · exact .inl e
        · exact .inr ⟨hab, hd, .inl ⟨h1, e⟩⟩
        · exact .inr ⟨hab, hd, .inr ⟨h1, e⟩⟩
    · cases hs
  case scopedRelease y x =>
    simp only [userOp] at hs
    split at hs
    · rename_i v hx
      cases hs
      refine ⟨fun z => ?_, fun z => ?_, fun _ => .inl rfl, fun _ _ => .inl rfl⟩
      · rcases upd_or w.cv y v z with e | ⟨h1, e⟩
        · exact .inl e
        · exact .inr ⟨h1, by rw [hx]; exact congrArg some e⟩
      · rcases upd_or w.sv x (some none) z with e | ⟨h1, e⟩
        · exact .inl e
        · exact .inr ⟨h1, e⟩
    · cases hs
  case scopedSwap x y =>
    simp only [userOp] at hs
    split at hs
    · rename_i v v' hx hy
      cases hs
      refine ⟨fun _ => .inl rfl, fun z => ?_, fun _ => .inl rfl, fun _ _ => .inl rfl⟩
      rcases upd_or₂ w.sv x y (some v') (some v) z with e | ⟨h1, h2, e⟩ | ⟨h1, e⟩
      · exact .inl e
      · exact .inr (.inl ⟨h1, e.trans hy.symm⟩)
      · exact .inr (.inr ⟨h1, e.trans hx.symm⟩)
    · cases hs
  case scopedDtor x =>
    simp only [userOp] at hs
    split at hs
    · rename_i v hx
      cases hs
      obtain ⟨h1, h2, h3, h4⟩ := discStart_vars (t := t) { w with sv := upd w.sv x none } v .ret
      refine ⟨fun _ => .inl (by rw [h1]), fun z => ?_, fun _ => .inl (by rw [h2]), fun _ _ => .inl (by rw [h3])⟩
      rcases h4 with h4 | ⟨a, b, hk, -⟩
      · rw [h4]
        rcases upd_or w.sv x none z with e | ⟨h1, e⟩
        · exact .inl e
        · exact .inr ⟨h1, e⟩
      · cases hk
    · cases hs
  case scopedBase x h =>
    simp only [userOp] at hs
    split at hs
    · cases hs
      refine ⟨fun _ => .inl rfl, fun z => ?_, fun _ => .inl rfl, fun _ _ => .inl rfl⟩
      exact upd_or w.sv x (some (w.hval h)) z
    · cases hs
  case blockerNew x =>
    simp only [userOp] at hs
    split at hs
    · rename_i hn
      cases hs
      refine ⟨fun _ => .inl rfl, fun _ => .inl rfl, fun z => ?_, fun _ _ => .inl rfl⟩
      rcases upd_or w.bv x (some none) z with e | ⟨rfl, e⟩
      · exact .inl e
      · exact .inr ⟨rfl, Option.isNone_iff_eq_none.1 hn, e⟩
    · cases hs
  case blockerOf x h =>
    simp only [userOp] at hs
    split at hs
    · rename_i hn
      cases hs
      obtain ⟨h1, h2, h3, h4⟩ := setBlocked_vars { w with bv := upd w.bv x (some (w.hval h)) } (w.hval h) true
      refine ⟨fun _ => .inl (by rw [h1]), fun _ => .inl (by rw [h2]), fun z => ?_, fun _ _ => .inl (by rw [h4])⟩
      rw [h3]
      rcases upd_or w.bv x (some (w.hval h)) z with e | ⟨rfl, e⟩
      · exact .inl e
      · exact .inr ⟨rfl, Option.isNone_iff_eq_none.1 hn, e⟩
    · cases hs
  case blockerMoveCtor x y =>
    simp only [userOp] at hs
    split at hs
    · rename_i v hx hy
      cases hs
      refine ⟨fun _ => .inl rfl, fun _ => .inl rfl, fun z => ?_, fun _ _ => .inl rfl⟩
      rcases upd_or₂ w.bv x y (some v) (some none) z with e | ⟨rfl, h2, e⟩ | ⟨h1, e⟩
      · exact .inl e
      · exact .inr (.inl ⟨rfl, hx, e.trans hy.symm⟩)
      · exact .inr (.inr ⟨h1, e⟩)
    · cases hs
  case blockerMoveAssign x y =>
    simp only [userOp] at hs
    split at hs
    · rename_i v v' hx hy
      obtain ⟨h1, h2, h3, h4⟩ := setBlocked_vars w v false
      split at hs
      · cases hs; exact .same h1 h2 h3 h4
      · rename_i hxy
        cases hs
        refine ⟨fun _ => .inl (congrFun h1 _), fun _ => .inl (congrFun h2 _), fun z => ?_, fun _ _ => .inl (congrFun h4 _)⟩
        show upd (upd (w.connSetBlocked v false).bv x (some v')) y (some none) z = _ ∨ _
        rw [h3]
        rcases upd_or₂ w.bv x y (some v') (some none) z with e | ⟨h1, h2, e⟩ | ⟨h1, e⟩
        · exact .inl e
        · exact .inr ⟨hxy, .inl ⟨h1, by
            show upd (upd w.bv x (some v')) y (some none) z = _
            rw [e, hy]⟩⟩
        · exact .inr ⟨hxy, .inr ⟨h1, by
            exact e⟩⟩
    · cases hs
  case blockerSwap x y =>
    simp only [userOp] at hs
    split at hs
    · rename_i v v' hx hy
      cases hs
      refine ⟨fun _ => .inl rfl, fun _ => .inl rfl, fun z => ?_, fun _ _ => .inl rfl⟩
      rcases upd_or₂ w.bv x y (some v') (some v) z with e | ⟨h1, h2, e⟩ | ⟨h1, e⟩
      · exact .inl e
      · exact .inr (.inl ⟨h1, e.trans hy.symm⟩)
      · exact .inr (.inr ⟨h1, e.trans hx.symm⟩)
    · cases hs
  case blockerDtor x =>
    simp only [userOp] at hs
    split at hs
    · rename_i v hx
      cases hs
      obtain ⟨h1, h2, h3, h4⟩ := setBlocked_vars { w with bv := upd w.bv x none } v false
      refine ⟨fun _ => .inl (by rw [h1]), fun _ => .inl (by rw [h2]), fun z => ?_, fun _ _ => .inl (by rw [h4])⟩
      rw [h3]
      exact upd_or w.bv x none z
    · cases hs
  case objNew =>
    cases hs
    refine ⟨fun _ => .inl rfl, fun _ => .inl rfl, fun _ => .inl rfl, fun o ho => .inl ?_⟩
    show upd w.objs w.nObjs 1 o = _
    rw [upd_apply, if_neg (Nat.ne_of_lt ho)]
  case objShare o =>
    simp only [userOp] at hs
    split at hs
    · cases hs
      refine ⟨fun _ => .inl rfl, fun _ => .inl rfl, fun _ => .inl rfl, fun z _ => ?_⟩
      rcases upd_or w.objs o (w.objs o + 1) z with e | ⟨rfl, e⟩
      · exact .inl e
      · exact .inr ⟨rfl, e⟩
    · cases hs
  case objDrop o =>
    simp only [userOp] at hs
    split at hs
    · rename_i hpos
      cases hs
      refine ⟨fun _ => .inl rfl, fun _ => .inl rfl, fun _ => .inl rfl, fun z _ => ?_⟩
      rcases upd_or w.objs o (w.objs o - 1) z with e | ⟨rfl, e⟩
      · exact .inl e
      · refine .inr ⟨rfl, ?_⟩
        show upd w.objs o (w.objs o - 1) o + 1 = _
        rw [e]; omega
    · cases hs
  case disconnect h =>
    cases hs
    obtain ⟨h1, h2, h3, h4⟩ := discStart_vars (t := t) w (w.hval h) .ret
    exact .same h1 (h4.resolve_right fun ⟨_, _, hk, _⟩ => by cases hk) h2 h3
  case block h =>
    cases hs
    obtain ⟨h1, h2, h3, h4⟩ := setBlocked_vars w (w.hval h) true
    exact .same h1 h2 h3 h4
  case unblock h =>
    cases hs
    obtain ⟨h1, h2, h3, h4⟩ := setBlocked_vars w (w.hval h) false
    exact .same h1 h2 h3 h4
  all_goals
    simp only [userOp] at hs
    repeat' split at hs
    all_goals first | (cases hs; done) | (cases hs; exact .same rfl rfl rfl rfl)

theorem vars_run (hs : step E w (.run t) = some w') : Vars w w' (.run t) := by
  obtain ⟨-, -, hrun⟩ := step_run hs
  have ob : w'.objs = w.objs := by
    obtain ⟨-, -, R⟩ := step_inv hs
    have hl := run_lib hrun
    simp only [Label.tid] at R
    cases R
    case objs hu _ _ => rw [hl] at hu; cases hu
    case eraseHit b s _ _ _ _ => exact (removeAt_same w b _).2.2.2.2.2.2.2.2.2.2.2.1
    case discWrite s _ _ _ _ b _ _ _ => exact (removeAt_same w b _).2.2.2.2.2.2.2.2.2.2.2.1
    all_goals rfl
  rcases run_vars hrun with ⟨h1, h2, h3⟩ | ⟨g, s, x, rest, hst, h1, h2, h3⟩ | ⟨g, s, x, rest, hst, h1, h2, h3⟩ |
    ⟨s, x, y, pc, rest, hst, hp, hne, h1, h2, h3⟩
  · exact .same h1 h2 h3 ob
  · refine ⟨fun z => ?_, fun _ => .inl (by rw [h2]), fun _ => .inl (by rw [h3]), fun _ _ => .inl (by rw [ob])⟩
    rw [h1]
    rcases upd_or w.cv x (some s) z with e | ⟨rfl, e⟩
    · exact .inl e
    · exact .inr ⟨g, s, rest, hst, e⟩
  · refine ⟨fun _ => .inl (by rw [h1]), fun z => ?_, fun _ => .inl (by rw [h3]), fun _ _ => .inl (by rw [ob])⟩
    rw [h2]
    rcases upd_or w.sv x (some (some s)) z with e | ⟨rfl, e⟩
    · exact .inl e
    · exact .inr (.inl ⟨g, s, rest, hst, e⟩)
  · refine ⟨fun _ => .inl (by rw [h1]), fun z => ?_, fun _ => .inl (by rw [h3]), fun _ _ => .inl (by rw [ob])⟩
    rw [h2]
    rcases upd_or₂ w.sv x y (w.sv y) (some none) z with e | ⟨h4, h5, e⟩ | ⟨h4, e⟩
    · exact .inl e
    · exact .inr (.inr ⟨s, x, y, pc, rest, hst, hp, hne, .inl ⟨h4, e⟩⟩)
    · exact .inr (.inr ⟨s, x, y, pc, rest, hst, hp, hne, .inr ⟨h4, e⟩⟩)

theorem vars_step {l : Label} (hs : step E w l = some w') : Vars w w' l := by
  cases l with
  | run t => exact vars_run hs
  | call t a => exact vars_call (step_call hs).2.2.2
  | ret t v =>
    obtain ⟨-, -, s, o, m, b, pos, acc, rest, -, rfl⟩ := step_ret hs
    exact .same rfl rfl rfl rfl
  | throw t c =>
    obtain ⟨-, -, s, o, m, b, pos, acc, rest, -, ⟨-, rfl⟩ | ⟨-, -, rfl⟩⟩ := step_throw hs
    · exact .same rfl rfl rfl rfl
    · exact .same rfl rfl rfl rfl
  | fail t =>
    rcases step_fail_cases hs with ⟨rfl, -⟩ | ⟨f, rest, x, s, b, hst, hf, -, rfl⟩
    · exact .same rfl rfl rfl rfl
    · exact .same rfl rfl rfl rfl
  | ctl t =>
    obtain ⟨-, -, rfl, -⟩ := step_ctl hs
    exact .same rfl rfl rfl rfl

/-- **C67 (connections).** A `connection` variable changes only in a step that assigns to it, and to what it assigns. -/
theorem C67_conn {l : Label} (hs : step E w l = some w') (x : Var) : w'.cv x = w.cv x ∨ l.setsConn w x (w'.cv x) := (vars_step hs).cv x

/-- **C67 (scoped connections).** -/
theorem C67_scoped {l : Label} (hs : step E w l = some w') (x : Var) : w'.sv x = w.sv x ∨ l.setsScoped w x (w'.sv x) := (vars_step hs).sv x

/-- **C67 (blockers).** -/
theorem C67_blocker {l : Label} (hs : step E w l = some w') (x : Var) : w'.bv x = w.bv x ∨ l.setsBlocker w x (w'.bv x) := (vars_step hs).bv x

/-- **C67 (tracked objects).** Only the user makes and drops the `shared_ptr`s that keep a tracked object. -/
theorem C67_objs {l : Label} (hs : step E w l = some w') {o : ObjId} (ho : o < w.nObjs) :
    w'.objs o = w.objs o ∨ l.owns w o (w'.objs o) := (vars_step hs).ob o ho

/-! ### Flags -/

/-- Which steps are the library's. -/
theorem lib_label {l : Label} (hs : step E w l = some w') {f : Frame} {rest : List Frame} (hst : w.stacks l.tid = f :: rest)
    (hu : userCtx (f :: rest) = false) (ha : f.allocs = none) (hd : f.det = none) : l = .run l.tid := by
  cases l with
  | run t => rfl
  | call t a =>
    have := (step_call hs).2.2.1
    simp only [Label.tid] at hst
    rw [hst, hu] at this; cases this
  | ret t v =>
    obtain ⟨-, -, s, o, m, b, pos, acc, rest', h, -⟩ := step_ret hs
    simp only [Label.tid] at hst
    rw [h] at hst; cases hst; cases hu
  | throw t c =>
    obtain ⟨-, -, s, o, m, b, pos, acc, rest', h, -⟩ := step_throw hs
    simp only [Label.tid] at hst
    rw [h] at hst; cases hst; cases hu
  | fail t =>
    simp only [Label.tid] at hst
    rcases step_fail_cases hs with ⟨-, s, k, g, rest', b, h, -⟩ | ⟨f', rest', x, s, b, h, hf, -, -⟩
    · rw [h] at hst; cases hst; cases hd
    · rw [h] at hst; cases hst; rw [ha] at hf; cases hf
  | ctl t =>
    simp only [Label.tid] at hst
    obtain ⟨-, -, -, f', f'', rest', g, b, h, hf, -⟩ := step_ctl hs
    rw [h] at hst; cases hst; rw [hd] at hf; cases hf

/-- **C67 (connected).** A listener is marked as disconnected by `disconnect()` of that listener, or by an emission that finds its object
gone, and nothing marks it as connected again. -/
theorem C67_connected (h : Reachable E w) {l : Label} (hs : step E w l = some w') {s : SlotId} (hn : s < w.nSlots) :
    (w'.slots s).connected = (w.slots s).connected ∨
      (l.disconnects w s ∧ (w.slots s).connected = true ∧ (w'.slots s).connected = false) := by
  obtain ⟨-, -, R⟩ := step_inv hs
  have lib := @lib_label E w w' l hs
  have T := h.full.t
  generalize l.tid = t at R lib
  have setC : ∀ x, ((upd w.slots x { w.slots x with connected := false }) s).connected = (w.slots s).connected ∨
      (x = s ∧ (w.slots s).connected = true ∧ ((upd w.slots x { w.slots x with connected := false }) s).connected = false) := by
    intro x
    rw [upd_apply]
    split
    · rename_i e
      subst e
      cases (w.slots s).connected
      · exact .inl rfl
      · exact .inr ⟨rfl, rfl, rfl⟩
    · exact .inl rfl
  cases R
  case flag x c cv sv bv hu hh _ ha =>
    refine .inl ?_
    show ((upd w.slots x { w.slots x with blocked := c }) s).connected = _
    rw [upd_apply]
    split
    · rename_i e; rw [e]
    · rfl
  case connStart hu hg ho =>
    refine .inl ?_
    show ((upd w.slots w.nSlots _) s).connected = _
    rw [upd_apply, if_neg (Nat.ne_of_lt hn)]
  case exchTrue x k rest hst hc =>
    rcases setC x with e | ⟨rfl, e, e'⟩
    · exact .inl e
    · refine .inr ⟨?_, e, e'⟩
      rw [lib hst rfl rfl rfl]
      exact .inl ⟨k, rest, hst⟩
  case callExpired x o m b pos acc rest hst ho =>
    rcases setC x with e | ⟨rfl, e, e'⟩
    · exact .inl e
    · refine .inr ⟨?_, e, e'⟩
      rw [lib hst rfl rfl rfl]
      exact .inr ⟨o, _, hst, (callAt_top T hst).2, ho⟩
  case addWrite g x dest rest b hst hl =>
    refine .inl ?_
    show ((upd w.slots x { w.slots x with index := _ }) s).connected = _
    rw [upd_apply]
    split
    · rename_i e; rw [e]
    · rfl
  case eraseHit b _ _ _ _ _ => exact .inl (removeAt_flags w b _ s).2
  case discWrite b _ _ _ => exact .inl (removeAt_flags w b _ s).2
  all_goals exact .inl rfl

theorem setBlocked_blocked (w : World) (v : Option SlotId) (c : Bool) (s : SlotId) :
    ((w.connSetBlocked v c).slots s).blocked = (w.slots s).blocked ∨
      (v = some s ∧ ((w.connSetBlocked v c).slots s).blocked = c) := by
  unfold World.connSetBlocked
  split
  · rename_i x
    split
    · show ((upd w.slots x { w.slots x with blocked := c }) s).blocked = _ ∨ _ ∧ ((upd w.slots x { w.slots x with blocked := c }) s).blocked = _
      rcases upd_or w.slots x { w.slots x with blocked := c } s with e | ⟨rfl, e⟩
      · exact .inl (by rw [e])
      · exact .inr ⟨rfl, by rw [e]⟩
    · exact .inl rfl
  · exact .inl rfl

theorem discStart_recs (w : World) (v : Option SlotId) (k : DiscK) : (discStart w t v k).slots = w.slots := by
  have ret : ∀ x, (discReturn w t (w.stacks t) x k false).slots = w.slots := by
    intro x
    unfold discReturn
    split
    · rfl
    · split <;> rfl
  unfold discStart
  split
  · split
    · rfl
    · exact ret _
  · exact ret _

theorem block_call {a : Api} (hs : userOp w t a = some w') {s : SlotId} (hn : s < w.nSlots) :
    (w'.slots s).blocked = (w.slots s).blocked ∨ a.blocks w s (w'.slots s).blocked := by
  cases a
  case connect =>
    simp only [userOp] at hs
    split at hs
    · cases hs
      refine .inl ?_
      show ((upd w.slots w.nSlots _) s).blocked = _
      rw [upd_apply, if_neg (Nat.ne_of_lt hn)]
    · cases hs
  case block h =>
    cases hs
    rcases setBlocked_blocked w (w.hval h) true s with e | ⟨e, e'⟩
    · exact .inl e
    · exact .inr ⟨e, e'⟩
  case unblock h =>
    cases hs
    rcases setBlocked_blocked w (w.hval h) false s with e | ⟨e, e'⟩
    · exact .inl e
    · exact .inr ⟨e, e'⟩
  case blockerOf x h =>
    simp only [userOp] at hs
    split at hs
    · cases hs
      rcases setBlocked_blocked { w with bv := upd w.bv x (some (w.hval h)) } (w.hval h) true s with e | ⟨e, e'⟩
      · exact .inl e
      · exact .inr ⟨e, e'⟩
    · cases hs
  case blockerMoveAssign x y =>
    simp only [userOp] at hs
    split at hs
    · rename_i v v' hx hy
      have hb := setBlocked_blocked w v false s
      split at hs
      · cases hs
        rcases hb with e | ⟨rfl, e⟩
        · exact .inl e
        · exact .inr ⟨hx, e⟩
      · cases hs
        rcases hb with e | ⟨rfl, e⟩
        · exact .inl e
        · exact .inr ⟨hx, e⟩
    · cases hs
  case blockerDtor x =>
    simp only [userOp] at hs
    split at hs
    · rename_i v hx
      cases hs
      rcases setBlocked_blocked { w with bv := upd w.bv x none } v false s with e | ⟨rfl, e⟩
      · exact .inl e
      · exact .inr ⟨hx, e⟩
    · cases hs
  case disconnect h => cases hs; exact .inl (by rw [discStart_recs])
  case scopedDtor x =>
    simp only [userOp] at hs
    split at hs
    · cases hs; exact .inl (by rw [discStart_recs])
    · cases hs
  case scopedMoveAssign x y =>
    simp only [userOp] at hs
    split at hs
    · cases hs; exact .inl (by rw [discStart_recs])
    · cases hs
  case connMove x h =>
    simp only [userOp] at hs
    split at hs
    · cases hs; exact .inl rfl
    · cases hs; cases h <;> exact .inl rfl
  all_goals
    simp only [userOp] at hs
    repeat' split at hs
    all_goals first | (cases hs; done) | (cases hs; exact .inl rfl)

/-- **C67 (blocked).** Only the user blocks and unblocks a listener. -/
theorem C67_blocked {l : Label} (hs : step E w l = some w') {s : SlotId} (hn : s < w.nSlots) :
    (w'.slots s).blocked = (w.slots s).blocked ∨ ∃ t a, l = .call t a ∧ a.blocks w s (w'.slots s).blocked := by
  cases l with
  | call t a =>
    rcases block_call (step_call hs).2.2.2 hn with e | e
    · exact .inl e
    · exact .inr ⟨t, a, rfl, e⟩
  | run t =>
    refine .inl ?_
    have hl := run_lib (step_run hs).2.2
    obtain ⟨-, -, R⟩ := step_inv hs
    simp only [Label.tid] at R
    have no : ∀ {P : Prop}, userCtx (w.stacks t) = true → P := fun hu => by rw [hl] at hu; cases hu
    have keep : ∀ x (r : SlotRec), r.blocked = (w.slots x).blocked → ((upd w.slots x r) s).blocked = (w.slots s).blocked := by
      intro x r hr
      rw [upd_apply]
      split
      · rename_i e; rw [hr, e]
      · rfl
    cases R
    case flag hu _ _ _ => exact no hu
    case connStart hu _ _ => exact no hu
    case eraseHit b _ _ _ _ _ => exact (removeAt_flags w b _ s).1
    case discWrite b _ _ _ => exact (removeAt_flags w b _ s).1
    case exchTrue => exact keep _ _ rfl
    case callExpired => exact keep _ _ rfl
    case addWrite => exact keep _ _ rfl
    all_goals rfl
  | ret t v =>
    obtain ⟨-, -, s, o, m, b, pos, acc, rest, -, rfl⟩ := step_ret hs
    exact .inl rfl
  | throw t c =>
    obtain ⟨-, -, s, o, m, b, pos, acc, rest, -, ⟨-, rfl⟩ | ⟨-, -, rfl⟩⟩ := step_throw hs
    · exact .inl rfl
    · exact .inl rfl
  | fail t =>
    rcases step_fail_cases hs with ⟨rfl, -⟩ | ⟨f, rest, x, s, b, hst, hf, -, rfl⟩
    · exact .inl rfl
    · exact .inl rfl
  | ctl t =>
    obtain ⟨-, -, rfl, -⟩ := step_ctl hs
    exact .inl rfl

/-- **C67 (code).** What a listener calls, how it takes its arguments and the signal it was connected to never change. -/
theorem C67_code {l : Label} (hs : step E w l = some w') {s : SlotId} (hn : s < w.nSlots) :
    (w'.slots s).fn = (w.slots s).fn ∧ (w'.slots s).consume = (w.slots s).consume ∧ (w'.slots s).owner = (w.slots s).owner := by
  obtain ⟨-, -, R⟩ := step_inv hs
  have F := fixed R
  exact ⟨F.fn s hn, F.consume s hn, F.owner s hn⟩

/-! ### Lists -/

/-- A step that says nothing of lists changes none. -/
theorem list_quiet (h : Reachable E w) (R : StepR E w t w') {evs : List Event} (hl : w'.log = evs ++ w.log)
    (hq : ∀ e ∈ evs, e.isList = false) (g : SigId) : w'.listOf g = w.listOf g := by
  have I := h.full.i
  have one : ∀ {e : Event}, w'.log = e :: w.log → e.isList = false := by
    intro e he
    apply hq
    rw [hl] at he
    have : evs = [e] := List.append_cancel_right (he.trans rfl)
    rw [this]; exact List.mem_cons_self
  cases listEff I.i1 I.i2 R with
  | same hl => exact hl g
  | add x s b dest rest hst hb hl hi hlog => cases one hlog
  | rem x i v ev hst hv hl hi hev hlog => rcases hev with rfl | ⟨req, rfl⟩ <;> cases one hlog
  | move x y hne hst h0 hd hl hi hlog => cases one hlog
  | destroy x hm hl hi hlog => cases one hlog

theorem setBlocked_log (w : World) (v : Option SlotId) (c : Bool) :
    ∃ evs, (w.connSetBlocked v c).log = evs ++ w.log ∧ ∀ e ∈ evs, e.isList = false := by
  unfold World.connSetBlocked
  split
  · split
    · exact ⟨[_], rfl, by simp [Event.isList]⟩
    · exact ⟨[], rfl, by simp⟩
  · exact ⟨[], rfl, by simp⟩

theorem discStart_log (w : World) (v : Option SlotId) (k : DiscK) :
    ∃ evs, (discStart w t v k).log = evs ++ w.log ∧ ∀ e ∈ evs, e.isList = false := by
  have ret : ∀ x, ∃ evs, (discReturn w t (w.stacks t) x k false).log = evs ++ w.log ∧ ∀ e ∈ evs, e.isList = false := by
    intro x
    unfold discReturn
    split
    · exact ⟨[_], rfl, by simp [Event.isList]⟩
    · split
      · exact ⟨[_], rfl, by simp [Event.isList]⟩
      · exact ⟨[_], rfl, by simp [Event.isList]⟩
  unfold discStart
  split
  · split
    · exact ⟨[], rfl, by simp⟩
    · exact ret _
  · exact ret _

theorem call_log {a : Api} (hs : userOp w t a = some w') (ha : ∀ g, a ≠ .destroySig g) :
    ∃ evs, w'.log = evs ++ w.log ∧ ∀ e ∈ evs, e.isList = false := by
  cases a
  case destroySig g => exact absurd rfl (ha g)
  case block h => cases hs; exact setBlocked_log _ _ _
  case unblock h => cases hs; exact setBlocked_log _ _ _
  case blockerOf x h =>
    simp only [userOp] at hs
    split at hs
    · cases hs; exact setBlocked_log { w with bv := _ } _ _
    · cases hs
  case blockerMoveAssign x y =>
    simp only [userOp] at hs
    split at hs
    · split at hs
      · cases hs; exact setBlocked_log _ _ _
      · cases hs; exact setBlocked_log w _ _
    · cases hs
  case blockerDtor x =>
    simp only [userOp] at hs
    split at hs
    · cases hs; exact setBlocked_log { w with bv := _ } _ _
    · cases hs
  case disconnect h => cases hs; exact discStart_log _ _ _
  case scopedDtor x =>
    simp only [userOp] at hs
    split at hs
    · cases hs; exact discStart_log { w with sv := _ } _ _
    · cases hs
  case scopedMoveAssign x y =>
    simp only [userOp] at hs
    split at hs
    · cases hs; exact discStart_log _ _ _
    · cases hs
  case connMove x h =>
    simp only [userOp] at hs
    split at hs
    · cases hs; exact ⟨[], rfl, by simp⟩
    · cases hs; cases h <;> exact ⟨[], rfl, by simp⟩
  all_goals
    simp only [userOp] at hs
    repeat' split at hs
    all_goals first
      | (cases hs; done)
      | (cases hs; exact ⟨[], rfl, by simp⟩)
      | (cases hs; exact ⟨[_], rfl, by simp [Event.isList]⟩)

theorem emit_log {rest : List Frame} {m : Em} {pc : EmitPc} (hs : runEmit w t rest m pc = some w') :
    ∃ evs, w'.log = evs ++ w.log ∧ ∀ e ∈ evs, e.isList = false := by
  unfold runEmit acquire at hs
  repeat' split at hs
  all_goals first
    | (cases hs; done)
    | (cases hs; exact ⟨[], rfl, by simp⟩)
    | (cases hs; exact ⟨[_], rfl, by simp [Event.isList]⟩)

/-- **C67 (lists).** The list of a signal changes only in a `connect`, a `disconnect` of either kind or a move of it, or when it is
destroyed. No emission changes a list. -/
theorem C67_list (h : Reachable E w) {l : Label} (hs : step E w l = some w') {g : SigId} (hg : g < w.nSigs) :
    w'.listOf g = w.listOf g ∨ l.edits w g := by
  by_cases hon : l.on w g
  case neg => exact .inl (C66_step h hs hg hon).2.1
  obtain ⟨-, -, R⟩ := step_inv hs
  cases l with
  | run t =>
    obtain ⟨f, rest, hst, hf⟩ := hon
    simp only [Label.tid] at hst
    by_cases he : ∃ m pc, f = .emit m pc
    · obtain ⟨m, pc, rfl⟩ := he
      obtain ⟨-, -, hrun⟩ := step_run hs
      simp only [runTop, hst] at hrun
      obtain ⟨evs, h1, h2⟩ := emit_log hrun
      exact .inl (list_quiet h R h1 h2 g)
    · exact .inr ⟨f, rest, hst, hf, fun m pc e => he ⟨m, pc, e⟩⟩
  | call t a =>
    by_cases ha : ∀ x, a ≠ .destroySig x
    · obtain ⟨evs, h1, h2⟩ := call_log (step_call hs).2.2.2 ha
      exact .inl (list_quiet h R h1 h2 g)
    · obtain ⟨x, hx⟩ := Classical.not_forall.1 ha
      cases Classical.not_not.1 hx
      exact .inr hon
  | ret t v =>
    refine .inl ?_
    obtain ⟨-, -, s, o, m, b, pos, acc, rest, -, rfl⟩ := step_ret hs
    exact list_quiet h R (evs := [_]) rfl (by simp [Event.isList]) g
  | throw t c =>
    refine .inl ?_
    obtain ⟨-, -, s, o, m, b, pos, acc, rest, -, ⟨-, rfl⟩ | ⟨-, -, rfl⟩⟩ := step_throw hs
    · exact list_quiet h R (evs := [_, _]) rfl (by simp [Event.isList]) g
    · exact list_quiet h R (evs := [_]) rfl (by simp [Event.isList]) g
  | fail t =>
    refine .inl ?_
    rcases step_fail_cases hs with ⟨rfl, -⟩ | ⟨f, rest, x, s, b, hst, hf, -, rfl⟩
    · exact list_quiet h R (evs := []) rfl (by simp) g
    · exact list_quiet h R (evs := [_]) rfl (by simp [Event.isList]) g
  | ctl t =>
    refine .inl ?_
    obtain ⟨-, -, rfl, -⟩ := step_ctl hs
    exact list_quiet h R (evs := []) rfl (by simp) g

/-! ### Executions -/

/-- No `disconnect()` of `s` is about to test whether `s` is connected. -/
def Frame.safe (s : SlotId) (f : Frame) : Prop := ∀ k, f ≠ .disc s k .exch

theorem safe_run (hs : step E w (.run t) = some w') {s : SlotId} (old : ∀ f ∈ w.stacks t, f.safe s) : ∀ f ∈ w'.stacks t, f.safe s := by
  obtain ⟨-, -, hrun⟩ := step_run hs
  obtain ⟨-, -, R⟩ := step_inv hs
  have hl := run_lib hrun
  simp only [Label.tid] at R
  have no : ∀ {P : Prop}, userCtx (w.stacks t) = true → P := fun hu => by rw [hl] at hu; cases hu
  have put : ∀ st, upd w.stacks t st t = st := fun st => by rw [upd_apply, if_pos rfl]
  cases R
  case ub => exact old
  case hand hu _ => exact no hu
  case flag hu _ _ _ => exact no hu
  case objs hu _ _ => exact no hu
  case pins hu _ => exact no hu
  case newSig hu => exact no hu
  case destroy hu _ _ _ => exact no hu
  case movStart hu _ _ => exact no hu
  case connStart hu _ _ => exact no hu
  case emitStart hu _ => exact no hu
  case eraseStart hu _ => exact no hu
  case discPush hu _ _ _ => exact no hu
  case discFail hu _ => exact no hu
  case acq f f' rest x hst hf _ _ =>
    rw [hst] at old
    have : (World.setStack (w.setMutex x (some t)) t (f' :: rest)).stacks t = f' :: rest := put _
    rw [this]
    intro f0 hf0
    rcases List.mem_cons.1 hf0 with rfl | hf0
    · unfold Frame.acq at hf
      intro k e
      subst e
      split at hf <;> cases hf
    · exact old _ (List.mem_cons_of_mem _ hf0)
  case tst f f' rest x b hst hf _ =>
    rw [hst] at old
    have : (w.setStack t (f' :: rest)).stacks t = f' :: rest := put _
    rw [this]
    intro f0 hf0
    rcases List.mem_cons.1 hf0 with rfl | hf0
    · unfold Frame.tst at hf
      intro k e
      subst e
      split at hf <;> cases hf
    · exact old _ (List.mem_cons_of_mem _ hf0)
  case det f f' rest x b hst hf _ =>
    rw [hst] at old
    have : (World.setStack (cloneBlk w x b) t (f' :: rest)).stacks t = f' :: rest := by
      simp only [World.setStack, upd_apply, if_true]
    rw [this]
    intro f0 hf0
    rcases List.mem_cons.1 hf0 with rfl | hf0
    · unfold Frame.det at hf
      intro k e
      subst e
      split at hf <;> cases hf
    · exact old _ (List.mem_cons_of_mem _ hf0)
  all_goals
    replace old := fun st (e : w.stacks t = st) => e ▸ old
    replace old := old _ (by assumption)
    intro f0 hf0 k e
    subst e
    have hf1 : Frame.disc s k .exch ∈ upd _ t _ t := hf0
    rw [upd_apply, if_pos rfl] at hf1
    try simp only [List.mem_cons, reduceCtorEq, false_or, Frame.disc.injEq, and_false] at hf1
    first
      | exact old _ (List.mem_cons_of_mem _ hf1) k rfl
      | exact old _ (List.mem_cons_of_mem _ (List.mem_cons_of_mem _ hf1)) k rfl

theorem safe_discStart {w0 w : World} {x : Option SlotId} {k : DiscK} {s : SlotId} (h1 : w.stacks = w0.stacks)
    (hx : x ≠ some s) (old : ∀ f ∈ w0.stacks t, f.safe s) : ∀ f ∈ (discStart w t x k).stacks t, f.safe s := by
  have ret : ∀ y, ∀ f ∈ (discReturn w t (w.stacks t) y k false).stacks t, f.safe s := by
    intro y
    have e : (discReturn w t (w.stacks t) y k false).stacks t = w0.stacks t := by
      unfold discReturn
      split
      · simp [World.emitEv, World.setStack, upd_apply, h1]
      · split
        · simp [World.emitEv, World.setStack, upd_apply, h1]
        · simp [World.emitEv, World.setStack, upd_apply, h1]
    rw [e]; exact old
  unfold discStart
  split
  · rename_i y
    split
    · intro f hf
      have hf1 : f ∈ upd w.stacks t (.disc y k .exch :: w.stacks t) t := hf
      rw [upd_apply, if_pos rfl, h1] at hf1
      rcases List.mem_cons.1 hf1 with rfl | hf1
      · intro k' e; cases e; exact hx rfl
      · exact old f hf1
    · exact ret _
  · exact ret _

theorem safe_call {a : Api} (ho : userOp w t a = some w') {s : SlotId} (hn : ¬ a.disconnects w s) (old : ∀ f ∈ w.stacks t, f.safe s) :
    ∀ f ∈ w'.stacks t, f.safe s := by
  have push : ∀ {f0 : Frame}, w'.stacks t = f0 :: w.stacks t → f0.safe s → ∀ f ∈ w'.stacks t, f.safe s := by
    intro f0 e h0 f hf
    rw [e] at hf
    rcases List.mem_cons.1 hf with rfl | hf
    · exact h0
    · exact old f hf
  have same : w'.stacks t = w.stacks t → ∀ f ∈ w'.stacks t, f.safe s := fun e f hf => old f (e ▸ hf)
  have put : ∀ st, upd w.stacks t st t = st := fun st => by rw [upd_apply, if_pos rfl]
  cases a
  case connect x _ _ _ _ _ =>
    simp only [userOp] at ho
    split at ho
    · cases ho; exact push (put _) fun _ e => by cases e
    · cases ho
  case emit x _ _ =>
    simp only [userOp] at ho
    split at ho
    · cases ho; exact push (put _) fun _ e => by cases e
    · cases ho
  case sigDisconnect x _ =>
    simp only [userOp] at ho
    split at ho
    · cases ho; exact push (put _) fun _ e => by cases e
    · cases ho
  case moveSig x =>
    simp only [userOp] at ho
    split at ho
    · split at ho
      · cases ho; exact same rfl
      · cases ho; exact push (put _) fun _ e => by cases e
    · cases ho
  case disconnect hd => cases ho; exact safe_discStart rfl hn old
  case scopedDtor x =>
    simp only [userOp] at ho
    split at ho
    · rename_i v hv
      cases ho
      exact safe_discStart (w0 := w) rfl (fun e => hn (by rw [e] at hv; exact hv)) old
    · cases ho
  case scopedMoveAssign x y =>
    simp only [userOp] at ho
    split at ho
    · rename_i v _ hv _
      cases ho
      exact safe_discStart rfl (fun e => hn (by rw [e] at hv; exact hv)) old
    · cases ho
  case combDeref i =>
    simp only [userOp] at ho
    split at ho
    · rename_i hst
      rw [hst] at old
      split at ho
      · cases ho
        intro f hf
        have hf1 : f ∈ upd _ t _ t := hf
        rw [upd_apply, if_pos rfl] at hf1
        rcases List.mem_cons.1 hf1 with rfl | hf1
        · intro _ e; cases e
        · rcases List.mem_cons.1 hf1 with rfl | hf1
          · intro _ e; cases e
          · exact old _ (List.mem_cons_of_mem _ hf1)
      · cases ho; exact same rfl
    · cases ho
  case combDone v =>
    simp only [userOp] at ho
    split at ho
    · rename_i hst
      rw [hst] at old
      cases ho
      intro f hf
      have hf1 : f ∈ upd _ t _ t := hf
      rw [upd_apply, if_pos rfl] at hf1
      exact old _ (List.mem_cons_of_mem _ hf1)
    · cases ho
  case combThrow =>
    simp only [userOp] at ho
    split at ho
    · rename_i hst
      rw [hst] at old
      cases ho
      intro f hf
      have hf1 : f ∈ upd _ t _ t := hf
      rw [upd_apply, if_pos rfl] at hf1
      exact old _ (List.mem_cons_of_mem _ hf1)
    · cases ho
  all_goals
    refine same ?_
    simp only [userOp, World.connSetBlocked] at ho
    repeat' split at ho
    all_goals first
      | (cases ho; done)
      | (cases ho; rfl)
      | (cases ho; rename_i hd _; cases hd <;> rfl)

theorem safe_step {l : Label} (hs : step E w l = some w') {s : SlotId} (hn : ∀ t a, l = .call t a → ¬ a.disconnects w s)
    (old : ∀ t, ∀ f ∈ w.stacks t, f.safe s) : ∀ t, ∀ f ∈ w'.stacks t, f.safe s := by
  obtain ⟨-, -, R⟩ := step_inv hs
  have top : ∀ f ∈ w'.stacks l.tid, f.safe s := by
    have old := old l.tid
    cases l with
    | run t => exact safe_run hs old
    | call t a => exact safe_call (step_call hs).2.2.2 (hn t a rfl) old
    | ret t v =>
      obtain ⟨-, -, s, o, m, b, pos, acc, rest, hst, rfl⟩ := step_ret hs
      simp only [Label.tid, hst] at old
      intro f hf
      have hf1 : f ∈ upd _ t _ t := hf
      rw [upd_apply, if_pos rfl] at hf1
      rcases List.mem_cons.1 hf1 with rfl | hf1
      · intro _ e; cases e
      · exact old _ (List.mem_cons_of_mem _ (List.mem_cons_of_mem _ hf1))
    | throw t c =>
      obtain ⟨-, -, s, o, m, b, pos, acc, rest, hst, ⟨-, rfl⟩ | ⟨-, -, rfl⟩⟩ := step_throw hs
      · simp only [Label.tid, hst] at old
        intro f hf
        have hf1 : f ∈ upd _ t _ t := hf
        rw [upd_apply, if_pos rfl] at hf1
        exact old _ (List.mem_cons_of_mem _ (List.mem_cons_of_mem _ hf1))
      · simp only [Label.tid, hst] at old
        intro f hf
        have hf1 : f ∈ upd _ t _ t := hf
        rw [upd_apply, if_pos rfl] at hf1
        rcases List.mem_cons.1 hf1 with rfl | hf1
        · intro _ e; cases e
        · exact old _ (List.mem_cons_of_mem _ (List.mem_cons_of_mem _ hf1))
    | fail t =>
      rcases step_fail_cases hs with ⟨rfl, -⟩ | ⟨f, rest, x, s, b, hst, hf, -, rfl⟩
      · exact old
      · simp only [Label.tid, hst] at old
        intro f hf
        have hf1 : f ∈ upd _ t _ t := hf
        rw [upd_apply, if_pos rfl] at hf1
        exact old _ (List.mem_cons_of_mem _ hf1)
    | ctl t =>
      obtain ⟨-, -, rfl, -⟩ := step_ctl hs
      exact old
  intro t' f hf
  by_cases ht : t' = l.tid
  · subst ht; exact top f hf
  · rw [stacks_other R ht] at hf
    exact old t' f hf

/-- An execution in which every step meets a condition. -/
inductive While (E : Env) (P : World → Label → Prop) : World → World → Prop where
  | refl (w : World) : While E P w w
  | tail {w w1 w2 : World} (l : Label) (h : While E P w w1) (hp : P w1 l) (hs : step E w1 l = some w2) : While E P w w2

/-- Nobody begins to disconnect `s`, blocks or unblocks it, and the object that it tracks, if any, lives. -/
def Untouched (s : SlotId) (w : World) (l : Label) : Prop :=
  (∀ t a, l = .call t a → ¬ a.disconnects w s ∧ ∀ c, ¬ a.blocks w s c) ∧ ∀ o, (w.slots s).fn.obj? = some o → w.objAlive o = true

/-- **C67.** Whatever else the threads do, for however long — emit, connect, disconnect and block other listeners, `signal::disconnect`, move and
destroy signals —: a listener that nobody disconnects through its connection, blocks or unblocks, and whose object lives, stays as it is. -/
theorem C67 (h : Reachable E w) {s : SlotId} (hn : s < w.nSlots) (h0 : ∀ t k, .disc s k .exch ∉ w.stacks t)
    (hs : While E (Untouched s) w w') :
    (w'.slots s).connected = (w.slots s).connected ∧ (w'.slots s).blocked = (w.slots s).blocked ∧ (w'.slots s).fn = (w.slots s).fn ∧
      (w'.slots s).consume = (w.slots s).consume := by
  have h0 : ∀ t, ∀ f ∈ w.stacks t, f.safe s := fun t f hf k e => h0 t k (e ▸ hf)
  suffices Reachable E w' ∧ s < w'.nSlots ∧ (∀ t, ∀ f ∈ w'.stacks t, f.safe s) ∧ (w'.slots s).connected = (w.slots s).connected ∧
      (w'.slots s).blocked = (w.slots s).blocked ∧ (w'.slots s).fn = (w.slots s).fn ∧ (w'.slots s).consume = (w.slots s).consume from this.2.2.2
  induction hs with
  | refl => exact ⟨h, hn, h0, rfl, rfl, rfl, rfl⟩
  | @tail w1 w2 l _ hp hs ih =>
    obtain ⟨h1, hn1, hsafe, e1, e2, e3, e4⟩ := ih
    obtain ⟨hp1, hp2⟩ := hp
    obtain ⟨-, -, R⟩ := step_inv hs
    refine ⟨h1.step hs, Nat.lt_of_lt_of_le hn1 (fixed R).nSlots, safe_step hs (fun t a e => (hp1 t a e).1) hsafe, ?_, ?_,
      (C67_code hs hn1).1.trans e3, (C67_code hs hn1).2.1.trans e4⟩
    · rcases C67_connected h1 hs hn1 with e | ⟨hd, -⟩
      · exact e.trans e1
      · exfalso
        cases l with
        | run t =>
          rcases hd with ⟨k, rest, hst⟩ | ⟨o, rest, -, ho, hna⟩
          · exact hsafe t _ (by rw [hst]; exact List.mem_cons_self) k rfl
          · rw [hp2 o ho] at hna; cases hna
        | _ => exact hd
    · rcases C67_blocked hs hn1 with e | ⟨t, a, e, hb⟩
      · exact e.trans e2
      · exact absurd hb ((hp1 t a e).2 _)

/-- **C67 (variables).** A variable that no step assigns to keeps its value, for however long. -/
theorem C67_vars (x : Var) :
    (While E (fun w l => ∀ v, ¬ l.setsConn w x v) w w' → w'.cv x = w.cv x) ∧
    (While E (fun w l => ∀ v, ¬ l.setsScoped w x v) w w' → w'.sv x = w.sv x) ∧
    (While E (fun w l => ∀ v, ¬ l.setsBlocker w x v) w w' → w'.bv x = w.bv x) := by
  refine ⟨fun hs => ?_, fun hs => ?_, fun hs => ?_⟩
  · induction hs with
    | refl => rfl
    | tail l _ hp hs ih => exact ((C67_conn hs x).resolve_right (hp _)).trans ih
  · induction hs with
    | refl => rfl
    | tail l _ hp hs ih => exact ((C67_scoped hs x).resolve_right (hp _)).trans ih
  · induction hs with
    | refl => rfl
    | tail l _ hp hs ih => exact ((C67_blocker hs x).resolve_right (hp _)).trans ih

/-! ### Executions that show it -/

namespace Demo

/-- Decides `Api.disconnects`, and `Api.blocks` for some value. -/
def touchB (w : World) (s : SlotId) : Api → Bool
  | .disconnect h => w.hval h == some s
  | .scopedDtor x => w.sv x == some (some s)
  | .scopedMoveAssign x _ => w.sv x == some (some s)
  | .block h => w.hval h == some s
  | .unblock h => w.hval h == some s
  | .blockerOf _ h => w.hval h == some s
  | .blockerMoveAssign x _ => w.bv x == some (some s)
  | .blockerDtor x => w.bv x == some (some s)
  | _ => false

theorem disc_touchB {s : SlotId} {a : Api} (h : a.disconnects w s) : touchB w s a = true := by
  cases a <;> first | (cases h; done) | exact beq_iff_eq.2 h

theorem blocks_touchB {s : SlotId} {c : Bool} {a : Api} (h : a.blocks w s c) : touchB w s a = true := by
  cases a <;> first | (cases h; done) | exact beq_iff_eq.2 h.1

/-- Decides `Untouched`. -/
def untouchedB (s : SlotId) (w : World) (l : Label) : Bool :=
  (match l with
    | .call _ a => !touchB w s a
    | _ => true) && (w.slots s).fn.obj?.all w.objAlive

theorem untouched_of {s : SlotId} {l : Label} (h : untouchedB s w l = true) : Untouched s w l := by
  unfold untouchedB at h
  obtain ⟨h1, h2⟩ := Bool.and_eq_true_iff.1 h
  refine ⟨?_, fun o ho => by rw [ho] at h2; exact h2⟩
  rintro t a rfl
  have h1 : (!touchB w s a) = true := h1
  refine ⟨fun e => ?_, fun c e => ?_⟩
  · rw [disc_touchB e] at h1; cases h1
  · rw [blocks_touchB e] at h1; cases h1

/-- Runs a schedule every step of which passes a test. -/
def along (p : World → Label → Bool) (w : World) : List Label → Option World
  | [] => some w
  | l :: ls => if p w l then (step E0 w l).bind fun w' => along p w' ls else none

theorem along_while {p : World → Label → Bool} {P : World → Label → Prop} (hp : ∀ w l, p w l = true → P w l) {ls : List Label} {w0 : World}
    (h0 : While E0 P w0 w) (h : along p w ls = some w') : While E0 P w0 w' := by
  induction ls generalizing w with
  | nil => cases h; exact h0
  | cons l ls ih =>
    simp only [along] at h
    split at h
    · rename_i hl
      cases hs : step E0 w l with
      | none => rw [hs] at h; cases h
      | some w1 =>
        rw [hs] at h
        exact ih (.tail l h0 (hp _ _ hl) hs) h
    · cases h

/-- Signal 0 calls listener 0, which blocks and disconnects listener 1, takes itself off the list of signal 0 with `signal::disconnect`,
connects a third listener and returns; then signal 0 is moved. -/
def around : List Label :=
  .call 0 (.emit 0 .lastValue []) :: go 0 8 ++ .call 0 (.block (.conn 1)) :: .call 0 (.disconnect (.conn 1)) :: go 0 6 ++
  .call 0 (.sigDisconnect 0 (some (fn 1))) :: go 0 6 ++
  .call 0 (.connect 1 (fn 3) [] true false (.conn 1)) :: go 0 4 ++ .ret 0 5 :: go 0 1 ++ .call 0 (.moveSig 0) :: go 0 3

end Demo

-- `C67`: nothing of this touches listener 0, which is still marked as connected although it is on no list
example : 0 < (Demo.world 1 Demo.twoSigs).nSlots ∧ (∀ t k, .disc 0 k .exch ∉ (Demo.world 1 Demo.twoSigs).stacks t) ∧
    ∃ w', While Demo.E0 (Untouched 0) (Demo.world 1 Demo.twoSigs) w' ∧ (w'.slots 0).connected = true ∧ (w'.slots 1).blocked = true ∧
      (w'.slots 1).connected = false ∧ w'.listOf 0 = [] ∧ w'.listOf 1 = [2] := by
  refine ⟨by decide +kernel, fun t k hf => ?_, ?_⟩
  · cases t with
    | zero => rw [show (Demo.world 1 Demo.twoSigs).stacks 0 = [] by decide +kernel] at hf; cases hf
    | succ t =>
      rw [(Demo.reach 1 Demo.twoSigs).full.i.i1.thr (t + 1)
        (by rw [show (Demo.world 1 Demo.twoSigs).nThr = 1 by decide +kernel]; omega)] at hf; cases hf
  · have h : (Demo.along (Demo.untouchedB 0) (Demo.world 1 Demo.twoSigs) Demo.around).isSome = true := by decide +kernel
    obtain ⟨w', hw⟩ := Option.isSome_iff_exists.1 h
    have e : ((Demo.along (Demo.untouchedB 0) (Demo.world 1 Demo.twoSigs) Demo.around).map fun w' =>
      ((w'.slots 0).connected, (w'.slots 1).blocked, (w'.slots 1).connected, w'.listOf 0, w'.listOf 1)) =
      some (true, true, false, [], [2]) := by decide +kernel
    rw [hw] at e
    injection e with e
    simp only [Prod.mk.injEq] at e
    exact ⟨w', Demo.along_while (fun _ _ => Demo.untouched_of) (.refl _) hw, e⟩

-- `C67_connected`: an emission has seen that the listener is connected, and then another thread drops the object that it tracks
example : (Label.run 0).disconnects (Demo.world 2 (Demo.feeding ++ .call 0 (.emit 0 .lastValue []) :: Demo.go 0 7 ++ [.call 1 (.objDrop 0)])) 0 ∧
    ((Demo.world 2 (Demo.feeding ++ .call 0 (.emit 0 .lastValue []) :: Demo.go 0 7 ++ [.call 1 (.objDrop 0)])).slots 0).connected = true ∧
    ((Demo.world 2 (Demo.feeding ++ .call 0 (.emit 0 .lastValue []) :: Demo.go 0 7 ++ [.call 1 (.objDrop 0)] ++ [.run 0])).slots 0).connected = false :=
  ⟨.inr ⟨0, [.emit ⟨0, 0, .lastValue, []⟩ (.iter 0 0 none)], by decide +kernel, by decide +kernel, by decide +kernel⟩, by decide +kernel,
    by decide +kernel⟩

-- `C67_blocked`: a blocker is destroyed
example : (Api.blockerDtor 0).blocks (Demo.world 1 (Demo.twoSigs ++ [.call 0 (.blockerOf 0 (.conn 0))])) 0 false ∧
    ((Demo.world 1 (Demo.twoSigs ++ [.call 0 (.blockerOf 0 (.conn 0))])).slots 0).blocked = true ∧
    ((Demo.world 1 (Demo.twoSigs ++ [.call 0 (.blockerOf 0 (.conn 0)), .call 0 (.blockerDtor 0)])).slots 0).blocked = false :=
  ⟨⟨by decide +kernel, rfl⟩, by decide +kernel, by decide +kernel⟩

-- `C67_scoped`: the assignment ends only when the listener that the scoped connection held before is removed
example : (Label.run 0).setsScoped (Demo.world 1 (Demo.twoSigs ++ [.call 0 (.scopedOfConn 0 0), .call 0 (.scopedOfConn 1 1),
      .call 0 (.scopedMoveAssign 0 1)] ++ Demo.go 0 5)) 0 (some (some 1)) ∧
    (Demo.world 1 (Demo.twoSigs ++ [.call 0 (.scopedOfConn 0 0), .call 0 (.scopedOfConn 1 1),
      .call 0 (.scopedMoveAssign 0 1)] ++ Demo.go 0 5)).sv 0 = some (some 0) ∧
    (Demo.world 1 (Demo.twoSigs ++ [.call 0 (.scopedOfConn 0 0), .call 0 (.scopedOfConn 1 1),
      .call 0 (.scopedMoveAssign 0 1)] ++ Demo.go 0 6)).sv 0 = some (some 1) :=
  ⟨.inr ⟨0, 0, 1, .drop 0, [], by decide +kernel, trivial, by decide, .inl ⟨rfl, by decide +kernel⟩⟩, by decide +kernel, by decide +kernel⟩

-- `C67_conn`: `connect` returns
example : (Label.run 0).setsConn (Demo.world 1 ((.call 0 (.newSig false)) :: .call 0 (.connect 0 (Demo.fn 1) [] true false (.conn 3)) :: Demo.go 0 3))
      3 (some 0) ∧
    (Demo.world 1 ((.call 0 (.newSig false)) :: .call 0 (.connect 0 (Demo.fn 1) [] true false (.conn 3)) :: Demo.go 0 3)).cv 3 = none :=
  ⟨⟨0, 0, [], by decide +kernel, rfl⟩, by decide +kernel⟩

-- `C67_list`: the listener is put on the list one step before
example : (Label.run 0).edits (Demo.world 1 ((.call 0 (.newSig false)) :: .call 0 (.connect 0 (Demo.fn 1) [] true false (.conn 3)) :: Demo.go 0 2)) 0 ∧
    (Demo.world 1 ((.call 0 (.newSig false)) :: .call 0 (.connect 0 (Demo.fn 1) [] true false (.conn 3)) :: Demo.go 0 2)).listOf 0 = [] ∧
    (Demo.world 1 ((.call 0 (.newSig false)) :: .call 0 (.connect 0 (Demo.fn 1) [] true false (.conn 3)) :: Demo.go 0 3)).listOf 0 = [0] :=
  ⟨⟨.add 0 0 (.conn 3) .write, [], by decide +kernel, rfl, by simp⟩, by decide +kernel, by decide +kernel⟩

end Verif
