import Verif.Mach.StepL
import Verif.Mach.Alive
import Verif.Props.Lists

/-!
# Lifetimes of signals: which signals are dead or have no list
-/

namespace Verif

variable {E : Env} {w w' : World} {t : Tid}

structure Inv9 (w : World) : Prop where
  dst : ∀ g, Event.destroyed g ∈ w.log → g < w.nSigs ∧ (w.sigs g).alive = false ∧ (w.sigs g).list = none ∧
    ∀ t g0 pc, topMov (w.stacks t) ≠ some (g, g0, pc)
  ali : ∀ g, g < w.nSigs → (w.sigs g).alive = false →
    Event.destroyed g ∈ w.log ∨ ∃ t g0 pc, topMov (w.stacks t) = some (g, g0, pc)
  lst : ∀ g, g < w.nSigs → (w.sigs g).list = none → hollow w.log g = true ∨ Event.destroyed g ∈ w.log ∨
    ∃ t g0 pc, topMov (w.stacks t) = some (g, g0, pc) ∧ pc ≠ .unlock

theorem Inv9.init (n : Nat) : Inv9 (World.init n) :=
  ⟨by simp [World.init], by simp [World.init], by simp [World.init]⟩

/-- Events that do not end or move a signal. -/
def Event.noLife : Event → Bool
  | .moved _ _ => false
  | .destroyed _ => false
  | _ => true

theorem hollow_quiet {evs log : List Event} (h : ∀ ev ∈ evs, ev.noLife = true) : hollow (evs ++ log) = hollow log := by
  induction evs with
  | nil => rfl
  | cons ev evs ih =>
    have h1 := h ev (by simp)
    rw [← ih fun x hx => h x (List.mem_cons_of_mem _ hx)]
    funext x
    cases ev <;> first | rfl | cases h1

/-- How the frame of a move constructor may change without touching signals. -/
def MovSame (a b : Option (SigId × SigId × MovPc)) : Prop :=
  b = a ∨ ∃ g' g, a = some (g', g, .wait) ∧ b = some (g', g, .write)

theorem Inv9.quiet (K : Inv9 w) (evs : List Event)
    (hs : ∀ g, (w'.sigs g).alive = (w.sigs g).alive ∧ ((w'.sigs g).list = none ↔ (w.sigs g).list = none))
    (hn : w'.nSigs = w.nSigs) (hl : w'.log = evs ++ w.log) (hq : ∀ ev ∈ evs, ev.noLife = true)
    (ho : ∀ t', t' ≠ t → w'.stacks t' = w.stacks t')
    (hm : MovSame (topMov (w.stacks t)) (topMov (w'.stacks t))) : Inv9 w' := by
  have hd : ∀ g, Event.destroyed g ∈ w'.log ↔ Event.destroyed g ∈ w.log := by
    intro g; rw [hl]
    refine ⟨fun h => ?_, fun h => List.mem_append_right _ h⟩
    rcases List.mem_append.1 h with h | h
    · cases hq _ h
    · exact h
  have fwd : ∀ t' g g0 pc, topMov (w.stacks t') = some (g, g0, pc) →
      ∃ pc', topMov (w'.stacks t') = some (g, g0, pc') ∧ (pc ≠ .unlock → pc' ≠ .unlock) := by
    intro t' g g0 pc h
    by_cases ht : t' = t
    · subst ht
      rcases hm with hm | ⟨a, b, h1, h2⟩
      · exact ⟨pc, hm ▸ h, id⟩
      · rw [h1] at h; injection h with h; injection h with e1 e2; injection e2 with e2 e3
        subst e1 e2; exact ⟨_, h2, by simp⟩
    · exact ⟨pc, by rw [ho t' ht]; exact h, id⟩
  have bwd : ∀ t' g g0 pc, topMov (w'.stacks t') = some (g, g0, pc) → ∃ pc', topMov (w.stacks t') = some (g, g0, pc') := by
    intro t' g g0 pc h
    by_cases ht : t' = t
    · subst ht
      rcases hm with hm | ⟨a, b, h1, h2⟩
      · exact ⟨pc, hm ▸ h⟩
      · rw [h2] at h; injection h with h; injection h with e1 e2; injection e2 with e2 e3
        subst e1 e2; exact ⟨_, h1⟩
    · exact ⟨pc, by rw [← ho t' ht]; exact h⟩
  refine ⟨?_, ?_, ?_⟩
  · intro g h
    obtain ⟨h1, h2, h3, h4⟩ := K.dst g ((hd g).1 h)
    refine ⟨hn ▸ h1, by rw [(hs g).1]; exact h2, (hs g).2.2 h3, fun t' g0 pc h => ?_⟩
    obtain ⟨pc', h⟩ := bwd _ _ _ _ h
    exact h4 _ _ _ h
  · intro g h1 h2
    rw [hd]
    rcases K.ali g (hn ▸ h1) (by rw [← (hs g).1]; exact h2) with h | ⟨t', g0, pc, h⟩
    · exact .inl h
    · obtain ⟨pc', h', -⟩ := fwd _ _ _ _ h
      exact .inr ⟨t', g0, pc', h'⟩
  · intro g h1 h2
    rw [hd, hl, hollow_quiet hq]
    rcases K.lst g (hn ▸ h1) ((hs g).2.1 h2) with h | h | ⟨t', g0, pc, h, hp⟩
    · exact .inl h
    · exact .inr (.inl h)
    · obtain ⟨pc', h', hp'⟩ := fwd _ _ _ _ h
      exact .inr (.inr ⟨t', g0, pc', h', hp' hp⟩)

theorem Inv9.step (I : Inv w) (K : Inv9 w) (h : StepR E w t w') : Inv9 w' := by
  have ho : ∀ t', t' ≠ t → w'.stacks t' = w.stacks t' := fun t' ht => stacks_other h ht
  have pop : ∀ {f : Frame} {rest : List Frame}, w.stacks t = f :: rest → f.isCall = false → UserStk rest :=
    fun hst hf => (hst ▸ I.i1.stk t).tail hf
  have pop2 : ∀ {s : SlotId} {pc : CallPc} {m : Em} {p : EmitPc} {rest : List Frame},
      w.stacks t = .call s pc :: .emit m p :: rest → UserStk rest :=
    fun hst => OkStk.callTail (hst ▸ I.i1.stk t)
  have popped : ∀ {f : Frame} {rest : List Frame} {x : World}, w.stacks t = f :: rest → topMov [f] = none →
      UserStk rest → x.stacks t = rest → MovSame (topMov (w.stacks t)) (topMov (x.stacks t)) := by
    intro f rest x h1 h2 h3 h4
    rw [h1, h4, h3.tops.2.1]; left
    unfold topMov at h2 ⊢; split <;> simp_all
  have chg : ∀ {f f' : Frame} {rest rest' : List Frame} {x : World}, w.stacks t = f :: rest → topMov [f] = none →
      topMov [f'] = none → x.stacks t = f' :: rest' → MovSame (topMov (w.stacks t)) (topMov (x.stacks t)) := by
    intro f f' rest rest' x h1 h2 h3 h4
    rw [h1, h4]; left
    unfold topMov at h2 h3 ⊢; split <;> split <;> simp_all
  have push : ∀ {f' : Frame} {rest' : List Frame} {x : World}, userCtx (w.stacks t) = true →
      topMov [f'] = none → x.stacks t = f' :: rest' → MovSame (topMov (w.stacks t)) (topMov (x.stacks t)) := by
    intro f' rest' x h1 h3 h4
    rw [(userCtx_tops h1).2.1, h4]; left
    unfold topMov at h3 ⊢; split <;> simp_all
  have us := upd_same (α := List Frame) w.stacks t
  have same : ∀ g, (w.sigs g).alive = (w.sigs g).alive ∧ ((w.sigs g).list = none ↔ (w.sigs g).list = none) :=
    fun _ => ⟨rfl, Iff.rfl⟩
  have mtxs : ∀ (g1 : SigId) (m : Option Tid) g, ((w.setMutex g1 m).sigs g).alive = (w.sigs g).alive ∧
      (((w.setMutex g1 m).sigs g).list = none ↔ (w.sigs g).list = none) := by
    intro g1 m g
    simp only [World.setMutex, upd_apply]
    split
    · rename_i e; subst e; exact ⟨rfl, Iff.rfl⟩
    · exact ⟨rfl, Iff.rfl⟩
  cases h
  case ub => exact K.quiet (t := t) [] same rfl rfl (by simp) ho (.inl rfl)
  case hand => exact K.quiet (t := t) [] same rfl rfl (by simp) ho (.inl rfl)
  case flag => exact K.quiet (t := t) [_] same rfl rfl (by simp [Event.noLife]) ho (.inl rfl)
  case objs => exact K.quiet (t := t) [] same rfl rfl (by simp) ho (.inl rfl)
  case pins => exact K.quiet (t := t) [] same rfl rfl (by simp) ho (.inl rfl)
  case discFail => exact K.quiet (t := t) [_] same rfl rfl (by simp [Event.noLife]) ho (.inl rfl)
  case newSig v hu =>
    have hnd : Event.destroyed w.nSigs ∉ w.log := fun h => by have := (K.dst _ h).1; omega
    refine ⟨?_, ?_, ?_⟩
    · intro g hg
      have hg' := K.dst g hg
      have : g ≠ w.nSigs := by omega
      simp only [upd_apply, if_neg this]
      exact ⟨by omega, hg'.2.1, hg'.2.2.1, hg'.2.2.2⟩
    · intro g hlt ha
      by_cases e : g = w.nSigs
      · subst e; simp only [upd_same] at ha; cases ha
      · simp only [upd_apply, if_neg e] at ha
        exact K.ali g (by simp only at hlt; omega) ha
    · intro g hlt ha
      by_cases e : g = w.nSigs
      · subst e; simp only [upd_same] at ha; cases ha
      · simp only [upd_apply, if_neg e] at ha
        exact K.lst g (by simp only at hlt; omega) ha
  case destroy g0 hu hg ha hm =>
    have nomov : ∀ t g1 pc, topMov (w.stacks t) ≠ some (g0, g1, pc) := by
      intro t' g1 pc h
      have := (I.i2.movx t' _ _ _ h).1
      rw [ha] at this; cases this
    have key : ∀ g, Event.destroyed g ∈ (Event.destroyed g0 :: w.log) ↔ g = g0 ∨ Event.destroyed g ∈ w.log := by
      intro g; simp
    refine ⟨?_, ?_, ?_⟩
    · intro g hg'
      by_cases e : g = g0
      · subst e
        simp only [World.emitEv, upd_same]
        exact ⟨hg, trivial, trivial, nomov⟩
      · rcases (key g).1 hg' with h | h
        · exact absurd h e
        · simp only [World.emitEv, upd_apply, if_neg e]
          exact K.dst g h
    · intro g hlt ha'
      by_cases e : g = g0
      · exact .inl ((key g).2 (.inl e))
      · simp only [World.emitEv, upd_apply, if_neg e] at ha'
        rcases K.ali g hlt ha' with h | h
        · exact .inl ((key g).2 (.inr h))
        · exact .inr h
    · intro g hlt ha'
      by_cases e : g = g0
      · exact .inr (.inl ((key g).2 (.inl e)))
      · simp only [World.emitEv, upd_apply, if_neg e] at ha'
        rcases K.lst g hlt ha' with h | h | h
        · exact .inl h
        · exact .inr (.inl ((key g).2 (.inr h)))
        · exact .inr (.inr h)
  case movStart g0 hu hg ha =>
    have hnm : ∀ g1 g2 pc, topMov (w.stacks t) ≠ some (g1, g2, pc) := by
      intro g1 g2 pc; rw [(userCtx_tops hu).2.1]; simp
    have fwd : ∀ t' g g1 pc, topMov (w.stacks t') = some (g, g1, pc) →
        topMov (upd w.stacks t (.mov w.nSigs g0 .wait :: w.stacks t) t') = some (g, g1, pc) := by
      intro t' g g1 pc h
      have : t' ≠ t := by rintro rfl; exact hnm _ _ _ h
      rw [upd_apply, if_neg this]; exact h
    refine ⟨?_, ?_, ?_⟩
    · intro g hg'
      have hg' := K.dst g hg'
      have : g ≠ w.nSigs := by omega
      simp only [World.setStack, upd_apply, if_neg this]
      refine ⟨by omega, hg'.2.1, hg'.2.2.1, fun t' g1 pc h => ?_⟩
      split at h
      · simp only [topMov, Option.some.injEq, Prod.mk.injEq] at h; exact this h.1.symm
      · exact hg'.2.2.2 _ _ _ h
    · intro g hlt ha'
      by_cases e : g = w.nSigs
      · subst e
        exact .inr ⟨t, g0, .wait, by simp only [World.setStack, upd_same]; rfl⟩
      · simp only [World.setStack, upd_apply, if_neg e] at ha'
        rcases K.ali g (by simp only [World.setStack] at hlt; omega) ha' with h | ⟨t', g1, pc, h⟩
        · exact .inl h
        · exact .inr ⟨t', g1, pc, fwd _ _ _ _ h⟩
    · intro g hlt ha'
      by_cases e : g = w.nSigs
      · subst e
        exact .inr (.inr ⟨t, g0, .wait, by simp only [World.setStack, upd_same]; rfl, by simp⟩)
      · simp only [World.setStack, upd_apply, if_neg e] at ha'
        rcases K.lst g (by simp only [World.setStack] at hlt; omega) ha' with h | h | ⟨t', g1, pc, h, hp⟩
        · exact .inl h
        · exact .inr (.inl h)
        · exact .inr (.inr ⟨t', g1, pc, fwd _ _ _ _ h, hp⟩)
  case connStart => exact K.quiet (t := t) [_] same rfl rfl (by simp [Event.noLife]) ho (push ‹_› rfl (us _))
  case emitStart => exact K.quiet (t := t) [_] same rfl rfl (by simp [Event.noLife]) ho (push ‹_› rfl (us _))
  case eraseStart => exact K.quiet (t := t) [] same rfl rfl (by simp) ho (push ‹_› rfl (us _))
  case discPush => exact K.quiet (t := t) [] same rfl rfl (by simp) ho (push ‹_› rfl (us _))
  case acq f f' rest g hst hf ha hm =>
    refine K.quiet (t := t) [] (mtxs g (some t)) rfl rfl (by simp) ho ?_
    show MovSame _ (topMov (upd w.stacks t (f' :: rest) t))
    rw [us, hst]
    unfold Frame.acq at hf; split at hf <;> simp at hf <;> obtain ⟨rfl, rfl⟩ := hf <;>
      first | exact .inl rfl | exact .inr ⟨_, _, rfl, rfl⟩
  case tst f f' rest g b hst hf hl =>
    have e1 : (w.setStack t (f' :: rest)).stacks t = f' :: rest := by
      exact upd_same _ _ _
    refine K.quiet (t := t) [] ?_ (by rfl) (by rfl) (by simp) ho ?_
    · intro g1
      exact ⟨rfl, Iff.rfl⟩
    · rw [e1, hst]
      unfold Frame.tst at hf; split at hf <;> simp at hf <;> obtain ⟨rfl, rfl⟩ := hf <;> exact .inl rfl
  case det f f' rest g b hst hf hl =>
    have e1 : ((cloneBlk w g b).setStack t (f' :: rest)).stacks t = f' :: rest := by
      exact upd_same _ _ _
    refine K.quiet (t := t) [] ?_ (by rfl) (by rfl) (by simp) ho ?_
    · intro g1
      unfold cloneBlk
      simp only [World.setStack, World.setList, World.setBlk, upd_apply]
      split
      · rename_i e; subst e; simp [hl]
      · exact ⟨rfl, Iff.rfl⟩
    · rw [e1, hst]
      unfold Frame.det at hf; split at hf <;> simp at hf <;> obtain ⟨rfl, rfl⟩ := hf <;> exact .inl rfl
  case emSupp m rest hst ha hb =>
    exact K.quiet (t := t) [_] same rfl rfl (by simp [Event.noLife]) ho (popped hst rfl (pop hst rfl) (us _))
  case emPass m rest hst ha hb => exact K.quiet (t := t) [] same rfl rfl (by simp) ho (chg hst rfl rfl (us _))
  case emCopy m rest hst => exact K.quiet (t := t) [] same rfl rfl (by simp) ho (chg hst rfl rfl (us _))
  case emSnap m b rest hst =>
    exact K.quiet (t := t) [_] (mtxs m.g none) rfl rfl (by simp [Event.noLife]) ho (chg hst rfl rfl (us _))
  case emCall m b pos pos' acc s rest hst hp hs =>
    exact K.quiet (t := t) [_] same rfl rfl (by simp [Event.noLife]) ho (chg hst rfl rfl (us _))
  case emDone m b pos acc r rest hst hp =>
    exact K.quiet (t := t) [_] same rfl rfl (by simp [Event.noLife]) ho (popped hst rfl (pop hst rfl) (us _))
  case combThrow m b pos acc rest hst hc =>
    exact K.quiet (t := t) [_] same rfl rfl (by simp [Event.noLife]) ho (popped hst rfl (pop hst rfl) (us _))
  case callUnblk s m b pos acc rest hst hb => exact K.quiet (t := t) [] same rfl rfl (by simp) ho (chg hst rfl rfl (us _))
  case callConn s m b pos acc rest hst hc ho' => exact K.quiet (t := t) [] same rfl rfl (by simp) ho (chg hst rfl rfl (us _))
  case callConnT s m b pos acc rest o hst hc ho' =>
    exact K.quiet (t := t) [] same rfl rfl (by simp) ho (chg hst rfl rfl (us _))
  case callLock s m b pos acc rest o' hst ho' =>
    exact K.quiet (t := t) [] same rfl rfl (by simp) ho (chg hst rfl rfl (us _))
  case callSkip s pc why m b pos acc rest hst hpc =>
    exact K.quiet (t := t) [_] same rfl rfl (by simp [Event.noLife]) ho (chg hst rfl rfl (us _))
  case callExpired s o m b pos acc rest hst ho' =>
    exact K.quiet (t := t) [_] same rfl rfl (by simp [Event.noLife]) ho (chg hst rfl rfl (us _))
  case callEnter s pc o m b pos acc rest hst hpc =>
    exact K.quiet (t := t) [_] same rfl rfl (by simp [Event.noLife]) ho (chg hst rfl rfl (us _))
  case callRet s o v r m b pos acc rest hst hr =>
    exact K.quiet (t := t) [_] same rfl rfl (by simp [Event.noLife]) ho (chg hst rfl rfl (us _))
  case callCatch s o m b pos acc rest hst hc =>
    exact K.quiet (t := t) [_] same rfl rfl (by simp [Event.noLife]) ho (chg hst rfl rfl (us _))
  case callThrow s o m b pos acc rest hst =>
    refine K.quiet (t := t) [_, _] same rfl rfl (by simp [Event.noLife]) ho ?_
    show MovSame _ (topMov (upd w.stacks t rest t))
    rw [us, hst, (pop2 hst).tops.2.1]; exact .inl rfl
  case addWrite g s dest rest b hst hl =>
    exact K.quiet (t := t) [_] same rfl rfl (by simp [Event.noLife]) ho (chg hst rfl rfl (us _))
  case addUnlock g s dest rest cv sv bv hst hs =>
    exact K.quiet (t := t) [_] (mtxs g none) rfl rfl (by simp [Event.noLife]) ho (popped hst rfl (pop hst rfl) (us _))
  case eraseEnd g tgt i cnt rest b hst hl hi =>
    exact K.quiet (t := t) [] same rfl rfl (by simp) ho (chg hst rfl rfl (us _))
  case eraseThrow g tgt i cnt rest b s hst hl hi he =>
    exact K.quiet (t := t) [] same rfl rfl (by simp) ho (chg hst rfl rfl (us _))
  case eraseMiss g tgt i cnt rest b s hst hl hi he =>
    exact K.quiet (t := t) [] same rfl rfl (by simp) ho (chg hst rfl rfl (us _))
  case eraseHit g tgt i cnt rest b s hst hl hi he =>
    refine K.quiet (t := t) [.erased g s] ?_ (removeAt_same _ _ _).2.1 ?_ (by simp [Event.noLife]) ho
      (chg hst rfl (f' := .erase g tgt (.scan i (cnt + 1))) (rest' := rest) rfl (upd_same _ _ _))
    · intro g1
      simp only [World.emitEv, World.setStack, (removeAt_same _ _ _).1, and_self]
    · simp only [World.emitEv, World.setStack, (removeAt_same _ _ _).2.2.2.2.2.2.2.2.2.2.1]; rfl
  case fail f rest g s hst hf =>
    exact K.quiet (t := t) [_] (mtxs g none) rfl rfl (by simp [Event.noLife]) ho
      (popped hst (by rcases Frame.allocs_inv hf with ⟨_, _, _, rfl, _⟩ | ⟨_, rfl, _⟩ <;> rfl) (pop hst (Frame.allocs_isCall hf)) (us _))
  case eraseUnlock g tgt r rest hst =>
    exact K.quiet (t := t) [_] (mtxs g none) rfl rfl (by simp [Event.noLife]) ho (popped hst rfl (pop hst rfl) (us _))
  case exchFalse s k rest cv sv bv hst hc hs =>
    exact K.quiet (t := t) [_, _] same rfl rfl (by simp [Event.noLife]) ho (popped hst rfl (pop hst rfl) (us _))
  case exchTrue s k rest hst hc =>
    exact K.quiet (t := t) [_] same rfl rfl (by simp [Event.noLife]) ho (chg hst rfl rfl (us _))
  case discWrite s v k rest g b hst hl hi =>
    refine K.quiet (t := t) [.removed g s v] ?_ (removeAt_same _ _ _).2.1 ?_ (by simp [Event.noLife]) ho
      (chg hst rfl (f' := .disc s k (.crit g .unlock)) (rest' := rest) rfl (upd_same _ _ _))
    · intro g1
      simp only [World.emitEv, World.setStack, (removeAt_same _ _ _).1, and_self]
    · simp only [World.emitEv, World.setStack, (removeAt_same _ _ _).2.2.2.2.2.2.2.2.2.2.1]; rfl
  case discMiss s k rest g b hst hl hi =>
    exact K.quiet (t := t) [] same rfl rfl (by simp) ho (chg hst rfl rfl (us _))
  case discUnlock s k rest g hst =>
    exact K.quiet (t := t) [] (mtxs g none) rfl rfl (by simp) ho (chg hst rfl rfl (us _))
  case discDrop s k rest g cv sv bv hst hs =>
    exact K.quiet (t := t) [_] same rfl rfl (by simp [Event.noLife]) ho (popped hst rfl (pop hst rfl) (us _))
  case movWrite g' g rest hst =>
    have hne : g ≠ g' := by
      rintro rfl
      have h1 := (I.i2.movx t g g .write (by rw [hst]; rfl)).1
      have h2 : (w.sigs g).mutex = some t := (I.i1.mtx g t).2 (by rw [hst]; rfl)
      rw [I.i2.live g t h2] at h1; cases h1
    have hlock : (w.sigs g).alive = true := I.i2.live g t ((I.i1.mtx g t).2 (by rw [hst]; rfl))
    have hmv := I.i2.movx t g' g .write (by rw [hst]; rfl)
    have nd : Event.destroyed g' ∉ w.log := fun h => (K.dst g' h).2.2.2 t g .write (by rw [hst]; rfl)
    have fwd : ∀ t' x g1 pc, x ≠ g' → topMov (w.stacks t') = some (x, g1, pc) →
        topMov (upd w.stacks t (.mov g' g .unlock :: rest) t') = some (x, g1, pc) := by
      intro t' x g1 pc hx h
      have : t' ≠ t := by
        rintro rfl; rw [hst] at h; simp only [topMov, Option.some.injEq, Prod.mk.injEq] at h; exact hx h.1.symm
      rw [upd_apply, if_neg this]; exact h
    have hd : ∀ x, Event.destroyed x ∈ (Event.moved g g' :: w.log) ↔ Event.destroyed x ∈ w.log := by intro x; simp
    have hal : ∀ x, (((((w.setList g' (w.sigs g).list).setList g none).setStack t
        (.mov g' g .unlock :: rest)).emitEv (.moved g g')).sigs x).alive = (w.sigs x).alive := by
      intro x
      simp only [World.emitEv, World.setStack, World.setList, upd_apply]
      split
      · rename_i e; subst e; simp only [if_neg hne]
      · split
        · rename_i e; subst e; rfl
        · rfl
    have hli : ∀ x, (((((w.setList g' (w.sigs g).list).setList g none).setStack t
        (.mov g' g .unlock :: rest)).emitEv (.moved g g')).sigs x).list =
          if x = g then none else if x = g' then (w.sigs g).list else (w.sigs x).list := by
      intro x
      simp only [World.emitEv, World.setStack, World.setList, upd_apply]
      split
      · rfl
      · split
        · rfl
        · rfl
    refine ⟨?_, ?_, ?_⟩
    · intro x hx
      have hx' := (hd x).1 hx
      have h0 := K.dst x hx'
      have e1 : x ≠ g' := by intro e; exact nd (e ▸ hx')
      refine ⟨h0.1, by rw [hal]; exact h0.2.1, ?_, ?_⟩
      · rw [hli, if_neg e1]; split
        · rfl
        · exact h0.2.2.1
      · intro t' g1 pc h
        simp only [World.emitEv, World.setStack, upd_apply] at h
        split at h
        · simp only [topMov, Option.some.injEq, Prod.mk.injEq] at h; exact e1 h.1.symm
        · exact h0.2.2.2 _ _ _ h
    · intro x hlt ha
      rw [hal] at ha
      by_cases e1 : x = g'
      · subst e1
        exact .inr ⟨t, g, .unlock, by simp only [World.emitEv, World.setStack, upd_same]; rfl⟩
      · rcases K.ali x hlt ha with h | ⟨t', g1, pc, h⟩
        · exact .inl ((hd x).2 h)
        · exact .inr ⟨t', g1, pc, fwd _ _ _ _ e1 h⟩
    · intro x hlt ha
      rw [hli] at ha
      show hollow (Event.moved g g' :: w.log) x = true ∨ _
      by_cases e0 : x = g
      · left; simp [hollow, e0]
      · rw [if_neg e0] at ha
        by_cases e1 : x = g'
        · subst e1
          rw [if_pos rfl] at ha
          rcases K.lst g (I.i1.rng t (.mov x g .write) (by rw [hst]; exact List.mem_cons_self)).2.1 ha with h | h | ⟨t', g1, pc, h, -⟩
          · left; simp [hollow, h]
          · have := (K.dst g h).2.1; rw [hlock] at this; cases this
          · have := (I.i2.movx _ _ _ _ h).1; rw [hlock] at this; cases this
        · rw [if_neg e1] at ha
          rcases K.lst x hlt ha with h | h | ⟨t', g1, pc, h, hp⟩
          · left; simp [hollow, e0, e1, h]
          · exact .inr (.inl ((hd x).2 h))
          · exact .inr (.inr ⟨t', g1, pc, fwd _ _ _ _ e1 h, hp⟩)
  case movUnlock g' g rest hst =>
    have hne : g ≠ g' := by
      rintro rfl
      have h1 := (I.i2.movx t g g .unlock (by rw [hst]; rfl)).1
      have h2 : (w.sigs g).mutex = some t := (I.i1.mtx g t).2 (by rw [hst]; rfl)
      rw [I.i2.live g t h2] at h1; cases h1
    have hmv : ∀ t' g1 pc, t' ≠ t → topMov (w.stacks t') ≠ some (g', g1, pc) := fun t' g1 pc hne h =>
      hne (I.i2.movu t' t g' g1 pc g .unlock h (by rw [hst]; rfl))
    have nd : Event.destroyed g' ∉ w.log := fun h => (K.dst g' h).2.2.2 t g .unlock (by rw [hst]; rfl)
    have hli : ∀ x, ((upd (upd w.sigs g { w.sigs g with mutex := none }) g'
          { upd w.sigs g { w.sigs g with mutex := none } g' with alive := true }) x).list = (w.sigs x).list := by
      intro x
      simp only [upd_apply]
      split
      · rename_i e; subst e; rw [if_neg hne.symm]
      · split
        · rename_i e; subst e; rfl
        · rfl
    have hal : ∀ x, x ≠ g' → ((upd (upd w.sigs g { w.sigs g with mutex := none }) g'
          { upd w.sigs g { w.sigs g with mutex := none } g' with alive := true }) x).alive = (w.sigs x).alive := by
      intro x hx
      rw [upd_apply, if_neg hx, upd_apply]
      split
      · rename_i e; subst e; rfl
      · rfl
    have tm : topMov (upd w.stacks t rest t) = none := by rw [us]; exact (pop hst rfl).tops.2.1
    have fwd : ∀ t' x g1 pc, x ≠ g' → topMov (w.stacks t') = some (x, g1, pc) →
        topMov (upd w.stacks t rest t') = some (x, g1, pc) := by
      intro t' x g1 pc hx h
      have : t' ≠ t := by
        rintro rfl; rw [hst] at h; simp only [topMov, Option.some.injEq, Prod.mk.injEq] at h; exact hx h.1.symm
      rw [upd_apply, if_neg this]; exact h
    refine ⟨?_, ?_, ?_⟩
    · intro x hx
      have h0 := K.dst x hx
      have e1 : x ≠ g' := by rintro rfl; exact nd hx
      refine ⟨h0.1, (hal x e1).trans h0.2.1, (hli x).trans h0.2.2.1, ?_⟩
      intro t' g1 pc h
      by_cases ht : t' = t
      · subst ht; rw [tm] at h; cases h
      · change topMov (upd w.stacks t rest t') = _ at h
        rw [upd_apply, if_neg ht] at h; exact h0.2.2.2 _ _ _ h
    · intro x hlt ha
      by_cases e1 : x = g'
      · subst e1
        simp only [upd_same] at ha; cases ha
      · rcases K.ali x hlt ((hal x e1).symm.trans ha) with h | ⟨t', g1, pc, h⟩
        · exact .inl h
        · exact .inr ⟨t', g1, pc, fwd _ _ _ _ e1 h⟩
    · intro x hlt ha
      rcases K.lst x hlt ((hli x).symm.trans ha) with h | h | ⟨t', g1, pc, h, hp⟩
      · exact .inl h
      · exact .inr (.inl h)
      · refine .inr (.inr ⟨t', g1, pc, fwd _ _ _ _ ?_ h, hp⟩)
        rintro rfl
        by_cases ht : t' = t
        · subst ht; rw [hst] at h; simp only [topMov, Option.some.injEq, Prod.mk.injEq] at h; exact hp h.2.2.symm
        · exact hmv _ _ _ ht h

theorem Reachable.inv9 (h : Reachable E w) : Inv9 w := by
  obtain ⟨n, h⟩ := h
  generalize hP : (fun _ : Label => True) = P at h
  generalize h0 : World.init n = w0 at h
  induction h with
  | refl => subst h0; exact .init n
  | @tail w1 w2 l hs _ hl ih =>
    subst h0 hP
    exact Inv9.step (Reachable.full ⟨n, hs⟩).i ih (step_inv hl).2.2

end Verif

namespace Verif

variable {E : Env} {w w' : World} {t : Tid}

/-- Move constructors are started on a signal number not used before. -/
theorem mov_from (I : Inv w) (h : StepR E w t w') {t' : Tid} {g g0 : SigId} {pc : MovPc}
    (hm : topMov (w'.stacks t') = some (g, g0, pc)) :
    (∃ pc', topMov (w.stacks t') = some (g, g0, pc')) ∨ g = w.nSigs := by
  by_cases ht : t' = t
  · subst ht
    have pop : ∀ {f : Frame} {rest : List Frame}, w.stacks t' = f :: rest → f.isCall = false → UserStk rest :=
      fun hst hf => (hst ▸ I.i1.stk t').tail hf
    have pop2 : ∀ {s : SlotId} {pc : CallPc} {m : Em} {p : EmitPc} {rest : List Frame},
        w.stacks t' = .call s pc :: .emit m p :: rest → UserStk rest :=
      fun hst => OkStk.callTail (hst ▸ I.i1.stk t')
    have us := upd_same (α := List Frame) w.stacks t'
    cases h
    case movStart =>
      change topMov (upd w.stacks t' _ t') = _ at hm
      rw [us] at hm
      simp only [topMov, Option.some.injEq, Prod.mk.injEq] at hm
      exact .inr hm.1.symm
    case movWrite hst =>
      change topMov (upd w.stacks t' _ t') = _ at hm
      rw [us] at hm
      simp only [topMov, Option.some.injEq, Prod.mk.injEq] at hm
      obtain ⟨rfl, rfl, rfl⟩ := hm
      exact .inl ⟨_, by rw [hst]; rfl⟩
    case acq f f' rest g1 hst hf ha hm' =>
      change topMov (upd w.stacks t' _ t') = _ at hm
      rw [us] at hm
      unfold Frame.acq at hf; split at hf <;> simp at hf <;> obtain ⟨rfl, rfl⟩ := hf <;> try cases hm
      exact .inl ⟨_, by rw [hst]; rfl⟩
    case tst f f' rest g1 b hst hf hl' =>
      have e1 : (w.setStack t' (f' :: rest)).stacks t' = f' :: rest := by
        exact upd_same _ _ _
      rw [e1] at hm
      unfold Frame.tst at hf; split at hf <;> simp at hf <;> obtain ⟨rfl, rfl⟩ := hf <;> cases hm
    case det f f' rest g1 b hst hf hl' =>
      have e1 : ((cloneBlk w g1 b).setStack t' (f' :: rest)).stacks t' = f' :: rest := by
        exact upd_same _ _ _
      rw [e1] at hm
      unfold Frame.det at hf; split at hf <;> simp at hf <;> obtain ⟨rfl, rfl⟩ := hf <;> cases hm
    case eraseHit =>
      change topMov (upd _ t' _ t') = _ at hm
      rw [upd_same] at hm; cases hm
    case discWrite =>
      change topMov (upd _ t' _ t') = _ at hm
      rw [upd_same] at hm; cases hm
    all_goals first
      | exact .inl ⟨pc, hm⟩
      | (change topMov (upd w.stacks t' _ t') = _ at hm
         rw [us] at hm
         first
           | (cases hm; done)
           | (rw [(pop ‹_› rfl).tops.2.1] at hm; cases hm; done)
           | (rw [(pop ‹_› (Frame.allocs_isCall ‹_›)).tops.2.1] at hm; cases hm; done)
           | (rw [(pop2 ‹_›).tops.2.1] at hm; cases hm; done))
  · rw [stacks_other h ht] at hm; exact .inl ⟨pc, hm⟩

/-- A signal that is still being constructed has never had a listener. -/
structure InvA (w : World) : Prop where
  bld : ∀ t g g0 pc, topMov (w.stacks t) = some (g, g0, pc) → ∀ s, Event.added g s ∉ w.log
  alt : ∀ g s, Event.added g s ∈ w.log → g < w.nSigs

theorem InvA.step (I : Inv w) (K : InvA w) (h : StepR E w t w') : InvA w' := by
  have F := fixed h
  have added : ∀ g s, Event.added g s ∈ w'.log → Event.added g s ∈ w.log ∨ topLocks (w.stacks t) = some g := by
    intro g s hm
    cases listEff I.i1 I.i2 h with
    | same _ _ hl =>
      obtain ⟨evs, e, hq⟩ := hl
      rw [e] at hm
      rcases List.mem_append.1 hm with hm | hm
      · cases hq _ hm
      · exact .inl hm
    | add g' s' b d rest hst _ _ _ hl =>
      rw [hl] at hm
      rcases List.mem_cons.1 hm with hm | hm
      · injection hm with e1 e2; subst e1; right; rw [hst]; rfl
      · exact .inl hm
    | rem _ _ _ ev _ _ _ _ he hl =>
      rw [hl] at hm
      rcases he with rfl | ⟨_, rfl⟩ <;> exact .inl (by simpa using hm)
    | move _ _ _ _ _ _ _ _ hl => rw [hl] at hm; exact .inl (by simpa using hm)
    | destroy _ _ _ _ hl => rw [hl] at hm; exact .inl (by simpa using hm)
  have lt : ∀ g, topLocks (w.stacks t) = some g → g < w.nSigs ∧ (w.sigs g).alive = true := by
    intro g hl
    have hm := (I.i1.mtx g t).2 hl
    have ha := I.i2.live g t hm
    exact ⟨Nat.lt_of_not_le (fun hle => by rw [(I.i1.out g hle).2.1] at ha; cases ha), ha⟩
  refine ⟨?_, ?_⟩
  · intro t' g g0 pc hm s hs
    rcases mov_from I h hm with ⟨pc', h1⟩ | rfl
    · rcases added g s hs with h2 | h2
      · exact K.bld _ _ _ _ h1 s h2
      · have := (I.i2.movx _ _ _ _ h1).1
        rw [(lt g h2).2] at this; cases this
    · rcases added _ s hs with h2 | h2
      · have := K.alt _ s h2; omega
      · have := (lt _ h2).1; omega
  · intro g s hs
    rcases added g s hs with h2 | h2
    · exact Nat.lt_of_lt_of_le (K.alt g s h2) F.nSigs
    · exact Nat.lt_of_lt_of_le (lt g h2).1 F.nSigs

theorem Reachable.invA (h : Reachable E w) : InvA w := by
  obtain ⟨n, h⟩ := h
  generalize hP : (fun _ : Label => True) = P at h
  generalize h0 : World.init n = w0 at h
  induction h with
  | refl => subst h0; exact ⟨(fun t g g0 pc h => by cases h), (by simp [World.init])⟩
  | @tail w1 w2 l hs _ hl ih =>
    subst h0 hP
    exact InvA.step (Reachable.full ⟨n, hs⟩).i ih (step_inv hl).2.2

end Verif
