import Verif.Mach.Blocks
import Verif.Spec

/-!
# What a step does to the lists
-/

namespace Verif

/-- Events that change a list. -/
def Event.isList : Event → Bool
  | .added _ _ => true
  | .removed _ _ _ => true
  | .erased _ _ => true
  | .moved _ _ => true
  | .destroyed _ => true
  | _ => false

/-- Effect of one step on the signals' lists, stored positions and the list part of the history. -/
inductive ListEff (w : World) (t : Tid) (w' : World) : Prop where
  | same (hl : ∀ g, w'.listOf g = w.listOf g)
      (hi : ∀ s, s < w.nSlots → (w'.slots s).index = (w.slots s).index)
      (hlog : ∃ evs, w'.log = evs ++ w.log ∧ ∀ e ∈ evs, e.isList = false)
  | add (g : SigId) (s : SlotId) (b : BlkId) (dest : Dest) (rest : List Frame)
      (hst : w.stacks t = .add g s dest .write :: rest)
      (hb : (w.sigs g).list = some b)
      (hl : ∀ g', w'.listOf g' = if g' = g then w.listOf g ++ [s] else w.listOf g')
      (hi : ∀ s', (w'.slots s').index = if s' = s then (w.listOf g).length else (w.slots s').index)
      (hlog : w'.log = .added g s :: w.log)
  | rem (g : SigId) (i : Nat) (v : SlotId) (ev : Event)
      (hst : topLocks (w.stacks t) = some g)
      (hv : (w.listOf g)[i]? = some v)
      (hl : ∀ g', w'.listOf g' = if g' = g then Vec.swapPop (w.listOf g) i else w.listOf g')
      (hi : ∀ s', (w'.slots s').index =
        if (w.listOf g)[(w.listOf g).length - 1]? = some s' then i else (w.slots s').index)
      (hev : ev = .erased g v ∨ ∃ req, ev = .removed g req v)
      (hlog : w'.log = ev :: w.log)
  | move (g g' : SigId) (hne : g' ≠ g)
      (hst : topLocks (w.stacks t) = some g)
      (h0 : w.listOf g' = []) (hd : (w.sigs g').alive = false)
      (hl : ∀ x, w'.listOf x = if x = g then [] else if x = g' then w.listOf g else w.listOf x)
      (hi : ∀ s, (w'.slots s).index = (w.slots s).index)
      (hlog : w'.log = .moved g g' :: w.log)
  | destroy (g : SigId)
      (hm : (w.sigs g).mutex = none)
      (hl : ∀ x, w'.listOf x = if x = g then [] else w.listOf x)
      (hi : ∀ s, (w'.slots s).index = (w.slots s).index)
      (hlog : w'.log = .destroyed g :: w.log)

theorem listOf_eq {w : World} {g b} (h : (w.sigs g).list = some b) : w.listOf g = w.blks b := by
  simp [World.listOf, h]

theorem swap_last {α : Type} (l : List α) (i : Nat) (h : i < l.length) :
    (Vec.swap l i (l.length - 1))[i]? = l[l.length - 1]? := by
  have h2 : l.length - 1 < l.length := by omega
  simp only [Vec.swap, List.getElem?_eq_getElem h, List.getElem?_eq_getElem h2]
  by_cases e : l.length - 1 = i
  · simp [e, h]
  · rw [List.getElem?_set_ne e]; simp [h]

theorem removeAt_blks (w : World) (b i : Nat) (h : i < (w.blks b).length) :
    (removeAt w b i).blks = upd w.blks b (Vec.swapPop (w.blks b) i) := by
  unfold removeAt
  rw [swap_last _ _ h, List.getElem?_eq_getElem (by omega)]
  rfl

theorem removeAt_index (w : World) (b i : Nat) (h : i < (w.blks b).length) (s : SlotId) :
    ((removeAt w b i).slots s).index =
      if (w.blks b)[(w.blks b).length - 1]? = some s then i else (w.slots s).index := by
  unfold removeAt
  rw [swap_last _ _ h, List.getElem?_eq_getElem (by omega)]
  simp only [World.setBlk, World.setIndex, upd_apply]
  by_cases e : s = (w.blks b)[(w.blks b).length - 1]
  · rw [if_pos e, if_pos (by rw [e])]
  · rw [if_neg e, if_neg]; intro h; injection h with h; exact e h.symm

/-- Blocks of different signals are different, so updating one list leaves the others alone. -/
theorem listOf_setBlk {w w' : World} {g b} {l : List SlotId} (J : Inv2 w) (hl : (w.sigs g).list = some b)
    (h1 : w'.sigs = w.sigs) (h2 : w'.blks = upd w.blks b l) (g' : SigId) :
    w'.listOf g' = if g' = g then l else w.listOf g' := by
  unfold World.listOf
  rw [h1, h2]
  split
  · rename_i b' hb
    rw [upd_apply]
    by_cases e : g' = g
    · subst e; rw [hl] at hb; injection hb with hb; subst hb; simp
    · rw [if_neg e, if_neg]
      · intro e'; subst e'; exact e (J.uniq _ _ _ hb hl)
  · rename_i hb
    by_cases e : g' = g
    · subst e; rw [hl] at hb; cases hb
    · simp [e]

theorem listEff {E : Env} {w w' : World} {t : Tid} (I : Inv1 w) (J : Inv2 w)
    (h : StepR E w t w') : ListEff w t w' := by
  have same0 : ∀ {w'' : World}, w''.sigs = w.sigs → w''.blks = w.blks →
      (∀ s, s < w.nSlots → (w''.slots s).index = (w.slots s).index) →
      (∃ evs, w''.log = evs ++ w.log ∧ ∀ e ∈ evs, e.isList = false) → ListEff w t w'' := by
    intro w'' h1 h2 h3 h4
    exact .same (by intro g; simp [World.listOf, h1, h2]) h3 h4
  have nolog : ∃ evs, w.log = evs ++ w.log ∧ ∀ e ∈ evs, e.isList = false := ⟨[], rfl, by simp⟩
  have onelog : ∀ e : Event, e.isList = false →
      ∃ evs, e :: w.log = evs ++ w.log ∧ ∀ e ∈ evs, e.isList = false :=
    fun e he => ⟨[e], rfl, by simpa using he⟩
  have mtxOnly : ∀ {w'' : World} {g : SigId} {x : Option Tid},
      w''.sigs = upd w.sigs g { w.sigs g with mutex := x } → w''.blks = w.blks → w''.slots = w.slots →
      (∃ evs, w''.log = evs ++ w.log ∧ ∀ e ∈ evs, e.isList = false) → ListEff w t w'' := by
    intro w'' g x h1 h2 h3 h4
    refine .same ?_ (by rw [h3]; exact fun _ _ => rfl) h4
    intro g'
    have : (w''.sigs g').list = (w.sigs g').list := by
      rw [h1, upd_apply]; split
      · rename_i e; subst e; rfl
      · rfl
    simp [World.listOf, this, h2]
  cases h
  case ub u => exact same0 rfl rfl (fun _ _ => rfl) nolog
  case hand => exact same0 rfl rfl (fun _ _ => rfl) nolog
  case flag s c cv sv bv hu hs hh ha =>
    refine same0 rfl rfl ?_ (onelog _ rfl)
    intro s' _; simp only [World.emitEv, World.setBlocked, World.setH, upd_apply]; split
    · rename_i e; subst e; rfl
    · rfl
  case objs => exact same0 rfl rfl (fun _ _ => rfl) nolog
  case pins => exact same0 rfl rfl (fun _ _ => rfl) nolog
  case newSig v hu =>
    refine .same ?_ (fun _ _ => rfl) nolog
    intro g
    simp only [World.listOf, upd_apply]
    by_cases e : g = w.nSigs
    · subst e; simp [(I.out _ (Nat.le_refl _)).1]
    · simp only [if_neg e]
      split
      · rename_i b hb
        have := I.lst g b hb
        rw [if_neg (by omega)]
      · rfl
  case destroy g hu hg ha hm =>
    refine .destroy g hm ?_ (fun _ => rfl) rfl
    intro x; simp only [World.listOf, World.emitEv, upd_apply]
    by_cases e : x = g
    · simp [e]
    · simp [e]
  case movStart g hu hg ha =>
    refine .same ?_ (fun _ _ => rfl) nolog
    intro g'
    simp only [World.listOf, World.setStack, upd_apply]
    by_cases e : g' = w.nSigs
    · subst e; simp [(I.out _ (Nat.le_refl _)).1]
    · simp only [if_neg e]
  case connStart g fn consume conn blk dest hu hg ho =>
    refine same0 rfl rfl ?_ (onelog _ rfl)
    intro s hs; simp only [World.emitEv, World.setStack, upd_apply]; rw [if_neg (by omega)]
  case emitStart => exact same0 rfl rfl (fun _ _ => rfl) (onelog _ rfl)
  case eraseStart => exact same0 rfl rfl (fun _ _ => rfl) nolog
  case discPush => exact same0 rfl rfl (fun _ _ => rfl) nolog
  case discFail => exact same0 rfl rfl (fun _ _ => rfl) (onelog _ rfl)
  case acq f f' rest g hst hf ha hm => exact mtxOnly (g := g) rfl rfl rfl nolog
  case tst => exact same0 rfl rfl (fun _ _ => rfl) nolog
  case det f f' rest g b hst hf hl =>
    unfold cloneBlk
    · refine .same ?_ (fun _ _ => rfl) nolog
      intro g'
      simp only [World.listOf, World.setStack, World.setList, World.setBlk, upd_apply]
      by_cases e : g' = g
      · subst e; simp [hl]
      · simp only [if_neg e]
        split
        · rename_i b' hb
          have := I.lst g' b' hb
          rw [if_neg (by omega)]
        · rfl
  case emSupp => exact same0 rfl rfl (fun _ _ => rfl) (onelog _ rfl)
  case emPass => exact same0 rfl rfl (fun _ _ => rfl) nolog
  case emCopy => exact same0 rfl rfl (fun _ _ => rfl) nolog
  case emSnap m b rest hst => exact mtxOnly (g := m.g) rfl rfl rfl (onelog _ rfl)
  case emCall => exact same0 rfl rfl (fun _ _ => rfl) (onelog _ rfl)
  case emDone => exact same0 rfl rfl (fun _ _ => rfl) (onelog _ rfl)
  case combThrow => exact same0 rfl rfl (fun _ _ => rfl) (onelog _ rfl)
  case callUnblk => exact same0 rfl rfl (fun _ _ => rfl) nolog
  case callConn => exact same0 rfl rfl (fun _ _ => rfl) nolog
  case callConnT => exact same0 rfl rfl (fun _ _ => rfl) nolog
  case callLock => exact same0 rfl rfl (fun _ _ => rfl) nolog
  case callSkip => exact same0 rfl rfl (fun _ _ => rfl) (onelog _ rfl)
  case callExpired s o m b pos acc rest hst ho =>
    refine same0 rfl rfl ?_ (onelog _ rfl)
    intro s' _; simp only [World.emitEv, World.setStack, World.setConnected, upd_apply]; split
    · rename_i e; subst e; rfl
    · rfl
  case callEnter => exact same0 rfl rfl (fun _ _ => rfl) (onelog _ rfl)
  case callRet => exact same0 rfl rfl (fun _ _ => rfl) (onelog _ rfl)
  case callCatch => exact same0 rfl rfl (fun _ _ => rfl) (onelog _ rfl)
  case callThrow s o m b pos acc rest hst =>
    exact same0 rfl rfl (fun _ _ => rfl) ⟨[.aborted m.e, .threw m.e s], rfl, by simp [Event.isList]⟩
  case addWrite g s dest rest b hst hl =>
    refine .add g s b dest rest hst hl ?_ ?_ rfl
    · intro g'; rw [listOf_eq hl]; refine listOf_setBlk J hl ?_ ?_ g' <;> rfl
    · intro s'; rw [listOf_eq hl]
      simp only [World.emitEv, World.setStack, World.setBlk, World.setIndex, upd_apply]
      split <;> rfl
  case addUnlock g s dest rest cv sv bv hst hs => exact mtxOnly (g := g) rfl rfl rfl (onelog _ rfl)
  case eraseEnd => exact same0 rfl rfl (fun _ _ => rfl) nolog
  case eraseThrow => exact same0 rfl rfl (fun _ _ => rfl) nolog
  case eraseMiss => exact same0 rfl rfl (fun _ _ => rfl) nolog
  case eraseHit g tgt i cnt rest b s hst hl hi he =>
    have hlt : i < (w.blks b).length := (List.getElem?_eq_some_iff.1 hi).1
    obtain ⟨e1, e2, e3, e4, e5, e6, e7, e8, e9, e10, e11, -⟩ := removeAt_same w b i
    refine .rem g i s (.erased g s) (by rw [hst]; rfl) (by rw [listOf_eq hl]; exact hi) ?_ ?_ (.inl rfl) ?_
    · intro g'; rw [listOf_eq hl]; exact listOf_setBlk J hl e1 (removeAt_blks w b i hlt) g'
    · intro s'; rw [listOf_eq hl]; exact removeAt_index w b i hlt s'
    · show Event.erased g s :: (removeAt w b i).log = _; rw [e11]
  case fail f rest g s hst hf => exact mtxOnly (g := g) rfl rfl rfl (onelog _ rfl)
  case eraseUnlock g tgt r rest hst => exact mtxOnly (g := g) rfl rfl rfl (onelog _ rfl)
  case exchTrue s k rest hst hc =>
    refine same0 rfl rfl ?_ (onelog _ rfl)
    intro s' _; simp only [World.emitEv, World.setStack, World.setConnected, upd_apply]; split
    · rename_i e; subst e; rfl
    · rfl
  case exchFalse s k rest cv sv bv hst hc hs =>
    exact same0 rfl rfl (fun _ _ => rfl) ⟨[.discRet t (some s) false, .exch s false], rfl, by simp [Event.isList]⟩
  case discWrite s v k rest g b hst hl hi =>
    have hlt := (List.getElem?_eq_some_iff.1 hi).1
    obtain ⟨e1, e2, e3, e4, e5, e6, e7, e8, e9, e10, e11, -⟩ := removeAt_same w b (w.slots s).index
    refine .rem g (w.slots s).index v (.removed g s v) (by rw [hst]; rfl) (by rw [listOf_eq hl]; exact hi) ?_ ?_ (.inr ⟨s, rfl⟩) ?_
    · intro g'; rw [listOf_eq hl]; exact listOf_setBlk J hl e1 (removeAt_blks w b _ hlt) g'
    · intro s'; rw [listOf_eq hl]; exact removeAt_index w b _ hlt s'
    · show Event.removed g s v :: (removeAt w b _).log = _; rw [e11]
  case discMiss => exact same0 rfl rfl (fun _ _ => rfl) nolog
  case discUnlock s k rest g hst => exact mtxOnly (g := g) rfl rfl rfl nolog
  case discDrop s k rest g cv sv bv hst hs => exact same0 rfl rfl (fun _ _ => rfl) (onelog _ rfl)
  case movWrite g' g rest hst =>
    have hne : g' ≠ g := by
      have := I.rng t (.mov g' g .write) (by rw [hst]; simp); exact this.2.2
    obtain ⟨x1, x2⟩ := J.movx t g' g .write (by rw [hst]; rfl)
    refine .move g g' hne (by rw [hst]; rfl) (by simp [World.listOf, x2 (by simp)]) x1 ?_ (fun _ => rfl) rfl
    intro x
    simp only [World.listOf, World.emitEv, World.setStack, World.setList, upd_apply, if_neg hne.symm]
    by_cases e1 : x = g
    · simp [e1]
    · by_cases e2 : x = g'
      · simp [e2, hne]
      · simp [e1, e2]
  case movUnlock g' g rest hst =>
    refine .same ?_ (fun _ _ => rfl) nolog
    intro x
    have : ((upd (upd w.sigs g { w.sigs g with mutex := none }) g'
          { upd w.sigs g { w.sigs g with mutex := none } g' with alive := true }) x).list = (w.sigs x).list := by
      simp only [upd_apply]
      split
      · rename_i e; subst e; split
        · rename_i e; subst e; rfl
        · rfl
      · split
        · rename_i e; subst e; rfl
        · rfl
    simp only [World.listOf, this]

end Verif
