import Verif.Mach.Mem
import Verif.Mach.Life
import Verif.Mach.Rem

/-!
# Inversion of `step` together with the memory operations
-/

namespace Verif

variable {E : Env} {w w' : World} {t : Tid}

/-- Thread `t` owns vector `b` through one of its activations. -/
def own (w : World) (b : BlkId) (t : Tid) : Prop := ∃ f ∈ w.stacks t, f.blk? = some b

/-- Steps that touch no list, no mutex, no vector and no ownership of vectors. -/
structure Quiet (w : World) (t : Tid) (w' : World) (st : List Frame) : Prop where
  sigs : w'.sigs = w.sigs
  blks : w'.blks = w.blks
  nBlks : w'.nBlks = w.nBlks
  nSigs : w'.nSigs = w.nSigs
  nSlots : w'.nSlots = w.nSlots
  stk : w'.stacks = upd w.stacks t st
  own : ∀ b, (∃ f ∈ st, f.blk? = some b) ↔ own w b t
  topW : topW st = none
  pend : topPend st = none
  pend0 : topPend (w.stacks t) = none
  adds : ∀ g s, Event.added g s ∈ w'.log ↔ Event.added g s ∈ w.log

inductive StepF (E : Env) (w : World) (t : Tid) : World → List Mem → Prop where
  | ub (u : UB) : StepF E w t (w.setUB u) []
  | quiet (w' st ops) (hf : ∀ o ∈ ops, ∃ s, o = Mem.flag s) (q : Quiet w t w' st) : StepF E w t w' ops
  | newSig (v : Bool) (hu : userCtx (w.stacks t) = true) :
      StepF E w t
        { w with
          sigs := upd w.sigs w.nSigs ⟨some w.nBlks, none, false, true, v⟩
          nSigs := w.nSigs + 1
          blks := upd w.blks w.nBlks []
          nBlks := w.nBlks + 1 }
        [.acc (.vec w.nBlks) .init, .acc (.ptr w.nSigs) .init, .unlock w.nSigs]
  | destroy (g : SigId) (w' ops) (hu : userCtx (w.stacks t) = true) (hg : g < w.nSigs)
      (ha : (w.sigs g).alive = true) (hm : (w.sigs g).mutex = none)
      (hw : w' = { w with
          sigs := upd w.sigs g { w.sigs g with alive := false, list := none } }.emitEv (.destroyed g))
      (ho : ops = .lock g :: .acc (.ptr g) .destroy :: match (w.sigs g).list with
          | some b => dropFoot w' b
          | none => []) :
      StepF E w t w' ops
  | movStart (g : SigId) (hu : userCtx (w.stacks t) = true) (hg : g < w.nSigs)
      (ha : (w.sigs g).alive = true) :
      StepF E w t (World.setStack
        { w with
          sigs := upd w.sigs w.nSigs ⟨none, none, (w.sigs g).sblocked, false, (w.sigs g).isVoid⟩
          nSigs := w.nSigs + 1 } t (.mov w.nSigs g .wait :: w.stacks t)) []
  | connStart (g : SigId) (fn : Callable) (consume : List Bool) (conn blk : Bool) (dest : Dest)
      (hu : userCtx (w.stacks t) = true) (hg : g < w.nSigs) :
      StepF E w t ((World.setStack
        { w with
          slots := upd w.slots w.nSlots ⟨fn, consume, 0, conn, blk, g⟩
          nSlots := w.nSlots + 1 } t (.add g w.nSlots dest .wait :: w.stacks t)).emitEv
            (.created g w.nSlots conn blk)) [.acc (.idx w.nSlots) .init]
  | acq (f f' : Frame) (rest : List Frame) (g : SigId) (hst : w.stacks t = f :: rest)
      (hf : f.acq = some (g, f')) (ha : (w.sigs g).alive = true) (hm : (w.sigs g).mutex = none) :
      StepF E w t ((w.setMutex g (some t)).setStack t (f' :: rest)) [.lock g]
  | tst (f f' : Frame) (rest : List Frame) (g : SigId) (b : BlkId) (pre : List Mem) (hst : w.stacks t = f :: rest)
      (hf : f.tst (w.shared g b) = some (g, f')) (hl : (w.sigs g).list = some b)
      (hp : pre = [] ∨ ∃ s k, f = .disc s k (.crit g .detach) ∧ pre = [.acc (.idx s) .read]) :
      StepF E w t (w.setStack t (f' :: rest)) (pre ++ tstFoot g b)
  | det (w' : World) (f f' : Frame) (rest : List Frame) (g : SigId) (b : BlkId) (hst : w.stacks t = f :: rest)
      (hf : f.det = some (g, f')) (hl : (w.sigs g).list = some b) (hw : w' = (cloneBlk w g b).setStack t (f' :: rest)) :
      StepF E w t w' (detFoot w w' g b)
  | emCopy (m : Em) (rest : List Frame) (hst : w.stacks t = .emit m .copy :: rest) :
      StepF E w t (w.setStack t (.emit m (.unlock (w.sigs m.g).list) :: rest)) [.acc (.ptr m.g) .read]
  | emSnap (m : Em) (b : BlkId) (rest : List Frame)
      (hst : w.stacks t = .emit m (.unlock (some b)) :: rest) :
      StepF E w t (((w.setMutex m.g none).setStack t
        (.emit m (.iter b 0 none) :: rest)).emitEv (.snap m (w.blks b))) [.unlock m.g, .acc (.vec b) .walk]
  | walk (w' st) (m : Em) (b : BlkId) (pos : Nat) (acc : Option Val) (rest : List Frame)
      (hst : w.stacks t = .emit m (.iter b pos acc) :: rest) (q : Quiet w t w' st) :
      StepF E w t w' [.acc (.vec b) .walk]
  | emEnd (w' pre) (f0 : List Frame) (m : Em) (b : BlkId) (pos : Nat) (acc : Option Val) (rest : List Frame) (evs : List Event)
      (hst : w.stacks t = f0 ++ .emit m (.iter b pos acc) :: rest) (h0 : ∀ f ∈ f0, f.blk? = none)
      (ht : topPend (w.stacks t) = none) (hr : UserStk rest)
      (hw : w' = { w.setStack t rest with log := evs ++ w.log }) (he : ∀ g s, Event.added g s ∉ evs)
      (hp : pre = [] ∨ pre = [.acc (.vec b) .walk]) :
      StepF E w t w' (pre ++ dropFoot w' b)
  | addWrite (g : SigId) (s : SlotId) (dest : Dest) (rest : List Frame) (b : BlkId)
      (hst : w.stacks t = .add g s dest .write :: rest) (hl : (w.sigs g).list = some b) :
      StepF E w t ((((w.setIndex s (w.blks b).length).setBlk b (w.blks b ++ [s])).setStack t
            (.add g s dest .unlock :: rest)).emitEv (.added g s)) [.acc (.idx s) .update, .acc (.vec b) .update]
  | scan (f f' : Frame) (rest : List Frame) (g : SigId) (b : BlkId) (hst : w.stacks t = f :: rest)
      (hw : topW (w.stacks t) = some g) (hw' : topW (f' :: rest) = none ∨ topW (f' :: rest) = some g)
      (hp : topPend (w.stacks t) = none) (hp' : topPend (f' :: rest) = none)
      (hb : f.blk? = none) (hb' : f'.blk? = none)
      (hl : (w.sigs g).list = some b) :
      StepF E w t (w.setStack t (f' :: rest)) [.acc (.vec b) .read]
  | rem (w' : World) (f f' : Frame) (rest : List Frame) (g : SigId) (b : BlkId) (i : Nat) (v : SlotId) (ev : Event)
      (hst : w.stacks t = f :: rest)
      (hw : topW (w.stacks t) = some g) (hw' : topW (f' :: rest) = none ∨ topW (f' :: rest) = some g)
      (hp : topPend (w.stacks t) = none) (hp' : topPend (f' :: rest) = none)
      (hb : f.blk? = none) (hb' : f'.blk? = none)
      (hl : (w.sigs g).list = some b) (hi : (w.blks b)[i]? = some v)
      (hev : ∀ g s, ev ≠ .added g s)
      (e : w' = ((removeAt w b i).setStack t (f' :: rest)).emitEv ev) :
      StepF E w t w' (.acc (.vec b) .read :: remFoot w b i)
  | unlock (w' : World) (f : Frame) (rest st : List Frame) (g : SigId) (hst : w.stacks t = f :: rest)
      (hl : f.locks = some g) (hb : f.blk? = none) (hp : topPend (w.stacks t) = none)
      (hr : topW st = none ∧ topPend st = none ∧ ∀ b, (∃ f ∈ st, f.blk? = some b) ↔ ∃ f ∈ rest, f.blk? = some b)
      (h1 : w'.sigs = (w.setMutex g none).sigs) (h2 : w'.blks = w.blks) (h3 : w'.nBlks = w.nBlks)
      (h4 : w'.nSigs = w.nSigs) (h5 : w'.nSlots = w.nSlots) (h6 : w'.stacks = upd w.stacks t st)
      (h7 : ∀ g s, Event.added g s ∈ w'.log ↔ Event.added g s ∈ w.log) :
      StepF E w t w' [.unlock g]
  | fail (f : Frame) (rest : List Frame) (g : SigId) (s : Option SlotId) (b : BlkId) (pre : List Mem) (hst : w.stacks t = f :: rest)
      (hf : f.allocs = some (g, s)) (hl : (w.sigs g).list = some b)
      (hp : pre = [.acc (.ptr g) .read] ∨ ∃ s' dest, f = .add g s' dest .write ∧ pre = [.acc (.idx s') .update]) :
      StepF E w t (((w.setMutex g none).setStack t rest).emitEv (.failed t g s)) (pre ++ [.acc (.vec b) .read, .unlock g])
  | movWrite (g' g : SigId) (rest : List Frame) (hst : w.stacks t = .mov g' g .write :: rest) :
      StepF E w t ((((w.setList g' (w.sigs g).list).setList g none).setStack t
        (.mov g' g .unlock :: rest)).emitEv (.moved g g'))
        [.acc (.ptr g) .read, .acc (.ptr g) .update, .acc (.ptr g') .init, .unlock g']
  | movUnlock (g' g : SigId) (rest : List Frame) (hst : w.stacks t = .mov g' g .unlock :: rest) :
      StepF E w t (World.mk w.slots w.nSlots w.blks w.nBlks
        (upd (upd w.sigs g { w.sigs g with mutex := none }) g'
          { upd w.sigs g { w.sigs g with mutex := none } g' with alive := true })
        w.nSigs w.objs w.nObjs (upd w.stacks t rest) w.nThr w.nEm w.cv w.sv w.bv w.pins w.ub w.log) [.unlock g]

theorem UserStk.pend {st : List Frame} (h : UserStk st) : Verif.topPend st = none := by cases h <;> rfl

/-- User code that leaves stacks alone. -/
theorem Quiet.user (hu : userCtx (w.stacks t) = true) (h1 : w'.sigs = w.sigs) (h2 : w'.blks = w.blks) (h3 : w'.nBlks = w.nBlks)
    (h4 : w'.nSigs = w.nSigs) (h5 : w'.nSlots = w.nSlots) (h6 : w'.stacks = w.stacks)
    (h7 : ∀ g s, Event.added g s ∈ w'.log ↔ Event.added g s ∈ w.log) : Quiet w t w' (w.stacks t) :=
  ⟨h1, h2, h3, h4, h5, by rw [h6]; exact (upd_self _ _).symm, fun b => Iff.rfl, (userCtx_tops hu).1, userCtx_topPend hu, userCtx_topPend hu, h7⟩

/-- User code that pushes a frame. -/
theorem Quiet.push {f : Frame} (hu : userCtx (w.stacks t) = true) (hf : f.blk? = none)
    (hw : Verif.topW (f :: w.stacks t) = none) (hp : topPend (f :: w.stacks t) = none)
    (h1 : w'.sigs = w.sigs) (h2 : w'.blks = w.blks) (h3 : w'.nBlks = w.nBlks)
    (h4 : w'.nSigs = w.nSigs) (h5 : w'.nSlots = w.nSlots) (h6 : w'.stacks = upd w.stacks t (f :: w.stacks t))
    (h7 : ∀ g s, Event.added g s ∈ w'.log ↔ Event.added g s ∈ w.log) : Quiet w t w' (f :: w.stacks t) :=
  ⟨h1, h2, h3, h4, h5, h6, fun b => by simp [Verif.own, hf], hw, hp, userCtx_topPend hu, h7⟩

/-- The library replaces some frames at the top. -/
theorem Quiet.top {pre st : List Frame} {rest : List Frame} (hst : w.stacks t = pre ++ rest)
    (hb : ∀ b, (∃ f ∈ pre, f.blk? = some b) ↔ ∃ f ∈ st, f.blk? = some b)
    (hw : Verif.topW (st ++ rest) = none) (hp : topPend (st ++ rest) = none) (hp0 : topPend (w.stacks t) = none)
    (h1 : w'.sigs = w.sigs) (h2 : w'.blks = w.blks) (h3 : w'.nBlks = w.nBlks)
    (h4 : w'.nSigs = w.nSigs) (h5 : w'.nSlots = w.nSlots) (h6 : w'.stacks = upd w.stacks t (st ++ rest))
    (h7 : ∀ g s, Event.added g s ∈ w'.log ↔ Event.added g s ∈ w.log) : Quiet w t w' (st ++ rest) :=
  ⟨h1, h2, h3, h4, h5, h6, fun b => by
    simp only [Verif.own, hst, List.mem_append]
    constructor
    · rintro ⟨f, hf | hf, e⟩
      · obtain ⟨f, hf, e⟩ := (hb b).2 ⟨f, hf, e⟩; exact ⟨f, .inl hf, e⟩
      · exact ⟨f, .inr hf, e⟩
    · rintro ⟨f, hf | hf, e⟩
      · obtain ⟨f, hf, e⟩ := (hb b).1 ⟨f, hf, e⟩; exact ⟨f, .inl hf, e⟩
      · exact ⟨f, .inr hf, e⟩, hw, hp, hp0, h7⟩

theorem foot_ub {l : Label} {u : UB} : foot E w (w.setUB u) l = [] := by simp [foot, World.setUB]

theorem foot_run (h : w'.ub = none) : foot E w w' (.run t) = runFoot E w w' t := by simp [foot, h]

theorem foot_call {a : Api} (h : w'.ub = none) : foot E w w' (.call t a) = userFoot w w' t a := by simp [foot, h]

theorem iff_cons {log : List Event} {ev : Event} (h : ∀ g s, ev ≠ .added g s) :
    ∀ g s, Event.added g s ∈ ev :: log ↔ Event.added g s ∈ log := by
  intro g s; simp only [List.mem_cons]
  exact ⟨fun h' => h'.elim (fun e => absurd e.symm (h g s)) id, .inr⟩

theorem acquire_foot {g : SigId} {f f' : Frame} {rest : List Frame} (hst : w.stacks t = f :: rest)
    (hf : f.acq = some (g, f')) (hub : w.ub = none) (h : acquire w t g (f' :: rest) = some w')
    (ho : w'.ub = none → foot E w w' (.run t) = [.lock g]) : StepF E w t w' (foot E w w' (.run t)) := by
  unfold acquire at h
  split at h
  · injection h with h; subst h; rw [foot_ub]; exact .ub _
  · rename_i ha
    split at h
    · cases h
    · rename_i hm
      injection h with h; subst h
      rw [ho hub]
      exact .acq f f' rest g hst hf (by simpa using ha) hm

/-- Leaving `disconnect` changes nothing but handles. -/
theorem discReturn_fields {w0 : World} {rest : List Frame} {s : Option SlotId} {k : DiscK} {b : Bool} :
    (discReturn w0 t rest s k b).sigs = w0.sigs ∧ (discReturn w0 t rest s k b).blks = w0.blks ∧
    (discReturn w0 t rest s k b).nBlks = w0.nBlks ∧ (discReturn w0 t rest s k b).nSigs = w0.nSigs ∧
    (discReturn w0 t rest s k b).nSlots = w0.nSlots ∧ (discReturn w0 t rest s k b).stacks = upd w0.stacks t rest ∧
    (discReturn w0 t rest s k b).ub = w0.ub ∧ (discReturn w0 t rest s k b).log = .discRet t s b :: w0.log := by
  unfold discReturn
  cases k
  · exact ⟨rfl, rfl, rfl, rfl, rfl, rfl, rfl, rfl⟩
  · simp only; split <;> exact ⟨rfl, rfl, rfl, rfl, rfl, rfl, rfl, rfl⟩

theorem runEmit_foot (I : Inv1 w) (hub : w.ub = none) {rest : List Frame} {m : Em} {pc : EmitPc} (hst : w.stacks t = .emit m pc :: rest)
    (h : runEmit w t rest m pc = some w') : StepF E w t w' (foot E w w' (.run t)) := by
  have hr : UserStk rest := by have := I.stk t; rw [hst] at this; exact this.tail rfl
  have fr : w'.ub = none → foot E w w' (.run t) = emitFoot w w' m pc := fun h => by
    rw [foot_run h]; simp [runFoot, hst]
  unfold runEmit at h
  split at h
  · split at h
    · injection h with h; subst h; rw [foot_ub]; exact .ub _
    · split at h
      · injection h with h; subst h
        rw [fr hub]
        exact .quiet _ rest _ (by simp [emitFoot]) (Quiet.top (pre := [.emit m .start]) (st := []) hst (by simp [Frame.blk?]) hr.tops.1
          hr.pend (by rw [hst]; rfl) rfl rfl rfl rfl rfl rfl (iff_cons (by simp)))
      · injection h with h; subst h
        rw [fr hub]
        exact .quiet _ (.emit m .wait :: rest) _ (by simp [emitFoot]) (Quiet.top (pre := [.emit m .start]) (st := [.emit m .wait]) hst
          (by simp [Frame.blk?]) rfl rfl (by rw [hst]; rfl) rfl rfl rfl rfl rfl rfl (fun _ _ => Iff.rfl))
  · exact acquire_foot hst rfl hub h fr
  · injection h with h; subst h; rw [fr hub]; exact .emCopy m rest hst
  · injection h with h; subst h; rw [foot_ub]; exact .ub _
  · injection h with h; subst h; rw [fr hub]; exact .emSnap m _ rest hst
  · rename_i b pos acc
    split at h
    · cases h
    · split at h
      · rename_i hs
        injection h with h; subst h
        rw [fr hub]
        have hp : pos < (w.blks b).length := (List.getElem?_eq_some_iff.1 hs).1
        simp only [emitFoot, if_pos hp]
        refine .walk _ (.call _ .chkBlocked :: .emit m (.iter b pos acc) :: rest) m b pos acc rest hst
          (Quiet.top (pre := [.emit m (.iter b pos acc)]) (st := [.call _ .chkBlocked, .emit m (.iter b pos acc)]) hst
          (by simp [Frame.blk?]) rfl rfl (by rw [hst]; rfl) rfl rfl rfl rfl rfl rfl (iff_cons (by simp)))
      · rename_i hs
        injection h with h; subst h
        rw [fr hub]
        have hp : ¬ pos < (w.blks b).length := by simpa using hs
        simp only [emitFoot, if_neg hp]
        exact .emEnd _ [.acc (.vec b) .walk] [] m b pos acc rest [.done m.e acc] hst (by simp) (by rw [hst]; rfl) hr rfl (by simp) (.inr rfl)

theorem runCall_foot (hub : w.ub = none) {rest : List Frame} {m : Em} {s b pos acc} {pc : CallPc}
    (hst : w.stacks t = .call s pc :: .emit m (.iter b pos acc) :: rest)
    (h : runCall w t s m b pos acc rest pc = some w') : StepF E w t w' (foot E w w' (.run t)) := by
  have fr : w'.ub = none → foot E w w' (.run t) = [.flag s] := fun h => by
    rw [foot_run h]; simp [runFoot, hst]
  have fl : ∀ o ∈ [Mem.flag s], ∃ s, o = Mem.flag s := by simp
  have deliv : ∀ (c : Comb) (r : Option Val), ∃ p a, deliver c b pos acc r = .iter b p a := by
    intro c r; cases c <;> exact ⟨_, _, rfl⟩
  have one : ∀ {w'' : World} {r : Option Val} (ev : Event), (∀ g s, ev ≠ .added g s) → w''.sigs = w.sigs → w''.blks = w.blks →
      w''.nBlks = w.nBlks → w''.nSigs = w.nSigs → w''.nSlots = w.nSlots →
      w''.stacks = upd w.stacks t (.emit m (deliver m.comb b pos acc r) :: rest) → w''.log = ev :: w.log →
      Quiet w t w'' (.emit m (deliver m.comb b pos acc r) :: rest) := by
    intro w'' r ev hev h1 h2 h3 h4 h5 h6 h7
    obtain ⟨p, a, e⟩ := deliv m.comb r
    rw [e] at h6 ⊢
    exact Quiet.top (pre := [.call s pc, .emit m (.iter b pos acc)]) (st := [.emit m (.iter b p a)]) hst
      (by simp [Frame.blk?]) rfl rfl (by rw [hst]; rfl) h1 h2 h3 h4 h5 h6 (by rw [h7]; exact iff_cons hev)
  have two : ∀ {w'' : World} {pc' : CallPc} {m' : Em}, w''.sigs = w.sigs → w''.blks = w.blks →
      w''.nBlks = w.nBlks → w''.nSigs = w.nSigs → w''.nSlots = w.nSlots →
      w''.stacks = upd w.stacks t (.call s pc' :: .emit m' (.iter b pos acc) :: rest) →
      (∀ g s, Event.added g s ∈ w''.log ↔ Event.added g s ∈ w.log) →
      Quiet w t w'' (.call s pc' :: .emit m' (.iter b pos acc) :: rest) := by
    intro w'' pc' m' h1 h2 h3 h4 h5 h6 h7
    exact Quiet.top (pre := [.call s pc, .emit m (.iter b pos acc)]) (st := [.call s pc', .emit m' (.iter b pos acc)]) hst
      (by simp [Frame.blk?]) rfl rfl (by rw [hst]; rfl) h1 h2 h3 h4 h5 h6 h7
  unfold runCall at h
  split at h
  · split at h <;> injection h with h <;> subst h <;> rw [fr hub]
    · exact .quiet _ _ _ fl (one _ (by simp) rfl rfl rfl rfl rfl rfl rfl)
    · exact .quiet _ _ _ fl (two rfl rfl rfl rfl rfl rfl (fun _ _ => Iff.rfl))
  · split at h
    · split at h <;> injection h with h <;> subst h <;> rw [fr hub]
      · exact .quiet _ _ _ fl (two rfl rfl rfl rfl rfl rfl (fun _ _ => Iff.rfl))
      · exact .quiet _ _ _ fl (two rfl rfl rfl rfl rfl rfl (fun _ _ => Iff.rfl))
    · injection h with h; subst h; rw [fr hub]
      exact .quiet _ _ _ fl (one _ (by simp) rfl rfl rfl rfl rfl rfl rfl)
  · injection h with h; subst h; rw [fr hub]
    exact .quiet _ _ _ fl (two rfl rfl rfl rfl rfl rfl (iff_cons (by simp)))
  · split at h <;> injection h with h <;> subst h <;> rw [fr hub]
    · exact .quiet _ _ _ fl (two rfl rfl rfl rfl rfl rfl (fun _ _ => Iff.rfl))
    · exact .quiet _ _ _ fl (one _ (by simp) rfl rfl rfl rfl rfl rfl rfl)
  · split at h <;> injection h with h <;> subst h <;> rw [fr hub]
    · exact .quiet _ _ _ fl (two rfl rfl rfl rfl rfl rfl (iff_cons (by simp)))
    · exact .quiet _ _ _ fl (one _ (by simp) rfl rfl rfl rfl rfl rfl rfl)
  · cases h

theorem det_ub {f' : Frame} {rest : List Frame} {g : SigId} {b : BlkId} (hub : w.ub = none) :
    ((cloneBlk w g b).setStack t (f' :: rest)).ub = none := by
  exact hub

theorem runAdd_foot (I : Inv1 w) (hub : w.ub = none) {rest : List Frame} {g s dest} {pc : CritPc}
    (hst : w.stacks t = .add g s dest pc :: rest)
    (h : runAdd w t rest g s dest pc = some w') : StepF E w t w' (foot E w w' (.run t)) := by
  have hr : UserStk rest := by have := I.stk t; rw [hst] at this; exact this.tail rfl
  have fr : w'.ub = none → foot E w w' (.run t) = addFoot w w' g s pc := fun h => by
    rw [foot_run h]; simp [runFoot, hst]
  unfold runAdd at h
  split at h
  · exact acquire_foot hst rfl hub h fr
  · split at h <;> injection h with h <;> subst h
    · rw [foot_ub]; exact .ub _
    · rename_i hl
      rw [fr hub]; simp only [addFoot, hl]
      exact .tst _ _ rest g _ [] hst rfl hl (.inl rfl)
  · split at h <;> injection h with h <;> subst h
    · rw [foot_ub]; exact .ub _
    · rename_i hl
      rw [fr (det_ub hub)]; simp only [addFoot, hl]
      exact .det _ _ _ rest g _ hst rfl hl rfl
  · split at h <;> injection h with h <;> subst h
    · rw [foot_ub]; exact .ub _
    · rename_i hl
      rw [fr hub]; simp only [addFoot, hl]
      exact .addWrite g s dest rest _ hst hl
  · cases dest <;> simp only at h <;> injection h with h <;> subst h <;> rw [fr hub] <;>
      exact .unlock _ _ rest rest g hst rfl rfl (by rw [hst]; rfl) ⟨hr.tops.1, hr.pend, fun _ => Iff.rfl⟩ rfl rfl rfl rfl rfl rfl (iff_cons (by simp))

theorem removeAt_ub {b : BlkId} {i : Nat} : (removeAt w b i).ub = w.ub := by unfold removeAt; split <;> rfl

theorem runErase_foot (I : Inv1 w) (hub : w.ub = none) {rest : List Frame} {g tgt} {pc : ErasePc}
    (hst : w.stacks t = .erase g tgt pc :: rest)
    (h : runErase E w t rest g tgt pc = some w') : StepF E w t w' (foot E w w' (.run t)) := by
  have hr : UserStk rest := by have := I.stk t; rw [hst] at this; exact this.tail rfl
  have fr : w'.ub = none → foot E w w' (.run t) = eraseFoot E w w' g tgt pc := fun h => by
    rw [foot_run h]; simp [runFoot, hst]
  unfold runErase at h
  split at h
  · exact acquire_foot hst rfl hub h fr
  · split at h <;> injection h with h <;> subst h
    · rw [foot_ub]; exact .ub _
    · rename_i hl
      rw [fr hub]; simp only [eraseFoot, hl]
      exact .tst _ _ rest g _ [] hst rfl hl (.inl rfl)
  · split at h <;> injection h with h <;> subst h
    · rw [foot_ub]; exact .ub _
    · rename_i hl
      rw [fr (det_ub hub)]; simp only [eraseFoot, hl]
      exact .det _ _ _ rest g _ hst rfl hl rfl
  · rename_i i cnt
    split at h
    · injection h with h; subst h; rw [foot_ub]; exact .ub _
    · rename_i b hl
      split at h
      · rename_i hn
        injection h with h; subst h
        rw [fr hub]; simp only [eraseFoot, hl, hn]
        exact .scan _ _ rest g b hst (by rw [hst]; rfl) (.inl rfl) (by rw [hst]; rfl) rfl rfl rfl hl
      · rename_i s hs
        split at h
        · rename_i he
          injection h with h; subst h
          rw [fr hub]; simp only [eraseFoot, hl, hs, he, if_neg (by simp : ¬ none = some true)]
          exact .scan _ _ rest g b hst (by rw [hst]; rfl) (.inl rfl) (by rw [hst]; rfl) rfl rfl rfl hl
        · rename_i he
          injection h with h; subst h
          rw [fr (removeAt_ub.trans hub)]; simp only [eraseFoot, hl, hs, he, if_true]
          exact .rem _ _ _ rest g b i s _ hst (by rw [hst]; rfl) (.inr rfl) (by rw [hst]; rfl) rfl rfl rfl hl hs (by simp) rfl
        · rename_i he
          injection h with h; subst h
          rw [fr hub]; simp only [eraseFoot, hl, hs, he, if_neg (by simp : ¬ some false = some true)]
          exact .scan _ _ rest g b hst (by rw [hst]; rfl) (.inr rfl) (by rw [hst]; rfl) rfl rfl rfl hl
  · injection h with h; subst h; rw [fr hub]
    exact .unlock _ _ rest rest g hst rfl rfl (by rw [hst]; rfl) ⟨hr.tops.1, hr.pend, fun _ => Iff.rfl⟩ rfl rfl rfl rfl rfl rfl (iff_cons (by simp))

theorem runDisc_foot (I : Inv1 w) (hub : w.ub = none) {rest : List Frame} {s k} {pc : DiscPc}
    (hst : w.stacks t = .disc s k pc :: rest)
    (h : runDisc w t rest s k pc = some w') : StepF E w t w' (foot E w w' (.run t)) := by
  have hr : UserStk rest := by have := I.stk t; rw [hst] at this; exact this.tail rfl
  have fr : w'.ub = none → foot E w w' (.run t) = discFoot w w' s pc := fun h => by
    rw [foot_run h]; simp [runFoot, hst]
  unfold runDisc at h
  split at h
  · split at h <;> injection h with h <;> subst h
    · rw [fr hub]
      exact .quiet _ _ _ (by simp [discFoot]) (Quiet.top (pre := [.disc s k .exch]) (st := [.disc s k (.crit (w.slots s).owner .wait)]) hst
          (by simp [Frame.blk?]) rfl rfl (by rw [hst]; rfl) rfl rfl rfl rfl rfl rfl (iff_cons (by simp)))
    · obtain ⟨h1, h2, h3, h4, h5, h6, h7, h8⟩ := @discReturn_fields t (w.emitEv (.exch s false)) rest (some s) k false
      rw [fr (h7.trans hub)]
      exact .quiet _ _ _ (by simp [discFoot]) (Quiet.top (pre := [.disc s k .exch]) (st := []) hst
          (by simp [Frame.blk?]) hr.tops.1 hr.pend (by rw [hst]; rfl) h1 h2 h3 h4 h5 h6
          (by intro g s; rw [h8, iff_cons (by simp)]; exact iff_cons (by simp) g s))
  · exact acquire_foot hst rfl hub h fr
  · split at h <;> injection h with h <;> subst h
    · rw [foot_ub]; exact .ub _
    · rename_i hl
      rw [fr hub]; simp only [discFoot, hl]
      exact .tst _ _ rest _ _ [.acc (.idx s) .read] hst rfl hl (.inr ⟨s, k, rfl, rfl⟩)
  · split at h <;> injection h with h <;> subst h
    · rw [foot_ub]; exact .ub _
    · rename_i hl
      rw [fr (det_ub hub)]; simp only [discFoot, hl]
      exact .det _ _ _ rest _ _ hst rfl hl rfl
  · split at h
    · injection h with h; subst h; rw [foot_ub]; exact .ub _
    · rename_i b hl
      split at h <;> injection h with h <;> subst h
      · rename_i v hv
        rw [fr (removeAt_ub.trans hub)]; simp only [discFoot, hl]
        exact .rem _ _ _ rest _ b _ v _ hst (by rw [hst]; rfl) (.inl rfl) (by rw [hst]; rfl) rfl rfl rfl hl hv (by simp) rfl
      · rename_i hv
        have : remFoot w b (w.slots s).index = [] := by
          unfold remFoot
          have hn : ¬ (w.slots s).index < (w.blks b).length := by simpa using hv
          have e : Vec.swap (w.blks b) (w.slots s).index ((w.blks b).length - 1) = w.blks b := by
            unfold Vec.swap; rw [hv]
          rw [e, hv]
        rw [fr hub]; simp only [discFoot, hl, this]
        exact .scan _ _ rest _ b hst (by rw [hst]; rfl) (.inl rfl) (by rw [hst]; rfl) rfl rfl rfl hl
  · rename_i g
    injection h with h; subst h
    rw [fr hub]
    exact .unlock _ _ rest _ _ hst rfl rfl (by rw [hst]; rfl) ⟨rfl, rfl, fun _ => by simp [Frame.blk?]⟩ rfl rfl rfl rfl rfl rfl
      (fun _ _ => Iff.rfl)
  · rename_i g
    injection h with h; subst h
    obtain ⟨h1, h2, h3, h4, h5, h6, h7, h8⟩ := @discReturn_fields t w rest (some s) k true
    rw [fr (h7.trans hub)]
    exact .quiet _ _ _ (by simp [discFoot]) (Quiet.top (pre := [.disc s k (.drop g)]) (st := []) hst
          (by simp [Frame.blk?]) hr.tops.1 hr.pend (by rw [hst]; rfl) h1 h2 h3 h4 h5 h6
          (by intro g s; rw [h8]; exact iff_cons (by simp) g s))

theorem runMov_foot (hub : w.ub = none) {rest : List Frame} {g' g} {pc : MovPc}
    (hst : w.stacks t = .mov g' g pc :: rest)
    (h : runMov w t rest g' g pc = some w') : StepF E w t w' (foot E w w' (.run t)) := by
  have fr : w'.ub = none → foot E w w' (.run t) = movFoot g' g pc := fun h => by
    rw [foot_run h]; simp [runFoot, hst]
  unfold runMov at h
  split at h
  · exact acquire_foot hst rfl hub h fr
  · injection h with h; subst h; rw [fr hub]; exact .movWrite g' g rest hst
  · injection h with h; subst h; rw [fr hub]; exact .movUnlock g' g rest hst

theorem connSetBlocked_fields {w0 : World} {h : Option SlotId} {c : Bool} :
    (w0.connSetBlocked h c).sigs = w0.sigs ∧ (w0.connSetBlocked h c).blks = w0.blks ∧
    (w0.connSetBlocked h c).nBlks = w0.nBlks ∧ (w0.connSetBlocked h c).nSigs = w0.nSigs ∧
    (w0.connSetBlocked h c).nSlots = w0.nSlots ∧ (w0.connSetBlocked h c).stacks = w0.stacks ∧
    (w0.connSetBlocked h c).ub = w0.ub ∧
    ∀ g s, Event.added g s ∈ (w0.connSetBlocked h c).log ↔ Event.added g s ∈ w0.log := by
  unfold World.connSetBlocked
  split
  · split
    · exact ⟨rfl, rfl, rfl, rfl, rfl, rfl, rfl, iff_cons (by simp)⟩
    · exact ⟨rfl, rfl, rfl, rfl, rfl, rfl, rfl, fun _ _ => Iff.rfl⟩
  · exact ⟨rfl, rfl, rfl, rfl, rfl, rfl, rfl, fun _ _ => Iff.rfl⟩

theorem discStart_foot {w0 : World} {h : Option SlotId} {k : DiscK} {ops : List Mem} (hu : userCtx (w.stacks t) = true)
    (h1 : w0.sigs = w.sigs) (h2 : w0.blks = w.blks) (h3 : w0.nBlks = w.nBlks) (h4 : w0.nSigs = w.nSigs)
    (h5 : w0.nSlots = w.nSlots) (h6 : w0.stacks = w.stacks) (h7 : w0.log = w.log) (h8 : w0.ub = none)
    (ho : (discStart w0 t h k).ub = none → ops = []) : StepF E w t (discStart w0 t h k) ops := by
  have fail : ∀ h, Quiet w t (discReturn w0 t (w0.stacks t) h k false) (w.stacks t) := by
    intro h
    obtain ⟨g1, g2, g3, g4, g5, g6, g7, g8⟩ := @discReturn_fields t w0 (w0.stacks t) h k false
    exact .user hu (g1.trans h1) (g2.trans h2) (g3.trans h3) (g4.trans h4) (g5.trans h5)
      (by rw [g6, upd_self, h6]) (by rw [g8, h7]; exact iff_cons (by simp))
  have fub : ∀ h, (discReturn w0 t (w0.stacks t) h k false).ub = none := fun h =>
    (@discReturn_fields t w0 (w0.stacks t) h k false).2.2.2.2.2.2.1.trans h8
  unfold discStart at ho ⊢
  split
  · split
    · rename_i s ha
      simp only [if_pos ha] at ho
      rw [ho h8]
      exact .quiet _ _ _ (by simp) (.push (f := .disc s k .exch) hu rfl rfl rfl h1 h2 h3 h4 h5 (by simp [World.setStack, h6])
        (by simp [World.setStack, h7]))
    · rename_i s ha
      simp only [if_neg ha, Bool.false_eq_true] at ho
      rw [ho (fub _)]
      exact .quiet _ _ _ (by simp) (fail _)
  · rw [ho (fub _)]
    exact .quiet _ _ _ (by simp) (fail _)

theorem flags_of (h : Option SlotId) : ∀ o ∈ h.toList.map Mem.flag, ∃ s, o = Mem.flag s := by
  intro o ho
  obtain ⟨s, -, rfl⟩ := List.mem_map.1 ho
  exact ⟨s, rfl⟩

theorem userOp_foot (I : Inv1 w) (hub : w.ub = none) {a : Api} (hu : userCtx (w.stacks t) = true)
    (h : userOp w t a = some w') : StepF E w t w' (foot E w w' (.call t a)) := by
  have same : ∀ {ops : List Mem}, (∀ o ∈ ops, ∃ s, o = Mem.flag s) → w'.sigs = w.sigs → w'.blks = w.blks → w'.nBlks = w.nBlks →
      w'.nSigs = w.nSigs → w'.nSlots = w.nSlots → w'.stacks = w.stacks → w'.ub = w.ub →
      (∀ g s, Event.added g s ∈ w'.log ↔ Event.added g s ∈ w.log) → userFoot w w' t a = ops →
      StepF E w t w' (foot E w w' (.call t a)) := by
    intro ops hf h1 h2 h3 h4 h5 h6 h7 h8 h9
    rw [foot_call (h7.trans hub), h9]
    exact .quiet _ _ _ hf (.user hu h1 h2 h3 h4 h5 h6 h8)
  have no : ∀ o ∈ ([] : List Mem), ∃ s, o = Mem.flag s := by simp
  have disc : ∀ {w0 : World} {h : Option SlotId} {k : DiscK}, w0.sigs = w.sigs → w0.blks = w.blks → w0.nBlks = w.nBlks →
      w0.nSigs = w.nSigs → w0.nSlots = w.nSlots → w0.stacks = w.stacks → w0.log = w.log → w0.ub = w.ub →
      w' = discStart w0 t h k → userFoot w w' t a = [] → StepF E w t w' (foot E w w' (.call t a)) := by
    intro w0 h k h1 h2 h3 h4 h5 h6 h7 h8 h9 h10
    subst h9
    exact discStart_foot hu h1 h2 h3 h4 h5 h6 h7 (h8.trans hub) (fun hn => by rw [foot_call hn, h10])
  have fr : w'.ub = none → foot E w w' (.call t a) = userFoot w w' t a := foot_call
  cases a <;> simp only [userOp] at h
  case newSig v => injection h with h; subst h; rw [fr hub]; exact .newSig v hu
  case destroySig g =>
    split at h
    · split at h
      · injection h with h; subst h; rw [foot_ub]; exact .ub _
      · split at h
        · injection h with h; subst h; rw [foot_ub]; exact .ub _
        · rename_i hg ha hm
          injection h with h; subst h
          rw [fr hub]
          have ha : (w.sigs g).alive = true := by simpa using ha
          have hm : (w.sigs g).mutex = none := by simpa using hm
          exact .destroy g _ _ hu hg ha hm rfl (by simp only [userFoot]; rw [if_pos (by simp [ha, hm])]; cases (w.sigs g).list <;> rfl)
    · cases h
  case moveSig g =>
    split at h
    · split at h
      · injection h with h; subst h; rw [foot_ub]; exact .ub _
      · rename_i hg ha
        injection h with h; subst h
        rw [fr hub]
        exact .movStart g hu hg (by simpa using ha)
    · cases h
  case moveAssignSig g g' =>
    split at h
    · injection h with h; subst h; rw [foot_ub]; exact .ub _
    · cases h
  case connect g fn consume conn blk dest =>
    split at h
    · rename_i hg
      injection h with h; subst h
      rw [fr hub]
      exact .connStart g fn consume conn blk dest hu hg.1
    · cases h
  case emit g comb args =>
    split at h
    · injection h with h; subst h
      rw [fr hub]
      exact .quiet _ _ _ no (.push (f := .emit ⟨w.nEm, g, comb, args⟩ .start) hu rfl rfl rfl rfl rfl rfl rfl rfl rfl
        (iff_cons (by simp)))
    · cases h
  case sigDisconnect g tgt =>
    split at h
    · injection h with h; subst h
      rw [fr hub]
      exact .quiet _ _ _ no (.push (f := .erase g tgt .wait) hu rfl rfl rfl rfl rfl rfl rfl rfl rfl (fun _ _ => Iff.rfl))
    · cases h
  case disconnect hd => injection h with h; exact disc rfl rfl rfl rfl rfl rfl rfl rfl h.symm rfl
  case block hd =>
    injection h with h; subst h
    obtain ⟨g1, g2, g3, g4, g5, g6, g7, g8⟩ := @connSetBlocked_fields w (w.hval hd) true
    exact same (flags_of _) g1 g2 g3 g4 g5 g6 g7 g8 rfl
  case unblock hd =>
    injection h with h; subst h
    obtain ⟨g1, g2, g3, g4, g5, g6, g7, g8⟩ := @connSetBlocked_fields w (w.hval hd) false
    exact same (flags_of _) g1 g2 g3 g4 g5 g6 g7 g8 rfl
  case connCopy x hd => injection h with h; subst h; exact same no rfl rfl rfl rfl rfl rfl rfl (fun _ _ => Iff.rfl) rfl
  case connMove x hd =>
    split at h
    · injection h with h; subst h; exact same no rfl rfl rfl rfl rfl rfl rfl (fun _ _ => Iff.rfl) rfl
    · injection h with h; subst h
      cases hd <;> exact same no rfl rfl rfl rfl rfl rfl rfl (fun _ _ => Iff.rfl) rfl
  case scopedMoveAssign x y =>
    split at h
    · injection h with h; exact disc rfl rfl rfl rfl rfl rfl rfl rfl h.symm rfl
    · cases h
  case scopedDtor x =>
    split at h
    · injection h with h; exact disc (w0 := { w with sv := upd w.sv x none }) rfl rfl rfl rfl rfl rfl rfl rfl h.symm rfl
    · cases h
  case blockerOf x hd =>
    split at h
    · injection h with h; subst h
      obtain ⟨g1, g2, g3, g4, g5, g6, g7, g8⟩ := @connSetBlocked_fields { w with bv := upd w.bv x (some (w.hval hd)) } (w.hval hd) true
      exact same (flags_of _) g1 g2 g3 g4 g5 g6 g7 g8 rfl
    · cases h
  case blockerMoveAssign x y =>
    split at h
    · rename_i v v' hx hy
      obtain ⟨g1, g2, g3, g4, g5, g6, g7, g8⟩ := @connSetBlocked_fields w v false
      split at h <;> injection h with h <;> subst h
      · exact same (flags_of _) g1 g2 g3 g4 g5 g6 g7 g8 rfl
      · exact same (flags_of _) g1 g2 g3 g4 g5 g6 g7 g8 rfl
    · cases h
  case blockerDtor x =>
    split at h
    · rename_i v hx
      injection h with h; subst h
      obtain ⟨g1, g2, g3, g4, g5, g6, g7, g8⟩ := @connSetBlocked_fields { w with bv := upd w.bv x none } v false
      exact same (flags_of _) g1 g2 g3 g4 g5 g6 g7 g8 rfl
    · cases h
  case combDeref i =>
    split at h
    · rename_i e g args b pos acc rest hst
      split at h
      · injection h with h; subst h
        rw [fr hub]; simp only [userFoot, hst, topBlk]
        exact .walk _ _ ⟨e, g, .custom, args⟩ b pos acc rest hst
          (Quiet.top (pre := [.emit ⟨e, g, .custom, args⟩ (.iter b pos acc)])
          (st := [.call _ .chkBlocked, .emit ⟨e, g, .custom, args⟩ (.iter b i acc)]) hst
          (by simp [Frame.blk?]) rfl rfl (by rw [hst]; rfl) rfl rfl rfl rfl rfl rfl (iff_cons (by simp)))
      · injection h with h; subst h; rw [foot_ub]; exact .ub _
    · cases h
  case combDone v =>
    split at h
    · rename_i e g args b pos acc rest hst
      have hr : UserStk rest := by have := I.stk t; rw [hst] at this; exact this.tail rfl
      injection h with h; subst h
      rw [fr hub]; simp only [userFoot, hst, topBlk]
      exact .emEnd _ [] [] ⟨e, g, .custom, args⟩ b pos acc rest [.done e v] hst (by simp) (by rw [hst]; rfl) hr rfl (by simp) (.inl rfl)
    · cases h
  case combThrow =>
    split at h
    · rename_i e g args b pos acc rest hst
      have hr : UserStk rest := by have := I.stk t; rw [hst] at this; exact this.tail rfl
      injection h with h; subst h
      rw [fr hub]; simp only [userFoot, hst, topBlk]
      exact .emEnd _ [] [] ⟨e, g, .custom, args⟩ b pos acc rest [.aborted e] hst (by simp) (by rw [hst]; rfl) hr rfl (by simp) (.inl rfl)
    · cases h
  all_goals
    first
      | (injection h with h; subst h; exact same no rfl rfl rfl rfl rfl rfl rfl (fun _ _ => Iff.rfl) rfl)
      | (split at h
         · injection h with h; subst h; exact same no rfl rfl rfl rfl rfl rfl rfl (fun _ _ => Iff.rfl) rfl
         · cases h)

theorem allocFail_foot (hub : w.ub = none) (h : allocFail w t = some w') : StepF E w t w' (foot E w w' (.fail t)) := by
  have fr : w'.ub = none → foot E w w' (.fail t) = failFoot w t := fun h => by simp [foot, h]
  unfold allocFail at h
  split at h
  · rename_i hst
    split at h
    · rename_i b hl
      injection h with h; subst h
      rw [fr hub]; simp only [failFoot, hst, hl]
      exact .fail _ _ _ _ b [.acc (.ptr _) .read] hst rfl hl (.inl rfl)
    · cases h
  · rename_i hst
    split at h
    · rename_i b hl
      injection h with h; subst h
      rw [fr hub]; simp only [failFoot, hst, hl]
      exact .fail _ _ _ _ b [.acc (.idx _) .update] hst rfl hl (.inr ⟨_, _, rfl, rfl⟩)
    · cases h
  · rename_i hst
    split at h
    · rename_i b hl
      injection h with h; subst h
      rw [fr hub]; simp only [failFoot, hst, hl]
      exact .fail _ _ _ _ b [.acc (.ptr _) .read] hst rfl hl (.inl rfl)
    · cases h
  · split at h
    · injection h with h; subst h; rw [foot_ub]; exact .ub _
    · cases h
  · cases h

theorem step_foot {l : Label} (I : Inv1 w) (hs : step E w l = some w') : StepF E w l.tid w' (foot E w w' l) := by
  have hub := step_ub hs
  unfold step at hs
  split at hs
  · cases hs
  · split at hs
    · cases l with
      | run t =>
        simp only [runTop] at hs
        show StepF E w t w' _
        split at hs
        · exact runEmit_foot I hub ‹_› hs
        · exact runCall_foot hub ‹_› hs
        · exact runAdd_foot I hub ‹_› hs
        · exact runErase_foot I hub ‹_› hs
        · exact runDisc_foot I hub ‹_› hs
        · exact runMov_foot hub ‹_› hs
        · cases hs
      | call t a =>
        simp only at hs
        split at hs
        · exact userOp_foot I hub ‹_› hs
        · cases hs
      | ret t v =>
        simp only [userRet] at hs
        show StepF E w t w' _
        split at hs
        · rename_i s o m b pos acc rest hst
          have e : foot E w w' (.ret t v) = [] := by
            show (if _ then _ else _) = _
            split <;> rfl
          rw [e]
          injection hs with hs; subst hs
          have deliv : ∀ (c : Comb) (r : Option Val), ∃ p a, deliver c b pos acc r = .iter b p a := by
            intro c r; cases c <;> exact ⟨_, _, rfl⟩
          obtain ⟨p, a, e⟩ := deliv m.comb (if (w.sigs m.g).isVoid then none else some v)
          rw [e]
          exact .quiet _ _ _ (by simp) (Quiet.top (pre := [.call s (.body o), .emit m (.iter b pos acc)]) (st := [.emit m (.iter b p a)])
            hst (by simp [Frame.blk?]) rfl rfl (by rw [hst]; rfl) rfl rfl rfl rfl rfl rfl (iff_cons (by simp)))
        · cases hs
      | throw t c =>
        simp only [userThrow] at hs
        show StepF E w t w' _
        split at hs
        · rename_i s o m b pos acc rest hst
          have hr : UserStk rest := by have := I.stk t; rw [hst] at this; exact this.callTail
          split at hs
          · rename_i hc
            split at hs
            · injection hs with hs; subst hs
              rw [show foot E w _ (.throw t c) = [] by simp [foot, World.emitEv, World.setStack, hub, hst, topBlk, hc]]
              exact .quiet _ _ _ (by simp) (Quiet.top (pre := [.call s (.body o), .emit m (.iter b pos acc)])
                (st := [.emit m (.iter b pos none)])
                hst (by simp [Frame.blk?]) rfl rfl (by rw [hst]; rfl) rfl rfl rfl rfl rfl rfl (iff_cons (by simp)))
            · cases hs
          · rename_i hc
            injection hs with hs; subst hs
            rw [show ∀ w', w'.ub = none → foot E w w' (.throw t c) = dropFoot w' b by
              intro w' h; simp [foot, h, hst, topBlk, hc]]
            · exact .emEnd _ [] [.call s (.body o)] m b pos acc rest [.aborted m.e, .threw m.e s] hst (by simp [Frame.blk?])
                (by rw [hst]; rfl) hr rfl (by simp) (.inl rfl)
            · exact hub
        · cases hs
      | fail t =>
        simp only at hs
        exact allocFail_foot hub hs
      | ctl t =>
        simp only [ctlFail] at hs
        show StepF E w t w' _
        repeat' split at hs
        all_goals first
          | (cases hs; done)
          | (injection hs with hs; subst hs; rw [foot_ub]; exact .ub _)
    · cases hs

end Verif
