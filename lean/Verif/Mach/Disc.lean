import Verif.Mach.Emis

/-!
# Disconnections in the history; dead objects stay dead
-/

namespace Verif

/-! ### Tracked objects -/

theorem objAlive_iff {w : World} (I : Inv1 w) {o : ObjId} :
    w.objAlive o = true ↔ 0 < w.objs o ∨ ∃ t, ∃ f ∈ w.stacks t, f.obj? = some o := by
  simp only [World.objAlive, World.anyFrame, Bool.or_eq_true, decide_eq_true_eq, List.any_eq_true,
    List.mem_range, beq_iff_eq]
  constructor
  · rintro (h | ⟨t, -, f, hf, h⟩)
    · exact .inl h
    · exact .inr ⟨t, f, hf, h⟩
  · rintro (h | ⟨t, f, hf, h⟩)
    · exact .inl h
    · refine .inr ⟨t, ?_, f, hf, h⟩
      rcases Nat.lt_or_ge t w.nThr with h' | h'
      · exact h'
      · rw [I.thr t h'] at hf; cases hf

theorem dead_of {w w' : World} {t : Tid} {st : List Frame} (I : Inv1 w) (I' : Inv1 w')
    (hs : w'.stacks = upd w.stacks t st) (ho : w'.objs = w.objs)
    (h : ∀ f ∈ st, f ∉ w.stacks t → ∀ o, f.obj? = some o → w.objAlive o = true)
    {o : ObjId} (hd : w.objAlive o = false) : w'.objAlive o = false := by
  rw [← Bool.not_eq_true] at hd ⊢
  intro ha
  rw [objAlive_iff I'] at ha
  rw [ho] at ha
  refine hd ?_
  rcases ha with ha | ⟨t', f, hf, hfo⟩
  · exact (objAlive_iff I).2 (.inl ha)
  · rw [hs, upd_apply] at hf
    split at hf
    · by_cases hm : f ∈ w.stacks t
      · exact (objAlive_iff I).2 (.inr ⟨t, f, hm, hfo⟩)
      · exact h f hf hm o hfo
    · exact (objAlive_iff I).2 (.inr ⟨t', f, hf, hfo⟩)

theorem dead_same {w w' : World} (I : Inv1 w) (I' : Inv1 w')
    (hs : w'.stacks = w.stacks) (ho : w'.objs = w.objs)
    {o : ObjId} (hd : w.objAlive o = false) : w'.objAlive o = false := by
  rw [← Bool.not_eq_true] at hd ⊢
  rw [objAlive_iff I']; rw [objAlive_iff I] at hd
  rw [hs, ho]; exact hd

/-- Once an object has lost its last owner it stays dead. -/
theorem dead_stays {E : Env} {w w' : World} {t : Tid} (I : Inv1 w) (I' : Inv1 w') (h : StepR E w t w')
    {o : ObjId} (hlt : o < w.nObjs) (hd : w.objAlive o = false) : w'.objAlive o = false := by
  have key : ∀ {f f' : Frame} {rest : List Frame}, w.stacks t = f :: rest → f'.obj? = none →
      ∀ x ∈ f' :: rest, x ∉ w.stacks t → ∀ o, x.obj? = some o → w.objAlive o = true := by
    intro f f' rest hst hn x hx hnx o ho
    rcases List.mem_cons.1 hx with rfl | hx
    · rw [hn] at ho; cases ho
    · rw [hst] at hnx; exact absurd (List.mem_cons_of_mem _ hx) hnx
  have pop : ∀ {f : Frame} {rest : List Frame}, w.stacks t = f :: rest →
      ∀ x ∈ rest, x ∉ w.stacks t → ∀ o, x.obj? = some o → w.objAlive o = true := by
    intro f rest hst x hx hnx
    rw [hst] at hnx; exact absurd (List.mem_cons_of_mem _ hx) hnx
  have pop2 : ∀ {f f' : Frame} {rest : List Frame}, w.stacks t = f :: f' :: rest →
      ∀ x ∈ rest, x ∉ w.stacks t → ∀ o, x.obj? = some o → w.objAlive o = true := by
    intro f f' rest hst x hx hnx
    rw [hst] at hnx; exact absurd (List.mem_cons_of_mem _ (List.mem_cons_of_mem _ hx)) hnx
  have push : ∀ {f' : Frame}, f'.obj? = none →
      ∀ x ∈ f' :: w.stacks t, x ∉ w.stacks t → ∀ o, x.obj? = some o → w.objAlive o = true := by
    intro f' hn x hx hnx o ho
    rcases List.mem_cons.1 hx with rfl | hx
    · rw [hn] at ho; cases ho
    · exact absurd hx hnx
  have call : ∀ {f f' : Frame} {m m' : Em} {p p' : EmitPc} {rest : List Frame},
      w.stacks t = f :: .emit m p :: rest → (f'.obj? = none ∨ ∀ o, f'.obj? = some o → w.objAlive o = true) →
      ∀ x ∈ f' :: .emit m' p' :: rest, x ∉ w.stacks t → ∀ o, x.obj? = some o → w.objAlive o = true := by
    intro f f' m m' p p' rest hst hn x hx hnx o ho
    rcases List.mem_cons.1 hx with rfl | hx
    · rcases hn with hn | hn
      · rw [hn] at ho; cases ho
      · exact hn o ho
    · rcases List.mem_cons.1 hx with rfl | hx
      · cases ho
      · rw [hst] at hnx; exact absurd (List.mem_cons_of_mem _ (List.mem_cons_of_mem _ hx)) hnx
  have ret : ∀ {f : Frame} {m m' : Em} {p p' : EmitPc} {rest : List Frame},
      w.stacks t = f :: .emit m p :: rest →
      ∀ x ∈ Frame.emit m' p' :: rest, x ∉ w.stacks t → ∀ o, x.obj? = some o → w.objAlive o = true := by
    intro f m m' p p' rest hst x hx hnx o ho
    rcases List.mem_cons.1 hx with rfl | hx
    · cases ho
    · rw [hst] at hnx; exact absurd (List.mem_cons_of_mem _ (List.mem_cons_of_mem _ hx)) hnx
  cases h
  case objs f n hu hn hdd =>
    have := hdd o hlt hd
    rw [← Bool.not_eq_true] at hd ⊢
    rw [objAlive_iff I']; rw [objAlive_iff I] at hd
    rintro (h | h)
    · simp only at h; omega
    · exact hd (.inr h)
  case movStart g hu hg ha => exact dead_of I I' rfl rfl (push rfl) hd
  case connStart => exact dead_of I I' rfl rfl (push rfl) hd
  case emitStart => exact dead_of I I' rfl rfl (push rfl) hd
  case eraseStart => exact dead_of I I' rfl rfl (push rfl) hd
  case discPush => exact dead_of I I' rfl rfl (push rfl) hd
  case acq f f' rest g hst hf ha hm =>
    refine dead_of I I' rfl rfl (key hst ?_) hd
    unfold Frame.acq at hf; split at hf <;> simp at hf <;> obtain ⟨rfl, rfl⟩ := hf <;> rfl
  case tst f f' rest g b hst hf hl =>
    refine dead_of (t := t) (st := f' :: rest) I I' ?_ ?_ (key hst ?_) hd
    · rfl
    · rfl
    · unfold Frame.tst at hf; split at hf <;> simp at hf <;> obtain ⟨rfl, rfl⟩ := hf <;> rfl
  case det f f' rest g b hst hf hl =>
    refine dead_of (t := t) (st := f' :: rest) I I' ?_ ?_ (key hst ?_) hd
    · rfl
    · rfl
    · unfold Frame.det at hf; split at hf <;> simp at hf <;> obtain ⟨rfl, rfl⟩ := hf <;> rfl
  case emSupp m rest hst ha hb => exact dead_of I I' rfl rfl (pop hst) hd
  case emPass m rest hst ha hb => exact dead_of I I' rfl rfl (key hst rfl) hd
  case emCopy m rest hst => exact dead_of I I' rfl rfl (key hst rfl) hd
  case emSnap m b rest hst => exact dead_of I I' rfl rfl (key hst rfl) hd
  case emCall m b pos pos' acc s rest hst hp hs =>
    refine dead_of I I' rfl rfl ?_ hd
    intro x hx hnx o ho
    rcases List.mem_cons.1 hx with rfl | hx
    · cases ho
    · exact key (f' := .emit m (.iter b pos' acc)) hst rfl x hx hnx o ho
  case emDone m b pos acc r rest hst hp => exact dead_of I I' rfl rfl (pop hst) hd
  case combThrow m b pos acc rest hst hc => exact dead_of I I' rfl rfl (pop hst) hd
  case callUnblk s m b pos acc rest hst hb => exact dead_of I I' rfl rfl (call hst (.inl rfl)) hd
  case callConn s m b pos acc rest hst hc ho => exact dead_of I I' rfl rfl (call hst (.inl rfl)) hd
  case callConnT s m b pos acc rest o hst hc ho => exact dead_of I I' rfl rfl (call hst (.inl rfl)) hd
  case callLock s m b pos acc rest o' hst ho =>
    refine dead_of I I' rfl rfl (call hst (.inr ?_)) hd
    intro x hx; simp [Frame.obj?] at hx; subst hx; exact ho
  case callSkip s pc why m b pos acc rest hst hpc => exact dead_of I I' rfl rfl (ret hst) hd
  case callExpired s o m b pos acc rest hst ho => exact dead_of I I' rfl rfl (ret hst) hd
  case callEnter s pc o m b pos acc rest hst hpc =>
    refine dead_of I I' rfl rfl (call hst (.inr ?_)) hd
    intro x hx; simp [Frame.obj?] at hx; subst hx
    rcases hpc with ⟨-, h⟩ | ⟨y, rfl, h, -⟩
    · cases h
    · injection h with h; subst h
      exact (objAlive_iff I).2 (.inr ⟨t, _, by rw [hst]; exact List.mem_cons_self, rfl⟩)
  case callRet s o v r m b pos acc rest hst hr => exact dead_of I I' rfl rfl (ret hst) hd
  case callCatch s o m b pos acc rest hst hc => exact dead_of I I' rfl rfl (ret hst) hd
  case callThrow s o m b pos acc rest hst => exact dead_of I I' rfl rfl (pop2 hst) hd
  case addWrite g s dest rest b hst hl => exact dead_of I I' rfl rfl (key hst rfl) hd
  case addUnlock g s dest rest cv sv bv hst hs => exact dead_of I I' rfl rfl (pop hst) hd
  case eraseEnd g tgt i cnt rest b hst hl hi => exact dead_of I I' rfl rfl (key hst rfl) hd
  case eraseThrow g tgt i cnt rest b s hst hl hi he => exact dead_of I I' rfl rfl (key hst rfl) hd
  case eraseMiss g tgt i cnt rest b s hst hl hi he => exact dead_of I I' rfl rfl (key hst rfl) hd
  case eraseHit g tgt i cnt rest b s hst hl hi he =>
    obtain ⟨e1, e2, e3, e4, e5, e6, e7, e8, e9, e10, e11, e12, -⟩ := removeAt_same w b i
    refine dead_of (t := t) (st := .erase g tgt (.scan i (cnt + 1)) :: rest) I I' ?_ e12 (key hst rfl) hd
    simp only [World.emitEv, World.setStack, e7]
  case fail f rest g s hst hf => exact dead_of I I' rfl rfl (pop hst) hd
  case eraseUnlock g tgt r rest hst => exact dead_of I I' rfl rfl (pop hst) hd
  case exchTrue s k rest hst hc => exact dead_of I I' rfl rfl (key hst rfl) hd
  case exchFalse s k rest cv sv bv hst hc hs => exact dead_of I I' rfl rfl (pop hst) hd
  case discWrite s v k rest g b hst hl hi =>
    obtain ⟨e1, e2, e3, e4, e5, e6, e7, e8, e9, e10, e11, e12, -⟩ := removeAt_same w b (w.slots s).index
    refine dead_of (t := t) (st := .disc s k (.crit g .unlock) :: rest) I I' ?_ e12 (key hst rfl) hd
    simp only [World.emitEv, World.setStack, e7]
  case discMiss s k rest g b hst hl hi => exact dead_of I I' rfl rfl (key hst rfl) hd
  case discUnlock s k rest g hst => exact dead_of I I' rfl rfl (key hst rfl) hd
  case discDrop s k rest g cv sv bv hst hs => exact dead_of I I' rfl rfl (pop hst) hd
  case movWrite g' g rest hst => exact dead_of I I' rfl rfl (key hst rfl) hd
  case movUnlock g' g rest hst => exact dead_of I I' rfl rfl (pop hst) hd
  all_goals exact dead_same I I' rfl rfl hd

/-! ### Disconnections -/

/-- The listener a running removal works for. -/
def topDisc : List Frame → Option SlotId
  | .disc s _ (.crit _ _) :: _ => some s
  | .disc s _ (.drop _) :: _ => some s
  | _ => none

theorem UserStk.topDisc {st : List Frame} (h : UserStk st) : topDisc st = none := by
  cases h <;> rfl

theorem userCtx_topDisc {st : List Frame} (h : userCtx st = true) : topDisc st = none := by
  unfold userCtx at h; split at h <;> first | rfl | cases h

/-- A successful return of `connection::disconnect` on listener `s`. -/
def Event.discTrue (s : SlotId) : Event → Bool
  | .discRet _ (some s') true => s' = s
  | _ => false

/-- A successful exchange of the flag of listener `s`. -/
def Event.exchTrue (s : SlotId) : Event → Bool
  | .exch s' true => s' = s
  | _ => false

/-- What the history says about a frame. -/
def FrameHist (w : World) : Frame → Prop
  | .add g s _ pc => (∃ c b, Event.created g s c b ∈ w.log) ∧ (pc = .unlock → Event.added g s ∈ w.log)
  | .disc s _ (.crit g _) => Event.exch s true ∈ w.log ∧ g = (w.slots s).owner
  | .disc s _ (.drop g) => Event.exch s true ∈ w.log ∧ g = (w.slots s).owner
  | _ => True

/-- Events without importance for disconnections. -/
def Event.noDisc : Event → Bool
  | .exch _ _ => false
  | .discRet _ (some _) true => false
  | .skip _ _ .expired => false
  | .created _ _ _ _ => false
  | _ => true

structure Inv5 (w : World) : Prop where
  fh : ∀ t, ∀ f ∈ w.stacks t, FrameHist w f
  exlt : ∀ s b, Event.exch s b ∈ w.log → s < w.nSlots
  exple : ∀ s e, Event.skip e s .expired ∈ w.log → s < w.nSlots
  up : ∀ s b, connectedAfter w.log s = true → Event.exch s b ∉ w.log
  upe : ∀ s e, connectedAfter w.log s = true → Event.skip e s .expired ∉ w.log
  ex1 : ∀ s, w.log.countP (Event.exchTrue s) ≤ 1
  td : ∀ t s, topDisc (w.stacks t) = some s → w.log.countP (Event.discTrue s) = 0
  tdu : ∀ t t' s, topDisc (w.stacks t) = some s → topDisc (w.stacks t') = some s → t = t'
  dr : ∀ s, w.log.countP (Event.discTrue s) ≤ w.log.countP (Event.exchTrue s)

theorem Inv5.init (n : Nat) : Inv5 (World.init n) := by
  constructor <;> simp [World.init, connectedAfter, topDisc]

theorem FrameHist.grow {w w' : World} {f : Frame} {evs : List Event} (h : FrameHist w f) (F : Fixed w w')
    (hr : f.inRange w) (hl : w'.log = evs ++ w.log) : FrameHist w' f := by
  unfold FrameHist at h ⊢
  split
  · simp only at h
    obtain ⟨⟨c, b, h1⟩, h2⟩ := h
    rw [hl]
    exact ⟨⟨c, b, List.mem_append_right _ h1⟩, fun e => List.mem_append_right _ (h2 e)⟩
  · simp only at h
    rw [hl, F.owner _ hr.1]
    exact ⟨List.mem_append_right _ h.1, h.2⟩
  · simp only at h
    rw [hl, F.owner _ hr.1]
    exact ⟨List.mem_append_right _ h.1, h.2⟩
  · trivial

theorem exchTrue_mem {log : List Event} {s : SlotId} : 0 < log.countP (Event.exchTrue s) ↔ Event.exch s true ∈ log := by
  rw [List.countP_pos_iff]
  constructor
  · rintro ⟨ev, h, hp⟩
    cases ev <;> simp [Event.exchTrue] at hp
    rename_i s' b
    cases b <;> simp [Event.exchTrue] at hp
    subst hp; exact h
  · intro h; exact ⟨_, h, by simp [Event.exchTrue]⟩

theorem Inv5.quiet {w w' : World} {t : Tid} {st : List Frame} {evs : List Event} (I : Inv1 w) (D : Inv5 w) (F : Fixed w w')
    (hs : w'.stacks = upd w.stacks t st) (hl : w'.log = evs ++ w.log) (hq : ∀ ev ∈ evs, ev.noDisc = true)
    (hf : ∀ f ∈ st, f ∈ w.stacks t ∨ FrameHist w' f)
    (ht : topDisc st = none ∨ topDisc st = topDisc (w.stacks t)) : Inv5 w' := by
  have ca : ∀ s, connectedAfter w'.log s = connectedAfter w.log s := by
    intro s; rw [hl]
    refine connectedAfter_quiet' hq
  have cx : ∀ s, w'.log.countP (Event.exchTrue s) = w.log.countP (Event.exchTrue s) := by
    intro s; rw [hl, List.countP_append, (List.countP_eq_zero (l := evs)).2, Nat.zero_add]
    intro ev hev hp
    have := hq ev hev
    cases ev <;> simp [Event.exchTrue] at hp
    simp [Event.noDisc] at this
  have cd : ∀ s, w'.log.countP (Event.discTrue s) = w.log.countP (Event.discTrue s) := by
    intro s; rw [hl, List.countP_append, (List.countP_eq_zero (l := evs)).2, Nat.zero_add]
    intro ev hev hp
    have := hq ev hev
    cases ev <;> simp [Event.discTrue] at hp
    rename_i t' s' b
    cases s' <;> cases b <;> simp [Event.discTrue] at hp
    simp [Event.noDisc] at this
  have mx : ∀ s b, Event.exch s b ∈ w'.log → Event.exch s b ∈ w.log := by
    intro s b hm; rw [hl] at hm
    rcases List.mem_append.1 hm with hm | hm
    · have := hq _ hm; cases this
    · exact hm
  have me : ∀ s e, Event.skip e s .expired ∈ w'.log → Event.skip e s .expired ∈ w.log := by
    intro s b hm; rw [hl] at hm
    rcases List.mem_append.1 hm with hm | hm
    · have := hq _ hm; cases this
    · exact hm
  have tdd : ∀ t' s, topDisc (w'.stacks t') = some s → topDisc (w.stacks t') = some s := by
    intro t' s h
    rw [hs, upd_apply] at h
    split at h
    · rename_i e; subst e
      rcases ht with ht | ht
      · rw [ht] at h; cases h
      · rw [ht] at h; exact h
    · exact h
  refine ⟨?_, ?_, ?_, ?_, ?_, ?_, ?_, ?_, ?_⟩
  · intro t' f h
    rw [hs, upd_apply] at h
    split at h
    · rcases hf f h with h | h
      · exact (D.fh t f h).grow F (I.rng _ _ h) hl
      · exact h
    · exact (D.fh t' f h).grow F (I.rng _ _ h) hl
  · intro s b hm; have := D.exlt s b (mx s b hm); have := F.nSlots; omega
  · intro s e hm; have := D.exple s e (me s e hm); have := F.nSlots; omega
  · intro s b hc hm; rw [ca] at hc; exact D.up s b hc (mx s b hm)
  · intro s e hc hm; rw [ca] at hc; exact D.upe s e hc (me s e hm)
  · intro s; rw [cx]; exact D.ex1 s
  · intro t' s h; rw [cd]; exact D.td t' s (tdd t' s h)
  · intro t1 t2 s h1 h2; exact D.tdu t1 t2 s (tdd _ _ h1) (tdd _ _ h2)
  · intro s; rw [cx, cd]; exact D.dr s
where
  connectedAfter_quiet' {evs log : List Event} {s : SlotId} (h : ∀ ev ∈ evs, ev.noDisc = true) :
      connectedAfter (evs ++ log) s = connectedAfter log s := by
    induction evs with
    | nil => rfl
    | cons ev evs ih =>
      have ih := ih fun x hx => h x (List.mem_cons_of_mem _ hx)
      have hev := h ev (by simp)
      cases ev <;> simp [Event.noDisc] at hev <;> try exact ih
      rename_i e s' why
      cases why <;> simp at hev <;> exact ih

theorem Inv5.step {E : Env} {w w' : World} {t : Tid} (I : Inv1 w) (K : Inv4 w) (D : Inv5 w)
    (h : StepR E w t w') : Inv5 w' := by
  have F := fixed h
  have hok := I.stk t
  have hrng := I.rng t
  have hself : w.stacks = upd w.stacks t (w.stacks t) := (upd_self _ _).symm
  have keep : ∀ f ∈ w.stacks t, f ∈ w.stacks t ∨ FrameHist w' f := fun f hf => .inl hf
  have key : ∀ {f f' : Frame} {rest : List Frame}, w.stacks t = f :: rest → FrameHist w' f' →
      ∀ x ∈ f' :: rest, x ∈ w.stacks t ∨ FrameHist w' x := by
    intro f f' rest hst hh x hx
    rcases List.mem_cons.1 hx with rfl | hx
    · exact .inr hh
    · rw [hst]; exact .inl (List.mem_cons_of_mem _ hx)
  have push : ∀ {f' : Frame}, FrameHist w' f' → ∀ x ∈ f' :: w.stacks t, x ∈ w.stacks t ∨ FrameHist w' x := by
    intro f' hh x hx
    rcases List.mem_cons.1 hx with rfl | hx
    · exact .inr hh
    · exact .inl hx
  have pop : ∀ {f : Frame} {rest : List Frame}, w.stacks t = f :: rest →
      ∀ x ∈ rest, x ∈ w.stacks t ∨ FrameHist w' x := by
    intro f rest hst x hx
    rw [hst]; exact .inl (List.mem_cons_of_mem _ hx)
  have pop2 : ∀ {f f' : Frame} {rest : List Frame}, w.stacks t = f :: f' :: rest →
      ∀ x ∈ rest, x ∈ w.stacks t ∨ FrameHist w' x := by
    intro f f' rest hst x hx
    rw [hst]; exact .inl (List.mem_cons_of_mem _ (List.mem_cons_of_mem _ hx))
  have call : ∀ {f f' : Frame} {s : SlotId} {p : CallPc} {m' : Em} {p' : EmitPc} {rest : List Frame},
      w.stacks t = f :: f' :: rest →
      ∀ x ∈ Frame.call s p :: .emit m' p' :: rest, x ∈ w.stacks t ∨ FrameHist w' x := by
    intro f f' s p m' p' rest hst x hx
    rcases List.mem_cons.1 hx with rfl | hx
    · exact .inr trivial
    · rcases List.mem_cons.1 hx with rfl | hx
      · exact .inr trivial
      · exact pop2 hst x hx
  have ret : ∀ {f f' : Frame} {m' : Em} {p' : EmitPc} {rest : List Frame},
      w.stacks t = f :: f' :: rest →
      ∀ x ∈ Frame.emit m' p' :: rest, x ∈ w.stacks t ∨ FrameHist w' x := by
    intro f f' m' p' rest hst x hx
    rcases List.mem_cons.1 hx with rfl | hx
    · exact .inr trivial
    · exact pop2 hst x hx
  have n0 : ∀ ev ∈ ([] : List Event), ev.noDisc = true := by simp
  have n1 : ∀ ev : Event, ev.noDisc = true → ∀ x ∈ [ev], x.noDisc = true := by simp
  cases h
  case ub => exact D.quiet I F hself (evs := []) rfl n0 keep (.inr rfl)
  case hand => exact D.quiet I F hself (evs := []) rfl n0 keep (.inr rfl)
  case flag => exact D.quiet I F hself (evs := [_]) rfl (n1 _ rfl) keep (.inr rfl)
  case objs => exact D.quiet I F hself (evs := []) rfl n0 keep (.inr rfl)
  case pins => exact D.quiet I F hself (evs := []) rfl n0 keep (.inr rfl)
  case newSig => exact D.quiet I F hself (evs := []) rfl n0 keep (.inr rfl)
  case destroy => exact D.quiet I F hself (evs := [_]) rfl (n1 _ rfl) keep (.inr rfl)
  case movStart => exact D.quiet I F rfl (evs := []) rfl n0 (push trivial) (.inl rfl)
  case connStart g fn consume conn blk dest hu hg ho =>
    have nx : ∀ b, Event.exch w.nSlots b ∉ w.log := fun b hm => by have := D.exlt _ _ hm; omega
    have ne : ∀ e, Event.skip e w.nSlots .expired ∉ w.log := fun b hm => by have := D.exple _ _ hm; omega
    have tdd : ∀ t' s, topDisc (upd w.stacks t (.add g w.nSlots dest .wait :: w.stacks t) t') = some s →
        topDisc (w.stacks t') = some s := by
      intro t' s h
      rw [upd_apply] at h
      split at h
      · cases h
      · exact h
    refine ⟨?_, ?_, ?_, ?_, ?_, ?_, ?_, ?_, ?_⟩
    · intro t' f hf
      simp only [World.emitEv, World.setStack, upd_apply] at hf
      split at hf
      · rcases List.mem_cons.1 hf with rfl | hf
        · refine ⟨⟨conn, blk, ?_⟩, by simp⟩
          simp [World.emitEv]
        · exact (D.fh _ _ hf).grow F (I.rng _ _ hf) (evs := [_]) rfl
      · exact (D.fh _ _ hf).grow F (I.rng _ _ hf) (evs := [_]) rfl
    · intro s b hm; simp [World.emitEv, World.setStack] at hm ⊢
      have := D.exlt s b hm; omega
    · intro s b hm; simp [World.emitEv, World.setStack] at hm ⊢
      have := D.exple s b hm; omega
    · intro s b hc hm
      simp [World.emitEv, World.setStack] at hm
      simp only [World.emitEv, World.setStack, connectedAfter] at hc
      split at hc
      · rename_i e; subst e; exact nx b hm
      · exact D.up s b hc hm
    · intro s b hc hm
      simp [World.emitEv, World.setStack] at hm
      simp only [World.emitEv, World.setStack, connectedAfter] at hc
      split at hc
      · rename_i e; subst e; exact ne b hm
      · exact D.upe s b hc hm
    · intro s; simp [World.emitEv, World.setStack, List.countP_cons, Event.exchTrue]; exact D.ex1 s
    · intro t' s h
      simp only [World.emitEv, World.setStack, List.countP_cons, Event.discTrue]
      simpa using D.td t' s (tdd t' s h)
    · intro t1 t2 s h1 h2; exact D.tdu t1 t2 s (tdd _ _ h1) (tdd _ _ h2)
    · intro s; simp [World.emitEv, World.setStack, List.countP_cons, Event.exchTrue, Event.discTrue]; exact D.dr s
  case emitStart => exact D.quiet I F rfl (evs := [_]) rfl (n1 _ rfl) (push trivial) (.inl rfl)
  case eraseStart => exact D.quiet I F rfl (evs := []) rfl n0 (push trivial) (.inl rfl)
  case discPush => exact D.quiet I F rfl (evs := []) rfl n0 (push trivial) (.inl rfl)
  case discFail h' cv sv bv hu hs =>
    refine D.quiet I F hself (evs := [_]) rfl (n1 _ ?_) keep (.inr rfl)
    cases h' <;> rfl
  case acq f f' rest g hst hf ha hm =>
    have hh := D.fh t f (by rw [hst]; simp)
    refine D.quiet I F rfl (evs := []) rfl n0 (key hst ?_) ?_
    · unfold Frame.acq at hf; split at hf <;> simp at hf <;> obtain ⟨rfl, rfl⟩ := hf <;> first | trivial | exact hh | exact ⟨hh.1, by simp⟩
    · rw [hst]
      unfold Frame.acq at hf; split at hf <;> simp at hf <;> obtain ⟨rfl, rfl⟩ := hf <;> first | exact .inl rfl | exact .inr rfl
  case tst f f' rest g b hst hf hl =>
    have hh := D.fh t f (by rw [hst]; simp)
    refine D.quiet (t := t) (st := f' :: rest) I F ?_ (evs := []) ?_ n0 (key hst ?_) ?_
    · rfl
    · rfl
    · have hr := hrng f (by rw [hst]; simp)
      unfold Frame.tst at hf; split at hf <;> simp at hf <;> obtain ⟨rfl, rfl⟩ := hf <;> first | trivial | skip
      all_goals first | exact ⟨hh.1, fun h => by split at h <;> cases h⟩ | exact ⟨hh.1, hh.2.trans (F.owner _ hr.1).symm⟩
    · rw [hst]
      unfold Frame.tst at hf; split at hf <;> simp at hf <;> obtain ⟨rfl, rfl⟩ := hf <;> first | exact .inl rfl | exact .inr rfl
  case det f f' rest g b hst hf hl =>
    have hh := D.fh t f (by rw [hst]; simp)
    refine D.quiet (t := t) (st := f' :: rest) I F ?_ (evs := []) ?_ n0 (key hst ?_) ?_
    · rfl
    · rfl
    · have hr := hrng f (by rw [hst]; simp)
      unfold Frame.det at hf; split at hf <;> simp at hf <;> obtain ⟨rfl, rfl⟩ := hf <;> first | trivial | skip
      all_goals first | exact ⟨hh.1, by simp⟩ | exact ⟨hh.1, hh.2.trans (F.owner _ hr.1).symm⟩
    · rw [hst]
      unfold Frame.det at hf; split at hf <;> simp at hf <;> obtain ⟨rfl, rfl⟩ := hf <;> first | exact .inl rfl | exact .inr rfl
  case emSupp m rest hst ha hb =>
    rw [hst] at hok
    exact D.quiet I F rfl (evs := [_]) rfl (n1 _ rfl) (pop hst) (.inl (hok.tail rfl).topDisc)
  case emPass m rest hst ha hb => exact D.quiet I F rfl (evs := []) rfl n0 (key hst trivial) (.inl rfl)
  case emCopy m rest hst => exact D.quiet I F rfl (evs := []) rfl n0 (key hst trivial) (.inl rfl)
  case emSnap m b rest hst => exact D.quiet I F rfl (evs := [_]) rfl (n1 _ rfl) (key hst trivial) (.inl rfl)
  case emCall m b pos pos' acc s rest hst hp hs =>
    refine D.quiet I F rfl (evs := [_]) rfl (n1 _ rfl) ?_ (.inl rfl)
    intro x hx
    rcases List.mem_cons.1 hx with rfl | hx
    · exact .inr trivial
    · exact key (f' := .emit m (.iter b pos' acc)) hst trivial x hx
  case emDone m b pos acc r rest hst hp =>
    rw [hst] at hok
    exact D.quiet I F rfl (evs := [_]) rfl (n1 _ rfl) (pop hst) (.inl (hok.tail rfl).topDisc)
  case combThrow m b pos acc rest hst hc =>
    rw [hst] at hok
    exact D.quiet I F rfl (evs := [_]) rfl (n1 _ rfl) (pop hst) (.inl (hok.tail rfl).topDisc)
  case callUnblk s m b pos acc rest hst hb => exact D.quiet I F rfl (evs := []) rfl n0 (call hst) (.inl rfl)
  case callConn s m b pos acc rest hst hc ho => exact D.quiet I F rfl (evs := []) rfl n0 (call hst) (.inl rfl)
  case callConnT s m b pos acc rest o hst hc ho => exact D.quiet I F rfl (evs := []) rfl n0 (call hst) (.inl rfl)
  case callLock s m b pos acc rest o' hst ho => exact D.quiet I F rfl (evs := []) rfl n0 (call hst) (.inl rfl)
  case callSkip s pc why m b pos acc rest hst hpc =>
    refine D.quiet I F rfl (evs := [_]) rfl (n1 _ ?_) (ret hst) (.inl rfl)
    rcases hpc with ⟨-, rfl, -⟩ | ⟨-, rfl, -⟩ | ⟨_, -, rfl, -⟩ <;> rfl
  case callExpired s o m b pos acc rest hst ho =>
    have hlt : s < w.nSlots := hrng (.call s (.lockObj o)) (by rw [hst]; simp)
    rw [hst] at hok
    have tdd : ∀ t' s', topDisc (upd w.stacks t (.emit m (deliver m.comb b pos acc none) :: rest) t') = some s' →
        topDisc (w.stacks t') = some s' := by
      intro t' s h
      rw [upd_apply] at h
      split at h
      · cases h
      · exact h
    refine ⟨?_, ?_, ?_, ?_, ?_, ?_, ?_, ?_, ?_⟩
    · intro t' f hf
      simp only [World.emitEv, World.setStack, World.setConnected, upd_apply] at hf
      split at hf
      · rcases ret hst f hf with h | h
        · exact (D.fh _ _ h).grow F (I.rng _ _ h) (evs := [_]) rfl
        · exact h
      · exact (D.fh _ _ hf).grow F (I.rng _ _ hf) (evs := [_]) rfl
    · intro s b hm; simp [World.emitEv, World.setStack, World.setConnected] at hm ⊢
      exact D.exlt s b hm
    · intro s' e hm; simp [World.emitEv, World.setStack, World.setConnected] at hm ⊢
      rcases hm with ⟨-, rfl⟩ | hm
      · exact hlt
      · exact D.exple s' e hm
    · intro s' b hc hm
      simp [World.emitEv, World.setStack, World.setConnected] at hm
      simp only [World.emitEv, World.setStack, World.setConnected, connectedAfter] at hc
      split at hc
      · cases hc
      · exact D.up s' b hc hm
    · intro s' e hc hm
      simp [World.emitEv, World.setStack, World.setConnected] at hm
      simp only [World.emitEv, World.setStack, World.setConnected, connectedAfter] at hc
      split at hc
      · cases hc
      · rename_i n
        rcases hm with ⟨-, rfl⟩ | hm
        · exact n rfl
        · exact D.upe s' e hc hm
    · intro s; simp [World.emitEv, World.setStack, World.setConnected, List.countP_cons, Event.exchTrue]; exact D.ex1 s
    · intro t' s h
      simp only [World.emitEv, World.setStack, World.setConnected, List.countP_cons, Event.discTrue]
      simpa using D.td t' s (tdd t' s h)
    · intro t1 t2 s h1 h2; exact D.tdu t1 t2 s (tdd _ _ h1) (tdd _ _ h2)
    · intro s; simp [World.emitEv, World.setStack, World.setConnected, List.countP_cons, Event.exchTrue, Event.discTrue]; exact D.dr s
  case callEnter s pc o m b pos acc rest hst hpc => exact D.quiet I F rfl (evs := [_]) rfl (n1 _ rfl) (call hst) (.inl rfl)
  case callRet s o v r m b pos acc rest hst hr => exact D.quiet I F rfl (evs := [_]) rfl (n1 _ rfl) (ret hst) (.inl rfl)
  case callCatch s o m b pos acc rest hst hc => exact D.quiet I F rfl (evs := [_]) rfl (n1 _ rfl) (ret hst) (.inl rfl)
  case callThrow s o m b pos acc rest hst =>
    rw [hst] at hok
    exact D.quiet I F rfl (evs := [_, _]) rfl (by simp [Event.noDisc]) (pop2 hst) (.inl hok.callTail.topDisc)
  case addWrite g s dest rest b hst hl =>
    have hh := D.fh t _ (by rw [hst]; exact List.mem_cons_self)
    refine D.quiet I F rfl (evs := [_]) rfl (n1 _ rfl) (key hst ?_) (.inl rfl)
    obtain ⟨⟨c, b', h1⟩, -⟩ := hh
    exact ⟨⟨c, b', List.mem_cons_of_mem _ h1⟩, fun _ => List.mem_cons_self⟩
  case addUnlock g s dest rest cv sv bv hst hs =>
    rw [hst] at hok
    exact D.quiet I F rfl (evs := [_]) rfl (n1 _ rfl) (pop hst) (.inl (hok.tail rfl).topDisc)
  case eraseEnd g tgt i cnt rest b hst hl hi => exact D.quiet I F rfl (evs := []) rfl n0 (key hst trivial) (.inl rfl)
  case eraseThrow g tgt i cnt rest b s hst hl hi he => exact D.quiet I F rfl (evs := []) rfl n0 (key hst trivial) (.inl rfl)
  case eraseMiss g tgt i cnt rest b s hst hl hi he => exact D.quiet I F rfl (evs := []) rfl n0 (key hst trivial) (.inl rfl)
  case eraseHit g tgt i cnt rest b s hst hl hi he =>
    obtain ⟨e1, e2, e3, e4, e5, e6, e7, e8, e9, e10, e11, e12, -⟩ := removeAt_same w b i
    refine D.quiet (t := t) (st := .erase g tgt (.scan i (cnt + 1)) :: rest) I F ?_ (evs := [.erased g s]) ?_ (n1 _ rfl) (key hst trivial) (.inl rfl)
    · simp only [World.emitEv, World.setStack, e7]
    · simp only [World.emitEv, World.setStack, e11]; rfl
  case fail f rest g s hst hf =>
    rw [hst] at hok
    exact D.quiet I F rfl (evs := [_]) rfl (n1 _ rfl) (pop hst) (.inl (hok.tail (Frame.allocs_isCall hf)).topDisc)
  case eraseUnlock g tgt r rest hst =>
    rw [hst] at hok
    exact D.quiet I F rfl (evs := [_]) rfl (n1 _ rfl) (pop hst) (.inl (hok.tail rfl).topDisc)
  case exchTrue s k rest hst hc =>
    have hlt : s < w.nSlots := (hrng (.disc s k .exch) (by rw [hst]; simp)).1
    have hca : connectedAfter w.log s = true := by rw [← K.con s hlt]; exact hc
    have nx := D.up s true hca
    have cx : w.log.countP (Event.exchTrue s) = 0 := by
      rcases Nat.eq_zero_or_pos (w.log.countP (Event.exchTrue s)) with h | h
      · exact h
      · exact absurd (exchTrue_mem.1 h) nx
    have cd : w.log.countP (Event.discTrue s) = 0 := by have := D.dr s; omega
    have tn : ∀ t', topDisc (w.stacks t') ≠ some s := by
      intro t' h
      unfold topDisc at h
      split at h
      · rename_i s' k' g' pc' rest' e
        simp at h; subst h
        exact nx (D.fh t' (.disc s' k' (.crit g' pc')) (by rw [e]; simp)).1
      · rename_i s' k' g' rest' e
        simp at h; subst h
        exact nx (D.fh t' (.disc s' k' (.drop g')) (by rw [e]; simp)).1
      · cases h
    have tdd : ∀ t' s', topDisc (upd w.stacks t (.disc s k (.crit (w.slots s).owner .wait) :: rest) t') = some s' →
        (t' = t ∧ s' = s) ∨ (topDisc (w.stacks t') = some s') := by
      intro t' s' h
      rw [upd_apply] at h
      split at h
      · rename_i e; simp [topDisc] at h; exact .inl ⟨e, h.symm⟩
      · exact .inr h
    refine ⟨?_, ?_, ?_, ?_, ?_, ?_, ?_, ?_, ?_⟩
    · intro t' f hf
      simp only [World.emitEv, World.setStack, World.setConnected, upd_apply] at hf
      split at hf
      · rcases List.mem_cons.1 hf with rfl | hf
        · refine ⟨List.mem_cons_self, ?_⟩
          exact (F.owner s hlt).symm
        · have h : f ∈ w.stacks t := by rw [hst]; exact List.mem_cons_of_mem _ hf
          exact (D.fh _ _ h).grow F (I.rng _ _ h) (evs := [_]) rfl
      · exact (D.fh _ _ hf).grow F (I.rng _ _ hf) (evs := [_]) rfl
    · intro s' b hm; simp [World.emitEv, World.setStack, World.setConnected] at hm ⊢
      rcases hm with ⟨rfl, -⟩ | hm
      · exact hlt
      · exact D.exlt s' b hm
    · intro s' e hm; simp [World.emitEv, World.setStack, World.setConnected] at hm ⊢
      exact D.exple s' e hm
    · intro s' b hc hm
      simp [World.emitEv, World.setStack, World.setConnected] at hm
      simp only [World.emitEv, World.setStack, World.setConnected, connectedAfter] at hc
      split at hc
      · cases hc
      · rename_i n
        rcases hm with ⟨rfl, -⟩ | hm
        · exact n rfl
        · exact D.up s' b hc hm
    · intro s' e hc hm
      simp [World.emitEv, World.setStack, World.setConnected] at hm
      simp only [World.emitEv, World.setStack, World.setConnected, connectedAfter] at hc
      split at hc
      · cases hc
      · exact D.upe s' e hc hm
    · intro s'
      simp only [World.emitEv, World.setStack, World.setConnected, List.countP_cons, Event.exchTrue]
      have := D.ex1 s'
      by_cases e : s = s'
      · subst e; simp [cx]
      · simp [e]; exact this
    · intro t' s' h
      simp only [World.emitEv, World.setStack, World.setConnected, List.countP_cons, Event.discTrue]
      rcases tdd t' s' h with ⟨-, rfl⟩ | h
      · simp [cd]
      · simpa using D.td t' s' h
    · intro t1 t2 s' h1 h2
      rcases tdd _ _ h1 with ⟨rfl, rfl⟩ | h1' <;> rcases tdd _ _ h2 with ⟨rfl, e⟩ | h2'
      · rfl
      · exact absurd h2' (tn _)
      · subst e; exact absurd h1' (tn _)
      · exact D.tdu _ _ _ h1' h2'
    · intro s'
      simp only [World.emitEv, World.setStack, World.setConnected, List.countP_cons, Event.exchTrue, Event.discTrue]
      have := D.dr s'
      simp; omega
  case exchFalse s k rest cv sv bv hst hc hs =>
    have hlt : s < w.nSlots := (hrng (.disc s k .exch) (by rw [hst]; simp)).1
    rw [hst] at hok
    have tdd : ∀ t' s', topDisc (upd w.stacks t rest t') = some s' → topDisc (w.stacks t') = some s' := by
      intro t' s' h
      rw [upd_apply] at h
      split at h
      · rw [(hok.tail rfl).topDisc] at h; cases h
      · exact h
    refine ⟨?_, ?_, ?_, ?_, ?_, ?_, ?_, ?_, ?_⟩
    · intro t' f hf
      simp only [World.emitEv, World.setStack, World.setH, upd_apply] at hf
      split at hf
      · have h : f ∈ w.stacks t := by rw [hst]; exact List.mem_cons_of_mem _ hf
        exact (D.fh _ _ h).grow F (I.rng _ _ h) (evs := [_, _]) rfl
      · exact (D.fh _ _ hf).grow F (I.rng _ _ hf) (evs := [_, _]) rfl
    · intro s' b hm; simp [World.emitEv, World.setStack, World.setH] at hm ⊢
      rcases hm with ⟨rfl, -⟩ | hm
      · exact hlt
      · exact D.exlt s' b hm
    · intro s' e hm; simp [World.emitEv, World.setStack, World.setH] at hm ⊢
      exact D.exple s' e hm
    · intro s' b hc hm
      simp [World.emitEv, World.setStack, World.setH] at hm
      simp only [World.emitEv, World.setStack, World.setH, connectedAfter] at hc
      split at hc
      · cases hc
      · rename_i n
        rcases hm with ⟨rfl, -⟩ | hm
        · exact n rfl
        · exact D.up s' b hc hm
    · intro s' e hc hm
      simp [World.emitEv, World.setStack, World.setH] at hm
      simp only [World.emitEv, World.setStack, World.setH, connectedAfter] at hc
      split at hc
      · cases hc
      · exact D.upe s' e hc hm
    · intro s'
      simp [World.emitEv, World.setStack, World.setH, List.countP_cons, Event.exchTrue]
      exact D.ex1 s'
    · intro t' s' h
      simp only [World.emitEv, World.setStack, World.setH, List.countP_cons, Event.discTrue]
      simpa using D.td t' s' (tdd _ _ h)
    · intro t1 t2 s' h1 h2
      exact D.tdu _ _ _ (tdd _ _ h1) (tdd _ _ h2)
    · intro s'
      simp [World.emitEv, World.setStack, World.setH, List.countP_cons, Event.exchTrue, Event.discTrue]
      exact D.dr s'
  case discWrite s v k rest g b hst hl hi =>
    obtain ⟨e1, e2, e3, e4, e5, e6, e7, e8, e9, e10, e11, e12, -⟩ := removeAt_same w b (w.slots s).index
    have hh := D.fh t _ (by rw [hst]; exact List.mem_cons_self)
    have hr := hrng _ (by rw [hst]; exact List.mem_cons_self)
    refine D.quiet (t := t) (st := .disc s k (.crit g .unlock) :: rest) I F ?_ (evs := [.removed g s v]) ?_ (n1 _ rfl) (key hst ?_) (.inr (by rw [hst]; rfl))
    · simp only [World.emitEv, World.setStack, e7]
    · simp only [World.emitEv, World.setStack, e11]; rfl
    · refine ⟨?_, ?_⟩
      · simp only [World.emitEv, World.setStack, e11]; exact List.mem_cons_of_mem _ hh.1
      · rw [hh.2]; exact (F.owner s hr.1).symm
  case discMiss s k rest g b hst hl hi =>
    have hh := D.fh t _ (by rw [hst]; exact List.mem_cons_self)
    exact D.quiet I F rfl (evs := []) rfl n0 (key hst hh) (.inr (by rw [hst]; rfl))
  case discUnlock s k rest g hst =>
    have hh := D.fh t _ (by rw [hst]; exact List.mem_cons_self)
    exact D.quiet I F rfl (evs := []) rfl n0 (key hst hh) (.inr (by rw [hst]; rfl))
  case discDrop s k rest g cv sv bv hst hs =>
    have hh := D.fh t _ (by rw [hst]; exact List.mem_cons_self)
    have ht := D.td t s (by rw [hst]; rfl)
    rw [hst] at hok
    have tdd : ∀ t' s', topDisc (upd w.stacks t rest t') = some s' →
        topDisc (w.stacks t') = some s' ∧ s' ≠ s := by
      intro t' s' h
      rw [upd_apply] at h
      split at h
      · rw [(hok.tail rfl).topDisc] at h; cases h
      · rename_i n
        refine ⟨h, ?_⟩
        rintro rfl
        exact n (D.tdu _ _ _ h (by rw [hst]; rfl))
    have ca : ∀ s', connectedAfter (.discRet t (some s) true :: w.log) s' = connectedAfter w.log s' := fun _ => rfl
    refine ⟨?_, ?_, ?_, ?_, ?_, ?_, ?_, ?_, ?_⟩
    · intro t' f hf
      simp only [World.emitEv, World.setStack, World.setH, World.setMutex, upd_apply] at hf
      split at hf
      · have h : f ∈ w.stacks t := by rw [hst]; exact List.mem_cons_of_mem _ hf
        exact (D.fh _ _ h).grow F (I.rng _ _ h) (evs := [_]) rfl
      · exact (D.fh _ _ hf).grow F (I.rng _ _ hf) (evs := [_]) rfl
    · intro s' b hm; simp [World.emitEv, World.setStack, World.setH, World.setMutex] at hm ⊢
      exact D.exlt s' b hm
    · intro s' e hm; simp [World.emitEv, World.setStack, World.setH, World.setMutex] at hm ⊢
      exact D.exple s' e hm
    · intro s' b hc hm
      simp [World.emitEv, World.setStack, World.setH, World.setMutex] at hm
      exact D.up s' b hc hm
    · intro s' e hc hm
      simp [World.emitEv, World.setStack, World.setH, World.setMutex] at hm
      exact D.upe s' e hc hm
    · intro s'
      simp [World.emitEv, World.setStack, World.setH, World.setMutex, List.countP_cons, Event.exchTrue]
      exact D.ex1 s'
    · intro t' s' h
      obtain ⟨h1, h2⟩ := tdd _ _ h
      simp only [World.emitEv, World.setStack, World.setH, World.setMutex, List.countP_cons, Event.discTrue]
      rw [D.td t' s' h1]; simp; exact fun h => h2 h.symm
    · intro t1 t2 s' h1 h2
      exact D.tdu _ _ _ (tdd _ _ h1).1 (tdd _ _ h2).1
    · intro s'
      simp only [World.emitEv, World.setStack, World.setH, World.setMutex, List.countP_cons, Event.exchTrue, Event.discTrue]
      have := D.dr s'
      by_cases e : s = s'
      · subst e
        have := exchTrue_mem.2 hh.1
        simp; omega
      · simp [e]; exact this
  case movWrite g' g rest hst => exact D.quiet I F rfl (evs := [_]) rfl (n1 _ rfl) (key hst trivial) (.inl rfl)
  case movUnlock g' g rest hst =>
    rw [hst] at hok
    exact D.quiet I F rfl (evs := []) rfl n0 (pop hst) (.inl (hok.tail rfl).topDisc)

end Verif
