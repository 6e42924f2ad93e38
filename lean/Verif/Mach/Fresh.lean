import Verif.Mach.Erase

/-!
# Who can reach a listener; listeners that `connect` has not handed out yet
-/

namespace Verif

/-- Listener a frame operates on. -/
def Frame.who : Frame → Option SlotId
  | .disc s _ _ => some s
  | .call s _ => some s
  | _ => none

/-- Thread `t` can get at listener `s`: by a handle, a running operation, or a snapshot. -/
def Reach (w : World) (t : Tid) (s : SlotId) : Prop :=
  w.held s ∨ ∃ f ∈ w.stacks t, f.who = some s ∨ ∃ b, f.blk? = some b ∧ s ∈ w.blks b

def Touched (w : World) (s : SlotId) : Prop := ∃ t, Reach w t s

/-- Events that concern the flags of listener `s`. -/
def Event.flagEv (s : SlotId) : Event → Bool
  | .exch s' _ => s' = s
  | .blockSet s' _ => s' = s
  | .skip _ s' _ => s' = s
  | _ => false

theorem Touched.lt {w : World} (I : Inv1 w) {s : SlotId} (h : Touched w s) : s < w.nSlots := by
  obtain ⟨t, h | ⟨f, hf, h⟩⟩ := h
  · exact I.hld s h
  · rcases h with h | ⟨b, -, h⟩
    · have := I.rng t f hf
      cases f <;> simp [Frame.who] at h <;> subst h
      · exact this
      · exact this.1
    · exact I.blk b s h

/-- Frames of the stepping thread only operate on listeners it could get at. -/
theorem who_from {E : Env} {w w' : World} {t : Tid} (h : StepR E w t w') :
    ∀ f' ∈ w'.stacks t, ∀ s, f'.who = some s → Reach w t s := by
  have self : ∀ f' ∈ w.stacks t, ∀ s, f'.who = some s → Reach w t s :=
    fun f hf s hs => .inr ⟨f, hf, .inl hs⟩
  have tl : ∀ {f : Frame} {rest : List Frame}, w.stacks t = f :: rest →
      ∀ f' ∈ rest, ∀ s, f'.who = some s → Reach w t s :=
    fun hst f hf => self f (by rw [hst]; exact List.mem_cons_of_mem _ hf)
  have tl2 : ∀ {f g : Frame} {rest : List Frame}, w.stacks t = f :: g :: rest →
      ∀ f' ∈ rest, ∀ s, f'.who = some s → Reach w t s :=
    fun hst f hf => self f (by rw [hst]; exact List.mem_cons_of_mem _ (List.mem_cons_of_mem _ hf))
  have cons : ∀ {f : Frame} {rest : List Frame}, (∀ s, f.who = some s → Reach w t s) →
      (∀ f' ∈ rest, ∀ s, f'.who = some s → Reach w t s) →
      ∀ f' ∈ f :: rest, ∀ s, f'.who = some s → Reach w t s := by
    intro f rest h1 h2 f' hf'
    rcases List.mem_cons.1 hf' with rfl | h
    · exact h1
    · exact h2 _ h
  have no : ∀ {f : Frame}, f.who = none → ∀ s, f.who = some s → Reach w t s := by
    intro f h s hs; rw [h] at hs; cases hs
  have sub : ∀ {f f' : Frame}, f ∈ w.stacks t → (f'.who = none ∨ f'.who = f.who) →
      ∀ s, f'.who = some s → Reach w t s := by
    intro f f' hf h1 s hs
    rcases h1 with h1 | h1
    · rw [h1] at hs; cases hs
    · exact .inr ⟨f, hf, .inl (h1 ▸ hs)⟩
  have hd : ∀ {f : Frame} {rest : List Frame}, w.stacks t = f :: rest → f ∈ w.stacks t :=
    fun hst => by rw [hst]; exact List.mem_cons_self
  have top : ∀ {st : List Frame} {x : World}, x.stacks t = st →
      (∀ f' ∈ st, ∀ s, f'.who = some s → Reach w t s) →
      ∀ f' ∈ x.stacks t, ∀ s, f'.who = some s → Reach w t s := fun e h => e ▸ h
  cases h
  case movStart g hu hg ha => exact top (upd_same _ _ _) (cons (no rfl) self)
  case connStart => exact top (upd_same _ _ _) (cons (no rfl) self)
  case emitStart => exact top (upd_same _ _ _) (cons (no rfl) self)
  case eraseStart => exact top (upd_same _ _ _) (cons (no rfl) self)
  case discPush s k cv sv bv hu hs hh ha =>
    exact top (upd_same _ _ _) (cons (fun s' hs' => by cases hs'; exact .inl hh) self)
  case acq f f' rest g hst hf ha hm =>
    refine top (upd_same _ _ _) (cons (sub (hd hst) ?_) (tl hst))
    unfold Frame.acq at hf; split at hf <;> simp at hf <;> obtain ⟨rfl, rfl⟩ := hf <;> simp [Frame.who]
  case tst f f' rest g b hst hf hl =>
    refine top (st := f' :: rest) ?_ (cons (sub (hd hst) ?_) (tl hst))
    · exact upd_same _ _ _
    · unfold Frame.tst at hf; split at hf <;> simp at hf <;> obtain ⟨rfl, rfl⟩ := hf <;> simp [Frame.who]
  case det f f' rest g b hst hf hl =>
    refine top (st := f' :: rest) ?_ (cons (sub (hd hst) ?_) (tl hst))
    · exact upd_same _ _ _
    · unfold Frame.det at hf; split at hf <;> simp at hf <;> obtain ⟨rfl, rfl⟩ := hf <;> simp [Frame.who]
  case emSupp m rest hst ha hb => exact top (upd_same _ _ _) (tl hst)
  case emPass m rest hst ha hb => exact top (upd_same _ _ _) (cons (no rfl) (tl hst))
  case emCopy m rest hst => exact top (upd_same _ _ _) (cons (no rfl) (tl hst))
  case emSnap m b rest hst => exact top (upd_same _ _ _) (cons (no rfl) (tl hst))
  case emCall m b pos pos' acc s rest hst hp hs =>
    refine top (upd_same _ _ _) (cons (fun s' hs' => ?_) (cons (no rfl) (tl hst)))
    cases hs'
    exact .inr ⟨_, hd hst, .inr ⟨b, rfl, List.mem_of_getElem? hs⟩⟩
  case emDone m b pos acc r rest hst hp => exact top (upd_same _ _ _) (tl hst)
  case combThrow m b pos acc rest hst hc => exact top (upd_same _ _ _) (tl hst)
  case callUnblk s m b pos acc rest hst hb =>
    exact top (upd_same _ _ _) (cons (sub (hd hst) (.inr rfl)) (cons (no rfl) (tl2 hst)))
  case callConn s m b pos acc rest hst hc ho =>
    exact top (upd_same _ _ _) (cons (sub (hd hst) (.inr rfl)) (cons (no rfl) (tl2 hst)))
  case callConnT s m b pos acc rest o hst hc ho =>
    exact top (upd_same _ _ _) (cons (sub (hd hst) (.inr rfl)) (cons (no rfl) (tl2 hst)))
  case callLock s m b pos acc rest o' hst ho =>
    exact top (upd_same _ _ _) (cons (sub (hd hst) (.inr rfl)) (cons (no rfl) (tl2 hst)))
  case callSkip s pc why m b pos acc rest hst hpc => exact top (upd_same _ _ _) (cons (no rfl) (tl2 hst))
  case callExpired s o m b pos acc rest hst ho => exact top (upd_same _ _ _) (cons (no rfl) (tl2 hst))
  case callEnter s pc o m b pos acc rest hst hpc =>
    exact top (upd_same _ _ _) (cons (sub (hd hst) (.inr rfl)) (cons (no rfl) (tl2 hst)))
  case callRet s o v r m b pos acc rest hst hr => exact top (upd_same _ _ _) (cons (no rfl) (tl2 hst))
  case callCatch s o m b pos acc rest hst hc => exact top (upd_same _ _ _) (cons (no rfl) (tl2 hst))
  case callThrow s o m b pos acc rest hst => exact top (upd_same _ _ _) (tl2 hst)
  case addWrite g s dest rest b hst hl => exact top (upd_same _ _ _) (cons (no rfl) (tl hst))
  case addUnlock g s dest rest cv sv bv hst hs => exact top (upd_same _ _ _) (tl hst)
  case eraseEnd g tgt i cnt rest b hst hl hi => exact top (upd_same _ _ _) (cons (no rfl) (tl hst))
  case eraseThrow g tgt i cnt rest b s hst hl hi he => exact top (upd_same _ _ _) (cons (no rfl) (tl hst))
  case eraseMiss g tgt i cnt rest b s hst hl hi he => exact top (upd_same _ _ _) (cons (no rfl) (tl hst))
  case eraseHit g tgt i cnt rest b s hst hl hi he => exact top (upd_same _ _ _) (cons (no rfl) (tl hst))
  case fail f rest g s hst hf => exact top (upd_same _ _ _) (tl hst)
  case eraseUnlock g tgt r rest hst => exact top (upd_same _ _ _) (tl hst)
  case exchTrue s k rest hst hc =>
    exact top (upd_same _ _ _) (cons (sub (hd hst) (.inr rfl)) (tl hst))
  case exchFalse s k rest cv sv bv hst hc hs => exact top (upd_same _ _ _) (tl hst)
  case discWrite s v k rest g b hst hl hi =>
    exact top (upd_same _ _ _) (cons (sub (hd hst) (.inr rfl)) (tl hst))
  case discMiss s k rest g b hst hl hi =>
    exact top (upd_same _ _ _) (cons (sub (hd hst) (.inr rfl)) (tl hst))
  case discUnlock s k rest g hst =>
    exact top (upd_same _ _ _) (cons (sub (hd hst) (.inr rfl)) (tl hst))
  case discDrop s k rest g cv sv bv hst hs => exact top (upd_same _ _ _) (tl hst)
  case movWrite g' g rest hst => exact top (upd_same _ _ _) (cons (no rfl) (tl hst))
  case movUnlock g' g rest hst => exact top (upd_same _ _ _) (tl hst)
  all_goals exact self

/-- Handles come from handles, or from the `connect` that returns. -/
theorem held_from {E : Env} {w w' : World} {t : Tid} (h : StepR E w t w') {s : SlotId} (hs : w'.held s) :
    w.held s ∨ ∃ g d rest, w.stacks t = .add g s d .unlock :: rest := by
  cases h
  case hand cv sv bv hu hsub => exact .inl (hsub s hs)
  case pins ps hu hp => exact .inl (held_pins hp hs)
  case flag s' c cv sv bv hu hsub hh ha => exact .inl (hsub s hs)
  case discPush s' k cv sv bv hu hsub hh ha => exact .inl (hsub s hs)
  case discFail h' cv sv bv hu hsub => exact .inl (hsub s hs)
  case exchFalse s' k rest cv sv bv hst hc hsub => exact .inl (hsub s hs)
  case discDrop s' k rest g cv sv bv hst hsub => exact .inl (hsub s hs)
  case addUnlock g s' dest rest cv sv bv hst hsub =>
    rcases hsub s hs with h | h
    · exact .inl h
    · subst h; exact .inr ⟨g, dest, rest, hst⟩
  case tst f f' rest g b hst hf hl =>
    left; revert hs; exact id
  case det f f' rest g b hst hf hl =>
    left; revert hs; exact id
  case eraseHit g tgt i cnt rest b s' hst hl hi he =>
    left
    obtain ⟨e1, e2, e3, e4, e5, e6, e7, e8, e9, e10, e11, e12, -⟩ := removeAt_same w b i
    unfold World.held at hs ⊢
    simp only [World.emitEv, World.setStack, e8, e9, e10, removeAt_pins] at hs
    exact hs
  case discWrite s' v k rest g b hst hl hi =>
    left
    obtain ⟨e1, e2, e3, e4, e5, e6, e7, e8, e9, e10, e11, e12, -⟩ := removeAt_same w b (w.slots s').index
    unfold World.held at hs ⊢
    simp only [World.emitEv, World.setStack, e8, e9, e10, removeAt_pins] at hs
    exact hs
  all_goals exact .inl hs

/-- Only a thread that can get at a listener produces events about its flags. -/
theorem flag_from {E : Env} {w w' : World} {t : Tid} (h : StepR E w t w') {s : SlotId}
    (hn : ¬ Reach w t s) (hl : ∀ ev ∈ w.log, ev.flagEv s = false) : ∀ ev ∈ w'.log, ev.flagEv s = false := by
  have one : ∀ {ev0 : Event}, ev0.flagEv s = false → ∀ ev ∈ ev0 :: w.log, ev.flagEv s = false := by
    intro ev0 h0 ev hev
    rcases List.mem_cons.1 hev with rfl | hev
    · exact h0
    · exact hl ev hev
  have two : ∀ {ev0 ev1 : Event}, ev0.flagEv s = false → ev1.flagEv s = false →
      ∀ ev ∈ ev0 :: ev1 :: w.log, ev.flagEv s = false := by
    intro ev0 ev1 h0 h1 ev hev
    rcases List.mem_cons.1 hev with rfl | hev
    · exact h0
    · exact one h1 ev hev
  have hd : ∀ {f : Frame} {rest : List Frame}, w.stacks t = f :: rest → f.who ≠ some s :=
    fun hst e => hn (.inr ⟨_, by rw [hst]; exact List.mem_cons_self, .inl e⟩)
  cases h
  case flag s' c cv sv bv hu hs hh ha =>
    refine one ?_
    simp only [Event.flagEv, decide_eq_false_iff_not]
    rintro rfl; exact hn (.inl hh)
  case tst f f' rest g b hst hf hl' =>
    have e1 : (w.setStack t (f' :: rest)).log = w.log := by rfl
    rw [e1]; exact hl
  case det f f' rest g b hst hf hl' =>
    have e1 : ((cloneBlk w g b).setStack t (f' :: rest)).log = w.log := by rfl
    rw [e1]; exact hl
  case callSkip s' pc why m b pos acc rest hst hpc =>
    refine one ?_
    simp only [Event.flagEv, decide_eq_false_iff_not]
    rintro rfl; exact hd hst rfl
  case callExpired s' o m b pos acc rest hst ho =>
    refine one ?_
    simp only [Event.flagEv, decide_eq_false_iff_not]
    rintro rfl; exact hd hst rfl
  case eraseHit g tgt i cnt rest b s' hst hl' hi he =>
    have el : (((removeAt w b i).setStack t (.erase g tgt (.scan i (cnt + 1)) :: rest)).emitEv
        (.erased g s')).log = .erased g s' :: w.log := by
      simp only [World.emitEv, World.setStack, (removeAt_same _ _ _).2.2.2.2.2.2.2.2.2.2.1]
    rw [el]; exact one rfl
  case discWrite s' v k rest g b hst hl' hi =>
    have el : (((removeAt w b (w.slots s').index).setStack t
                (.disc s' k (.crit g .unlock) :: rest)).emitEv (.removed g s' v)).log = .removed g s' v :: w.log := by
      simp only [World.emitEv, World.setStack, (removeAt_same _ _ _).2.2.2.2.2.2.2.2.2.2.1]
    rw [el]; exact one rfl
  case exchTrue s' k rest hst hc =>
    refine one ?_
    simp only [Event.flagEv, decide_eq_false_iff_not]
    rintro rfl; exact hd hst rfl
  case exchFalse s' k rest cv sv bv hst hc hs =>
    refine two rfl ?_
    simp only [Event.flagEv, decide_eq_false_iff_not]
    rintro rfl; exact hd hst rfl
  case callThrow => exact two rfl rfl
  all_goals first | exact hl | exact one rfl

/-- What a step adds to what a thread can get at. -/
theorem touched_from {E : Env} {w w' : World} {t : Tid} (I : Inv w) (h : StepR E w t w') {s : SlotId}
    (hs : Touched w' s) : Touched w s ∨ (∃ g d rest, w.stacks t = .add g s d .unlock :: rest) ∨
      ∃ m rest, w.stacks t = .emit m .copy :: rest ∧ s ∈ w.listOf m.g := by
  obtain ⟨t', hs | ⟨f, hf, hs⟩⟩ := hs
  · rcases held_from h hs with h1 | h1
    · exact .inl ⟨t', .inl h1⟩
    · exact .inr (.inl h1)
  · by_cases ht : t' = t
    · subst ht
      rcases hs with hs | ⟨b, hb, hs⟩
      · exact .inl ⟨t', who_from h f hf s hs⟩
      · rcases origin I.i1 h f hf with ho | ⟨-, ho⟩
        · exact .inl ⟨t', .inr ⟨f, ho, .inr ⟨b, hb, by rw [← owned_blk I h ho hb]; exact hs⟩⟩⟩
        · rcases ho b hb with ⟨f0, hf0, hb0⟩ | ⟨m, rest, hst, hg, e⟩
          · exact .inl ⟨t', .inr ⟨f0, hf0, .inr ⟨b, hb0, by rw [← owned_blk I h hf0 hb0]; exact hs⟩⟩⟩
          · exact .inr (.inr ⟨m, rest, hst, by rw [listOf_eq hg, ← e]; exact hs⟩)
    · rw [stacks_other h ht] at hf
      refine .inl ⟨t', .inr ⟨f, hf, hs.imp id ?_⟩⟩
      rintro ⟨b, hb, hs⟩
      exact ⟨b, hb, by rw [← owned_blk I h hf hb]; exact hs⟩

/-- A `connect` in progress: nobody else can get at its listener, and its flags are as created. -/
def AddOk (w : World) : List Frame → Prop
  | .add g s _ pc :: _ => ¬ Touched w s ∧ (∀ ev ∈ w.log, ev.flagEv s = false) ∧
      (pc = .unlock → (w.listOf g).getLast? = some s)
  | _ => True

def topAdd : List Frame → Option SlotId
  | .add _ s _ _ :: _ => some s
  | _ => none

structure Inv7 (w : World) : Prop where
  add : ∀ t, AddOk w (w.stacks t)
  uni : ∀ t t' s, topAdd (w.stacks t) = some s → topAdd (w.stacks t') = some s → t = t'
  tch : ∀ s, Touched w s → ∃ g, Event.added g s ∈ w.log
  flt : ∀ s, ∀ ev ∈ w.log, ev.flagEv s = true → s < w.nSlots

theorem Inv7.init (n : Nat) : Inv7 (World.init n) := by
  constructor <;> simp [World.init, AddOk, topAdd, World.held, Touched, Reach]

theorem topAdd_user {st : List Frame} (h : UserStk st) : topAdd st = none := by cases h <;> rfl
theorem topAdd_userCtx {st : List Frame} (h : userCtx st = true) : topAdd st = none := by
  unfold userCtx at h; split at h <;> first | rfl | cases h

theorem AddOk.other {w w' : World} {st : List Frame} (h : topAdd st = none) : AddOk w st := by
  unfold AddOk; split
  · cases h
  · trivial

/-- How the `connect` on top of the stepping thread's stack evolves. -/
theorem topAdd_from {E : Env} {w w' : World} {t : Tid} (I : Inv w) (h : StepR E w t w') :
    topAdd (w'.stacks t) = none ∨
    (∃ g d rest, w'.stacks t = .add g w.nSlots d .wait :: rest ∧ w'.nSlots = w.nSlots + 1 ∧ w'.held = w.held ∧
      w'.blks = w.blks) ∨
    (∃ g s d pc pc' rest, w.stacks t = .add g s d pc :: rest ∧ w'.stacks t = .add g s d pc' :: rest ∧
      pc ≠ .unlock ∧ pc' ≠ .unlock) ∨
    (∃ g s d rest, w.stacks t = .add g s d .write :: rest ∧ w'.stacks t = .add g s d .unlock :: rest ∧
      w'.listOf g = w.listOf g ++ [s]) ∨
    (w'.stacks = w.stacks ∧ w'.listOf = w.listOf ∧ w'.held = w.held ∧ w'.blks = w.blks) := by
  have usr : ∀ {st : List Frame} {x : World}, x.stacks t = st → UserStk st → topAdd (x.stacks t) = none :=
    fun e h => e ▸ topAdd_user h
  have pop : ∀ {f : Frame} {rest : List Frame}, w.stacks t = f :: rest → f.isCall = false → UserStk rest :=
    fun hst hf => (hst ▸ I.i1.stk t).tail hf
  have pop2 : ∀ {s : SlotId} {pc : CallPc} {m : Em} {p : EmitPc} {rest : List Frame},
      w.stacks t = .call s pc :: .emit m p :: rest → UserStk rest :=
    fun hst => OkStk.callTail (hst ▸ I.i1.stk t)
  have top : ∀ {f : Frame} {rest : List Frame} {x : World}, x.stacks t = f :: rest → topAdd [f] = none →
      topAdd (x.stacks t) = none := by
    intro f rest x e h; rw [e]; cases f <;> first | rfl | cases h
  cases h
  case ub => exact .inr (.inr (.inr (.inr ⟨rfl, rfl, rfl, rfl⟩)))
  case hand hu hs => exact .inl (topAdd_userCtx hu)
  case flag hu hs hh ha => exact .inl (topAdd_userCtx hu)
  case objs hu hn hd => exact .inl (topAdd_userCtx hu)
  case pins hu hp => exact .inl (topAdd_userCtx hu)
  case newSig hu => exact .inl (topAdd_userCtx hu)
  case destroy hu hg ha hm => exact .inl (topAdd_userCtx hu)
  case discFail hu hs => exact .inl (topAdd_userCtx hu)
  case connStart g fn consume conn blk dest hu hg ho =>
    exact .inr (.inl ⟨g, dest, w.stacks t, upd_same _ _ _, rfl, rfl, rfl⟩)
  case acq f f' rest g hst hf ha hm =>
    by_cases hadd : ∃ g' s d pc, f = .add g' s d pc
    · obtain ⟨g', s, d, pc, rfl⟩ := hadd
      cases pc <;> simp [Frame.acq] at hf
      obtain ⟨rfl, rfl⟩ := hf
      exact .inr (.inr (.inl ⟨g', s, d, _, _, rest, hst, upd_same _ _ _, by simp, by simp⟩))
    · refine .inl (top (upd_same _ _ _) ?_)
      unfold Frame.acq at hf; split at hf <;> simp at hf <;> obtain ⟨rfl, rfl⟩ := hf <;> try rfl
      exact absurd ⟨_, _, _, _, rfl⟩ hadd
  case tst f f' rest g b hst hf hl =>
    have e1 : (w.setStack t (f' :: rest)).stacks t = f' :: rest := by
      exact upd_same _ _ _
    by_cases hadd : ∃ g' s d pc, f = .add g' s d pc
    · obtain ⟨g', s, d, pc, rfl⟩ := hadd
      cases pc <;> simp [Frame.tst] at hf
      obtain ⟨rfl, rfl⟩ := hf
      exact .inr (.inr (.inl ⟨g', s, d, _, _, rest, hst, e1, by simp, by split <;> simp⟩))
    · refine .inl (top e1 ?_)
      unfold Frame.tst at hf; split at hf <;> simp at hf <;> obtain ⟨rfl, rfl⟩ := hf <;> try rfl
      exact absurd ⟨_, _, _, _, rfl⟩ hadd
  case det f f' rest g b hst hf hl =>
    have e1 : ((cloneBlk w g b).setStack t (f' :: rest)).stacks t = f' :: rest := by
      exact upd_same _ _ _
    by_cases hadd : ∃ g' s d pc, f = .add g' s d pc
    · obtain ⟨g', s, d, pc, rfl⟩ := hadd
      cases pc <;> simp [Frame.det] at hf
      obtain ⟨rfl, rfl⟩ := hf
      exact .inr (.inr (.inl ⟨g', s, d, _, _, rest, hst, e1, by simp, by simp⟩))
    · refine .inl (top e1 ?_)
      unfold Frame.det at hf; split at hf <;> simp at hf <;> obtain ⟨rfl, rfl⟩ := hf <;> try rfl
      exact absurd ⟨_, _, _, _, rfl⟩ hadd
  case addWrite g s dest rest b hst hl =>
    refine .inr (.inr (.inr (.inl ⟨g, s, dest, rest, hst, upd_same _ _ _, ?_⟩)))
    rw [listOf_setBlk (w := w) (w' := (((w.setIndex s (w.blks b).length).setBlk b (w.blks b ++ [s])).setStack t
            (.add g s dest .unlock :: rest)).emitEv (.added g s)) (l := w.blks b ++ [s]) I.i2 hl rfl rfl, if_pos rfl, listOf_eq hl]
  case emSupp m rest hst ha hb => exact .inl (usr (upd_same _ _ _) (pop hst rfl))
  case emDone m b pos acc r rest hst hp => exact .inl (usr (upd_same _ _ _) (pop hst rfl))
  case combThrow m b pos acc rest hst hc => exact .inl (usr (upd_same _ _ _) (pop hst rfl))
  case callThrow s o m b pos acc rest hst => exact .inl (usr (upd_same _ _ _) (pop2 hst))
  case addUnlock g s dest rest cv sv bv hst hs => exact .inl (usr (upd_same _ _ _) (pop hst rfl))
  case fail f rest g s hst hf => exact .inl (usr (upd_same _ _ _) (pop hst (Frame.allocs_isCall hf)))
  case eraseUnlock g tgt r rest hst => exact .inl (usr (upd_same _ _ _) (pop hst rfl))
  case exchFalse s k rest cv sv bv hst hc hs => exact .inl (usr (upd_same _ _ _) (pop hst rfl))
  case discDrop s k rest g cv sv bv hst hs => exact .inl (usr (upd_same _ _ _) (pop hst rfl))
  case movUnlock g' g rest hst => exact .inl (usr (upd_same _ _ _) (pop hst rfl))
  all_goals exact .inl (top (upd_same _ _ _) rfl)

theorem Inv7.step {E : Env} {w w' : World} {t : Tid} (U : Full w) (U' : Full w') (K : Inv7 w)
    (h : StepR E w t w') : Inv7 w' := by
  have I := U.i
  obtain ⟨evs, hlog⟩ := log_grows h
  have lts : ∀ t' s, topAdd (w.stacks t') = some s → s < w.nSlots := by
    intro t' s hs
    unfold topAdd at hs
    split at hs
    · rename_i g s' d pc rest hst
      injection hs with hs; subst hs
      exact (I.i1.rng t' (.add g s' d pc) (by rw [hst]; exact List.mem_cons_self)).2
    · cases hs
  have addOf : ∀ t' s, topAdd (w.stacks t') = some s → ∃ g d pc rest, w.stacks t' = .add g s d pc :: rest := by
    intro t' s hs
    unfold topAdd at hs
    split at hs
    · rename_i g s' d pc rest hst
      injection hs with hs; subst hs
      exact ⟨g, d, pc, rest, hst⟩
    · cases hs
  -- the top of the stepping thread keeps its listener or starts a new one
  have newTop : ∀ s, topAdd (w'.stacks t) = some s → topAdd (w.stacks t) = some s ∨ s = w.nSlots := by
    intro s hs
    rcases topAdd_from I h with h1 | ⟨g, d, rest, h1, -⟩ | ⟨g, s', d, pc, pc', rest, h1, h2, -⟩ |
      ⟨g, s', d, rest, h1, h2, -⟩ | ⟨h1, -⟩
    · rw [h1] at hs; cases hs
    · rw [h1] at hs; injection hs with hs; exact .inr hs.symm
    · rw [h2] at hs; rw [h1]; exact .inl hs
    · rw [h2] at hs; rw [h1]; exact .inl hs
    · rw [h1] at hs; exact .inl hs
  -- a listener of an unfinished connect stays out of reach
  have keep : ∀ t' g s d pc rest, w.stacks t' = .add g s d pc :: rest →
      (t' = t → ∀ g d rest, w.stacks t ≠ .add g s d .unlock :: rest) → ¬ Touched w' s := by
    intro t' g s d pc rest hst hne hT
    have hA := K.add t'
    rw [hst] at hA
    obtain ⟨h1, h2, h3⟩ := hA
    rcases touched_from I h hT with hT | ⟨g', d', rest', hst'⟩ | ⟨m, rest', hst', hm⟩
    · exact h1 hT
    · by_cases ht : t' = t
      · exact hne ht _ _ _ hst'
      · exact ht (K.uni t' t s (by rw [hst]; rfl) (by rw [hst']; rfl))
    · have hlist := I.i3.listed m.g s hm
      cases pc
      case unlock =>
        have hm' : s ∈ w.listOf g := List.mem_of_getLast? (h3 rfl)
        have e := I.i3.disj hm hm'
        have l1 : topLocks (w.stacks t) = some m.g := by rw [hst']; rfl
        have l2 : topLocks (w.stacks t') = some g := by rw [hst]; rfl
        rw [← I.i1.mtx] at l1 l2
        rw [e, l2] at l1
        injection l1 with l1
        subst l1
        rw [hst] at hst'; cases hst'
      all_goals
        have := I.i3.pend t' g s (by rw [hst]; rfl)
        omega
  have lastq : ∀ t' g s d rest, t' ≠ t → w.stacks t' = .add g s d .unlock :: rest → w'.listOf g = w.listOf g :=
    fun t' g s d rest ht hst => (others_quiet I h ht (by rw [hst]; rfl)).1
  have flg : ∀ s, ¬ Touched w s → (∀ ev ∈ w.log, ev.flagEv s = false) → ∀ ev ∈ w'.log, ev.flagEv s = false :=
    fun s hT hl => flag_from h (fun hr => hT ⟨t, hr⟩) hl
  refine ⟨fun t' => ?_, ?_, ?_, ?_⟩
  · by_cases ht : t' = t
    · subst ht
      rcases topAdd_from I h with h1 | ⟨g, d, rest, h1, h2, h3, h4⟩ | ⟨g, s', d, pc, pc', rest, h1, h2, h3, h4⟩ |
        ⟨g, s', d, rest, h1, h2, h3⟩ | ⟨h1, h2, h3, h4⟩
      · exact AddOk.other (w' := w) h1
      · rw [h1]
        refine ⟨?_, ?_, fun h => by cases h⟩
        · intro hT
          rcases touched_from I h hT with hT | ⟨g', d', rest', hst'⟩ | ⟨m, rest', hst', hm⟩
          · have := hT.lt I.i1; omega
          · have := lts t' w.nSlots (by rw [hst']; rfl); omega
          · have := I.i3.lt hm; omega
        · refine flg _ (fun hT => by have := hT.lt I.i1; omega) ?_
          intro ev hev
          cases hfe : ev.flagEv w.nSlots
          · rfl
          · have := K.flt _ ev hev hfe; omega
      · rw [h2]
        have hA := K.add t'
        rw [h1] at hA
        refine ⟨keep t' g s' d pc rest h1 ?_, flg _ hA.1 hA.2.1, fun e => absurd e h4⟩
        rintro - g2 d2 r2 e2; rw [h1] at e2; cases e2; exact h3 rfl
      · rw [h2]
        have hA := K.add t'
        rw [h1] at hA
        refine ⟨keep t' g s' d _ rest h1 ?_, flg _ hA.1 hA.2.1, fun _ => by rw [h3]; simp⟩
        rintro - g2 d2 r2 e2; rw [h1] at e2; cases e2
      · rw [h1]
        have hA := K.add t'
        unfold AddOk at hA ⊢
        split
        · rename_i g s d pc rest hst
          rw [hst] at hA
          refine ⟨?_, flg _ hA.1 hA.2.1, by rw [h2]; exact hA.2.2⟩
          intro hT; refine hA.1 ?_
          unfold Touched Reach at hT ⊢
          rw [h1, h3, h4] at hT; exact hT
        · trivial
    · rw [stacks_other h ht]
      have hA := K.add t'
      unfold AddOk at hA ⊢
      split
      · rename_i g s d pc rest hst
        rw [hst] at hA
        refine ⟨keep t' g s d pc rest hst (fun e => absurd e ht), flg _ hA.1 hA.2.1, ?_⟩
        rintro rfl
        rw [lastq t' g s d rest ht hst]; exact hA.2.2 rfl
      · trivial
  · intro t1 t2 s h1 h2
    by_cases e1 : t1 = t <;> by_cases e2 : t2 = t
    · rw [e1, e2]
    · subst e1
      rw [stacks_other h e2] at h2
      rcases newTop s h1 with h1 | h1
      · exact K.uni _ _ s h1 h2
      · have := lts t2 s h2; omega
    · subst e2
      rw [stacks_other h e1] at h1
      rcases newTop s h2 with h2 | h2
      · exact K.uni _ _ s h1 h2
      · have := lts t1 s h1; omega
    · rw [stacks_other h e1] at h1; rw [stacks_other h e2] at h2
      exact K.uni _ _ s h1 h2
  · intro s hs
    rcases touched_from I h hs with h1 | ⟨g, d, rest, hst⟩ | ⟨m, rest, hst, hm⟩
    · obtain ⟨g, hg⟩ := K.tch s h1
      exact ⟨g, by rw [hlog]; exact List.mem_append_right _ hg⟩
    · refine ⟨g, ?_⟩
      rw [hlog]
      exact List.mem_append_right _ ((U.d.fh t (.add g s d .unlock) (by rw [hst]; exact List.mem_cons_self)).2 rfl)
    · have := (I.i3.listed m.g s hm).1
      obtain ⟨ev, h1, h2⟩ := List.countP_pos_iff.1 (show 0 < w.log.countP (Event.adds s) by omega)
      cases ev <;> simp [Event.adds] at h2
      subst h2
      exact ⟨_, by rw [hlog]; exact List.mem_append_right _ h1⟩
  · intro s ev hev hfe
    refine Nat.lt_of_not_le fun hle => ?_
    have F := fixed h
    have := flag_from h (s := s) (fun hr => by
      have := Touched.lt I.i1 ⟨t, hr⟩; have := F.nSlots; omega) (fun ev hev => by
        cases hfe : ev.flagEv s
        · rfl
        · have := K.flt s ev hev hfe; have := F.nSlots; omega) ev hev
    rw [this] at hfe; cases hfe

theorem Reachable.inv7 {E : Env} {w : World} (h : Reachable E w) : Inv7 w := by
  obtain ⟨n, h⟩ := h
  have : Full w ∧ Inv7 w := by
    refine h.induct (I := fun w => Full w ∧ Inv7 w) ⟨.init n, .init n⟩ ?_
    intro w1 w2 l ⟨U, K⟩ _ hst
    obtain ⟨hub, ht, hr⟩ := step_inv hst
    have U' := U.step hub ht hr
    exact ⟨U', K.step U U' hr⟩
  exact this.2

end Verif
