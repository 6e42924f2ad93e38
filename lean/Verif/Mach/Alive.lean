import Verif.Mach.Hist
import Verif.Props.Lists

/-!
# Who owns a listener; a listener without owner stays without owner
-/

namespace Verif

theorem upd_same {α : Type} (f : Nat → α) (a : Nat) (v : α) : upd f a v a = v := by simp [upd]

theorem slotAlive_iff {w : World} (I : Inv1 w) {s : SlotId} :
    w.slotAlive s = true ↔ (∃ g, s ∈ w.listOf g) ∨
      (∃ t, ∃ f ∈ w.stacks t, f.slot? = some s ∨ ∃ b, f.blk? = some b ∧ s ∈ w.blks b) ∨ s ∈ w.pins := by
  simp only [World.slotAlive, World.anyFrame, Bool.or_eq_true, List.any_eq_true, List.mem_range, beq_iff_eq, or_assoc]
  refine or_congr ?_ (or_congr ?_ ?_)
  · constructor
    · rintro ⟨g, -, h⟩
      refine ⟨g, ?_⟩
      unfold World.listOf
      split at h
      · simpa using h
      · cases h
    · rintro ⟨g, h⟩
      unfold World.listOf at h
      refine ⟨g, ?_, ?_⟩
      · rcases Nat.lt_or_ge g w.nSigs with h' | h'
        · exact h'
        · rw [(I.out g h').1] at h; cases h
      · split at h
        · simpa using h
        · cases h
  · constructor
    · rintro ⟨t, -, f, hf, h⟩
      refine ⟨t, f, hf, ?_⟩
      rcases h with h | h
      · exact .inl h
      · split at h
        · rename_i b hb; exact .inr ⟨b, hb, by simpa using h⟩
        · cases h
    · rintro ⟨t, f, hf, h⟩
      refine ⟨t, ?_, f, hf, ?_⟩
      · rcases Nat.lt_or_ge t w.nThr with h' | h'
        · exact h'
        · rw [I.thr t h'] at hf; cases hf
      · rcases h with h | ⟨b, hb, h⟩
        · exact .inl h
        · right; rw [hb]; simpa using h
  · simp

/-- Only a thread in user code takes and gives up the temporary `shared_ptr`s of the functions of handles. -/
theorem pins_step {E : Env} {w w' : World} {t : Tid} (R : StepR E w t w') : w'.pins = w.pins ∨ (userCtx (w.stacks t) = true ∧ w'.stacks = w.stacks) := by
  cases R
  case pins ps hu hp => exact .inr ⟨hu, rfl⟩
  all_goals first
    | exact .inl rfl
    | exact .inl (by simp [World.setStack, World.emitEv, removeAt_pins])
    | exact .inl (by simp only [World.setStack]; rfl)

/-- A new local pointer comes from a handle, and the listener is alive. -/
theorem pins_origin {E : Env} {w w' : World} {t : Tid} (h : StepR E w t w') :
    ∀ s ∈ w'.pins, s ∈ w.pins ∨ (w.held s ∧ w.slotAlive s = true) := by
  cases h
  case pins ps hu hp => exact hp
  case eraseHit => exact fun p hp => .inl (removeAt_pins _ _ _ ▸ hp)
  case discWrite => exact fun p hp => .inl (removeAt_pins _ _ _ ▸ hp)
  all_goals exact fun p hp => .inl hp

/-- Where the ownership of a new frame comes from. -/
def Origin (w w' : World) (t : Tid) (f' : Frame) : Prop :=
  f' ∈ w.stacks t ∨
    ((∀ s, f'.slot? = some s → s = w.nSlots ∨ w.slotAlive s = true) ∧
     (∀ b, f'.blk? = some b → (∃ f ∈ w.stacks t, f.blk? = some b) ∨ 
       ∃ m rest, w.stacks t = .emit m .copy :: rest ∧ (w.sigs m.g).list = some b ∧ w'.blks = w.blks))

theorem Origin.none {w w' : World} {t : Tid} {f : Frame} (h1 : f.slot? = none) (h2 : f.blk? = none) : Origin w w' t f :=
  .inr ⟨by simp [h1], by simp [h2]⟩

theorem origin {E : Env} {w w' : World} {t : Tid} (I : Inv1 w) (h : StepR E w t w') :
    ∀ f' ∈ w'.stacks t, Origin w w' t f' := by
  have old : ∀ {st : List Frame}, (∀ f ∈ st, f ∈ w.stacks t) → ∀ f' ∈ st, Origin w w' t f' :=
    fun h f hf => .inl (h f hf)
  have self : ∀ f' ∈ w.stacks t, Origin w w' t f' := fun f hf => .inl hf
  have tl : ∀ {f : Frame} {rest : List Frame}, w.stacks t = f :: rest → ∀ f' ∈ rest, Origin w w' t f' :=
    fun hst f hf => .inl (by rw [hst]; exact List.mem_cons_of_mem _ hf)
  have tl2 : ∀ {f g : Frame} {rest : List Frame}, w.stacks t = f :: g :: rest → ∀ f' ∈ rest, Origin w w' t f' :=
    fun hst f hf => .inl (by rw [hst]; exact List.mem_cons_of_mem _ (List.mem_cons_of_mem _ hf))
  have cons : ∀ {f : Frame} {rest : List Frame}, Origin w w' t f → (∀ f' ∈ rest, Origin w w' t f') →
      ∀ f' ∈ f :: rest, Origin w w' t f' := by
    intro f rest h1 h2 f' hf'
    rcases List.mem_cons.1 hf' with rfl | h
    · exact h1
    · exact h2 _ h
  -- a frame that owns no more than one of the old frames
  have sub : ∀ {f f' : Frame}, f ∈ w.stacks t → (f'.slot? = none ∨ f'.slot? = f.slot?) →
      (f'.blk? = none ∨ f'.blk? = f.blk?) → Origin w w' t f' := by
    intro f f' hf h1 h2
    refine .inr ⟨fun s hs => .inr ?_, fun b hb => .inl ⟨f, hf, ?_⟩⟩
    · rcases h1 with h1 | h1
      · rw [h1] at hs; cases hs
      · exact (slotAlive_iff I).2 (.inr (.inl ⟨t, f, hf, .inl (h1 ▸ hs)⟩))
    · rcases h2 with h2 | h2
      · rw [h2] at hb; cases hb
      · exact h2 ▸ hb
  have hd : ∀ {f : Frame} {rest : List Frame}, w.stacks t = f :: rest → f ∈ w.stacks t :=
    fun hst => by rw [hst]; exact List.mem_cons_self
  have hd2 : ∀ {f g : Frame} {rest : List Frame}, w.stacks t = f :: g :: rest → g ∈ w.stacks t :=
    fun hst => by rw [hst]; exact List.mem_cons_of_mem _ List.mem_cons_self
  have delv : ∀ (c : Comb) (m : Em) (b : BlkId) (pos : Nat) (acc r : Option Val) {p : EmitPc},
      p = .iter b pos acc → (Frame.emit m (deliver c b pos acc r)).blk? = (Frame.emit m p).blk? := by
    intro c m b pos acc r p hp; subst hp; cases c <;> rfl
  have top : ∀ {st : List Frame} {x w' : World}, x.stacks t = st → (∀ f' ∈ st, Origin w w' t f') →
      ∀ f' ∈ x.stacks t, Origin w w' t f' := fun e h => e ▸ h
  cases h
  case movStart g hu hg ha => exact top (upd_same _ _ _) (cons (.none rfl rfl) self)
  case connStart =>
    exact top (upd_same _ _ _) (cons (.inr ⟨fun s hs => .inl (by cases hs; rfl), fun b hb => by cases hb⟩) self)
  case emitStart => exact top (upd_same _ _ _) (cons (.none rfl rfl) self)
  case eraseStart => exact top (upd_same _ _ _) (cons (.none rfl rfl) self)
  case discPush s k cv sv bv hu hs hh ha =>
    exact top (upd_same _ _ _)
      (cons (.inr ⟨fun s hs => .inr (by cases hs; exact ha), fun b hb => by cases hb⟩) self)
  case acq f f' rest g hst hf ha hm =>
    refine top (upd_same _ _ _) (cons (sub (hd hst) ?_ ?_) (tl hst))
    · unfold Frame.acq at hf; split at hf <;> simp at hf <;> obtain ⟨rfl, rfl⟩ := hf <;> simp [Frame.slot?]
    · unfold Frame.acq at hf; split at hf <;> simp at hf <;> obtain ⟨rfl, rfl⟩ := hf <;> simp [Frame.blk?]
  case tst f f' rest g b hst hf hl =>
    refine top (st := f' :: rest) ?_ (cons (sub (hd hst) ?_ ?_) (tl hst))
    · exact upd_same _ _ _
    · revert hf
      cases w.shared g b <;> intro hf <;> unfold Frame.tst at hf <;> split at hf <;> simp at hf <;> obtain ⟨rfl, rfl⟩ := hf <;> simp [Frame.slot?]
    · unfold Frame.tst at hf; split at hf <;> simp at hf <;> obtain ⟨rfl, rfl⟩ := hf <;> simp [Frame.blk?]
  case det f f' rest g b hst hf hl =>
    refine top (st := f' :: rest) ?_ (cons (sub (hd hst) ?_ ?_) (tl hst))
    · exact upd_same _ _ _
    · unfold Frame.det at hf; split at hf <;> simp at hf <;> obtain ⟨rfl, rfl⟩ := hf <;> simp [Frame.slot?]
    · unfold Frame.det at hf; split at hf <;> simp at hf <;> obtain ⟨rfl, rfl⟩ := hf <;> simp [Frame.blk?]
  case emSupp m rest hst ha hb => exact top (upd_same _ _ _) (tl hst)
  case emPass m rest hst ha hb => exact top (upd_same _ _ _) (cons (.none rfl rfl) (tl hst))
  case emCopy m rest hst =>
    exact top (upd_same _ _ _) (cons (.inr ⟨fun s (hs : none = some s) => (by cases hs), fun b hb => .inr ⟨m, rest, hst, hb, rfl⟩⟩) (tl hst))
  case emSnap m b rest hst =>
    exact top (upd_same _ _ _) (cons (sub (hd hst) (.inl rfl) (.inr rfl)) (tl hst))
  case emCall m b pos pos' acc s rest hst hp hs =>
    exact top (upd_same _ _ _) (cons (.none rfl rfl) (cons (sub (hd hst) (.inl rfl) (.inr rfl)) (tl hst)))
  case emDone m b pos acc r rest hst hp => exact top (upd_same _ _ _) (tl hst)
  case combThrow m b pos acc rest hst hc => exact top (upd_same _ _ _) (tl hst)
  case callUnblk s m b pos acc rest hst hb =>
    exact top (upd_same _ _ _) (cons (.none rfl rfl) (cons (.inl (hd2 hst)) (tl2 hst)))
  case callConn s m b pos acc rest hst hc ho =>
    exact top (upd_same _ _ _) (cons (.none rfl rfl) (cons (.inl (hd2 hst)) (tl2 hst)))
  case callConnT s m b pos acc rest o hst hc ho =>
    exact top (upd_same _ _ _) (cons (.none rfl rfl) (cons (.inl (hd2 hst)) (tl2 hst)))
  case callLock s m b pos acc rest o' hst ho =>
    exact top (upd_same _ _ _) (cons (.none rfl rfl) (cons (.inl (hd2 hst)) (tl2 hst)))
  case callSkip s pc why m b pos acc rest hst hpc =>
    exact top (upd_same _ _ _) (cons (sub (hd2 hst) (.inl rfl) (.inr (delv _ _ _ _ _ _ rfl))) (tl2 hst))
  case callExpired s o m b pos acc rest hst ho =>
    exact top (upd_same _ _ _) (cons (sub (hd2 hst) (.inl rfl) (.inr (delv _ _ _ _ _ _ rfl))) (tl2 hst))
  case callEnter s pc o m b pos acc rest hst hpc =>
    exact top (upd_same _ _ _) (cons (.none rfl rfl) (cons (sub (hd2 hst) (.inl rfl) (.inr rfl)) (tl2 hst)))
  case callRet s o v r m b pos acc rest hst hr =>
    exact top (upd_same _ _ _) (cons (sub (hd2 hst) (.inl rfl) (.inr (delv _ _ _ _ _ _ rfl))) (tl2 hst))
  case callCatch s o m b pos acc rest hst hc =>
    exact top (upd_same _ _ _) (cons (sub (hd2 hst) (.inl rfl) (.inr rfl)) (tl2 hst))
  case callThrow s o m b pos acc rest hst => exact top (upd_same _ _ _) (tl2 hst)
  case addWrite g s dest rest b hst hl => exact top (upd_same _ _ _) (cons (.none rfl rfl) (tl hst))
  case addUnlock g s dest rest cv sv bv hst hs => exact top (upd_same _ _ _) (tl hst)
  case eraseEnd g tgt i cnt rest b hst hl hi => exact top (upd_same _ _ _) (cons (.none rfl rfl) (tl hst))
  case eraseThrow g tgt i cnt rest b s hst hl hi he => exact top (upd_same _ _ _) (cons (.none rfl rfl) (tl hst))
  case eraseMiss g tgt i cnt rest b s hst hl hi he => exact top (upd_same _ _ _) (cons (.none rfl rfl) (tl hst))
  case eraseHit g tgt i cnt rest b s hst hl hi he =>
    exact top (upd_same _ _ _) (cons (.none rfl rfl) (tl hst))
  case fail f rest g s hst hf => exact top (upd_same _ _ _) (tl hst)
  case eraseUnlock g tgt r rest hst => exact top (upd_same _ _ _) (tl hst)
  case exchTrue s k rest hst hc =>
    exact top (upd_same _ _ _) (cons (sub (hd hst) (.inr rfl) (.inl rfl)) (tl hst))
  case exchFalse s k rest cv sv bv hst hc hs => exact top (upd_same _ _ _) (tl hst)
  case discWrite s v k rest g b hst hl hi =>
    exact top (upd_same _ _ _) (cons (sub (hd hst) (.inr rfl) (.inl rfl)) (tl hst))
  case discMiss s k rest g b hst hl hi =>
    exact top (upd_same _ _ _) (cons (sub (hd hst) (.inr rfl) (.inl rfl)) (tl hst))
  case discUnlock s k rest g hst =>
    exact top (upd_same _ _ _) (cons (sub (hd hst) (.inr rfl) (.inl rfl)) (tl hst))
  case discDrop s k rest g cv sv bv hst hs => exact top (upd_same _ _ _) (tl hst)
  case movWrite g' g rest hst => exact top (upd_same _ _ _) (cons (.none rfl rfl) (tl hst))
  case movUnlock g' g rest hst => exact top (upd_same _ _ _) (tl hst)
  all_goals exact self

/-- Once a listener has lost its last owner it stays without one. -/
theorem slot_dead_stays {E : Env} {w w' : World} {t : Tid} (I : Inv w) (I' : Inv1 w') (h : StepR E w t w')
    {s : SlotId} (hlt : s < w.nSlots) (hd : w.slotAlive s = false) : w'.slotAlive s = false := by
  rw [← Bool.not_eq_true] at hd ⊢
  intro ha
  refine hd ?_
  rw [slotAlive_iff I'] at ha
  rcases ha with ⟨g, hg⟩ | ⟨t', f, hf, hfo⟩ | hp
  · refine (slotAlive_iff I.i1).2 ?_
    cases listEff I.i1 I.i2 h with
    | same hl => rw [hl] at hg; exact .inl ⟨g, hg⟩
    | add g' s' b dest rest hst hb hl =>
      rw [hl] at hg
      split at hg
      · rcases List.mem_append.1 hg with hg | hg
        · exact .inl ⟨_, hg⟩
        · simp at hg; subst hg
          exact .inr (.inl ⟨t, _, by rw [hst]; exact List.mem_cons_self, .inl rfl⟩)
      · exact .inl ⟨_, hg⟩
    | rem g' i v ev hst hv hl =>
      rw [hl] at hg
      split at hg
      · exact .inl ⟨_, Vec.mem_swapPop (List.getElem?_eq_some_iff.1 hv).1 hg⟩
      · exact .inl ⟨_, hg⟩
    | move g1 g2 hne hst h0 hdd hl =>
      rw [hl] at hg
      split at hg
      · cases hg
      · split at hg <;> exact .inl ⟨_, hg⟩
    | destroy g' hm hl =>
      rw [hl] at hg
      split at hg
      · cases hg
      · exact .inl ⟨_, hg⟩
  · -- owned by a frame
    have own : ∀ f ∈ w.stacks t', (f.slot? = some s ∨ ∃ b, f.blk? = some b ∧ s ∈ w'.blks b) →
        w.slotAlive s = true := by
      intro f hf hfo
      refine (slotAlive_iff I.i1).2 (.inr (.inl ⟨t', f, hf, hfo.imp id ?_⟩))
      rintro ⟨b, hb, hs⟩
      exact ⟨b, hb, by rw [← owned_blk I h hf hb]; exact hs⟩
    by_cases ht : t' = t
    · subst ht
      rcases origin I.i1 h f hf with ho | ⟨h1, h2⟩
      · exact own f ho hfo
      · rcases hfo with hs | ⟨b, hb, hs⟩
        · rcases h1 s hs with rfl | h1
          · omega
          · exact h1
        · rcases h2 b hb with ⟨f0, hf0, hb0⟩ | ⟨m, rest, -, hg, e⟩
          · exact own f0 hf0 (.inr ⟨b, hb0, hs⟩)
          · refine (slotAlive_iff I.i1).2 (.inl ⟨m.g, ?_⟩)
            simp only [World.listOf, hg]; rw [← e]; exact hs
    · rw [stacks_other h ht] at hf
      exact own f hf hfo
  · rcases pins_origin h _ hp with hp | hp
    · exact (slotAlive_iff I.i1).2 (.inr (.inr hp))
    · exact hp.2

end Verif
