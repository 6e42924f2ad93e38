import Verif.Mach.Conserve

/-!
# The invariants together, and what never changes
-/

namespace Verif

structure Inv (w : World) : Prop where
  i1 : Inv1 w
  i2 : Inv2 w
  i3 : Inv3 w

theorem ub_or {E : Env} {w w' : World} {t : Tid} (h : StepR E w t w') :
    (∃ u, w' = w.setUB u) ∨ w'.ub = w.ub := by
  cases h <;> first | exact .inr rfl | exact .inl ⟨_, rfl⟩ | skip
  · right; exact (removeAt_same _ _ _).2.2.2.2.2.2.2.2.2.2.2.2.2
  · right; exact (removeAt_same _ _ _).2.2.2.2.2.2.2.2.2.2.2.2.2

theorem Inv.init (n : Nat) : Inv (World.init n) := ⟨.init n, .init n, .init n⟩

theorem Inv.step {E : Env} {w w' : World} {t : Tid} (I : Inv w) (hub : w.ub = none) (ht : t < w.nThr)
    (h : StepR E w t w') : Inv w' := by
  refine ⟨I.i1.step ht h, I.i2.step I.i1 h, ?_⟩
  rcases ub_or h with ⟨u, rfl⟩ | e
  · have K := I.i3
    exact ⟨K.idx, K.hom, K.rep, K.addlt, K.adds, K.takes, K.listed, K.pend, K.pendu, K.pendlt⟩
  · exact I.i3.step I.i1 I.i2 h (e.trans hub)

theorem step_ub {E : Env} {w w' : World} {l : Label} (h : step E w l = some w') : w.ub = none := by
  unfold step at h
  split at h
  · cases h
  · rename_i n; simpa using n

theorem Inv.reach {E : Env} {P : Label → Prop} {n : Nat} {w : World} (h : Steps E P (World.init n) w) :
    Inv w :=
  h.induct (Inv.init n) fun _ _ _ I _ hst =>
    let ⟨_, ht, hr⟩ := step_inv hst
    I.step (step_ub hst) ht hr

/-- What a step never changes. -/
structure Fixed (w w' : World) : Prop where
  fn : ∀ s, s < w.nSlots → (w'.slots s).fn = (w.slots s).fn
  consume : ∀ s, s < w.nSlots → (w'.slots s).consume = (w.slots s).consume
  owner : ∀ s, s < w.nSlots → (w'.slots s).owner = (w.slots s).owner
  isVoid : ∀ g, g < w.nSigs → (w'.sigs g).isVoid = (w.sigs g).isVoid
  sblocked : (∀ g, (w.sigs g).sblocked = false) → ∀ g, (w'.sigs g).sblocked = false
  nSlots : w.nSlots ≤ w'.nSlots
  nSigs : w.nSigs ≤ w'.nSigs
  nEm : w.nEm ≤ w'.nEm
  nObjs : w.nObjs ≤ w'.nObjs
  nBlks : w.nBlks ≤ w'.nBlks

theorem Fixed.same {w w' : World} (h1 : w'.slots = w.slots) (h2 : w'.sigs = w.sigs)
    (h3 : w'.nSlots = w.nSlots) (h4 : w'.nSigs = w.nSigs) (h5 : w.nEm ≤ w'.nEm) (h6 : w.nObjs ≤ w'.nObjs)
    (h7 : w.nBlks ≤ w'.nBlks) : Fixed w w' :=
  ⟨by simp [h1], by simp [h1], by simp [h1], by simp [h2], by simp [h2], by omega, by omega, h5, h6, h7⟩

theorem Fixed.slot {w w' : World} {s : SlotId} {r : SlotRec} (h1 : w'.slots = upd w.slots s r)
    (r1 : r.fn = (w.slots s).fn) (r2 : r.consume = (w.slots s).consume) (r3 : r.owner = (w.slots s).owner)
    (h2 : w'.sigs = w.sigs)
    (h3 : w'.nSlots = w.nSlots) (h4 : w'.nSigs = w.nSigs) (h5 : w.nEm ≤ w'.nEm) (h6 : w.nObjs ≤ w'.nObjs)
    (h7 : w.nBlks ≤ w'.nBlks) : Fixed w w' := by
  refine ⟨?_, ?_, ?_, by simp [h2], by simp [h2], by omega, by omega, h5, h6, h7⟩
  all_goals
    intro x _; rw [h1, upd_apply]; split
    · rename_i e; subst e; assumption
    · rfl

theorem Fixed.sig {w w' : World} {g : SigId} {r : SigRec} (h1 : w'.sigs = upd w.sigs g r)
    (r1 : r.isVoid = (w.sigs g).isVoid) (r2 : r.sblocked = (w.sigs g).sblocked)
    (h2 : w'.slots = w.slots)
    (h3 : w'.nSlots = w.nSlots) (h4 : w.nSigs ≤ w'.nSigs) (h5 : w.nEm ≤ w'.nEm) (h6 : w.nObjs ≤ w'.nObjs)
    (h7 : w.nBlks ≤ w'.nBlks) : Fixed w w' := by
  refine ⟨by simp [h2], by simp [h2], by simp [h2], ?_, ?_, by omega, h4, h5, h6, h7⟩
  · intro x _; rw [h1, upd_apply]; split
    · rename_i e; subst e; assumption
    · rfl
  · intro h x; rw [h1, upd_apply]; split
    · rw [r2]; exact h g
    · exact h x

theorem Fixed.sig2 {w w' : World} {g g' : SigId} {r r' : SigRec} (h1 : w'.sigs = upd (upd w.sigs g r) g' r')
    (r1 : r.isVoid = (w.sigs g).isVoid) (r2 : r.sblocked = (w.sigs g).sblocked)
    (r3 : r'.isVoid = (w.sigs g').isVoid) (r4 : r'.sblocked = (w.sigs g').sblocked)
    (h2 : w'.slots = w.slots)
    (h3 : w'.nSlots = w.nSlots) (h4 : w.nSigs ≤ w'.nSigs) (h5 : w.nEm ≤ w'.nEm) (h6 : w.nObjs ≤ w'.nObjs)
    (h7 : w.nBlks ≤ w'.nBlks) : Fixed w w' := by
  refine ⟨by simp [h2], by simp [h2], by simp [h2], ?_, ?_, by omega, h4, h5, h6, h7⟩
  · intro x _; rw [h1, upd_apply, upd_apply]; split
    · rename_i e; subst e; assumption
    · split
      · rename_i e; subst e; assumption
      · rfl
  · intro h x; rw [h1, upd_apply, upd_apply]; split
    · rw [r4]; exact h g'
    · split
      · rw [r2]; exact h g
      · exact h x

theorem removeAt_fixed (w : World) (b : BlkId) (i : Nat) : Fixed w (removeAt w b i) := by
  unfold removeAt; split
  · exact .slot rfl rfl rfl rfl rfl rfl rfl (Nat.le_refl _) (Nat.le_refl _) (Nat.le_refl _)
  · exact .same rfl rfl rfl rfl (Nat.le_refl _) (Nat.le_refl _) (Nat.le_refl _)

theorem Fixed.congr {w w1 w' : World} (h : Fixed w w1) (h1 : w'.slots = w1.slots) (h2 : w'.sigs = w1.sigs)
    (h3 : w'.nSlots = w1.nSlots) (h4 : w'.nSigs = w1.nSigs) (h5 : w'.nEm = w1.nEm) (h6 : w'.nObjs = w1.nObjs)
    (h7 : w'.nBlks = w1.nBlks) : Fixed w w' :=
  ⟨by rw [h1]; exact h.fn, by rw [h1]; exact h.consume, by rw [h1]; exact h.owner, by rw [h2]; exact h.isVoid,
   by rw [h2]; exact h.sblocked, h3 ▸ h.nSlots, h4 ▸ h.nSigs, h5 ▸ h.nEm, h6 ▸ h.nObjs, h7 ▸ h.nBlks⟩

theorem fixed {E : Env} {w w' : World} {t : Tid} (h : StepR E w t w') : Fixed w w' := by
  have le := Nat.le_refl
  cases h
  case flag s c cv sv bv hu hs hh ha => exact .slot (s := s) rfl rfl rfl rfl rfl rfl rfl (le _) (le _) (le _)
  case objs f n hu hn hd => exact .same rfl rfl rfl rfl (le _) hn (le _)
  case pins => exact .same rfl rfl rfl rfl (le _) (le _) (le _)
  case newSig v hu =>
    refine ⟨fun _ _ => rfl, fun _ _ => rfl, fun _ _ => rfl, ?_, ?_, le _, Nat.le_succ _, le _, le _, Nat.le_succ _⟩
    · intro g hg; simp only [upd_apply]; rw [if_neg (by omega)]
    · intro h g; simp only [upd_apply]; split
      · rfl
      · exact h g
  case destroy g hu hg ha hm => exact .sig (g := g) rfl rfl rfl rfl rfl (le _) (le _) (le _) (le _)
  case movStart g hu hg ha =>
    refine ⟨fun _ _ => rfl, fun _ _ => rfl, fun _ _ => rfl, ?_, ?_, le _, Nat.le_succ _, le _, le _, le _⟩
    · intro g hg; simp only [World.setStack, upd_apply]; rw [if_neg (by omega)]
    · intro h x; simp only [World.setStack, upd_apply]; split
      · exact h g
      · exact h x
  case connStart g fn consume conn blk dest hu hg ho =>
    refine ⟨?_, ?_, ?_, fun _ _ => rfl, fun h => h, Nat.le_succ _, le _, le _, le _, le _⟩
    all_goals
      intro s hs; simp only [World.emitEv, World.setStack, upd_apply]; rw [if_neg (by omega)]
  case emitStart => exact .same rfl rfl rfl rfl (Nat.le_succ _) (le _) (le _)
  case acq f f' rest g hst hf ha hm => exact .sig (g := g) rfl rfl rfl rfl rfl (le _) (le _) (le _) (le _)
  case det f f' rest g b hst hf hl => exact .sig (g := g) rfl rfl rfl rfl rfl (le _) (le _) (le _) (Nat.le_succ _)
  case emSnap m b rest hst => exact .sig (g := m.g) rfl rfl rfl rfl rfl (le _) (le _) (le _) (le _)
  case callExpired s o m b pos acc rest hst ho => exact .slot (s := s) rfl rfl rfl rfl rfl rfl rfl (le _) (le _) (le _)
  case addWrite g s dest rest b hst hl => exact .slot (s := s) rfl rfl rfl rfl rfl rfl rfl (le _) (le _) (le _)
  case addUnlock g s dest rest cv sv bv hst hs => exact .sig (g := g) rfl rfl rfl rfl rfl (le _) (le _) (le _) (le _)
  case eraseHit g tgt i cnt rest b s hst hl hi he => exact (removeAt_fixed w b i).congr rfl rfl rfl rfl rfl rfl rfl
  case fail f rest g s hst hf => exact .sig (g := g) rfl rfl rfl rfl rfl (le _) (le _) (le _) (le _)
  case eraseUnlock g tgt r rest hst => exact .sig (g := g) rfl rfl rfl rfl rfl (le _) (le _) (le _) (le _)
  case exchTrue s k rest hst hc => exact .slot (s := s) rfl rfl rfl rfl rfl rfl rfl (le _) (le _) (le _)
  case discWrite s v k rest g b hst hl hi => exact (removeAt_fixed w b _).congr rfl rfl rfl rfl rfl rfl rfl
  case discUnlock s k rest g hst => exact .sig (g := g) rfl rfl rfl rfl rfl (le _) (le _) (le _) (le _)
  case movWrite g' g rest hst =>
    have : ∀ x, ((upd (upd w.sigs g' { w.sigs g' with list := (w.sigs g).list }) g
      { upd w.sigs g' { w.sigs g' with list := (w.sigs g).list } g with list := none }) x).isVoid = (w.sigs x).isVoid
      ∧ ((upd (upd w.sigs g' { w.sigs g' with list := (w.sigs g).list }) g
      { upd w.sigs g' { w.sigs g' with list := (w.sigs g).list } g with list := none }) x).sblocked = (w.sigs x).sblocked := by
      intro x; simp only [upd_apply]
      split
      · rename_i e; subst e
        split
        · rename_i e; subst e; exact ⟨rfl, rfl⟩
        · exact ⟨rfl, rfl⟩
      · split
        · rename_i e; subst e; exact ⟨rfl, rfl⟩
        · exact ⟨rfl, rfl⟩
    refine ⟨fun _ _ => rfl, fun _ _ => rfl, fun _ _ => rfl, fun x _ => (this x).1, ?_, le _, le _, le _, le _, le _⟩
    intro h x; exact (this x).2.trans (h x)
  case movUnlock g' g rest hst =>
    have : ∀ x, ((upd (upd w.sigs g { w.sigs g with mutex := none }) g'
          { upd w.sigs g { w.sigs g with mutex := none } g' with alive := true }) x).isVoid = (w.sigs x).isVoid
      ∧ ((upd (upd w.sigs g { w.sigs g with mutex := none }) g'
          { upd w.sigs g { w.sigs g with mutex := none } g' with alive := true }) x).sblocked = (w.sigs x).sblocked := by
      intro x; simp only [upd_apply]
      split
      · rename_i e; subst e
        split
        · rename_i e; subst e; exact ⟨rfl, rfl⟩
        · exact ⟨rfl, rfl⟩
      · split
        · rename_i e; subst e; exact ⟨rfl, rfl⟩
        · exact ⟨rfl, rfl⟩
    refine ⟨fun _ _ => rfl, fun _ _ => rfl, fun _ _ => rfl, fun x _ => (this x).1, ?_, le _, le _, le _, le _, le _⟩
    intro h x; exact (this x).2.trans (h x)
  all_goals exact .same rfl rfl rfl rfl (le _) (le _) (le _)

/-- Every log is an extension of the previous one. -/
theorem log_grows {E : Env} {w w' : World} {t : Tid} (h : StepR E w t w') : ∃ evs, w'.log = evs ++ w.log := by
  cases h <;> first | exact ⟨[], rfl⟩ | exact ⟨[_], rfl⟩ | exact ⟨[_, _], rfl⟩ | skip
  case eraseHit g tgt i cnt rest b s hst hl hi he =>
    refine ⟨[.erased g s], ?_⟩
    simp only [World.emitEv, World.setStack, (removeAt_same _ _ _).2.2.2.2.2.2.2.2.2.2.1]; rfl
  case discWrite s v k rest g b hst hl hi =>
    refine ⟨[.removed g s v], ?_⟩
    simp only [World.emitEv, World.setStack, (removeAt_same _ _ _).2.2.2.2.2.2.2.2.2.2.1]; rfl

/-- A vector that some activation owns is never modified. -/
theorem owned_blk {E : Env} {w w' : World} {t : Tid} (I : Inv w) (h : StepR E w t w') {t' : Tid} {f : Frame}
    {b : BlkId} (hf : f ∈ w.stacks t') (hb : f.blk? = some b) : w'.blks b = w.blks b := by
  have hlt : b < w.nBlks := by
    have := I.i1.rng t' f hf
    cases f <;> simp [Frame.blk?] at hb
    rename_i m pc
    refine this.2.2 b ?_
    cases pc <;> simp_all [EmitPc.blk?]
  cases h
  case newSig v hu => simp only [upd_apply]; rw [if_neg (by omega)]
  case det f f' rest g b hst hf hl =>
    unfold cloneBlk
    simp only [World.setStack, World.setList, World.setBlk, upd_apply]; rw [if_neg (by omega)]
  case addWrite g s dest rest b' hst hl =>
    simp only [World.emitEv, World.setStack, World.setBlk, World.setIndex, upd_apply]; rw [if_neg]
    rintro rfl
    exact I.i2.excl t g b (by rw [hst]; rfl) hl t' f hf hb
  case eraseHit g tgt i cnt rest b' s hst hl hi he =>
    have n : b ≠ b' := by
      rintro rfl
      exact I.i2.excl t g b (by rw [hst]; rfl) hl t' f hf hb
    show (removeAt w b' i).blks b = _
    unfold removeAt; split
    · simp only [World.setBlk, World.setIndex, upd_apply]; rw [if_neg n]
    · rfl
  case discWrite s v k rest g b' hst hl hi =>
    have n : b ≠ b' := by
      rintro rfl
      exact I.i2.excl t g b (by rw [hst]; rfl) hl t' f hf hb
    show (removeAt w b' _).blks b = _
    unfold removeAt; split
    · simp only [World.setBlk, World.setIndex, upd_apply]; rw [if_neg n]
    · rfl
  all_goals rfl

end Verif
