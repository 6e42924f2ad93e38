import Verif.Mach.Foot

/-!
# Which accesses are ordered: the invariant behind the absence of data races
-/

namespace Verif

variable {E : Env} {w w' : World} {t : Tid} {c : Sync} {h h' : HB}

/-- What is known to whoever may touch the list of `g`: to the holder of its mutex, or to the next one to lock it. -/
def sigK (w : World) (h : HB) (g : SigId) : List Nat :=
  match (w.sigs g).mutex with
  | some t => h.K t
  | none => h.M g

/-- The invariant, for one access. -/
structure AccOk (c : Sync) (w : World) (h : HB) (a : Acc) : Prop where
  self : a.n ∈ h.K a.t
  rptr : ∀ g, a.loc = .ptr g → g < w.nSigs
  rvec : ∀ b, a.loc = .vec b → b < w.nBlks
  ridx : ∀ s, a.loc = .idx s → s < w.nSlots
  ptr : ∀ g, a.loc = .ptr g → a.n ∈ sigK w h g ∨ Event.destroyed g ∈ w.log
  bld : ∀ g t g0 pc, a.loc = .ptr g → topMov (w.stacks t) = some (g, g0, pc) → pc = .unlock
  vw : ∀ b, a.loc = .vec b → a.site.writes = true →
    (∀ g, (w.sigs g).list = some b → a.n ∈ sigK w h g) ∧ ∀ t, own w b t → a.n ∈ h.K t
  vr : ∀ b, a.loc = .vec b → a.site.writes = false →
    (∃ g, (w.sigs g).list = some b ∧ a.n ∈ sigK w h g) ∨ (a.site = .walk ∧ own w b a.t) ∨
    (a.n ∈ h.R b ∧ (a.site = .walk ∨ ∀ g, (w.sigs g).list ≠ some b))
  tw : ∀ t g b, topW (w.stacks t) = some g → (w.sigs g).list = some b → a.loc = .vec b →
    a.n ∈ h.K t ∨ (c.count = false ∧ a.site = .walk ∧ a.n ∈ h.R b)
  ip : ∀ t g s, topPend (w.stacks t) = some (g, s) → a.loc = .idx s → a.n ∈ h.K t
  io : ∀ g s, Event.added g s ∈ w.log → (w.sigs g).list ≠ none → a.loc = .idx s → a.n ∈ sigK w h g
  il : ∀ g s, s ∈ w.listOf g → a.loc = .idx s → a.n ∈ sigK w h g

/-- The effect of a step on ownership, and on what is known. -/
structure Eff (c : Sync) (w : World) (t : Tid) (w' : World) (h h' : HB) : Prop where
  grow : Grows t h h'
  sig : ∀ g, ∀ n ∈ sigK w h g, n ∈ sigK w' h' g
  new : ∀ g b, (w'.sigs g).list = some b → (w.sigs g).list = some b ∨ b = w.nBlks ∨
    ∃ g0, (w.sigs g0).list = some b ∧ ∀ n ∈ sigK w h g0, n ∈ sigK w' h' g
  lost : ∀ g b, (w.sigs g).list = some b → (∃ g', (w'.sigs g').list = some b) ∨
    ((∀ g', (w'.sigs g').list ≠ some b) ∧ ∀ n ∈ sigK w h g, n ∈ h'.R b)
  ownN : ∀ b, own w' b t → own w b t ∨ ∃ g, (w.sigs g).list = some b ∧ ∀ n ∈ sigK w h g, n ∈ h'.K t
  ownO : ∀ b, own w b t → own w' b t ∨ ∀ n ∈ h.K t, n ∈ h'.R b
  tw : ∀ t1 g b, topW (w'.stacks t1) = some g → (w'.sigs g).list = some b →
    (topW (w.stacks t1) = some g ∧ (w.sigs g).list = some b) ∨ b = w.nBlks ∨
    (t1 = t ∧ (w.sigs g).list = some b ∧ (∀ n ∈ sigK w h g, n ∈ h'.K t) ∧ (∀ t', ¬ own w b t') ∧
      (c.count = true → ∀ n ∈ h.R b, n ∈ h'.K t))
  pend : ∀ t' g s, topPend (w'.stacks t') = some (g, s) → topPend (w.stacks t') = some (g, s) ∨ s = w.nSlots
  added : ∀ g s, Event.added g s ∈ w'.log → Event.added g s ∈ w.log ∨
    ((∃ g', topPend (w.stacks t) = some (g', s)) ∧ ∀ n ∈ h'.K t, n ∈ sigK w' h' g)
  mem : ∀ g s, s ∈ w'.listOf g → s ∈ w.listOf g ∨
    ((∃ g', topPend (w.stacks t) = some (g', s)) ∧ ∀ n ∈ h'.K t, n ∈ sigK w' h' g) ∨
    ∃ g0, s ∈ w.listOf g0 ∧ ∀ n ∈ sigK w h g0, n ∈ sigK w' h' g

/-- Steps that leave every signal's pointer alone. -/
theorem Eff.ofLists (grow : Grows t h h') (oth : ∀ t', t' ≠ t → w'.stacks t' = w.stacks t')
    (sig : ∀ g, ∀ n ∈ sigK w h g, n ∈ sigK w' h' g)
    (hl : ∀ g, (w'.sigs g).list = (w.sigs g).list)
    (ownN : ∀ b, own w' b t → own w b t ∨ ∃ g, (w.sigs g).list = some b ∧ ∀ n ∈ sigK w h g, n ∈ h'.K t)
    (ownO : ∀ b, own w b t → own w' b t ∨ ∀ n ∈ h.K t, n ∈ h'.R b)
    (tw : ∀ g, topW (w'.stacks t) = some g → topW (w.stacks t) = some g)
    (pend : ∀ g s, topPend (w'.stacks t) = some (g, s) → topPend (w.stacks t) = some (g, s) ∨ s = w.nSlots)
    (added : ∀ g s, Event.added g s ∈ w'.log → Event.added g s ∈ w.log ∨
      ((∃ g', topPend (w.stacks t) = some (g', s)) ∧ ∀ n ∈ h'.K t, n ∈ sigK w' h' g))
    (mem : ∀ g s, s ∈ w'.listOf g → s ∈ w.listOf g ∨
      ((∃ g', topPend (w.stacks t) = some (g', s)) ∧ ∀ n ∈ h'.K t, n ∈ sigK w' h' g)) : Eff c w t w' h h' where
  grow := grow
  sig := sig
  new g b e := .inl (by rw [← hl g]; exact e)
  lost g b e := .inl ⟨g, by rw [hl g]; exact e⟩
  ownN := ownN
  ownO := ownO
  tw t1 g b ht hg := by
    rw [hl g] at hg
    by_cases e : t1 = t
    · subst e; exact .inl ⟨tw g ht, hg⟩
    · rw [oth _ e] at ht; exact .inl ⟨ht, hg⟩
  pend t1 g s ht := by
    by_cases e : t1 = t
    · subst e; exact pend g s ht
    · rw [oth _ e] at ht; exact .inl ht
  added := added
  mem g s hm := (mem g s hm).imp id .inl

theorem sigK_same {g : SigId} (hm : (w'.sigs g).mutex = (w.sigs g).mutex) (G : Grows t h h') :
    ∀ n ∈ sigK w h g, n ∈ sigK w' h' g := by
  unfold sigK; rw [hm]; split
  · exact G.K _
  · exact G.M _

theorem sigK_held {g : SigId} (hm : (w.sigs g).mutex = some t) : sigK w h g = h.K t := by unfold sigK; rw [hm]

theorem sigK_free {g : SigId} (hm : (w.sigs g).mutex = none) : sigK w h g = h.M g := by unfold sigK; rw [hm]

theorem ownedB_false (I : Inv1 w) {b : BlkId} (hb : w.ownedB b = false) :
    (∀ t, ¬ own w b t) ∧ ∀ g, (w.sigs g).list ≠ some b := by
  simp only [World.ownedB, World.anyFrame, Bool.or_eq_false_iff, List.any_eq_false, List.mem_range, beq_iff_eq] at hb
  constructor
  · rintro t ⟨f, hf, e⟩
    by_cases ht : t < w.nThr
    · have := hb.1 t ht
      simp only [List.any_eq_true, beq_iff_eq, not_exists, not_and] at this
      exact this f hf e
    · rw [I.thr t (Nat.le_of_not_lt ht)] at hf; cases hf
  · intro g hg
    by_cases h : g < w.nSigs
    · exact hb.2 g h hg
    · rw [(I.out g (Nat.le_of_not_lt h)).1] at hg; cases hg

theorem own_lt (I : Inv1 w) {b : BlkId} (ho : own w b t) : b < w.nBlks := by
  obtain ⟨f, hf, hb⟩ := ho
  have := I.rng t f hf
  cases f <;> simp [Frame.blk?] at hb
  rename_i m pc
  refine this.2.2 b ?_
  cases pc <;> simp_all [EmitPc.blk?]

/-! ### A listener is listed where it was added, or that signal has been moved from -/

theorem lnone_step (I : Inv w) (A : InvA w) (R : StepR E w t w') {g : SigId} (hl : (w'.sigs g).list ≠ none) :
    (w.sigs g).list ≠ none ∨ ∀ s, Event.added g s ∉ w.log := by
  have sg : ∀ {r : SigRec} {g0 : SigId}, (upd w.sigs g0 r g).list ≠ none → (r.list ≠ none → (w.sigs g0).list ≠ none) →
      (w.sigs g).list ≠ none := by
    intro r g0 h1 h2
    rw [upd_apply] at h1
    split at h1
    · rename_i e; subst e; exact h2 h1
    · exact h1
  cases R
  case newSig v hu =>
    by_cases e : g = w.nSigs
    · right; intro s hs; have := A.alt g s hs; omega
    · left; simpa only [upd_apply, if_neg e] using hl
  case destroy g0 hu hg ha hm => exact .inl (sg hl (fun h => absurd rfl h))
  case movStart g0 hu hg ha =>
    by_cases e : g = w.nSigs
    · right; intro s hs; have := A.alt g s hs; omega
    · left; simpa only [World.setStack, upd_apply, if_neg e] using hl
  case acq f f' rest g0 hst hf ha hm => exact .inl (sg hl id)
  case det f f' rest g0 b hst hf hl0 =>
    left
    unfold cloneBlk at hl
    exact sg hl (fun _ => by rw [hl0]; simp)
  case emSnap m b rest hst => exact .inl (sg hl id)
  case addUnlock g0 s dest rest cv sv bv hst hs => exact .inl (sg hl id)
  case eraseHit g0 tgt i cnt rest b s hst hl0 hi he =>
    have : (removeAt w b i).sigs = w.sigs := by unfold removeAt; split <;> rfl
    simp only [World.emitEv, World.setStack, this] at hl; exact .inl hl
  case fail f rest g0 s hst hf => exact .inl (sg hl id)
  case eraseUnlock g0 tgt r rest hst => exact .inl (sg hl id)
  case discWrite s v k rest g0 b hst hl0 hi =>
    have : (removeAt w b (w.slots s).index).sigs = w.sigs := by unfold removeAt; split <;> rfl
    simp only [World.emitEv, World.setStack, this] at hl; exact .inl hl
  case discUnlock s k rest g0 hst => exact .inl (sg hl id)
  case movWrite g' g0 rest hst =>
    by_cases e : g = g'
    · subst e; right; exact A.bld t g g0 .write (by rw [hst]; rfl)
    · left
      simp only [World.emitEv, World.setStack, World.setList, upd_apply] at hl
      split at hl
      · exact absurd rfl hl
      · exact hl
  case movUnlock g' g0 rest hst =>
    left
    simp only [upd_apply] at hl
    split at hl
    · rename_i e; subst e
      split at hl
      · rename_i e; subst e; exact hl
      · exact hl
    · split at hl
      · rename_i e; subst e; exact hl
      · exact hl
  all_goals exact .inl hl

/-- A listener that is listed in another signal than the one it was added to: that signal has no list any more. -/
def HomeOk (w : World) : Prop :=
  ∀ g g1 s, Event.added g s ∈ w.log → s ∈ w.listOf g1 → g ≠ g1 → (w.sigs g).list = none

theorem added_count {log : List Event} {g : SigId} {s : SlotId} (h : Event.added g s ∈ log) :
    0 < log.countP (Event.adds s) := List.countP_pos_iff.2 ⟨_, h, by simp [Event.adds]⟩

theorem added_uniq {log : List Event} {g g' : SigId} {s : SlotId} (hc : log.countP (Event.adds s) ≤ 1)
    (h : Event.added g s ∈ log) (h' : Event.added g' s ∈ log) : g = g' := by
  induction log with
  | nil => cases h
  | cons ev log ih =>
    rw [List.countP_cons] at hc
    have hit : ∀ g0, ev = Event.added g0 s → log.countP (Event.adds s) = 0 := by
      rintro g0 rfl
      rw [if_pos (by simp [Event.adds])] at hc
      omega
    rcases List.mem_cons.1 h with e | h1
    · rcases List.mem_cons.1 h' with e' | h2
      · rw [← e'] at e; injection e
      · have := added_count h2; have := hit g e.symm; omega
    · rcases List.mem_cons.1 h' with e' | h2
      · have := added_count h1; have := hit g' e'.symm; omega
      · exact ih (by omega) h1 h2

theorem moved_none {g g' : SigId} (R : StepR E w t w') (hlog : w'.log = .moved g g' :: w.log) : (w'.sigs g).list = none := by
  cases R
  case movWrite g1 g2 rest hst =>
    simp only [World.emitEv, World.setStack, World.setList, List.cons.injEq, Event.moved.injEq, and_true] at hlog
    obtain ⟨rfl, rfl⟩ := hlog
    simp [World.emitEv, World.setStack, World.setList, upd_same]
  case det f f' rest g0 b hst hf hl =>
    exfalso
    simp [cloneBlk, World.setStack, World.setList, World.setBlk] at hlog
  case eraseHit g0 tgt i cnt rest b s hst hl0 hi he =>
    exfalso
    unfold removeAt at hlog; split at hlog <;> simp [World.emitEv, World.setStack, World.setBlk, World.setIndex] at hlog
  case discWrite s v k rest g0 b hst hl0 hi =>
    exfalso
    unfold removeAt at hlog; split at hlog <;> simp [World.emitEv, World.setStack, World.setBlk, World.setIndex] at hlog
  all_goals
    exfalso
    simp [World.emitEv, World.setStack, World.setUB, World.setH, World.setMutex, World.setBlocked, World.setBlk, World.setIndex] at hlog

theorem HomeOk.step (I : Inv w) (A : InvA w) (H : HomeOk w) (R : StepR E w t w') : HomeOk w' := by
  have keep : ∀ g g1 s, Event.added g s ∈ w.log → s ∈ w.listOf g1 → g ≠ g1 → (w'.sigs g).list = none := by
    intro g g1 s h1 h2 h3
    have h0 := H g g1 s h1 h2 h3
    cases hl : (w'.sigs g).list with
    | none => rfl
    | some b =>
      rcases lnone_step I A R (g := g) (by rw [hl]; simp) with h | h
      · exact absurd h0 h
      · exact absurd h1 (h s)
  intro g g1 s h1 h2 h3
  cases listEff I.i1 I.i2 R with
  | same hl _ hlog =>
    obtain ⟨evs, e, hq⟩ := hlog
    rw [hl] at h2
    rw [e] at h1
    rcases List.mem_append.1 h1 with hm | hm
    · cases hq _ hm
    · exact keep g g1 s hm h2 h3
  | add g0 s0 b d rest hst _ hl _ hlog =>
    have p0 := I.i3.pend t g0 s0 (by rw [hst]; rfl)
    rw [hlog] at h1
    rw [hl] at h2
    by_cases e : s = s0
    · subst e
      rcases List.mem_cons.1 h1 with hm | hm
      · injection hm with e1 e2; subst e1
        rw [if_neg (Ne.symm h3)] at h2
        have := (I.i3.listed _ _ h2).1; omega
      · have := added_count hm; omega
    · have h1 : Event.added g s ∈ w.log := by
        rcases List.mem_cons.1 h1 with hm | hm
        · injection hm with e1 e2; exact absurd e2 e
        · exact hm
      refine keep g g1 s h1 ?_ h3
      split at h2
      · rename_i e; subst e; simpa [e] using h2
      · exact h2
  | rem g0 i v ev _ hv hl _ he hlog =>
    rw [hlog] at h1
    have h1 : Event.added g s ∈ w.log := by
      rcases he with rfl | ⟨_, rfl⟩ <;> simpa using h1
    refine keep g g1 s h1 ?_ h3
    rw [hl] at h2
    split at h2
    · rename_i e; subst e; exact ((mem_swapPop_iff (I.i3.nodup g1) hv).1 h2).1
    · exact h2
  | move g0 g' hne _ h0 hd hl _ hlog =>
    rw [hlog] at h1
    have h1 : Event.added g s ∈ w.log := by simpa using h1
    rw [hl] at h2
    split at h2
    · cases h2
    · split at h2
      · by_cases e : g = g0
        · subst e
          exact moved_none R hlog
        · exact keep g g0 s h1 h2 e
      · exact keep g g1 s h1 h2 h3
  | destroy g0 hm hl _ hlog =>
    rw [hlog] at h1
    have h1 : Event.added g s ∈ w.log := by simpa using h1
    rw [hl] at h2
    split at h2
    · cases h2
    · exact keep g g1 s h1 h2 h3

/-- Move constructors are started on a signal number not used before, and run to their end. -/
theorem mov_pc (I : Inv w) (h : StepR E w t w') {t' : Tid} {g g0 : SigId} {pc : MovPc}
    (hm : topMov (w'.stacks t') = some (g, g0, pc)) :
    (∃ pc', topMov (w.stacks t') = some (g, g0, pc') ∧ (pc' = .unlock → pc = .unlock)) ∨ g = w.nSigs := by
  by_cases ht : t' = t
  · subst ht
    have pop : ∀ {f : Frame} {rest : List Frame}, w.stacks t' = f :: rest → f.isCall = false → UserStk rest :=
      fun hst hf => (hst ▸ I.i1.stk t').tail hf
    have pop2 : ∀ {s : SlotId} {pc : CallPc} {m : Em} {p : EmitPc} {rest : List Frame},
        w.stacks t' = .call s pc :: .emit m p :: rest → UserStk rest :=
      fun hst => OkStk.callTail (hst ▸ I.i1.stk t')
    have us := upd_same (α := List Frame) w.stacks t'
    cases h
    case movStart =>
      change topMov (upd w.stacks t' _ t') = _ at hm
      rw [us] at hm
      simp only [topMov, Option.some.injEq, Prod.mk.injEq] at hm
      exact .inr hm.1.symm
    case movWrite hst =>
      change topMov (upd w.stacks t' _ t') = _ at hm
      rw [us] at hm
      simp only [topMov, Option.some.injEq, Prod.mk.injEq] at hm
      obtain ⟨rfl, rfl, rfl⟩ := hm
      exact .inl ⟨_, by rw [hst]; rfl, by simp⟩
    case acq f f' rest g1 hst hf ha hm' =>
      change topMov (upd w.stacks t' _ t') = _ at hm
      rw [us] at hm
      unfold Frame.acq at hf; split at hf <;> simp at hf <;> obtain ⟨rfl, rfl⟩ := hf <;> try cases hm
      exact .inl ⟨_, by rw [hst]; rfl, by simp⟩
    case tst f f' rest g1 b hst hf hl' =>
      change topMov (upd w.stacks t' _ t') = _ at hm
      rw [us] at hm
      unfold Frame.tst at hf; split at hf <;> simp at hf <;> obtain ⟨rfl, rfl⟩ := hf <;> cases hm
    case det f f' rest g1 b hst hf hl' =>
      have e1 : ((cloneBlk w g1 b).setStack t' (f' :: rest)).stacks t' = f' :: rest := by
        exact upd_same _ _ _
      rw [e1] at hm
      unfold Frame.det at hf; split at hf <;> simp at hf <;> obtain ⟨rfl, rfl⟩ := hf <;> cases hm
    case eraseHit =>
      change topMov (upd _ t' _ t') = _ at hm
      rw [upd_same] at hm; cases hm
    case discWrite =>
      change topMov (upd _ t' _ t') = _ at hm
      rw [upd_same] at hm; cases hm
    all_goals first
      | exact .inl ⟨pc, hm, id⟩
      | (change topMov (upd w.stacks t' _ t') = _ at hm
         rw [us] at hm
         first
           | (cases hm; done)
           | (rw [(pop ‹_› rfl).tops.2.1] at hm; cases hm; done)
           | (rw [(pop ‹_› (Frame.allocs_isCall ‹_›)).tops.2.1] at hm; cases hm; done)
           | (rw [(pop2 ‹_›).tops.2.1] at hm; cases hm; done))
  · rw [stacks_other h ht] at hm; exact .inl ⟨pc, hm, id⟩

theorem AccOk.keep {a : Acc} (I : Inv w) (V : InvA w) (R : StepR E w t w') (F : Eff c w t w' h h') (A : AccOk c w h a) : AccOk c w' h' a where
  self := F.grow.K _ _ A.self
  rptr g e := Nat.lt_of_lt_of_le (A.rptr g e) (fixed R).nSigs
  rvec g e := Nat.lt_of_lt_of_le (A.rvec g e) (fixed R).nBlks
  ridx g e := Nat.lt_of_lt_of_le (A.ridx g e) (fixed R).nSlots
  ptr g e := (A.ptr g e).imp (F.sig g _) (fun h => by obtain ⟨evs, e⟩ := log_grows R; rw [e]; exact List.mem_append_right _ h)
  bld g t1 g0 pc e hm := by
    rcases mov_pc I R hm with ⟨pc', h1, h2⟩ | h1
    · exact h2 (A.bld g t1 g0 pc' e h1)
    · have := A.rptr g e; omega
  vw b e hw := by
    obtain ⟨h1, h2⟩ := A.vw b e hw
    constructor
    · intro g hg
      rcases F.new g b hg with hg | hg | ⟨g0, hg, hs⟩
      · exact F.sig g _ (h1 g hg)
      · have := A.rvec b e; omega
      · exact hs _ (h1 g0 hg)
    · intro t1 ho
      by_cases ht : t1 = t
      · subst ht
        rcases F.ownN b ho with ho | ⟨g, hg, hs⟩
        · exact F.grow.K _ _ (h2 _ ho)
        · exact hs _ (h1 g hg)
      · rw [F.grow.Ko _ ht]
        refine h2 _ ?_
        unfold own at ho ⊢; rw [stacks_other R ht] at ho; exact ho
  vr b e hw := by
    rcases A.vr b e hw with ⟨g, hg, hn⟩ | ⟨hk, ho⟩ | ⟨hn, ho⟩
    · rcases F.lost g b hg with ⟨g', hg'⟩ | ⟨h1, h2⟩
      · left
        refine ⟨g', hg', ?_⟩
        rcases F.new g' b hg' with h3 | h3 | ⟨g0, h3, hs⟩
        · rw [I.i2.uniq g' g b h3 hg]; exact F.sig g _ hn
        · have := A.rvec b e; omega
        · rw [I.i2.uniq g0 g b h3 hg] at hs; exact hs _ hn
      · exact .inr (.inr ⟨h2 _ hn, .inr h1⟩)
    · by_cases ht : a.t = t
      · rcases F.ownO b (ht ▸ ho) with h1 | h1
        · exact .inr (.inl ⟨hk, ht ▸ h1⟩)
        · refine .inr (.inr ⟨h1 _ ?_, .inl hk⟩)
          have := A.self; rw [ht] at this; exact this
      · refine .inr (.inl ⟨hk, ?_⟩)
        unfold own at ho ⊢; rw [stacks_other R ht]; exact ho
    · refine .inr (.inr ⟨F.grow.R _ _ hn, ho.imp id fun h1 g hg => ?_⟩)
      rcases F.new g b hg with h3 | h3 | ⟨g0, h3, -⟩
      · exact h1 g h3
      · have := A.rvec b e; omega
      · exact h1 g0 h3
  tw t1 g b ht hg e := by
    rcases F.tw t1 g b ht hg with ⟨h1, h2⟩ | h1 | ⟨rfl, h2, h3, h4, h5⟩
    · exact (A.tw t1 g b h1 h2 e).imp (F.grow.K _ _) fun h => ⟨h.1, h.2.1, F.grow.R _ _ h.2.2⟩
    · have := A.rvec b e; omega
    · cases hw : a.site.writes
      · rcases A.vr b e hw with ⟨g', hg', hn⟩ | ⟨hk, ho⟩ | ⟨hn, ho⟩
        · rw [I.i2.uniq g' g b hg' h2] at hn
          exact .inl (h3 _ hn)
        · exact absurd ho (h4 _)
        · cases hc : c.count
          · exact .inr ⟨rfl, ho.elim id fun h => absurd h2 (h g), F.grow.R _ _ hn⟩
          · exact .inl (h5 hc _ hn)
      · exact .inl (h3 _ ((A.vw b e hw).1 g h2))
  ip t1 g s ht e := by
    rcases F.pend t1 g s ht with h1 | h1
    · exact F.grow.K _ _ (A.ip t1 g s h1 e)
    · have := A.ridx s e; omega
  io g s hm hl e := by
    rcases F.added g s hm with h1 | ⟨⟨g', h1⟩, h2⟩
    · rcases lnone_step I V R hl with h2 | h2
      · exact F.sig g _ (A.io g s h1 h2 e)
      · exact absurd h1 (h2 s)
    · exact h2 _ (F.grow.K _ _ (A.ip _ _ s h1 e))
  il g s hm e := by
    rcases F.mem g s hm with h1 | ⟨⟨g', h1⟩, h2⟩ | ⟨g0, h1, h2⟩
    · exact F.sig g _ (A.il g s h1 e)
    · exact h2 _ (F.grow.K _ _ (A.ip _ _ s h1 e))
    · exact h2 _ (A.il g0 s h1 e)

end Verif
