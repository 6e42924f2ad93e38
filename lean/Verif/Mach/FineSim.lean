import Verif.Mach.Fine

/-!
# The simulation

Between its steps the machine with smaller steps differs from a reachable world of the machine only in locations private to a thread that is half-way
through an update, and in the stored positions of listeners whose `connect` failed (`SimF`).
-/

namespace Verif

variable {E : Env} {w w' : World} {t u : Tid} {d d' : Patch}

/-- Two changes agree on a location. -/
def Patch.agree (d d' : Patch) : Loc → Prop
  | .ptr g => d'.ptr g = d.ptr g
  | .vec b => d'.vec b = d.vec b
  | .idx s => d'.idx s = d.idx s

theorem Patch.agree.spares {l : Loc} (h : d.agree d' l) (hs : d.spares l) : d'.spares l := by
  cases l <;> simp only [Patch.agree, Patch.spares] at * <;> rw [h, hs]

/-- The local variable `i` once `remove_slot` has read it (1812). -/
def posOf (w : World) : List Frame → Nat
  | .disc s _ (.crit _ _) :: _ => (w.slots s).index
  | _ => 0

/-- A thread with this stack is not inside `write()` and has no reference to a vector. -/
def rests : List Frame → Bool
  | .add _ _ _ .clone :: _ => false
  | .add _ _ _ .write :: _ => false
  | .erase _ _ .clone :: _ => false
  | .erase _ _ (.scan _ _) :: _ => false
  | .disc _ _ (.crit _ .clone) :: _ => false
  | .disc _ _ (.crit _ .write) :: _ => false
  | _ => true

/-- A thread with this stack is about to take the listener at position `i` out of vector `b`. -/
def Takes (E : Env) (w : World) (b : BlkId) (i : Nat) : List Frame → Prop
  | .erase _ tgt (.scan i' _) :: _ => i' = i ∧ ∃ s, (w.blks b)[i]? = some s ∧ slotEq E (some (w.slots s).fn) tgt = some true
  | .disc s _ (.crit _ .write) :: _ => i = (w.slots s).index ∧ i < (w.blks b).length
  | _ => False

/-- What a thread half-way through an update has changed, compared to the world `w` in which it has not begun. -/
inductive HalfOk (E : Env) (w : World) (d : Patch) (st : List Frame) : Half → Prop where
  | idle (h : rests st = true) : HalfOk E w d st .idle
  | lcl (f f' : Frame) (rest : List Frame) (g : SigId) (b : BlkId) (hst : st = f :: rest) (hf : f.det = some (g, f'))
      (hl : (w.sigs g).list = some b) : HalfOk E w d st (.lcl (posOf w st))
  | made (g : SigId) (b b0 : BlkId) (hw : topW st = some g) (hl : (w.sigs g).list = some b) (hd : d.ptr g = some (some b0))
      (hb : b0 < w.nBlks) (hn : ∀ g', (w.sigs g').list ≠ some b0) (he : w.blks b0 = w.blks b) : HalfOk E w d st (.made b (posOf w st))
  | ref (g : SigId) (b : BlkId) (hw : topW st = some g) (hl : (w.sigs g).list = some b) : HalfOk E w d st (.ref b (posOf w st))
  | stored (g : SigId) (s : SlotId) (dest : Dest) (rest : List Frame) (b : BlkId) (hst : st = .add g s dest .write :: rest)
      (hl : (w.sigs g).list = some b) (hd : d.idx s = some (w.blks b).length) : HalfOk E w d st (.stored b)
  | matched (g : SigId) (b : BlkId) (i : Nat) (hw : topW st = some g) (hl : (w.sigs g).list = some b) (ht : Takes E w b i st)
      (he : ∃ tgt c rest, st = .erase g tgt (.scan i c) :: rest) : HalfOk E w d st (.matched b)
  | swapped (g : SigId) (b : BlkId) (i : Nat) (hw : topW st = some g) (hl : (w.sigs g).list = some b) (ht : Takes E w b i st)
      (hd : d.vec b = some (Vec.swap (w.blks b) i ((w.blks b).length - 1))) : HalfOk E w d st (.swapped b i)
  | indexed (g : SigId) (b : BlkId) (i : Nat) (s : SlotId) (hw : topW st = some g) (hl : (w.sigs g).list = some b) (ht : Takes E w b i st)
      (hd : d.vec b = some (Vec.swap (w.blks b) i ((w.blks b).length - 1)))
      (hs : (Vec.swap (w.blks b) i ((w.blks b).length - 1))[i]? = some s) (hi : d.idx s = some i) : HalfOk E w d st (.indexed b i)

/-- The locations it has changed. -/
def Dirty (w : World) (st : List Frame) : Half → Loc → Prop
  | .made _ _, l => ∃ g, topW st = some g ∧ l = .ptr g
  | .stored _, l => ∃ g s, topPend st = some (g, s) ∧ l = .idx s
  | .swapped b _, l => l = .vec b
  | .indexed b i, l => l = .vec b ∨ ∃ s, (Vec.swap (w.blks b) i ((w.blks b).length - 1))[i]? = some s ∧ l = .idx s
  | _, _ => False

theorem Takes.lt {b : BlkId} {i : Nat} {st : List Frame} (h : Takes E w b i st) : i < (w.blks b).length := by
  unfold Takes at h
  split at h
  · obtain ⟨-, s, h, -⟩ := h; exact (List.getElem?_eq_some_iff.1 h).1
  · exact h.2
  · exact h.elim

theorem Dirty.priv {h : Half} {l : Loc} (hr : Reachable E w) (H : HalfOk E w d (w.stacks t) h) (D : Dirty w (w.stacks t) h l) : priv w t l := by
  cases H with
  | idle | lcl | ref | matched => exact D.elim
  | made g b b0 hw =>
    obtain ⟨g', h, rfl⟩ := D
    exact topW_mutex hr h
  | stored g s dest rest b hst =>
    obtain ⟨g', s', h, rfl⟩ := D
    exact .inl ⟨g', h⟩
  | swapped g b i hw hl => cases D; exact ⟨g, hw, hl⟩
  | indexed g b i s hw hl ht hd hs hi =>
    rcases D with rfl | ⟨s', h, rfl⟩
    · exact ⟨g, hw, hl⟩
    · exact .inr (.inr ⟨g, topW_mutex hr hw, by simp only [World.listOf, hl]; exact swap_mem.1 (List.mem_of_getElem? h)⟩)

theorem posOf_keep (hr : Reachable E w) (U : Unmoved w w' t) {g : SigId} {b : BlkId} (hm : topLocks (w.stacks t) = some g)
    (hl : (w.sigs g).list = some b) : posOf w' (w.stacks t) = posOf w (w.stacks t) := by
  unfold posOf
  split
  · rename_i s k g' pc rest hst
    have e : g' = g := by
      rw [hst] at hm; simp only [topLocks, Frame.locks] at hm; split at hm <;> simp_all
    subst e
    exact U.idx s (.inr (.inl ⟨g', (hr.full.i.i1.mtx _ _).2 hm, by simp [hl], disc_added hr hst⟩))
  · rfl

/-- Others do not disturb a thread half-way through an update. -/
theorem HalfOk.keep {h : Half} (hr : Reachable E w) (U : Unmoved w w' t) (hd : ∀ l, Verif.priv w t l → d.agree d' l)
    (H : HalfOk E w d (w.stacks t) h) : HalfOk E w' d' (w'.stacks t) h := by
  rw [U.stk]
  have I := hr.full.i.i1
  have ptr : ∀ {g}, topW (w.stacks t) = some g → (w'.sigs g).list = (w.sigs g).list := fun h => U.ptr _ (topW_locks h)
  have dp : ∀ {g}, topW (w.stacks t) = some g → d'.ptr g = d.ptr g := fun h => hd (.ptr _) (topW_mutex hr h)
  have dv : ∀ {g b}, topW (w.stacks t) = some g → (w.sigs g).list = some b → d'.vec b = d.vec b := fun h1 h2 => hd (.vec _) ⟨_, h1, h2⟩
  have tk : ∀ {g b i}, topW (w.stacks t) = some g → (w.sigs g).list = some b → Takes E w b i (w.stacks t) → Takes E w' b i (w.stacks t) := by
    intro g b i hw hl ht
    have ev := U.vec g b hw hl
    have ep := posOf_keep hr U (topW_locks hw) hl
    revert ht ep
    unfold Takes
    split
    · rintro ⟨e, s, h1, h2⟩ -
      exact ⟨e, s, by rw [ev]; exact h1, by rw [U.fn s (I.blk b s (List.mem_of_getElem? h1))]; exact h2⟩
    · rename_i hst
      rintro ⟨e, h⟩ ep
      simp only [posOf, hst] at ep
      exact ⟨by rw [ep]; exact e, by rw [ev]; exact h⟩
    · exact fun h _ => h.elim
  cases H with
  | idle h => exact .idle h
  | lcl f f' rest g b hst hf hl =>
    have hm : topLocks (w.stacks t) = some g := by
      rw [hst]; unfold Frame.det at hf; split at hf <;> cases hf <;> rfl
    rw [← posOf_keep hr U hm hl]
    exact .lcl f f' rest g b hst hf (by rw [U.ptr g hm]; exact hl)
  | made g b b0 hw hl hd0 hb hn he =>
    rw [← posOf_keep hr U (topW_locks hw) hl]
    obtain ⟨h1, h2⟩ := U.old b0 hb hn
    exact .made g b b0 hw (by rw [ptr hw]; exact hl) (by rw [dp hw]; exact hd0) (Nat.lt_of_lt_of_le hb U.nBlks) h1
      (by rw [h2, he, U.vec g b hw hl])
  | ref g b hw hl =>
    rw [← posOf_keep hr U (topW_locks hw) hl]
    exact .ref g b hw (by rw [ptr hw]; exact hl)
  | stored g s dest rest b hst hl hd0 =>
    have hw : topW (w.stacks t) = some g := by rw [hst]; rfl
    refine .stored g s dest rest b hst (by rw [ptr hw]; exact hl) ?_
    rw [U.vec g b hw hl, ← hd0]
    exact hd (.idx s) (.inl ⟨g, by rw [hst]; rfl⟩)
  | matched g b i hw hl ht he => exact .matched g b i hw (by rw [ptr hw]; exact hl) (tk hw hl ht) he
  | swapped g b i hw hl ht hd0 =>
    exact .swapped g b i hw (by rw [ptr hw]; exact hl) (tk hw hl ht) (by rw [dv hw hl, U.vec g b hw hl]; exact hd0)
  | indexed g b i s hw hl ht hd0 hs hi =>
    refine .indexed g b i s hw (by rw [ptr hw]; exact hl) (tk hw hl ht) (by rw [dv hw hl, U.vec g b hw hl]; exact hd0)
      (by rw [U.vec g b hw hl]; exact hs) ?_
    rw [← hi]
    exact hd (.idx s) (.inr (.inr ⟨g, topW_mutex hr hw, by simp only [World.listOf, hl]; exact swap_mem.1 (List.mem_of_getElem? hs)⟩))

theorem Dirty.keep {h : Half} {l : Loc} (U : Unmoved w w' t) (H : HalfOk E w d (w.stacks t) h) (D : Dirty w (w.stacks t) h l) :
    Dirty w' (w'.stacks t) h l := by
  rw [U.stk]
  cases H with
  | indexed g b i s hw hl ht hd hs hi =>
    simp only [Dirty] at D ⊢
    rw [U.vec g b hw hl]; exact D
  | _ => exact D

/-- The library moves. -/
def Label.isRun : Label → Bool
  | .run _ => true
  | _ => false

/-- The state `f` of the machine with smaller steps corresponds to the world `w`. -/
structure SimF (E : Env) (f : FWorld) (w : World) (d : Patch) : Prop where
  reach : Reachable E w
  eq : f.w = d.on w
  half : ∀ t, HalfOk E w d (w.stacks t) (f.half t)
  clean : ∀ l, d.spares l ∨ (∃ t, Dirty w (w.stacks t) (f.half t) l) ∨ ∃ s, l = .idx s ∧ Orphan w s

namespace SimF

variable {f : FWorld}

theorem init (n : Nat) : SimF E (.init n) (World.init n) {} :=
  ⟨⟨n, .refl _⟩, rfl, fun _ => .idle rfl, fun l => .inl (by cases l <;> rfl)⟩

/-- A location private to a thread is as in `w` unless that thread has changed it. -/
theorem own_clean (S : SimF E f w d) {l : Loc} (hp : priv w u l) : d.spares l ∨ Dirty w (w.stacks u) (f.half u) l := by
  rcases S.clean l with h | ⟨t, h⟩ | ⟨s, rfl, h⟩
  · exact .inl h
  · cases priv_excl S.reach (Dirty.priv S.reach (S.half t) h) hp; exact .inr h
  · exfalso
    rcases hp with ⟨g, hp⟩ | ⟨g, -, -, hp⟩ | ⟨g, -, hp⟩
    · exact h.2.1 _ _ hp
    · exact h.2.2 _ hp
    · have := (S.reach.full.i.i3.listed g s hp).1
      obtain ⟨e, he, h'⟩ := List.countP_pos_iff.1 (show 0 < w.log.countP (Event.adds s) by omega)
      unfold Event.adds at h'
      split at h'
      · simp at h'; subst h'; exact h.2.2 _ he
      · cases h'

/-- A vector that a signal locked by `u` points to is as in `w` unless `u` has changed it. -/
theorem vec_clean (S : SimF E f w d) {g : SigId} {b : BlkId} (hm : (w.sigs g).mutex = some u) (hl : (w.sigs g).list = some b) :
    d.spares (.vec b) ∨ Dirty w (w.stacks u) (f.half u) (.vec b) := by
  rcases S.clean (.vec b) with h | ⟨t, h⟩ | ⟨s, h, -⟩
  · exact .inl h
  · obtain ⟨g', h1, h2⟩ := Dirty.priv S.reach (S.half t) h
    cases S.reach.full.i.i2.uniq g g' b hl h2
    rw [topW_mutex S.reach h1] at hm; cases hm; exact .inr h
  · cases h

theorem fits (S : SimF E f w d) : d.fits w := fun l => by
  rcases S.clean l with h | ⟨t, h⟩ | ⟨s, rfl, h⟩
  · exact .inl h
  · exact .inr (priv_made S.reach (Dirty.priv S.reach (S.half t) h))
  · exact .inr h.1

theorem counts (S : SimF E f w d) : SameCounts w (d.on w) := by
  have J := S.reach.full.i.i2
  -- a changed pointer
  have hp : ∀ g p, d.ptr g = some p → ∃ b b0, (w.sigs g).list = some b ∧ p = some b0 ∧ (∀ g', (w.sigs g').list ≠ some b0) ∧
      w.blks b0 = w.blks b ∧ d.vec b = none ∧ d.vec b0 = none := by
    intro g p h
    rcases S.clean (.ptr g) with h' | ⟨t, D⟩ | ⟨s, h', -⟩
    · simp only [Patch.spares] at h'; rw [h'] at h; cases h
    · have H := S.half t
      generalize hh : f.half t = hf at H D
      cases H with
      | made g' b b0 hw hl hd hb hn he =>
        obtain ⟨g'', h1, h2⟩ := D; cases h2
        rw [hw] at h1; cases h1
        rw [hd] at h; cases h
        refine ⟨b, b0, hl, rfl, hn, he, ?_, ?_⟩
        · rcases S.own_clean (l := .vec b) (u := t) ⟨_, hw, hl⟩ with h | h
          · exact h
          · rw [hh] at h; obtain ⟨_, _, h⟩ := h; cases h
        · rcases S.clean (.vec b0) with h | ⟨t', h⟩ | ⟨s, h, -⟩
          · exact h
          · obtain ⟨g', -, h⟩ := Dirty.priv S.reach (S.half t') h; exact absurd h (hn g')
          · cases h
      | stored => obtain ⟨_, _, _, h⟩ := D; cases h
      | swapped => cases D
      | indexed => rcases D with h | ⟨_, _, h⟩ <;> cases h
      | _ => exact D.elim
    · cases h'
  have hv : ∀ b l, d.vec b = some l → ∀ s, s ∈ l ↔ s ∈ w.blks b := by
    intro b l h
    rcases S.clean (.vec b) with h' | ⟨t, D⟩ | ⟨s, h', -⟩
    · simp only [Patch.spares] at h'; rw [h'] at h; cases h
    · have H := S.half t
      generalize f.half t = hf at H D
      cases H with
      | made => obtain ⟨_, _, h⟩ := D; cases h
      | stored => obtain ⟨_, _, _, h⟩ := D; cases h
      | swapped g b' i hw hl ht hd => cases D; rw [hd] at h; cases h; exact fun s => swap_mem
      | indexed g b' i s hw hl ht hd =>
        rcases D with D | ⟨_, _, D⟩
        · cases D; rw [hd] at h; cases h; exact fun s => swap_mem
        · cases D
      | _ => exact D.elim
    · cases h'
  refine ⟨fun g c hc => ?_, fun s => ?_⟩
  · simp only [World.shared, Patch.on_anyFrame, Patch.on_nSigs]
    congr 2
    funext k
    cases hk : d.ptr k with
    | none => rw [Patch.on_sig w hk]
    | some p =>
      obtain ⟨b, b0, h1, rfl, h2, -⟩ := hp k p hk
      by_cases hg : k = g
      · simp [hg]
      · have e1 : c ≠ b := fun e => hg (J.uniq k g c (by rw [h1, e]) hc)
        have e2 : c ≠ b0 := fun e => h2 g (by rw [hc, e])
        simp [Patch.on, hk, h1, beq_false_of_ne (Ne.symm e1), beq_false_of_ne (Ne.symm e2)]
  · have e : ∀ b', ((d.on w).blks b').contains s = (w.blks b').contains s := fun b' => by
      simp only [Patch.on]
      cases hb : d.vec b' with
      | none => rfl
      | some l => rw [Bool.eq_iff_iff]; simp [hv b' l hb]
    simp only [World.slotAlive, Patch.on_anyFrame, Patch.on_nSigs, Patch.on_pins, e]
    congr 1
    congr 1
    congr 1
    funext k
    cases hk : d.ptr k with
    | none => rw [Patch.on_sig w hk]
    | some p =>
      obtain ⟨b, b0, h1, rfl, -, h3, -⟩ := hp k p hk
      simp [Patch.on, hk, h1, h3]

/-- One thread moves on. -/
theorem next (S : SimF E f w d) {l : Label} {h' : Half} {v : World} (hW : w' = w ∨ step E w l = some w')
    (hd : ∀ y, d.agree d' y ∨ priv w l.tid y) (heq : v = d'.on w') (hu : HalfOk E w' d' (w'.stacks l.tid) h')
    (hc : ∀ y, priv w l.tid y → d'.spares y ∨ Dirty w' (w'.stacks l.tid) h' y ∨ ∃ s, y = .idx s ∧ Orphan w' s) :
    SimF E (f.put l.tid v h') w' d' := by
  have hr := S.reach
  have U : ∀ t, t ≠ l.tid → Unmoved w w' t := fun t ht => by
    rcases hW with rfl | hs
    · exact .refl _ _
    · exact unmoved hr hs (Ne.symm ht)
  refine ⟨?_, heq, fun t => ?_, fun y => ?_⟩
  · rcases hW with rfl | hs
    · exact hr
    · exact hr.step hs
  · simp only [FWorld.put, upd_apply]
    split
    · rename_i e; subst e; exact hu
    · rename_i e
      exact (S.half t).keep hr (U t e) fun y hy => (hd y).resolve_right fun hp => e (priv_excl hr hy hp)
  · by_cases hp : priv w l.tid y
    · rcases hc y hp with h | h | h
      · exact .inl h
      · exact .inr (.inl ⟨l.tid, by simpa [FWorld.put, upd_apply] using h⟩)
      · exact .inr (.inr h)
    · have ha := (hd y).resolve_right hp
      rcases S.clean y with h | ⟨t, D⟩ | ⟨s, rfl, ho⟩
      · exact .inl (ha.spares h)
      · have e : t ≠ l.tid := fun e => hp (e ▸ Dirty.priv hr (S.half t) D)
        refine .inr (.inl ⟨t, ?_⟩)
        simp only [FWorld.put, upd_apply, if_neg e]
        exact D.keep (U t e) (S.half t)
      · refine .inr (.inr ⟨s, rfl, ?_⟩)
        rcases hW with rfl | hs
        · exact ho
        · exact orphan_keep hr hs ho

/-! ### The statements one by one -/

theorem ub_eq (S : SimF E f w d) : f.w.ub = w.ub := by rw [S.eq]; rfl

theorem stk_eq (S : SimF E f w d) : f.w.stacks = w.stacks := by rw [S.eq]; rfl

/-- Nothing private to a thread that is not half-way is changed. -/
theorem calm (S : SimF E f w d) (hc : ∀ l, ¬ Dirty w (w.stacks u) (f.half u) l) {l : Loc} (hp : priv w u l) : d.spares l :=
  (S.own_clean hp).resolve_right (hc l)

theorem sig_eq (S : SimF E f w d) {g : SigId} (h : d.spares (.ptr g)) : f.w.sigs g = w.sigs g := by rw [S.eq]; exact Patch.on_sig w h

theorem blk_eq (S : SimF E f w d) {b : BlkId} (h : d.spares (.vec b)) : f.w.blks b = w.blks b := by rw [S.eq]; exact Patch.on_blk w h

end SimF

theorem step_runs (hu : w.ub = none) (ht : t < w.nThr) : step E w (.run t) = runTop E w t := by
  simp [step, hu, Label.tid, ht]

theorem step_tst {f0 f1 : Frame} {rest : List Frame} {g : SigId} {b : BlkId} (hu : w.ub = none) (ht : t < w.nThr)
    (hst : w.stacks t = f0 :: rest) (hf : f0.tst (w.shared g b) = some (g, f1)) (hl : (w.sigs g).list = some b) :
    step E w (.run t) = some (w.setStack t (f1 :: rest)) := by
  rw [step_runs hu ht]
  unfold Frame.tst at hf
  split at hf <;> cases hf <;> simp [runTop, hst, runAdd, runErase, runDisc, hl]

theorem step_tst_none {f0 f1 : Frame} {rest : List Frame} {g : SigId} {c : Bool} (hu : w.ub = none) (ht : t < w.nThr)
    (hst : w.stacks t = f0 :: rest) (hf : f0.tst c = some (g, f1)) (hl : (w.sigs g).list = none) :
    step E w (.run t) = some (w.setUB .nullList) := by
  rw [step_runs hu ht]
  unfold Frame.tst at hf
  split at hf <;> cases hf <;> simp [runTop, hst, runAdd, runErase, runDisc, hl]

theorem step_det {f0 f1 : Frame} {rest : List Frame} {g : SigId} {b : BlkId} (hu : w.ub = none) (ht : t < w.nThr)
    (hst : w.stacks t = f0 :: rest) (hf : f0.det = some (g, f1)) (hl : (w.sigs g).list = some b) :
    step E w (.run t) = some ((cloneBlk w g b).setStack t (f1 :: rest)) := by
  rw [step_runs hu ht]
  unfold Frame.det at hf
  split at hf <;> cases hf <;> simp [runTop, hst, runAdd, runErase, runDisc, hl]

theorem tst_locks {f0 f1 : Frame} {g : SigId} {c : Bool} (hf : f0.tst c = some (g, f1)) : f0.locks = some g := by
  unfold Frame.tst at hf; split at hf <;> cases hf <;> rfl

theorem det_locks {f0 f1 : Frame} {g : SigId} (hf : f0.det = some (g, f1)) : f0.locks = some g := by
  unfold Frame.det at hf; split at hf <;> cases hf <;> rfl

theorem HalfOk.rests {h : Half} {st : List Frame} (H : HalfOk E w d st h) (hr : rests st = true) : h = .idle := by
  have nw : ∀ {g}, topW st ≠ some g := fun hw => by
    unfold topW at hw; split at hw <;> simp at hw <;> cases hr
  cases H with
  | idle => rfl
  | lcl f f' rest g b hst hf => subst hst; unfold Frame.det at hf; split at hf <;> cases hf <;> cases hr
  | stored g s dest rest b hst => subst hst; cases hr
  | made g b b0 hw => exact absurd hw nw
  | ref g b hw => exact absurd hw nw
  | matched g b i hw => exact absurd hw nw
  | swapped g b i hw => exact absurd hw nw
  | indexed g b i s hw => exact absurd hw nw

namespace SimF

variable {f : FWorld}

theorem test (S : SimF E f w d) (hu : w.ub = none) (ht : u < w.nThr) {f0 fc fw : Frame} {rest : List Frame} {g : SigId} {i : Nat}
    (hst : w.stacks u = f0 :: rest) (h1 : f0.tst true = some (g, fc)) (h0 : f0.tst false = some (g, fw))
    (hi : i = posOf f.w (f0 :: rest)) :
    ∃ w' d', SimF E (fineTest f u g i (fc :: rest) (fw :: rest)) w' d' ∧ step E w (.run u) = some w' := by
  have hr : rests (w.stacks u) = true := by rw [hst]; unfold Frame.tst at h1; split at h1 <;> cases h1 <;> rfl
  have hidle := (S.half u).rests hr
  have hm : (w.sigs g).mutex = some u := (S.reach.full.i.i1.mtx _ _).2 (by rw [hst]; exact tst_locks h1)
  have cl : ∀ {l}, priv w u l → d.spares l := fun hp => S.calm (by rw [hidle]; exact fun l h => h) hp
  have hp := cl (l := .ptr g) hm
  unfold fineTest
  rw [S.sig_eq hp]
  cases hl : (w.sigs g).list with
  | none =>
    simp only
    have hs := step_tst_none (E := E) hu ht hst h1 hl
    exact ⟨_, d, S.next (l := .run u) (.inr hs) (fun y => .inl (by cases y <;> rfl)) (by rw [S.eq]; rfl)
      (.idle hr) (fun y hy => .inl (cl hy)), hs⟩
  | some b =>
    simp only
    have ei : i = posOf w (f0 :: rest) := by
      rw [hi, S.eq]
      unfold posOf
      split
      · rename_i s k g' pc rest' e
        cases e
        have e : g' = g := by unfold Frame.tst at h1; split at h1 <;> simp_all
        subst e
        rw [Patch.on_slot w (cl (l := .idx s) (.inr (.inl ⟨g', hm, by simp [hl], disc_added S.reach hst⟩)))]
      · rfl
    have es : f.w.shared g b = w.shared g b := by rw [S.eq]; exact S.counts.vecs g b hl
    rw [es]
    cases hsh : w.shared g b with
    | true =>
      rw [if_pos rfl]
      have hs := step_tst (E := E) hu ht hst (by rw [hsh]; exact h1) hl
      refine ⟨_, d, S.next (l := .run u) (.inr hs) (fun y => .inl (by cases y <;> rfl)) (by rw [S.eq]; rfl) ?_ (fun y hy => .inl (cl hy)), hs⟩
      have e : (w.setStack u (fc :: rest)).stacks u = fc :: rest := by simp [World.setStack, upd_apply]
      simp only [Label.tid, e]
      have : i = posOf (w.setStack u (fc :: rest)) (fc :: rest) := by
        rw [ei]; unfold Frame.tst at h1; split at h1 <;> cases h1 <;> rfl
      rw [this]
      unfold Frame.tst at h1
      split at h1 <;> cases h1 <;> exact .lcl _ _ rest g b rfl rfl hl
    | false =>
      rw [if_neg (by simp)]
      have hs := step_tst (E := E) hu ht hst (by rw [hsh]; exact h0) hl
      refine ⟨_, d, S.next (l := .run u) (.inr hs) (fun y => .inl (by cases y <;> rfl)) (by rw [S.eq]; rfl) ?_ (fun y hy => .inl (cl hy)), hs⟩
      have e : (w.setStack u (fw :: rest)).stacks u = fw :: rest := by simp [World.setStack, upd_apply]
      simp only [Label.tid, e]
      have : i = posOf (w.setStack u (fw :: rest)) (fw :: rest) := by
        rw [ei]; unfold Frame.tst at h0; split at h0 <;> cases h0 <;> rfl
      rw [this]
      unfold Frame.tst at h0
      split at h0 <;> cases h0 <;> exact .ref g b rfl hl

theorem copy (S : SimF E f w d) (hu : w.ub = none) (ht : u < w.nThr) {f0 f1 : Frame} {rest : List Frame} {g : SigId} {i : Nat}
    (hst : w.stacks u = f0 :: rest) (hf : f0.det = some (g, f1)) (hh : f.half u = .lcl i) :
    ∃ w' d', SimF E (fineCopy f u g i (f1 :: rest)) w' d' ∧ step E w (.run u) = some w' := by
  have hm : (w.sigs g).mutex = some u := (S.reach.full.i.i1.mtx _ _).2 (by rw [hst]; exact det_locks hf)
  have nd : ∀ l, ¬ Dirty w (w.stacks u) (f.half u) l := by rw [hh]; exact fun l h => h
  have hp := S.calm nd (l := .ptr g) hm
  have H := S.half u
  rw [hh, hst] at H
  obtain ⟨b, hl, hi⟩ : ∃ b, (w.sigs g).list = some b ∧ i = posOf w (f0 :: rest) := by
    cases H with
    | lcl f f' rest' g' b e hf' hl => cases e; rw [hf] at hf'; cases hf'; exact ⟨b, hl, rfl⟩
  have I := S.reach.full.i.i1
  have hb := I.lst g b hl
  have hv : d.spares (.vec b) := (S.vec_clean hm hl).resolve_right (nd _)
  have hn : d.spares (.vec w.nBlks) := (S.fits (.vec w.nBlks)).resolve_right (Nat.lt_irrefl _)
  have en : f.w.nBlks = w.nBlks := by rw [S.eq]; rfl
  have hs := step_det (E := E) hu ht hst hf hl
  unfold fineCopy
  rw [S.sig_eq hp, hl]
  simp only
  rw [S.blk_eq hv, en]
  refine ⟨_, { d with ptr := upd d.ptr g (some (some b)) }, S.next (l := .run u) (.inr hs) ?_ ?_ ?_ ?_, hs⟩
  · rintro (g' | b' | s)
    · by_cases e : g' = g
      · subst e; exact .inr hm
      · left; simp [Patch.agree, upd_apply, e]
    · exact .inl rfl
    · exact .inl rfl
  · simp only [Patch.spares] at hp hn
    rw [S.eq]
    simp only [Patch.on, World.setStack, cloneBlk, World.setBlk, World.setList]
    congr 1
    · funext b'
      simp only [upd_apply]
      split
      · rename_i e; subst e; simp [hn]
      · rfl
    · funext g'
      simp only [upd_apply]
      split
      · rename_i e; subst e; simp [hp, hl]
      · rfl
  · have e : ((cloneBlk w g b).setStack u (f1 :: rest)).stacks u = f1 :: rest := by simp [World.setStack, upd_apply]
    simp only [Label.tid, e]
    have : i = posOf ((cloneBlk w g b).setStack u (f1 :: rest)) (f1 :: rest) := by
      rw [hi]; unfold Frame.det at hf; split at hf <;> cases hf <;> rfl
    rw [this]
    refine .made g w.nBlks b ?_ ?_ ?_ ?_ ?_ ?_
    · unfold Frame.det at hf; split at hf <;> cases hf <;> rfl
    · simp [cloneBlk, World.setStack, World.setList, World.setBlk, upd_apply]
    · simp [upd_apply]
    · simp only [cloneBlk, World.setStack]; omega
    · intro g'
      simp only [cloneBlk, World.setStack, World.setList, World.setBlk, upd_apply]
      split
      · simp; omega
      · rename_i e; exact fun h => e (S.reach.full.i.i2.uniq _ _ _ h hl)
    · simp only [cloneBlk, World.setStack, World.setList, World.setBlk, upd_apply, if_pos]
      rw [if_neg (by omega)]
  · rintro (g' | b' | s) hy
    · by_cases e : g' = g
      · subst e
        refine .inr (.inl ⟨g', ?_, rfl⟩)
        simp only [Label.tid, World.setStack, upd_apply, if_pos]
        unfold Frame.det at hf; split at hf <;> cases hf <;> rfl
      · left; simp only [Patch.spares, upd_apply, if_neg e]; exact S.calm nd hy
    · exact .inl (S.calm nd hy)
    · exact .inl (S.calm nd hy)

theorem point (S : SimF E f w d) {g : SigId} {b : BlkId} {i : Nat} (hw : topW (w.stacks u) = some g) (hh : f.half u = .made b i) :
    ∃ d', SimF E (finePoint f u g b i) w d' := by
  have hm : (w.sigs g).mutex = some u := topW_mutex S.reach hw
  have H := S.half u
  rw [hh] at H
  cases H with
  | made g' b b0 hw' hl hd hb hn he =>
    rw [hw] at hw'; cases hw'
    refine ⟨{ d with ptr := upd d.ptr g none }, S.next (l := .run u) (.inl rfl) ?_ ?_ (.ref g b hw hl) ?_⟩
    · rintro (g' | b' | s)
      · by_cases e : g' = g
        · subst e; exact .inr hm
        · left; simp [Patch.agree, upd_apply, e]
      · exact .inl rfl
      · exact .inl rfl
    · rw [S.eq]
      simp only [Patch.on, World.setList]
      congr 1
      funext g'
      simp only [upd_apply]
      split
      · rename_i e; subst e; simp [← hl]
      · rfl
    · rintro y hy
      left
      rcases S.own_clean hy with h | h
      · cases y with
        | ptr g' => simp only [Patch.spares, upd_apply] at h ⊢; split <;> first | rfl | exact h
        | vec => exact h
        | idx => exact h
      · simp only [Label.tid] at h
        rw [hh] at h
        obtain ⟨g', h1, rfl⟩ := h
        rw [hw] at h1; cases h1
        simp [Patch.spares, upd_apply]

theorem store (S : SimF E f w d) {g : SigId} {s : SlotId} {dest : Dest} {rest : List Frame} {b : BlkId} {i : Nat}
    (hst : w.stacks u = .add g s dest .write :: rest) (hh : f.half u = .ref b i) :
    ∃ d', SimF E (f.put u (f.w.setIndex s (f.w.blks b).length) (.stored b)) w d' := by
  have nd : ∀ l, ¬ Dirty w (w.stacks u) (f.half u) l := by rw [hh]; exact fun l h => h
  have hw : topW (w.stacks u) = some g := by rw [hst]; rfl
  have H := S.half u
  rw [hh] at H
  cases H with
  | ref g' b hw' hl =>
    rw [hw] at hw'; cases hw'
    have hv := S.calm nd (l := .vec b) ⟨g, hw, hl⟩
    rw [S.blk_eq hv]
    refine ⟨{ d with idx := upd d.idx s (some (w.blks b).length) }, S.next (l := .run u) (.inl rfl) ?_ ?_
      (.stored g s dest rest b hst hl (by simp [upd_apply])) ?_⟩
    · rintro (g' | b' | s')
      · exact .inl rfl
      · exact .inl rfl
      · by_cases e : s' = s
        · subst e; exact .inr (.inl ⟨g, by simp only [Label.tid]; rw [hst]; rfl⟩)
        · left; simp [Patch.agree, upd_apply, e]
    · rw [S.eq]
      simp only [Patch.on, World.setIndex]
      congr 1
      funext s'
      simp only [upd_apply]
      split
      · rename_i e; subst e; simp
      · rfl
    · rintro y hy
      have h := S.calm nd hy
      cases y with
      | idx s' =>
        by_cases e : s' = s
        · subst e; exact .inr (.inl ⟨g, s', by simp only [Label.tid]; rw [hst]; rfl, rfl⟩)
        · left; simp only [Patch.spares, upd_apply, if_neg e]; exact h
      | vec => exact .inl h
      | ptr => exact .inl h

theorem push (S : SimF E f w d) (hu : w.ub = none) (ht : u < w.nThr) {g : SigId} {s : SlotId} {dest : Dest} {rest : List Frame} {b : BlkId}
    (hst : w.stacks u = .add g s dest .write :: rest) (hh : f.half u = .stored b) :
    ∃ w' d', SimF E (f.put u (((f.w.setBlk b (f.w.blks b ++ [s])).setStack u (.add g s dest .unlock :: rest)).emitEv (.added g s)) .idle) w' d' ∧
      step E w (.run u) = some w' := by
  have hw : topW (w.stacks u) = some g := by rw [hst]; rfl
  have H := S.half u
  rw [hh] at H
  cases H with
  | stored g' s' dest' rest' b hst' hl hd =>
    rw [hst] at hst'; cases hst'
    have hv : d.spares (.vec b) := (S.own_clean (l := .vec b) ⟨g, hw, hl⟩).resolve_right (by
      rw [hh]; rintro ⟨_, _, _, h⟩; cases h)
    rw [S.blk_eq hv]
    have hs : step E w (.run u) = some ((((w.setIndex s (w.blks b).length).setBlk b (w.blks b ++ [s])).setStack u
            (.add g s dest .unlock :: rest)).emitEv (.added g s)) := by
      rw [step_runs hu ht]; simp [runTop, hst, runAdd, hl]
    refine ⟨_, { d with idx := upd d.idx s none }, S.next (l := .run u) (.inr hs) ?_ ?_ ?_ ?_, hs⟩
    · rintro (g' | b' | s')
      · exact .inl rfl
      · exact .inl rfl
      · by_cases e : s' = s
        · subst e; exact .inr (.inl ⟨g, by simp only [Label.tid]; rw [hst]; rfl⟩)
        · left; simp [Patch.agree, upd_apply, e]
    · simp only [Patch.spares] at hv
      rw [S.eq]
      simp only [Patch.on, World.setIndex, World.setBlk, World.setStack, World.emitEv]
      congr 1
      · funext s'
        simp only [upd_apply]
        split
        · rename_i e; subst e; simp [hd]
        · rfl
      · funext b'
        simp only [upd_apply]
        split
        · rename_i e; subst e; simp [hv]
        · rfl
    · simp only [Label.tid, World.emitEv, World.setStack, upd_apply, if_pos]; exact .idle rfl
    · intro y hy
      left
      rcases S.own_clean hy with h | h
      · cases y with
        | idx s' => simp only [Patch.spares, upd_apply] at h ⊢; split <;> first | rfl | exact h
        | vec => exact h
        | ptr => exact h
      · simp only [Label.tid] at h
        rw [hh] at h
        obtain ⟨g', s', h1, rfl⟩ := h
        rw [hst] at h1; cases h1
        simp [Patch.spares, upd_apply]

/-- Steps that change only the thread's own stack, and stutters. -/
theorem only (S : SimF E f w d) {st : List Frame} {h' : Half} (nd : ∀ l, ¬ Dirty w (w.stacks u) (f.half u) l)
    (hs : step E w (.run u) = some (w.setStack u st)) (hu : HalfOk E (w.setStack u st) d st h') :
    ∃ w' d', SimF E (f.put u (f.w.setStack u st) h') w' d' ∧ step E w (.run u) = some w' := by
  refine ⟨_, d, S.next (l := .run u) (.inr hs) (fun y => .inl (by cases y <;> rfl)) (by rw [S.eq]; rfl) ?_
    (fun y hy => .inl (S.calm nd hy)), hs⟩
  have e : (w.setStack u st).stacks u = st := by simp [World.setStack, upd_apply]
  simp only [Label.tid, e]; exact hu

theorem swap (S : SimF E f w d) {g : SigId} {b : BlkId} {i : Nat} (nd : ∀ l, ¬ Dirty w (w.stacks u) (f.half u) l)
    (hw : topW (w.stacks u) = some g) (hl : (w.sigs g).list = some b) (ht : Takes E w b i (w.stacks u)) :
    ∃ d', SimF E (fineSwap f u b i) w d' := by
  have hv := S.calm nd (l := .vec b) ⟨g, hw, hl⟩
  unfold fineSwap
  rw [S.blk_eq hv, if_neg (Nat.not_le.2 ht.lt)]
  refine ⟨{ d with vec := upd d.vec b (some (Vec.swap (w.blks b) i ((w.blks b).length - 1))) }, S.next (l := .run u) (.inl rfl) ?_ ?_
    (.swapped g b i hw hl ht (by simp [upd_apply])) ?_⟩
  · rintro (g' | b' | s')
    · exact .inl rfl
    · by_cases e : b' = b
      · subst e; exact .inr ⟨g, hw, hl⟩
      · left; simp [Patch.agree, upd_apply, e]
    · exact .inl rfl
  · rw [S.eq]
    simp only [Patch.on, World.setBlk]
    congr 1
    funext b'
    simp only [upd_apply]
    split
    · simp
    · rfl
  · rintro y hy
    have h := S.calm nd hy
    cases y with
    | vec b' =>
      by_cases e : b' = b
      · subst e; exact .inr (.inl rfl)
      · left; simp only [Patch.spares, upd_apply, if_neg e]; exact h
    | idx => exact .inl h
    | ptr => exact .inl h

theorem swap_len {l : List Nat} {i j : Nat} : (Vec.swap l i j).length = l.length := by
  unfold Vec.swap; split <;> simp

theorem index (S : SimF E f w d) {b : BlkId} {i : Nat} {f' : FWorld} (hh : f.half u = .swapped b i) (hf : fineIndex f u b i = some f') :
    (∃ d', SimF E f' w d') ∧ f'.half u = .indexed b i := by
  have H := S.half u
  rw [hh] at H
  cases H with
  | swapped g b i hw hl ht hd =>
    have eb : f.w.blks b = Vec.swap (w.blks b) i ((w.blks b).length - 1) := by rw [S.eq]; simp [Patch.on, hd]
    unfold fineIndex at hf
    rw [eb] at hf
    split at hf
    · rename_i s hs
      cases hf
      have hin : priv w u (.idx s) := .inr (.inr ⟨g, topW_mutex S.reach hw, by
        simp only [World.listOf, hl]; exact swap_mem.1 (List.mem_of_getElem? hs)⟩)
      refine ⟨⟨{ d with idx := upd d.idx s (some i) }, S.next (l := .run u) (.inl rfl) ?_ ?_
        (.indexed g b i s hw hl ht hd hs (by simp [upd_apply])) ?_⟩, by simp [FWorld.put, upd_apply]⟩
      · rintro (g' | b' | s')
        · exact .inl rfl
        · exact .inl rfl
        · by_cases e : s' = s
          · subst e; exact .inr hin
          · left; simp [Patch.agree, upd_apply, e]
      · rw [S.eq]
        simp only [Patch.on, World.setIndex]
        congr 1
        funext s'
        simp only [upd_apply]
        split
        · rename_i e; subst e; simp
        · rfl
      · rintro y hy
        rcases S.own_clean hy with h | h
        · cases y with
          | idx s' =>
            by_cases e : s' = s
            · subst e; exact .inr (.inl (.inr ⟨s', hs, rfl⟩))
            · left; simp only [Patch.spares, upd_apply, if_neg e]; exact h
          | vec => exact .inl h
          | ptr => exact .inl h
        · simp only [Label.tid] at h
          rw [hh] at h; cases h; exact .inr (.inl (.inl rfl))
    · rename_i hn
      have hlt := ht.lt
      rw [List.getElem?_eq_none_iff, swap_len] at hn
      omega

theorem swap_getLast {l : List Nat} {i : Nat} (h : i < l.length) : (Vec.swap l i (l.length - 1)).getLast? = l[i]? := by
  have h2 : l.length - 1 < l.length := by omega
  simp only [Vec.swap, List.getElem?_eq_getElem h, List.getElem?_eq_getElem h2]
  rw [List.getLast?_eq_getElem?]
  simp [h2]

theorem pop (S : SimF E f w d) {b : BlkId} {i : Nat} {next : List Frame} {h' : Half} {ev : SlotId → Event} {f' : FWorld}
    (hh : f.half u = .indexed b i) (hf : finePop f u b next h' ev = some f')
    (hs : ∀ g v, topW (w.stacks u) = some g → (w.sigs g).list = some b → Takes E w b i (w.stacks u) → (w.blks b)[i]? = some v →
      step E w (.run u) = some (((removeAt w b i).setStack u next).emitEv (ev v)))
    (hu : ∀ g v d', topW (w.stacks u) = some g → (w.sigs g).list = some b →
      HalfOk E (((removeAt w b i).setStack u next).emitEv (ev v)) d' next h') :
    ∃ w' d', SimF E f' w' d' ∧ step E w (.run u) = some w' := by
  have H := S.half u
  rw [hh] at H
  cases H with
  | indexed g b i s hw hl ht hd hsw hi =>
    have hlt := ht.lt
    have eb : f.w.blks b = Vec.swap (w.blks b) i ((w.blks b).length - 1) := by rw [S.eq]; simp [Patch.on, hd]
    unfold finePop at hf
    rw [eb, swap_getLast hlt] at hf
    split at hf
    · rename_i v hv
      cases hf
      have st := hs g v hw hl ht hv
      have hin : priv w u (.idx s) := .inr (.inr ⟨g, topW_mutex S.reach hw, by
        simp only [World.listOf, hl]; exact swap_mem.1 (List.mem_of_getElem? hsw)⟩)
      refine ⟨_, { d with vec := upd d.vec b none, idx := upd d.idx s none }, S.next (l := .run u) (.inr st) ?_ ?_ ?_ ?_, st⟩
      · rintro (g' | b' | s')
        · exact .inl rfl
        · by_cases e : b' = b
          · subst e; exact .inr ⟨g, hw, hl⟩
          · left; simp [Patch.agree, upd_apply, e]
        · by_cases e : s' = s
          · subst e; exact .inr hin
          · left; simp [Patch.agree, upd_apply, e]
      · rw [S.eq]
        simp only [removeAt, hsw]
        simp only [Patch.on, World.setIndex, World.setBlk, World.setStack, World.emitEv, Vec.swapPop]
        congr 1
        · funext s'
          simp only [upd_apply]
          split
          · rename_i e; subst e; simp [hi]
          · rfl
        · funext b'
          simp only [upd_apply]
          split <;> rfl
      · have e : (((removeAt w b i).setStack u next).emitEv (ev v)).stacks u = next := by
          simp [World.setStack, World.emitEv, upd_apply]
        simp only [Label.tid, e]
        exact hu g v _ hw hl
      · intro y hy
        left
        rcases S.own_clean hy with h | h
        · cases y with
          | idx s' => simp only [Patch.spares, upd_apply] at h ⊢; split <;> first | rfl | exact h
          | vec b' => simp only [Patch.spares, upd_apply] at h ⊢; split <;> first | rfl | exact h
          | ptr => exact h
        · simp only [Label.tid] at h
          rw [hh] at h
          rcases h with rfl | ⟨s', h, rfl⟩
          · simp [Patch.spares, upd_apply]
          · rw [hsw] at h; cases h; simp [Patch.spares, upd_apply]
    · rename_i hn
      rw [List.getElem?_eq_none_iff] at hn
      omega

/-- A thread outside the updates does the same in both machines. -/
theorem same (S : SimF E f w d) {l : Label} (hr : rests (w.stacks l.tid) = true) : step E f.w l = (step E w l).map d.on := by
  have I := S.reach.full.i.i1
  have hidle := (S.half l.tid).rests hr
  have nd : ∀ y, ¬ Dirty w (w.stacks l.tid) (f.half l.tid) y := by rw [hidle]; exact fun y h => h
  rw [S.eq]
  by_cases hb : ∀ w', step E w l = some w' → w'.ub ≠ none
  · exact bad_step (x := d) (E := E) (w := w) (l := l) (fun g hg => S.calm nd (l := .ptr g) ((I.mtx _ _).2 hg)) (fun b hb => by
      rcases S.clean (.vec b) with h | ⟨t, h⟩ | ⟨s, h, -⟩
      · exact h
      · obtain ⟨g, h1, h2⟩ := Dirty.priv S.reach (S.half t) h
        have : ∃ f0 ∈ w.stacks l.tid, f0.blk? = some b := by
          revert hb; unfold topBlk
          split
          · rename_i hst; intro hb; rw [hst]; exact ⟨_, List.mem_cons_self, by simpa [Frame.blk?] using hb⟩
          · rename_i hst; intro hb; rw [hst]; exact ⟨_, List.mem_cons_of_mem _ List.mem_cons_self, by simpa [Frame.blk?] using hb⟩
          · intro hb; cases hb
        obtain ⟨f0, hf0, e⟩ := this
        exact absurd e (S.reach.full.i.i2.excl t g b h1 h2 l.tid f0 hf0)
      · cases h) hb
  · obtain ⟨w', hw, hu⟩ : ∃ w', step E w l = some w' ∧ w'.ub = none :=
      Classical.byContradiction fun hc => hb fun w' h1 h2 => hc ⟨w', h1, h2⟩
    rw [hw]
    exact patch_step (x := d) hw hu S.counts S.fits (by
      intro y hy
      exfalso
      revert hy hr; unfold cached cachedBy
      split <;> rename_i hst <;> intro hr hy <;> first | (rw [hst] at hr; cases hr) | cases hy) (fun y k hk => by
      have F := step_foot I hw
      rcases S.clean y with h | ⟨t, h⟩ | ⟨s, rfl, h⟩
      · exact h
      · by_cases e : t = l.tid
        · subst e; exact absurd h (nd y)
        · exact absurd hk (priv_apart S.reach F (Ne.symm e) (Dirty.priv S.reach (S.half t) h))
      · exact absurd hk (orphan_apart S.reach F h))

/-- Steps that are the same in both machines. -/
theorem base (S : SimF E f w d) {l : Label} {v : World} (hr : rests (w.stacks l.tid) = true) (hnt : ∀ f0 rest, w.stacks l.tid = f0 :: rest → f0.tst true = none)
    (hs : step E f.w l = some v) : ∃ w' d', SimF E (f.put l.tid v .idle) w' d' ∧ step E w l = some w' := by
  have I := S.reach.full.i.i1
  have hidle := (S.half l.tid).rests hr
  have nd : ∀ y, ¬ Dirty w (w.stacks l.tid) (f.half l.tid) y := by rw [hidle]; exact fun y h => h
  have key := S.same hr
  rw [hs] at key
  cases hw : step E w l with
  | none => rw [hw] at key; cases key
  | some w' =>
  rw [hw] at key; cases key
  refine ⟨w', d, S.next (.inr hw) (fun y => .inl (by cases y <;> rfl)) rfl (.idle ?_) (fun y hy => .inl (S.calm nd hy)), rfl⟩
  have R := (step_inv hw).2.2
  have ok := I.stk l.tid
  generalize l.tid = t at *
  have usr : ∀ {st}, UserStk st → rests st = true := fun h => by cases h <;> rfl
  have tl : ∀ {f0 rest}, w.stacks t = f0 :: rest → f0.isCall = false → rests rest = true := fun hst hf => by
    rw [hst] at ok; exact usr (ok.tail hf)
  cases R with
  | ub => exact hr
  | acq f0 f1 rest g hst hf =>
    simp only [World.setStack, upd_apply, if_pos]
    unfold Frame.acq at hf; split at hf <;> cases hf <;> rfl
  | tst f0 f1 rest g b hst hf hl =>
    exfalso
    have := hnt f0 rest hst
    revert hf this; cases w.shared g b <;> unfold Frame.tst <;> split <;> simp
  | det f0 f1 rest g b hst hf hl =>
    exfalso; rw [hst] at hr
    unfold Frame.det at hf; split at hf <;> cases hf <;> cases hr
  | addWrite g s dest rest b hst => rw [hst] at hr; cases hr
  | eraseEnd g tgt i cnt rest b hst => rw [hst] at hr; cases hr
  | eraseThrow g tgt i cnt rest b s hst => rw [hst] at hr; cases hr
  | eraseHit g tgt i cnt rest b s hst => rw [hst] at hr; cases hr
  | eraseMiss g tgt i cnt rest b s hst => rw [hst] at hr; cases hr
  | discWrite s v k rest g b hst => rw [hst] at hr; cases hr
  | discMiss s k rest g b hst => rw [hst] at hr; cases hr
  | fail f0 rest g s hst hf => rw [hst] at hr; unfold Frame.allocs at hf; split at hf <;> cases hf <;> cases hr
  | hand | flag | objs | pins | newSig | destroy | discFail => exact hr
  | callThrow s o m b pos acc rest hst =>
    rw [hst] at ok
    simp only [World.setStack, World.emitEv, upd_apply, if_pos]; exact usr ok.callTail
  | _ => 
    simp only [World.setStack, World.emitEv, World.setH, World.setMutex, World.setConnected, upd_apply, if_pos]
    first | rfl | exact tl ‹_› rfl

/-- User code. -/
theorem user (S : SimF E f w d) {l : Label} {v : World} (hl : ∀ t, l ≠ .run t ∧ l ≠ .fail t ∧ l ≠ .ctl t) (hs : step E f.w l = some v) :
    ∃ w' d', SimF E ⟨v, f.half⟩ w' d' ∧ step E w l = some w' := by
  have hr : rests (w.stacks l.tid) = true ∧ ∀ f0 rest, w.stacks l.tid = f0 :: rest → f0.tst true = none := by
    rw [← S.stk_eq]
    have uc : ∀ {st}, userCtx st = true → rests st = true ∧ ∀ f0 rest, st = f0 :: rest → f0.tst true = none := fun h => by
      revert h; unfold userCtx
      split
      · exact fun _ => ⟨rfl, fun _ _ h => by cases h⟩
      · exact fun _ => ⟨rfl, fun _ _ h => by cases h; rfl⟩
      · exact fun _ => ⟨rfl, fun _ _ h => by cases h; rfl⟩
      · intro h; cases h
    unfold step at hs
    split at hs
    · cases hs
    split at hs
    · cases l with
      | run t => exact absurd rfl (hl t).1
      | fail t => exact absurd rfl (hl t).2.1
      | ctl t => exact absurd rfl (hl t).2.2
      | call t a =>
        simp only [Label.tid] at hs ⊢
        split at hs
        · exact uc ‹_›
        · cases hs
      | ret t v =>
        simp only [Label.tid] at hs ⊢
        unfold userRet at hs
        split at hs
        · rename_i hst; rw [hst]; exact ⟨rfl, fun _ _ h => by cases h; rfl⟩
        · cases hs
      | throw t c =>
        simp only [Label.tid] at hs ⊢
        unfold userThrow at hs
        split at hs
        · rename_i hst; rw [hst]; exact ⟨rfl, fun _ _ h => by cases h; rfl⟩
        · cases hs
    · cases hs
  obtain ⟨w', d', S', h⟩ := S.base hr.1 hr.2 hs
  refine ⟨w', d', ?_, h⟩
  have : f.put l.tid v .idle = ⟨v, f.half⟩ := by
    unfold FWorld.put
    rw [← (S.half l.tid).rests hr.1, upd_self]
  rwa [← this]

/-- Failing allocations. -/
theorem fails (S : SimF E f w d) (hu : w.ub = none) (ht : u < w.nThr) {f0 : Frame} {rest : List Frame} {g : SigId} {b : BlkId} {s : Option SlotId}
    (hst : w.stacks u = f0 :: rest) (ha : f0.allocs = some (g, s)) (hl : (w.sigs g).list = some b)
    (hc : ∀ y, Dirty w (w.stacks u) (f.half u) y → ∃ s, y = .idx s ∧ topPend (w.stacks u) = some (g, s)) :
    step E w (.fail u) = some (((w.setMutex g none).setStack u rest).emitEv (.failed u g s)) ∧
    SimF E (f.put u (((f.w.setMutex g none).setStack u rest).emitEv (.failed u g s)) .idle)
      (((w.setMutex g none).setStack u rest).emitEv (.failed u g s)) d := by
  have hs : step E w (.fail u) = some (((w.setMutex g none).setStack u rest).emitEv (.failed u g s)) := by
    unfold step
    simp only [hu, Option.isSome_none, Bool.false_eq_true, if_false, Label.tid, ht, if_true]
    unfold Frame.allocs at ha
    split at ha <;> cases ha <;> simp [allocFail, hst, hl]
  have ok := S.reach.full.i.i1.stk u
  rw [hst] at ok
  have us := ok.tail (Frame.allocs_isCall ha)
  refine ⟨hs, S.next (l := .fail u) (.inr hs) (fun y => .inl (by cases y <;> rfl)) ?_ (.idle ?_) ?_⟩
  · rw [S.eq]
    simp only [Patch.on, World.setMutex, World.setStack, World.emitEv]
    congr 1
    funext g'
    simp only [upd_apply]
    split
    · rename_i e; subst e; rfl
    · rfl
  · simp only [Label.tid, World.setStack, World.emitEv, upd_apply, if_pos]
    cases us <;> rfl
  · intro y hy
    rcases S.own_clean hy with h | h
    · exact .inl h
    · obtain ⟨s', rfl, hp⟩ := hc y h
      have K := S.reach.full.i.i3
      refine .inr (.inr ⟨s', rfl, K.pendlt _ _ _ hp, fun t g' h => ?_, fun g' h => ?_⟩)
      · by_cases e : t = u
        · subst e
          simp only [World.setStack, World.emitEv, upd_apply, if_pos, us.topPend] at h
          cases h
        · simp only [World.setStack, World.emitEv, World.setMutex, upd_apply, if_neg e] at h
          exact e (K.pendu _ _ _ _ _ h hp)
      · have h0 := K.pend _ _ _ hp
        have : Event.added g' s' ∈ w.log := by simpa [World.emitEv, World.setStack, World.setMutex] using h
        rw [List.countP_eq_zero] at h0
        exact absurd (h0 _ this) (by simp [Event.adds])

theorem half_ref (S : SimF E f w d) {b : BlkId} {i : Nat} (hh : f.half u = .ref b i) :
    ∃ g, topW (w.stacks u) = some g ∧ (w.sigs g).list = some b ∧ i = posOf w (w.stacks u) := by
  have H := S.half u
  rw [hh] at H
  cases H with
  | ref g b hw hl => exact ⟨g, hw, hl, rfl⟩

/-- How many statements of an update change nothing that others can see, at most, until one does. -/
def _root_.Verif.Half.left : Half → Nat
  | .made _ _ => 5
  | .ref _ _ => 4
  | .matched _ => 3
  | .swapped _ _ => 2
  | .stored _ => 1
  | .indexed _ _ => 1
  | .idle => 0
  | .lcl _ => 0

/-- One statement of the library. -/
theorem run (S : SimF E f w d) (hu : w.ub = none) (ht : u < w.nThr) {f' : FWorld} (hs : runFine E f u = some f') :
    ∃ w' d', SimF E f' w' d' ∧ (w' = w ∧ (f'.half u).left < (f.half u).left ∨ step E w (.run u) = some w') := by
  have stut : ∀ {f'}, (∃ d', SimF E f' w d') → (f'.half u).left < (f.half u).left →
      ∃ w' d', SimF E f' w' d' ∧ (w' = w ∧ (f'.half u).left < (f.half u).left ∨ step E w (.run u) = some w') :=
    fun ⟨d', h⟩ e => ⟨w, d', h, .inl ⟨rfl, e⟩⟩
  have real : ∀ {f'}, (∃ w' d', SimF E f' w' d' ∧ step E w (.run u) = some w') →
      ∃ w' d', SimF E f' w' d' ∧ (w' = w ∧ (f'.half u).left < (f.half u).left ∨ step E w (.run u) = some w') :=
    fun ⟨w', d', h, e⟩ => ⟨w', d', h, .inr e⟩
  unfold runFine at hs
  rw [S.stk_eq] at hs
  split at hs
  · rename_i g s d0 rest hst
    cases hs; exact real (S.test hu ht hst rfl rfl rfl)
  · rename_i g s d0 rest hst
    split at hs
    · cases hs; exact real (S.copy hu ht hst rfl ‹_›)
    · cases hs
  · rename_i g s d0 rest hst
    split at hs
    · rename_i hh; cases hs; exact stut (S.point (by rw [hst]; rfl) hh) (by rw [hh]; simp [finePoint, FWorld.put, upd_apply, Half.left])
    · rename_i hh; cases hs; exact stut (S.store hst hh) (by rw [hh]; simp [FWorld.put, upd_apply, Half.left])
    · cases hs; exact real (S.push hu ht hst ‹_›)
    · cases hs
  · rename_i g tgt rest hst
    cases hs; exact real (S.test hu ht hst rfl rfl rfl)
  · rename_i g tgt rest hst
    split at hs
    · cases hs; exact real (S.copy hu ht hst rfl ‹_›)
    · cases hs
  · rename_i g tgt i cnt rest hst
    split at hs
    · rename_i hh; cases hs; exact stut (S.point (by rw [hst]; rfl) hh) (by rw [hh]; simp [finePoint, FWorld.put, upd_apply, Half.left])
    · rename_i b j hh
      obtain ⟨g', hw, hl, hj⟩ := S.half_ref hh
      have nd : ∀ l, ¬ Dirty w (w.stacks u) (f.half u) l := by rw [hh]; exact fun l h => h
      have eb := S.blk_eq (S.calm nd (l := .vec b) ⟨g', hw, hl⟩)
      have e : g' = g := by rw [hst] at hw; cases hw; rfl
      subst e
      rw [eb] at hs
      split at hs
      · rename_i hi
        cases hs
        exact real (S.only nd (by rw [step_runs hu ht]; simp [runTop, hst, runErase, hl, hi]) (.idle rfl))
      · rename_i s hi
        have ef : (f.w.slots s).fn = (w.slots s).fn := by rw [S.eq]; rfl
        rw [ef] at hs
        split at hs
        · rename_i he
          cases hs
          exact real (S.only nd (by rw [step_runs hu ht]; simp [runTop, hst, runErase, hl, hi, he]) (.idle rfl))
        · rename_i he
          cases hs
          refine stut ⟨d, S.next (l := .run u) (.inl rfl) (fun y => .inl (by cases y <;> rfl)) S.eq
            (.matched g' b i hw hl ?_ ⟨tgt, cnt, rest, hst⟩) (fun y hy => .inl (S.calm nd hy))⟩ (by rw [hh]; simp [FWorld.put, upd_apply, Half.left])
          simp only [Label.tid]; rw [hst]; exact ⟨rfl, s, hi, he⟩
        · rename_i he
          cases hs
          exact real (S.only nd (by rw [step_runs hu ht]; simp [runTop, hst, runErase, hl, hi, he]) (.ref g' b rfl hl))
    · rename_i b hh
      cases hs
      have nd : ∀ l, ¬ Dirty w (w.stacks u) (f.half u) l := by rw [hh]; exact fun l h => h
      have H := S.half u
      rw [hh] at H
      cases H with
      | matched g' b i' hw hl ht' =>
        have e : i = i' := by rw [hst] at ht'; exact ht'.1
        subst e
        exact stut (S.swap nd hw hl ht') (by rw [hh, fineSwap, S.blk_eq (S.calm nd (l := .vec b) ⟨g', hw, hl⟩), if_neg (Nat.not_le.2 ht'.lt)]; simp [FWorld.put, upd_apply, Half.left])
    · rename_i hh; have X := S.index hh hs; exact stut X.1 (by rw [X.2, hh]; simp [Half.left])
    · rename_i b j hh
      refine real (S.pop hh hs ?_ ?_)
      · intro g' v hw hl ht' hv
        rw [hst] at hw ht'; cases hw
        obtain ⟨rfl, s, h1, h2⟩ := ht'
        rw [hv] at h1; cases h1
        rw [step_runs hu ht]; simp [runTop, hst, runErase, hl, hv, h2]
      · intro g' v d' hw hl
        rw [hst] at hw; cases hw
        refine .ref g b rfl ?_
        rw [← hl]; simp [World.emitEv, World.setStack, removeAt_same]
    · cases hs
  · rename_i s k g rest hst
    cases hs; exact real (S.test hu ht hst rfl rfl rfl)
  · rename_i s k g rest hst
    split at hs
    · cases hs; exact real (S.copy hu ht hst rfl ‹_›)
    · cases hs
  · rename_i s k g rest hst
    split at hs
    · rename_i hh; cases hs; exact stut (S.point (by rw [hst]; rfl) hh) (by rw [hh]; simp [finePoint, FWorld.put, upd_apply, Half.left])
    · rename_i b j hh
      obtain ⟨g', hw, hl, hj⟩ := S.half_ref hh
      have nd : ∀ l, ¬ Dirty w (w.stacks u) (f.half u) l := by rw [hh]; exact fun l h => h
      have eb := S.blk_eq (S.calm nd (l := .vec b) ⟨g', hw, hl⟩)
      have e : g' = g := by rw [hst] at hw; cases hw; rfl
      subst e
      have hj' : j = (w.slots s).index := by rw [hj, hst]; rfl
      subst hj'
      rw [eb] at hs
      split at hs
      · rename_i hi
        cases hs
        exact stut (S.swap nd hw hl (by rw [hst]; exact ⟨rfl, hi⟩)) (by rw [hh, fineSwap, eb, if_neg (Nat.not_le.2 hi)]; simp [FWorld.put, upd_apply, Half.left])
      · rename_i hi
        cases hs
        exact real (S.only nd (by rw [step_runs hu ht]; simp [runTop, hst, runDisc, hl, List.getElem?_eq_none (Nat.le_of_not_lt hi)]) (.idle rfl))
    · rename_i hh; have X := S.index hh hs; exact stut X.1 (by rw [X.2, hh]; simp [Half.left])
    · rename_i b j hh
      refine real (S.pop hh hs ?_ ?_)
      · intro g' v hw hl ht' hv
        rw [hst] at hw ht'; cases hw
        obtain ⟨rfl, h1⟩ := ht'
        rw [step_runs hu ht]; simp [runTop, hst, runDisc, hl, hv]
      · intro g' v d' hw hl
        exact .idle rfl
    · cases hs
  · rename_i n1 n2 n3 n4 n5 n6 n7 n8 n9
    rw [Option.map_eq_some_iff] at hs
    obtain ⟨v, hv, rfl⟩ := hs
    refine real (S.base (l := .run u) ?_ ?_ ?_)
    · simp only [Label.tid]
      unfold rests
      split <;> rename_i hst <;> first | rfl | skip
      · exact (n2 _ _ _ _ hst).elim
      · exact (n3 _ _ _ _ hst).elim
      · exact (n5 _ _ _ hst).elim
      · exact (n6 _ _ _ _ _ hst).elim
      · exact (n8 _ _ _ _ hst).elim
      · exact (n9 _ _ _ _ hst).elim
    · simp only [Label.tid]
      intro f0 rest hst
      unfold Frame.tst
      split <;> first | rfl | skip
      · exact (n1 _ _ _ _ hst).elim
      · exact (n4 _ _ _ hst).elim
      · exact (n7 _ _ _ _ hst).elim
    · rw [step_runs (by rw [S.ub_eq]; exact hu) (by rw [S.eq]; exact ht)]; exact hv

theorem _root_.Verif.HalfOk.same {h : Half} {st : List Frame} {v : UB} (H : HalfOk E w d st h) : HalfOk E (w.setUB v) d st h := by
  cases H with
  | idle h => exact .idle h
  | lcl f f' rest g b hst hf hl => exact .lcl f f' rest g b hst hf hl
  | made g b b0 hw hl hd hb hn he => exact .made g b b0 hw hl hd hb hn he
  | ref g b hw hl => exact .ref g b hw hl
  | stored g s dest rest b hst hl hd => exact .stored g s dest rest b hst hl hd
  | matched g b i hw hl ht he => exact .matched g b i hw hl ht he
  | swapped g b i hw hl ht hd => exact .swapped g b i hw hl ht hd
  | indexed g b i s hw hl ht hd hs hi => exact .indexed g b i s hw hl ht hd hs hi

/-- A failing allocation. -/
theorem fail (S : SimF E f w d) (hu : w.ub = none) (ht : u < w.nThr) {f' : FWorld} (hs : failFine f u = some f') :
    ∃ w' d', SimF E f' w' d' ∧ step E w (.fail u) = some w' := by
  have lc : ∀ {f0 f1 : Frame} {rest g}, w.stacks u = f0 :: rest → f0.det = some (g, f1) →
      (∃ b, (w.sigs g).list = some b) ∧ ∀ l, ¬ Dirty w (w.stacks u) (f.half u) l := by
    intro f0 f1 rest g hst hf
    have H := S.half u
    have nw : ∀ {g}, topW (f0 :: rest) ≠ some g := by
      intro g' hw; unfold Frame.det at hf; split at hf <;> cases hf <;> cases hw
    rw [hst] at H ⊢
    generalize f.half u = h at *
    cases H with
    | idle hr => unfold Frame.det at hf; split at hf <;> cases hf <;> cases hr
    | lcl f2 f3 rest' g' b e hf' hl => cases e; rw [hf] at hf'; cases hf'; exact ⟨⟨b, hl⟩, fun l h => h⟩
    | stored g s dest rest b hst => cases hst; cases hf
    | made g b b0 hw => exact absurd hw nw
    | ref g b hw => exact absurd hw nw
    | matched g b i hw => exact absurd hw nw
    | swapped g b i hw => exact absurd hw nw
    | indexed g b i s hw => exact absurd hw nw
  unfold failFine at hs
  split at hs
  · rename_i g s d0 rest b hst hh
    rw [S.stk_eq] at hst
    have H := S.half u
    rw [hh] at H
    cases H with
    | stored g' s' dest' rest' b hst' hl hd =>
      rw [hst] at hst'; cases hst'
      have F := S.fails hu ht hst (s := some s) rfl hl (by
        rw [hh, hst]; rintro y ⟨g', s', h, rfl⟩; cases h; exact ⟨_, rfl, rfl⟩)
      rw [Option.map_eq_some_iff] at hs
      obtain ⟨v, hv, rfl⟩ := hs
      unfold allocFail at hv
      rw [S.stk_eq, hst] at hv
      simp only at hv
      split at hv
      · cases hv; exact ⟨_, _, F.2, F.1⟩
      · cases hv
  · cases hs
  · rename_i s k pc rest hst
    rw [Option.map_eq_some_iff] at hs
    obtain ⟨v, hv, rfl⟩ := hs
    rw [S.stk_eq] at hst
    unfold allocFail at hv
    rw [S.stk_eq, hst] at hv
    split at hv
    · rename_i h; cases h
    · rename_i h; cases h
    · rename_i h; cases h
    · rename_i s' k' g rest' h
      cases h
      obtain ⟨⟨b, hl⟩, nd⟩ := lc hst rfl
      split at hv
      · cases hv
        have hs : step E w (.fail u) = some (w.setUB .terminate) := by
          unfold Verif.step
          simp [hu, Label.tid, ht, allocFail, hst, hl]
        have H := S.half u
        refine ⟨_, d, S.next (l := .fail u) (.inr hs) (fun y => .inl (by cases y <;> rfl)) (by rw [S.eq]; rfl) ?_
          (fun y hy => .inl (S.calm nd hy)), hs⟩
        simp only [Label.tid]
        exact H.same
      · cases hv
    · cases hv
  · rename_i n1 n2 n3
    rw [Option.map_eq_some_iff] at hs
    obtain ⟨v, hv, rfl⟩ := hs
    unfold allocFail at hv
    rw [S.stk_eq] at hv
    split at hv
    · rename_i g s d0 rest hst
      obtain ⟨⟨b, hl⟩, nd⟩ := lc hst rfl
      have F := S.fails hu ht hst (s := some s) rfl hl (fun y h => absurd h (nd y))
      split at hv
      · cases hv; exact ⟨_, _, F.2, F.1⟩
      · cases hv
    · rename_i g s d0 rest hst
      exact (n1 _ _ _ _ (by rw [S.stk_eq]; exact hst)).elim
    · rename_i g tgt rest hst
      obtain ⟨⟨b, hl⟩, nd⟩ := lc hst rfl
      have F := S.fails hu ht hst (s := none) rfl hl (fun y h => absurd h (nd y))
      split at hv
      · cases hv; exact ⟨_, _, F.2, F.1⟩
      · cases hv
    · rename_i s k g rest hst
      exact (n2 _ _ _ _ (by rw [S.stk_eq]; exact hst)).elim
    · cases hv

/-- A thread that is about to copy the list is between two statements of `detach`. -/
theorem half_clone (S : SimF E f w d) {f0 f1 : Frame} {rest : List Frame} {g : SigId} (hst : w.stacks u = f0 :: rest)
    (hf : f0.det = some (g, f1)) : (∃ b, (w.sigs g).list = some b) ∧ ∃ i, f.half u = .lcl i := by
  have H := S.half u
  have nw : ∀ {g}, topW (f0 :: rest) ≠ some g := by
    intro g' hw; unfold Frame.det at hf; split at hf <;> cases hf <;> cases hw
  rw [hst] at H
  generalize f.half u = h at *
  cases H with
  | idle hr => unfold Frame.det at hf; split at hf <;> cases hf <;> cases hr
  | lcl f2 f3 rest' g' b e hf' hl => cases e; rw [hf] at hf'; cases hf'; exact ⟨⟨b, hl⟩, _, rfl⟩
  | stored g s dest rest b hst => cases hst; cases hf
  | made g b b0 hw => exact absurd hw nw
  | ref g b hw => exact absurd hw nw
  | matched g b i hw => exact absurd hw nw
  | swapped g b i hw => exact absurd hw nw
  | indexed g b i s hw => exact absurd hw nw

/-- No room for the control block. -/
theorem ctl (S : SimF E f w d) (hu : w.ub = none) (ht : u < w.nThr) {v : World} (hs : ctlFail f.w u = some v) :
    ∃ w' d', SimF E ⟨v, f.half⟩ w' d' ∧ step E w (.ctl u) = some w' := by
  have : v = f.w.setUB .terminate ∧ ∃ f0 f1 rest g, w.stacks u = f0 :: rest ∧ f0.det = some (g, f1) := by
    unfold ctlFail at hs
    rw [S.stk_eq] at hs
    split at hs <;> rename_i hst <;> first
      | cases hs
      | (split at hs
         · cases hs; exact ⟨rfl, _, _, _, _, hst, rfl⟩
         · cases hs)
  obtain ⟨rfl, f0, f1, rest, g, hst, hf⟩ := this
  obtain ⟨⟨b, hl⟩, i, hh⟩ := S.half_clone hst hf
  have hs : step E w (.ctl u) = some (w.setUB .terminate) := by
    unfold Verif.step
    simp only [hu, Option.isSome_none, Bool.false_eq_true, if_false, Label.tid, ht, if_true]
    unfold Frame.det at hf
    split at hf <;> cases hf <;> simp [ctlFail, hst, hl]
  have H := S.half u
  have S' := S.next (l := .ctl u) (v := f.w.setUB .terminate) (h' := f.half u) (.inr hs) (fun y => .inl (by cases y <;> rfl)) (by rw [S.eq]; rfl) H.same
          (fun y hy => .inl (S.calm (u := u) (by rw [hh]; exact fun l h => h) hy))
  have e : f.put u (f.w.setUB .terminate) (f.half u) = ⟨f.w.setUB .terminate, f.half⟩ := by
    unfold FWorld.put; rw [upd_self]
  exact ⟨_, d, by rw [← e]; exact S', hs⟩

/-- The finer machine does, step by step, what the machine does, or something that only the thread itself can see. -/
theorem step (S : SimF E f w d) {l : Label} {f' : FWorld} (hs : stepFine E f l = some f') :
    ∃ w' d', SimF E f' w' d' ∧ (((∃ t, l = .run t) ∧ w' = w ∧ (f'.half l.tid).left < (f.half l.tid).left) ∨ Verif.step E w l = some w') := by
  unfold stepFine at hs
  split at hs
  · cases hs
  rename_i hu
  split at hs
  · rename_i ht
    have hu' : w.ub = none := by rw [← S.ub_eq]; simpa using hu
    have ht' : l.tid < w.nThr := by rw [S.eq] at ht; exact ht
    split at hs
    · obtain ⟨w', d', h, e⟩ := S.run hu' ht' hs; exact ⟨w', d', h, e.imp_left fun e => ⟨⟨_, rfl⟩, e⟩⟩
    · obtain ⟨w', d', h, e⟩ := S.fail hu' ht' hs; exact ⟨w', d', h, .inr e⟩
    · rename_i h1 h2
      rw [Option.map_eq_some_iff] at hs
      obtain ⟨v, hv, rfl⟩ := hs
      by_cases hc : ∃ t, l = .ctl t
      · obtain ⟨t, rfl⟩ := hc
        unfold Verif.step at hv
        rw [if_neg hu, if_pos ht] at hv
        obtain ⟨w', d', h, e⟩ := S.ctl hu' ht' hv; exact ⟨w', d', h, .inr e⟩
      obtain ⟨w', d', h, e⟩ := S.user (fun t => ⟨h1 t, h2 t, fun h => hc ⟨t, h⟩⟩) hv; exact ⟨w', d', h, .inr e⟩
  · cases hs

theorem exec (S : SimF E f w d) {ls : List Label} {f' : FWorld} (hs : execFine E f ls = some f') :
    ∃ ls' w' d', ls'.Sublist ls ∧ ls'.filter (!·.isRun) = ls.filter (!·.isRun) ∧ Verif.exec E w ls' = some w' ∧ SimF E f' w' d' := by
  induction ls generalizing f w d with
  | nil => cases hs; exact ⟨[], w, d, .refl _, rfl, rfl, S⟩
  | cons l ls ih =>
    unfold execFine at hs
    split at hs
    · rename_i f1 h1
      obtain ⟨w1, d1, S1, ⟨⟨t, rfl⟩, rfl, -⟩ | h⟩ := S.step h1
      · obtain ⟨ls', w', d', a1, a2, a3, a4⟩ := ih S1 hs
        exact ⟨ls', w', d', a1.cons _, by simpa [Label.isRun] using a2, a3, a4⟩
      · obtain ⟨ls', w', d', a1, a2, a3, a4⟩ := ih S1 hs
        exact ⟨l :: ls', w', d', a1.cons_cons _, by simp only [List.filter_cons, a2], by simp [Verif.exec, h, a3], a4⟩
    · cases hs

/-! ### And the other way round -/

theorem stepFine_run (S : SimF E f w d) (hu : w.ub = none) (ht : u < w.nThr) : stepFine E f (.run u) = runFine E f u := by
  have hu' : f.w.ub = none := by rw [S.ub_eq]; exact hu
  have ht' : u < f.w.nThr := by rw [S.eq]; exact ht
  simp [stepFine, hu', Label.tid, ht']

/-- Where a thread within an update can be. -/
theorem half_add (S : SimF E f w d) {g : SigId} {s : SlotId} {dest : Dest} {rest : List Frame} (hst : w.stacks u = .add g s dest .write :: rest) :
    (∃ b, (w.sigs g).list = some b) ∧ ((∃ b i, f.half u = .made b i) ∨ (∃ b i, f.half u = .ref b i) ∨ ∃ b, f.half u = .stored b) := by
  have H := S.half u
  rw [hst] at H
  generalize f.half u = h at *
  cases H with
  | idle hr => cases hr
  | lcl f2 f3 rest' g' b e hf' hl => cases e; cases hf'
  | stored g s dest rest b hst hl => cases hst; exact ⟨⟨b, hl⟩, .inr (.inr ⟨_, rfl⟩)⟩
  | made g b b0 hw hl => cases hw; exact ⟨⟨b, hl⟩, .inl ⟨_, _, rfl⟩⟩
  | ref g b hw hl => cases hw; exact ⟨⟨b, hl⟩, .inr (.inl ⟨_, _, rfl⟩)⟩
  | matched g b i hw hl ht => exact ht.elim
  | swapped g b i hw hl ht => exact ht.elim
  | indexed g b i s hw hl ht => exact ht.elim

/-- The next statement can always be done. -/
theorem index_some (S : SimF E f w d) {b : BlkId} {i : Nat} (hh : f.half u = .swapped b i) : ∃ f', fineIndex f u b i = some f' := by
  have H := S.half u
  rw [hh] at H
  cases H with
  | swapped g b i hw hl ht hd =>
    have hlt := ht.lt
    have eb : f.w.blks b = Vec.swap (w.blks b) i ((w.blks b).length - 1) := by rw [S.eq]; simp [Patch.on, hd]
    have : i < (f.w.blks b).length := by rw [eb, swap_len]; exact hlt
    unfold fineIndex
    rw [List.getElem?_eq_getElem this]
    exact ⟨_, rfl⟩

theorem pop_some (S : SimF E f w d) {b : BlkId} {i : Nat} (hh : f.half u = .indexed b i) (next : List Frame) (h : Half) (ev : SlotId → Event) :
    ∃ f', finePop f u b next h ev = some f' := by
  have H := S.half u
  rw [hh] at H
  cases H with
  | indexed g b i s hw hl ht hd hsw hi =>
    have hlt := ht.lt
    have eb : f.w.blks b = Vec.swap (w.blks b) i ((w.blks b).length - 1) := by rw [S.eq]; simp [Patch.on, hd]
    unfold finePop
    rw [eb, swap_getLast hlt, List.getElem?_eq_getElem hlt]
    exact ⟨_, rfl⟩

theorem runs (S : SimF E f w d) (hu : w.ub = none) (ht : u < w.nThr) (h : f.half u ≠ .idle ∨ Verif.step E w (.run u) ≠ none) :
    ∃ f', stepFine E f (.run u) = some f' := by
  rw [S.stepFine_run hu ht]
  unfold runFine
  rw [S.stk_eq]
  split
  · exact ⟨_, rfl⟩
  · rename_i g s d0 rest hst
    obtain ⟨-, i, hh⟩ := S.half_clone hst rfl
    rw [hh]; exact ⟨_, rfl⟩
  · rename_i g s d0 rest hst
    obtain ⟨-, ⟨b, i, hh⟩ | ⟨b, i, hh⟩ | ⟨b, hh⟩⟩ := S.half_add hst <;> rw [hh] <;> exact ⟨_, rfl⟩
  · exact ⟨_, rfl⟩
  · rename_i g s d0 rest hst
    obtain ⟨-, i, hh⟩ := S.half_clone hst rfl
    rw [hh]; exact ⟨_, rfl⟩
  · rename_i g tgt i cnt rest hst
    have H := S.half u
    rw [hst] at H
    split
    · exact ⟨_, rfl⟩
    · split
      · exact ⟨_, rfl⟩
      · split <;> exact ⟨_, rfl⟩
    · exact ⟨_, rfl⟩
    · exact S.index_some ‹_›
    · exact S.pop_some ‹_› _ _ _
    · rename_i n1 n2 n3 n4 n5
      generalize f.half u = h at *
      cases H with
      | idle hr => cases hr
      | lcl f2 f3 rest' g' b e hf' hl => cases e; cases hf'
      | stored g s dest rest b hst hl => cases hst
      | made => exact (n1 _ _ rfl).elim
      | ref => exact (n2 _ _ rfl).elim
      | matched => exact (n3 _ rfl).elim
      | swapped => exact (n4 _ _ rfl).elim
      | indexed => exact (n5 _ _ rfl).elim
  · exact ⟨_, rfl⟩
  · rename_i s k g rest hst
    obtain ⟨-, i, hh⟩ := S.half_clone hst rfl
    rw [hh]; exact ⟨_, rfl⟩
  · rename_i s k g rest hst
    have H := S.half u
    rw [hst] at H
    split
    · exact ⟨_, rfl⟩
    · split <;> exact ⟨_, rfl⟩
    · exact S.index_some ‹_›
    · exact S.pop_some ‹_› _ _ _
    · rename_i n1 n2 n3 n4
      generalize f.half u = h at *
      cases H with
      | idle hr => cases hr
      | lcl f2 f3 rest' g' b e hf' hl => cases e; cases hf'
      | stored g s dest rest b hst hl => cases hst
      | made => exact (n1 _ _ rfl).elim
      | ref => exact (n2 _ _ rfl).elim
      | matched g b i hw hl ht he => obtain ⟨_, _, _, he⟩ := he; cases he
      | swapped => exact (n3 _ _ rfl).elim
      | indexed => exact (n4 _ _ rfl).elim
  · rename_i n1 n2 n3 n4 n5 n6 n7 n8 n9
    have hr : rests (w.stacks u) = true := by
      unfold rests
      split <;> rename_i hst <;> first | rfl | skip
      · exact (n2 _ _ _ _ hst).elim
      · exact (n3 _ _ _ _ hst).elim
      · exact (n5 _ _ _ hst).elim
      · exact (n6 _ _ _ _ _ hst).elim
      · exact (n8 _ _ _ _ hst).elim
      · exact (n9 _ _ _ _ hst).elim
    have e := S.same (l := .run u) hr
    rw [step_runs (by rw [S.ub_eq]; exact hu) (by rw [S.eq]; exact ht)] at e
    rw [e]
    have h := h.resolve_left (fun h => h ((S.half u).rests hr))
    cases hw : Verif.step E w (.run u) with
    | none => exact absurd hw h
    | some w' => exact ⟨_, rfl⟩

theorem execFine_cons {f f1 f2 : FWorld} {l : Label} {ls : List Label} (h1 : stepFine E f l = some f1) (h2 : execFine E f1 ls = some f2) :
    execFine E f (l :: ls) = some f2 := by
  simp [execFine, h1, h2]

/-- The statements of one step of the machine. -/
theorem run_all {n : Nat} : ∀ {f : FWorld} {d : Patch}, (f.half u).left ≤ n → SimF E f w d → Verif.step E w (.run u) = some w' →
    ∃ k f' d', execFine E f (List.replicate (k + 1) (.run u)) = some f' ∧ SimF E f' w' d' ∧ k ≤ n := by
  induction n with
  | zero =>
    intro f d hn S hs
    obtain ⟨f1, h1⟩ := S.runs (u := u) (step_ub hs) (step_inv hs).2.1 (.inr (by rw [hs]; simp))
    obtain ⟨w1, d1, S1, ⟨-, -, h⟩ | h⟩ := S.step h1
    · simp only [Label.tid] at h; omega
    · rw [hs] at h; cases h; exact ⟨0, f1, d1, execFine_cons h1 rfl, S1, Nat.le_refl _⟩
  | succ n ih =>
    intro f d hn S hs
    obtain ⟨f1, h1⟩ := S.runs (u := u) (step_ub hs) (step_inv hs).2.1 (.inr (by rw [hs]; simp))
    obtain ⟨w1, d1, S1, ⟨-, rfl, h⟩ | h⟩ := S.step h1
    · simp only [Label.tid] at h
      obtain ⟨k, f2, d2, h2, S2, hk⟩ := ih (by omega) S1 hs
      exact ⟨k + 1, f2, d2, execFine_cons h1 h2, S2, by omega⟩
    · rw [hs] at h; cases h; exact ⟨0, f1, d1, execFine_cons h1 rfl, S1, Nat.zero_le _⟩

/-- Every step of the machine can be done statement by statement, wherever the other threads are. -/
theorem back (S : SimF E f w d) {l : Label} (hs : Verif.step E w l = some w') : ∃ k f' d', execFine E f (List.replicate k (.run l.tid) ++ [l]) = some f' ∧ SimF E f' w' d' := by
  have hu := step_ub hs
  have ht : l.tid < w.nThr := (step_inv hs).2.1
  have hu' : f.w.ub = none := by rw [S.ub_eq]; exact hu
  have ht' : l.tid < f.w.nThr := by rw [S.eq]; exact ht
  have one : ∀ {f1}, stepFine E f l = some f1 → (f.half l.tid).left = 0 → ∃ k f' d', execFine E f (List.replicate k (.run l.tid) ++ [l]) = some f' ∧ SimF E f' w' d' := by
    intro f1 h1 h0
    obtain ⟨w1, d1, S1, ⟨-, -, h⟩ | h⟩ := S.step h1
    · omega
    · rw [hs] at h; cases h; exact ⟨0, f1, d1, execFine_cons h1 rfl, S1⟩
  have usr : rests (w.stacks l.tid) = true → (∀ t, l ≠ .run t ∧ l ≠ .fail t) → ∃ k f' d', execFine E f (List.replicate k (.run l.tid) ++ [l]) = some f' ∧ SimF E f' w' d' := by
    intro hr hl
    have e := S.same hr
    rw [hs] at e
    have : stepFine E f l = some ⟨d.on w', f.half⟩ := by
      unfold stepFine
      simp only [hu', Option.isSome_none, Bool.false_eq_true, if_false, ht', if_true]
      split
      · exact absurd rfl (hl _).1
      · exact absurd rfl (hl _).2
      · rw [e]; rfl
    exact one this (by rw [(S.half _).rests hr]; rfl)
  cases l with
  | run u => obtain ⟨k, f', d', h, S', -⟩ := run_all (Nat.le_refl _) S hs; exact ⟨k, f', d', by simp only [Label.tid]; rw [← List.replicate_succ']; exact h, S'⟩
  | call u a =>
    refine usr ?_ (fun t => ⟨by simp, by simp⟩)
    simp only [Label.tid] at ht ⊢
    simp only [Verif.step, hu, Option.isSome_none, Bool.false_eq_true, if_false, Label.tid, ht, if_true] at hs
    split at hs
    · rename_i h; revert h; unfold userCtx; split <;> rename_i hst <;> first | (intro h; cases h; done) | (intro _; rw [hst]; rfl)
    · cases hs
  | ret u v =>
    refine usr ?_ (fun t => ⟨by simp, by simp⟩)
    simp only [Label.tid] at ht ⊢
    simp only [Verif.step, hu, Option.isSome_none, Bool.false_eq_true, if_false, Label.tid, ht, if_true] at hs
    unfold userRet at hs
    split at hs
    · rename_i h; rw [h]; rfl
    · cases hs
  | throw u c =>
    refine usr ?_ (fun t => ⟨by simp, by simp⟩)
    simp only [Label.tid] at ht ⊢
    simp only [Verif.step, hu, Option.isSome_none, Bool.false_eq_true, if_false, Label.tid, ht, if_true] at hs
    unfold userThrow at hs
    split at hs
    · rename_i h; rw [h]; rfl
    · cases hs
  | ctl u =>
    simp only [Label.tid] at *
    obtain ⟨-, -, rfl, f0, f1, rest, g, b, hst, hf, hl⟩ := step_ctl hs
    obtain ⟨-, i, hh⟩ := S.half_clone hst hf
    refine one (f1 := ⟨f.w.setUB .terminate, f.half⟩) ?_ (by simp only [Label.tid, hh]; rfl)
    have hg : (f.w.sigs g).list = some b := by
      rw [S.sig_eq (S.calm (by rw [hh]; exact fun l h => h) (l := .ptr g) ((S.reach.full.i.i1.mtx _ _).2 ?_)), hl]
      rw [hst]; unfold Frame.det at hf; split at hf <;> cases hf <;> rfl
    unfold stepFine Verif.step
    simp only [hu', Option.isSome_none, Bool.false_eq_true, if_false, Label.tid, ht', if_true]
    unfold Frame.det at hf
    split at hf <;> cases hf <;> simp [ctlFail, S.stk_eq, hst, hg]
  | fail u =>
    simp only [Label.tid] at *
    have fl : ∀ {f : FWorld} {d : Patch}, SimF E f w d → (∃ f1, failFine f u = some f1) → ∃ f' d', execFine E f [.fail u] = some f' ∧ SimF E f' w' d' := by
      rintro f d S ⟨f1, h1⟩
      obtain ⟨w1, d1, S1, h⟩ := S.fail hu ht h1
      rw [hs] at h; cases h
      refine ⟨f1, d1, execFine_cons ?_ rfl, S1⟩
      have hu' : f.w.ub = none := by rw [S.ub_eq]; exact hu
      have ht' : u < f.w.nThr := by rw [S.eq]; exact ht
      simp [stepFine, hu', Label.tid, ht', h1]
    have af : ∀ {f : FWorld} {d : Patch}, SimF E f w d → (∀ g, topLocks (w.stacks u) = some g → d.ptr g = none) → ∃ v, allocFail f.w u = some v := by
      intro f d S hp
      unfold Verif.step at hs
      simp only [hu, Option.isSome_none, Bool.false_eq_true, if_false, Label.tid, ht, if_true] at hs
      unfold allocFail at hs ⊢
      rw [S.stk_eq]
      split at hs <;> rename_i hst <;> first
        | cases hs
        | (rw [hst] at hp
           rw [S.sig_eq (hp _ rfl)]
           split at hs
           · exact ⟨_, rfl⟩
           · cases hs)
    have st : ∀ {f : FWorld} {d : Patch} {g s dest rest b}, SimF E f w d → w.stacks u = .add g s dest .write :: rest → f.half u = .stored b →
        ∃ f1, failFine f u = some f1 := by
      intro f d g s dest rest b S hst hh
      have := af S (by
        rw [hst]; intro g' h; cases h
        refine (S.own_clean (u := u) (l := .ptr g) (topW_mutex S.reach (by rw [hst]; rfl))).resolve_right ?_
        rw [hh]; rintro ⟨_, _, _, h⟩; cases h)
      obtain ⟨v, hv⟩ := this
      unfold failFine
      rw [S.stk_eq, hst, hh, hv]; exact ⟨_, rfl⟩
    have ref : ∀ {f : FWorld} {d : Patch} {g s dest rest b i}, SimF E f w d → w.stacks u = .add g s dest .write :: rest → f.half u = .ref b i →
        ∃ k f' d', execFine E f (List.replicate k (.run u) ++ [.fail u]) = some f' ∧ SimF E f' w' d' := by
      intro f d g s dest rest b i S hst hh
      have h1 : stepFine E f (.run u) = some (f.put u (f.w.setIndex s (f.w.blks b).length) (.stored b)) := by
        rw [S.stepFine_run hu ht]; simp [runFine, S.stk_eq, hst, hh]
      obtain ⟨d1, S1⟩ := S.store hst hh
      obtain ⟨f2, d2, h2, S2⟩ := fl S1 (st S1 hst (b := b) (by simp [FWorld.put, upd_apply]))
      exact ⟨1, f2, d2, execFine_cons h1 h2, S2⟩
    by_cases hw : ∃ g s dest rest, w.stacks u = .add g s dest .write :: rest
    · obtain ⟨g, s, dest, rest, hst⟩ := hw
      obtain ⟨-, ⟨b, i, hh⟩ | ⟨b, i, hh⟩ | ⟨b, hh⟩⟩ := S.half_add hst
      · have h1 : stepFine E f (.run u) = some (finePoint f u g b i) := by
          rw [S.stepFine_run hu ht]; simp [runFine, S.stk_eq, hst, hh]
        obtain ⟨d1, S1⟩ := S.point (g := g) (by rw [hst]; rfl) hh
        obtain ⟨k, f2, d2, h2, S2⟩ := ref S1 hst (b := b) (i := i) (by simp [finePoint, FWorld.put, upd_apply])
        exact ⟨k + 1, f2, d2, execFine_cons h1 h2, S2⟩
      · exact ref S hst hh
      · obtain ⟨f2, d2, h2, S2⟩ := fl S (st S hst hh); exact ⟨0, f2, d2, h2, S2⟩
    · have : ∃ f1, failFine f u = some f1 := by
        have hc : ∃ f0 f1 rest g, w.stacks u = f0 :: rest ∧ f0.det = some (g, f1) := by
          unfold Verif.step at hs
          simp only [hu, Option.isSome_none, Bool.false_eq_true, if_false, Label.tid, ht, if_true] at hs
          unfold allocFail at hs
          split at hs
          · rename_i hst; exact ⟨_, _, _, _, hst, rfl⟩
          · rename_i hst; exact absurd ⟨_, _, _, _, hst⟩ hw
          · rename_i hst; exact ⟨_, _, _, _, hst, rfl⟩
          · rename_i hst; exact ⟨_, _, _, _, hst, rfl⟩
          · cases hs
        obtain ⟨f0, f1, rest, g, hst, hf⟩ := hc
        obtain ⟨-, i, hh⟩ := S.half_clone hst hf
        obtain ⟨v, hv⟩ := af S (fun g hg => S.calm (by rw [hh]; exact fun l h => h) (l := .ptr g) ((S.reach.full.i.i1.mtx _ _).2 hg))
        unfold failFine
        split
        · rename_i h _; rw [S.stk_eq] at h; exact absurd ⟨_, _, _, _, h⟩ hw
        · rename_i h _; rw [S.stk_eq] at h; exact absurd ⟨_, _, _, _, h⟩ hw
        · rw [hv]; exact ⟨_, rfl⟩
        · rw [hv]; exact ⟨_, rfl⟩
      obtain ⟨f2, d2, h2, S2⟩ := fl S this; exact ⟨0, f2, d2, h2, S2⟩

end SimF

theorem ReachableF.sim {f : FWorld} (h : ReachableF E f) : ∃ w d, SimF E f w d := by
  obtain ⟨n, ls, h⟩ := h
  obtain ⟨-, w, d, -, -, -, S⟩ := (SimF.init n).exec h
  exact ⟨w, d, S⟩

theorem execFine_append {f f' : FWorld} {ls ls' : List Label} (h : execFine E f ls = some f') : execFine E f (ls ++ ls') = execFine E f' ls' := by
  induction ls generalizing f with
  | nil => cases h; rfl
  | cons l ls ih =>
    unfold execFine at h
    split at h
    · rename_i f1 h1; simp only [List.cons_append, execFine, h1]; exact ih h
    · cases h

theorem SimF.fine {f : FWorld} (S : SimF E f w d) {ls : List Label} (h : Verif.exec E w ls = some w') :
    ∃ ls' f' d', ls.Sublist ls' ∧ ls.filter (!·.isRun) = ls'.filter (!·.isRun) ∧ execFine E f ls' = some f' ∧ SimF E f' w' d' := by
  induction ls generalizing f w d with
  | nil => cases h; exact ⟨[], f, d, .refl _, rfl, rfl, S⟩
  | cons l ls ih =>
    unfold Verif.exec at h
    split at h
    · rename_i w1 h1
      obtain ⟨k, f1, d1, h2, S1⟩ := S.back h1
      obtain ⟨ls', f', d', a1, a2, a3, a4⟩ := ih S1 h
      refine ⟨List.replicate k (.run l.tid) ++ [l] ++ ls', f', d', ?_, ?_, by rw [execFine_append h2, a3], a4⟩
      · rw [List.append_assoc]; exact (a1.cons_cons l).trans (List.sublist_append_right _ _)
      · have e : (List.replicate k (Label.run l.tid)).filter (!·.isRun) = [] := by simp [List.filter_replicate, Label.isRun]
        simp only [List.filter_append, e, List.nil_append, List.filter_cons, List.filter_nil, a2]
        split <;> rfl
    · cases h

end Verif
