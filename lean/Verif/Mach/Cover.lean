import Verif.Mach.RaceStep

/-!
# The footprints cover what the steps do

`foot` is defined beside `step`. Here: a step changes a list pointer, a vector or a stored position only if its footprint says so, and changes
a mutex exactly as its footprint says.
-/

namespace Verif

variable {E : Env} {w w' : World} {t : Tid} {ops : List Mem}

theorem setBlk_ne {b : BlkId} {l : List SlotId} (h : l.length ≠ (w.blks b).length) : upd w.blks b l ≠ w.blks := fun e => by
  have := congrFun e b
  rw [upd_same] at this
  exact h (by rw [this])

theorem removeAt_ne {b : BlkId} {i : Nat} {v : SlotId} (h : (w.blks b)[i]? = some v) : (removeAt w b i).blks ≠ w.blks := by
  have hi : i < (w.blks b).length := (List.getElem?_eq_some_iff.1 h).1
  rw [removeAt_blks w b i hi]
  exact setBlk_ne (by rw [Vec.length_swapPop _ _ hi]; omega)

/-- Positions are stored only together with a modification of a vector or the construction of a listener. -/
theorem idx_same (R : StepR E w t w') (hb : w'.blks = w.blks) (hn : w'.nSlots = w.nSlots) (s : SlotId) :
    (w'.slots s).index = (w.slots s).index := by
  have up : ∀ (s' : SlotId) (r : SlotRec), r.index = (w.slots s').index → (upd w.slots s' r s).index = (w.slots s).index := by
    intro s' r h; rw [upd_apply]; split
    · rename_i e; rw [e]; exact h
    · rfl
  cases R with
  | connStart => exact absurd hn (Nat.succ_ne_self _)
  | addWrite g s dest rest b => exact absurd hb (setBlk_ne (w := w) (b := b) (l := w.blks b ++ [s]) (by simp))
  | eraseHit g tgt i cnt rest b s hst hl hi => exact absurd hb (removeAt_ne hi)
  | discWrite s v k rest g b hst hl hi => exact absurd hb (removeAt_ne hi)
  | flag s' c => exact up _ _ rfl
  | callExpired s' => exact up _ _ rfl
  | exchTrue s' => exact up _ _ rfl
  | _ => rfl

theorem cover_ptr (F : StepF E w t w' ops) {g : SigId} (hg : g < w.nSigs)
    (hc : (w'.sigs g).list ≠ (w.sigs g).list) : writesTo ops (.ptr g) := by
  have mtx : ∀ (g0 : SigId) (r : SigRec), r.list = (w.sigs g0).list → (upd w.sigs g0 r g).list = (w.sigs g).list := by
    intro g0 r h; rw [upd_apply]; split
    · rename_i e; rw [e]; exact h
    · rfl
  cases F with
  | ub => exact absurd rfl hc
  | quiet w' st ops hf q => exact absurd (by rw [q.sigs]) hc
  | newSig v => exact absurd (by simp only [upd_apply, if_neg (Nat.ne_of_lt hg)]) hc
  | destroy g0 w' ops hu hg0 ha hm hw ho =>
    subst hw ho
    simp only [World.emitEv, upd_apply] at hc
    split at hc
    · rename_i e; subst e; exact ⟨.destroy, rfl, by simp⟩
    · exact absurd rfl hc
  | movStart => exact absurd (by simp only [World.setStack, upd_apply, if_neg (Nat.ne_of_lt hg)]) hc
  | acq f f' rest g0 => exact (hc (mtx _ _ rfl)).elim
  | tst => exact absurd rfl hc
  | det w' f f' rest g0 b hst hf hl hw =>
    subst hw
    simp only [World.setStack, cloneBlk, World.setList, World.setBlk, upd_apply] at hc
    split at hc
    · rename_i e; subst e
      exact ⟨.update, rfl, List.mem_append_left _ (by simp)⟩
    · exact absurd rfl hc
  | emSnap => exact (hc (mtx _ _ rfl)).elim
  | walk w' st m b pos acc rest hst q => exact absurd (by rw [q.sigs]) hc
  | emEnd w' pre f0 m b pos acc rest evs hst h0 ht hr hw => subst hw; exact absurd rfl hc
  | rem w' f f' rest g0 b i v ev hst h1 h2 h3 h4 h5 h6 hl hi hev e =>
    subst e
    refine absurd ?_ hc
    simp only [World.emitEv, World.setStack, removeAt]; split <;> rfl
  | unlock w' f rest st g0 hst hl hb hp hr h1 => rw [h1] at hc; exact (hc (mtx _ _ rfl)).elim
  | fail f rest g0 s b pre hst hf => exact (hc (mtx _ _ rfl)).elim
  | movWrite g' g0 rest hst =>
    simp only [World.emitEv, World.setStack, World.setList, upd_apply] at hc
    by_cases e : g = g0
    · subst e; exact ⟨.update, rfl, by simp⟩
    · by_cases e' : g = g'
      · subst e'; exact ⟨.init, rfl, by simp⟩
      · simp only [if_neg e, if_neg e'] at hc; exact absurd rfl hc
  | movUnlock g' g0 rest hst =>
    refine absurd ?_ hc
    simp only [upd_apply]
    split
    · rename_i e; subst e; split
      · rename_i e; subst e; rfl
      · rfl
    · split
      · rename_i e; subst e; rfl
      · rfl
  | connStart => exact absurd rfl hc
  | emCopy => exact absurd rfl hc
  | addWrite => exact absurd rfl hc
  | scan => exact absurd rfl hc

theorem cover_vec (F : StepF E w t w' ops) {b : BlkId} (hb : b < w.nBlks)
    (hc : w'.blks b ≠ w.blks b) : writesTo ops (.vec b) := by
  have mtx : ∀ (b0 : BlkId) (r : List SlotId), upd w.blks b0 r b ≠ w.blks b → b = b0 := by
    intro b0 r h; rw [upd_apply] at h; split at h
    · assumption
    · exact absurd rfl h
  cases F with
  | quiet w' st ops hf q => exact absurd (by rw [q.blks]) hc
  | newSig v => exact absurd (mtx _ _ hc) (Nat.ne_of_lt hb)
  | destroy g0 w' ops hu hg0 ha hm hw ho => subst hw; exact absurd rfl hc
  | det w' f f' rest g0 b hst hf hl hw =>
    subst hw
    exact absurd (mtx _ _ hc) (Nat.ne_of_lt hb)
  | walk w' st m b pos acc rest hst q => exact absurd (by rw [q.blks]) hc
  | emEnd w' pre f0 m b pos acc rest evs hst h0 ht hr hw => subst hw; exact absurd rfl hc
  | addWrite g s dest rest b0 hst hl => obtain rfl := mtx _ _ hc; exact ⟨.update, rfl, by simp⟩
  | rem w' f f' rest g0 b0 i v ev hst h1 h2 h3 h4 h5 h6 hl hi hev e =>
    subst e
    simp only [World.emitEv, World.setStack, removeAt] at hc
    split at hc
    · rename_i s' hs'
      obtain rfl := mtx _ _ hc
      exact ⟨.update, rfl, by simp [remFoot, hs']⟩
    · exact absurd rfl hc
  | unlock w' f rest st g0 hst hl hb' hp hr h1 h2 => rw [h2] at hc; exact absurd rfl hc
  | _ => exact absurd rfl hc

theorem cover_idx (F : StepF E w t w' ops) (R : StepR E w t w') {s : SlotId}
    (hc : (w'.slots s).index ≠ (w.slots s).index) : writesTo ops (.idx s) := by
  have mtx : ∀ (s0 : SlotId) (r : SlotRec), (upd w.slots s0 r s).index ≠ (w.slots s).index → s = s0 := by
    intro b0 r h; rw [upd_apply] at h; split at h
    · assumption
    · exact absurd rfl h
  cases F with
  | quiet w' st ops hf q => exact absurd (idx_same R q.blks q.nSlots s) hc
  | destroy g0 w' ops hu hg0 ha hm hw ho => subst hw; exact absurd rfl hc
  | det w' f f' rest g0 b hst hf hl hw => subst hw; exact absurd rfl hc
  | walk w' st m b pos acc rest hst q => exact absurd (idx_same R q.blks q.nSlots s) hc
  | emEnd w' pre f0 m b pos acc rest evs hst h0 ht hr hw => subst hw; exact absurd rfl hc
  | connStart => obtain rfl := mtx _ _ hc; exact ⟨.init, rfl, by simp⟩
  | addWrite g s dest rest b0 hst hl => obtain rfl := mtx _ _ hc; exact ⟨.update, rfl, by simp⟩
  | rem w' f f' rest g0 b0 i v ev hst h1 h2 h3 h4 h5 h6 hl hi hev e =>
    subst e
    simp only [World.emitEv, World.setStack, removeAt] at hc
    split at hc
    · rename_i s' hs'
      obtain rfl := mtx _ _ hc
      exact ⟨.update, rfl, by simp [remFoot, hs']⟩
    · exact absurd rfl hc
  | unlock w' f rest st g0 hst hl hb' hp hr h1 h2 h3 h4 h5 => exact absurd (idx_same R h2 h5 s) hc
  | _ => exact absurd rfl hc

/-- A change of a mutex is recorded. -/
theorem cover_mutex (F : StepF E w t w' ops) {g : SigId} (hg : g < w.nSigs) (hc : (w'.sigs g).mutex ≠ (w.sigs g).mutex) :
    ((w.sigs g).mutex = none ∧ (w'.sigs g).mutex = some t ∧ .lock g ∈ ops) ∨
    ((w'.sigs g).mutex = none ∧ .unlock g ∈ ops) := by
  have mtx : ∀ (g0 : SigId) (r : SigRec), (upd w.sigs g0 r g).mutex ≠ (w.sigs g).mutex → g = g0 := by
    intro b0 r h; rw [upd_apply] at h; split at h
    · assumption
    · exact absurd rfl h
  cases F with
  | quiet w' st ops hf q => exact absurd (by rw [q.sigs]) hc
  | newSig v => exact absurd (mtx _ _ hc) (Nat.ne_of_lt hg)
  | destroy g0 w' ops hu hg0 ha hm hw ho =>
    subst hw; obtain rfl := mtx _ _ hc
    exact absurd (by simp [World.emitEv, upd_same]) hc
  | movStart => exact absurd (mtx _ _ hc) (Nat.ne_of_lt hg)
  | acq f f' rest g0 hst hf ha hm =>
    obtain rfl := mtx _ _ hc
    exact .inl ⟨hm, by simp [World.setStack, World.setMutex, upd_same], by simp⟩
  | tst => exact absurd rfl hc
  | det w' f f' rest g0 b hst hf hl hw =>
    subst hw
    simp only [World.setStack, cloneBlk, World.setList, World.setBlk] at hc
    obtain rfl := mtx _ _ hc
    exact absurd (by simp [upd_same]) hc
  | emSnap =>
    obtain rfl := mtx _ _ hc
    exact .inr ⟨by simp [World.emitEv, World.setStack, World.setMutex, upd_same], by simp⟩
  | walk w' st m b pos acc rest hst q => exact absurd (by rw [q.sigs]) hc
  | emEnd w' pre f0 m b pos acc rest evs hst h0 ht hr hw => subst hw; exact absurd rfl hc
  | rem w' f f' rest g0 b i v ev hst h1 h2 h3 h4 h5 h6 hl hi hev e =>
    subst e
    refine absurd ?_ hc
    simp only [World.emitEv, World.setStack, removeAt]; split <;> rfl
  | unlock w' f rest st g0 hst hl hb hp hr h1 =>
    rw [h1] at hc ⊢
    obtain rfl := mtx _ _ hc
    exact .inr ⟨by simp [World.setMutex, upd_same], by simp⟩
  | fail f rest g0 s b pre hst hf =>
    obtain rfl := mtx _ _ hc
    exact .inr ⟨by simp [World.emitEv, World.setStack, World.setMutex, upd_same], by simp⟩
  | movWrite g' g0 rest hst =>
    refine absurd ?_ hc
    simp only [World.emitEv, World.setStack, World.setList, upd_apply]
    split
    · rename_i e; subst e; split
      · rename_i e; subst e; rfl
      · rfl
    · split
      · rename_i e; subst e; rfl
      · rfl
  | movUnlock g' g0 rest hst =>
    by_cases e : g = g0
    · subst e
      refine .inr ⟨?_, by simp⟩
      simp only [upd_apply, if_true]; split
      · rename_i e; rw [if_pos e.symm]
      · rfl
    · refine absurd ?_ hc
      simp only [upd_apply, if_neg e]
      split
      · rename_i e'; subst e'; simp [if_neg e]
      · rfl
  | connStart => exact absurd rfl hc
  | emCopy => exact absurd rfl hc
  | addWrite => exact absurd rfl hc
  | scan => exact absurd rfl hc
  | ub => exact absurd rfl hc

theorem Frame.acq_top {f f' : Frame} {g : SigId} (h : f.acq = some (g, f')) : f'.locks = some g := by
  unfold Frame.acq at h; split at h <;> simp at h <;> obtain ⟨rfl, rfl⟩ := h <;> rfl

/-- A recorded lock found the mutex free; a recorded unlock of a live signal was done by the holder. -/
theorem mutex_cover (I : Inv1 w) (J : Inv2 w) (F : StepF E w t w' ops) {g : SigId} :
    (.lock g ∈ ops → (w.sigs g).mutex = none) ∧
    (.unlock g ∈ ops → (w.sigs g).alive = true → (w.sigs g).mutex = some t) := by
  have no : ∀ b, Mem.lock g ∉ dropFoot w' b ∧ Mem.unlock g ∉ dropFoot w' b := by
    intro b; unfold dropFoot; split <;> simp
  have nd : ∀ g0 b, Mem.lock g ∉ detFoot w w' g0 b ∧ Mem.unlock g ∉ detFoot w w' g0 b := by
    intro g0 b; simp [detFoot, no b]
  have nr : ∀ b i, Mem.lock g ∉ remFoot w b i ∧ Mem.unlock g ∉ remFoot w b i := by
    intro g0 b; unfold remFoot; split <;> simp
  cases F with
  | ub => simp
  | quiet w' st ops hf q =>
    exact ⟨fun h => (by obtain ⟨s, e⟩ := hf _ h; cases e), fun h => (by obtain ⟨s, e⟩ := hf _ h; cases e)⟩
  | newSig v =>
    simp only [List.mem_cons, reduceCtorEq, List.not_mem_nil, or_false, false_or, Mem.unlock.injEq, false_implies, true_and]
    intro e ha; subst e
    rw [(I.out _ (Nat.le_refl _)).2.1] at ha; cases ha
  | destroy g0 w' ops hu hg0 ha hm hw ho =>
    subst ho
    have : ∀ x : List Mem, (Mem.lock g ∉ x ∧ Mem.unlock g ∉ x) →
        (.lock g ∈ Mem.lock g0 :: .acc (.ptr g0) .destroy :: x → (w.sigs g).mutex = none) ∧
        (.unlock g ∈ Mem.lock g0 :: .acc (.ptr g0) .destroy :: x → (w.sigs g).alive = true → (w.sigs g).mutex = some t) := by
      rintro x ⟨h1, h2⟩
      simp only [List.mem_cons, Mem.lock.injEq, reduceCtorEq, false_or, h1, h2, or_false, false_implies, and_true]
      rintro rfl; exact hm
    cases (w.sigs g0).list with
    | none => exact this _ (by simp)
    | some b => exact this _ (no b)
  | acq f f' rest g0 hst hf ha hm =>
    simp only [List.mem_singleton, Mem.lock.injEq, reduceCtorEq, false_implies, and_true]
    rintro rfl; exact hm
  | det w' f f' rest g0 b hst hf hl hw => simp [nd]
  | tst f f' rest g0 b pre hst hf hl hp =>
    simp only [List.mem_append, tstFoot, List.mem_cons, reduceCtorEq, List.not_mem_nil, or_false]
    rcases hp with rfl | ⟨s, k, -, rfl⟩ <;> simp
  | emSnap m b rest hst =>
    simp only [List.mem_cons, reduceCtorEq, List.not_mem_nil, or_false, false_implies, true_and, Mem.unlock.injEq]
    rintro rfl -; exact (I.mtx _ _).2 (by rw [hst]; rfl)
  | emEnd w' pre f0 m b pos acc rest evs hst h0 ht hr hw he hp =>
    simp only [List.mem_append, no, or_false]
    rcases hp with rfl | rfl <;> simp
  | rem w' f f' rest g0 b i v ev hst h1 h2 h3 h4 h5 h6 hl hi hev e =>
    simp [nr]
  | unlock w' f rest st g0 hst hl hb hp hr h1 =>
    simp only [List.mem_singleton, reduceCtorEq, false_implies, true_and, Mem.unlock.injEq]
    rintro rfl -; exact (I.mtx _ _).2 (by rw [hst]; exact hl)
  | fail f rest g0 s b pre hst hf hl hp =>
    rcases hp with rfl | ⟨s', dest, -, rfl⟩ <;>
      simp only [List.cons_append, List.nil_append, List.mem_cons, reduceCtorEq, List.not_mem_nil, or_false, false_or, false_implies, true_and,
        Mem.unlock.injEq] <;>
      (rintro rfl -; exact (I.mtx _ _).2 (by rw [hst]; exact Frame.allocs_locks hf))
  | movWrite g' g0 rest hst =>
    simp only [List.mem_cons, reduceCtorEq, List.not_mem_nil, or_false, false_or, false_implies, true_and, Mem.unlock.injEq]
    rintro rfl ha
    have := (J.movx t g g0 .write (by rw [hst]; rfl)).1
    rw [this] at ha; cases ha
  | movUnlock g' g0 rest hst =>
    simp only [List.mem_singleton, reduceCtorEq, false_implies, true_and, Mem.unlock.injEq]
    rintro rfl -; exact (I.mtx _ _).2 (by rw [hst]; rfl)
  | _ => simp

theorem ownedB_true {b : BlkId} (h : w.ownedB b = true) : (∃ t, own w b t) ∨ ∃ g, (w.sigs g).list = some b := by
  simp only [World.ownedB, World.anyFrame, Bool.or_eq_true, List.any_eq_true, List.mem_range, beq_iff_eq] at h
  rcases h with ⟨t, -, f, hf, e⟩ | ⟨g, -, e⟩
  · exact .inl ⟨t, f, hf, e⟩
  · exact .inr ⟨g, e⟩

theorem dropFoot_free {b : BlkId} (h : w'.ownedB b = false) : Mem.acc (.vec b) .destroy ∈ dropFoot w' b := by
  simp [dropFoot, h]

/-- When the last owner of a vector gives it up, the vector is freed. -/
theorem cover_free (I : Inv1 w) (I' : Inv1 w') (J : Inv2 w) (F : StepF E w t w' ops) (R : StepR E w t w') {b : BlkId} (h : w.ownedB b = true)
    (h' : w'.ownedB b = false) : .acc (.vec b) .destroy ∈ ops := by
  have no := ownedB_false I' h'
  have yes : own w b t ∨ ∃ g, (w.sigs g).list = some b := by
    rcases ownedB_true h with ⟨t1, h1⟩ | h1
    · by_cases e : t1 = t
      · exact .inl (e ▸ h1)
      · exact absurd ((own_other R e).2 h1) (no.1 t1)
    · exact .inr h1
  have keep' : (own w b t → own w' b t) → (∀ g, (w.sigs g).list = some b → ∃ g', (w'.sigs g').list = some b) →
      Mem.acc (.vec b) .destroy ∈ ops := by
    intro h1 h2
    rcases yes with h3 | ⟨g, h3⟩
    · exact absurd (h1 h3) (no.1 t)
    · obtain ⟨g', h4⟩ := h2 g h3; exact absurd h4 (no.2 g')
  have keep : (own w b t → own w' b t) → (∀ g, (w'.sigs g).list = (w.sigs g).list) → Mem.acc (.vec b) .destroy ∈ ops :=
    fun h1 h2 => keep' h1 fun g h3 => ⟨g, (h2 g).trans h3⟩
  have mtx : ∀ (g0 : SigId) (r : SigRec) (g : SigId), r.list = (w.sigs g0).list → (upd w.sigs g0 r g).list = (w.sigs g).list := by
    intro g0 r g h; rw [upd_apply]; split
    · rename_i e; rw [e]; exact h
    · rfl
  have top : ∀ {f f' : Frame} {rest : List Frame}, w.stacks t = f :: rest → w'.stacks t = f' :: rest → f.blk? = none → own w b t → own w' b t := by
    intro f f' rest h1 h2 h3 h4
    rw [own_top h1, h3] at h4
    rw [own_top h2]; exact .inr (h4.resolve_left (by simp))
  cases F with
  | ub => exact keep id (fun _ => rfl)
  | quiet w' st ops hf q =>
    exact keep (fun h => (own_upd (by rw [q.stk, upd_same])).2 ((q.own b).2 h)) (fun _ => by rw [q.sigs])
  | newSig v =>
    refine keep' id fun g hg => ⟨g, ?_⟩
    have : g ≠ w.nSigs := fun e => by subst e; rw [(I.out _ (Nat.le_refl _)).1] at hg; cases hg
    simpa [upd_apply, this] using hg
  | destroy g0 w' ops hu hg0 ha hm hw ho =>
    have hs : w'.stacks = w.stacks := by rw [hw]; rfl
    rcases yes with h1 | ⟨g, h1⟩
    · exact absurd (by unfold own at h1 ⊢; rw [hs]; exact h1) (no.1 t)
    · by_cases e : g = g0
      · subst e; subst ho; rw [h1]
        exact List.mem_cons_of_mem _ (List.mem_cons_of_mem _ (dropFoot_free h'))
      · refine absurd ?_ (no.2 g)
        rw [hw]; simpa [World.emitEv, upd_apply, e] using h1
  | movStart g0 =>
    refine keep' (fun h => ?_) fun g hg => ⟨g, ?_⟩
    · exact (own_top (upd_same _ _ _)).2 (.inr h)
    · have : g ≠ w.nSigs := fun e => by subst e; rw [(I.out _ (Nat.le_refl _)).1] at hg; cases hg
      simpa [World.setStack, upd_apply, this] using hg
  | connStart => exact keep (fun h => (own_top (upd_same _ _ _)).2 (.inr h)) (fun _ => rfl)
  | acq f f' rest g0 hst hf ha hm =>
    refine keep (top hst (upd_same _ _ _) ?_) (fun g => mtx _ _ g rfl)
    unfold Frame.acq at hf; split at hf <;> simp at hf <;> rfl
  | tst f f' rest g0 b0 pre hst hf hl hp =>
    refine keep (top hst (upd_same _ _ _) ?_) (fun _ => rfl)
    unfold Frame.tst at hf; split at hf <;> simp at hf <;> rfl
  | det w' f f' rest g0 b0 hst hf hl hw =>
    have hf0 : f.blk? = none := by unfold Frame.det at hf; split at hf <;> simp at hf <;> rfl
    have e : w'.stacks t = f' :: rest := by rw [hw]; exact upd_same _ _ _
    by_cases eb : b = b0
    · subst eb
      exact List.mem_append_right _ (dropFoot_free h')
    · refine keep' (top hst e hf0) fun g hg => ⟨g, ?_⟩
      have : g ≠ g0 := fun e => by subst e; rw [hl] at hg; exact eb (by injection hg with h; exact h.symm)
      simp [hw, World.setStack, cloneBlk, World.setList, World.setBlk, upd_apply, this, hg]
  | emCopy m rest hst => exact keep (top hst (upd_same _ _ _) rfl) (fun _ => rfl)
  | emSnap m b0 rest hst =>
    refine keep (fun h => ?_) (fun g => mtx _ _ g rfl)
    have := (own_top hst).1 h
    exact (own_top (f := .emit m (.iter b0 0 none)) (upd_same _ _ _)).2 this
  | walk w' st m b pos acc rest hst q =>
    exact keep (fun h => (own_upd (by rw [q.stk, upd_same])).2 ((q.own _).2 h)) (fun _ => by rw [q.sigs])
  | emEnd w' pre f0 m b0 pos acc rest evs hst h0 ht hr hw he hp =>
    have e : w'.stacks t = rest := by rw [hw]; exact upd_same _ _ _
    rcases yes with ⟨f, hf, e1⟩ | ⟨g, h1⟩
    · rw [hst] at hf
      rcases List.mem_append.1 hf with hf | hf
      · rw [h0 f hf] at e1; cases e1
      · rcases List.mem_cons.1 hf with rfl | hf
        · have : b0 = b := by simpa [Frame.blk?, EmitPc.blk?] using e1
          subst this; exact List.mem_append_right _ (dropFoot_free h')
        · exact absurd ⟨f, by rw [e]; exact hf, e1⟩ (no.1 t)
    · exact absurd (by rw [hw]; exact h1) (no.2 g)
  | addWrite g s dest rest b0 hst hl => exact keep (top hst (upd_same _ _ _) rfl) (fun _ => rfl)
  | scan f f' rest g0 b0 hst h1 h2 h3 h4 h5 => exact keep (top hst (upd_same _ _ _) h5) (fun _ => rfl)
  | rem w' f f' rest g0 b0 i v ev hst h1 h2 h3 h4 h5 h6 hl hi hev e =>
    refine keep (top hst (by rw [e]; exact upd_same _ _ _) h5) fun g => ?_
    rw [e]; simp only [World.emitEv, World.setStack, removeAt]; split <;> rfl
  | fail f rest g0 s b0 pre hst hf =>
    refine keep (fun h => ?_) (fun g => mtx _ _ g rfl)
    have hb : f.blk? = none := by rcases Frame.allocs_inv hf with ⟨_, _, _, rfl, _⟩ | ⟨_, rfl, _⟩ <;> rfl
    rw [own_top hst, hb] at h
    exact (own_upd (upd_same _ _ _)).2 (h.resolve_left (by simp))
  | unlock w' f rest st g0 hst hl hb hp hr h1 h2 h3 h4 h5 h6 =>
    refine keep (fun h => ?_) (fun g => by rw [h1]; exact mtx _ _ g rfl)
    rw [own_top hst, hb] at h
    exact (own_upd (by rw [h6, upd_same])).2 ((hr.2.2 _).2 (h.resolve_left (by simp)))
  | movWrite g' g0 rest hst =>
    refine keep' (top hst (upd_same _ _ _) rfl) fun g hg => ?_
    have ne : g' ≠ g0 := fun e => by
      have h1 := (J.movx t g' g0 .write (by rw [hst]; rfl)).1
      rw [e, J.live g0 t ((I.mtx _ _).2 (by rw [hst]; rfl))] at h1; cases h1
    by_cases e : g = g0
    · subst e; exact ⟨g', by simp [World.emitEv, World.setStack, World.setList, upd_apply, ne, hg]⟩
    · have : g ≠ g' := fun e => by
        subst e; rw [(J.movx t g g0 .write (by rw [hst]; rfl)).2 (by simp)] at hg; cases hg
      exact ⟨g, by simp [World.emitEv, World.setStack, World.setList, upd_apply, e, this, hg]⟩
  | movUnlock g' g0 rest hst =>
    refine keep (fun h => ?_) fun g => ?_
    · rw [own_top hst] at h
      exact (own_upd (upd_same _ _ _)).2 (h.resolve_left (by simp [Frame.blk?]))
    · simp only [upd_apply]
      split
      · rename_i e; subst e; split
        · rename_i e; subst e; rfl
        · rfl
      · split
        · rename_i e; subst e; rfl
        · rfl

end Verif
