import Verif.Fine
import Verif.Mach.Race
import Verif.Mach.Reads

/-!
# The machine with smaller steps does nothing the machine does not do

Lemmas for the simulation: what a thread half-way through an update has changed is out of reach of the other threads.
-/

namespace Verif

variable {E : Env} {w w' : World} {t u : Tid} {x : Patch}

/-! ### Steps that are not possible, and steps into undefined behaviour -/

theorem bad_acquire {g : SigId} {next : List Frame} (hu : w.ub = none) (h : ∀ w', acquire w t g next = some w' → w'.ub ≠ none) :
    acquire (x.on w) t g next = (acquire w t g next).map x.on := by
  unfold acquire at h ⊢
  simp only [Patch.on_alive, Patch.on_mutex, Patch.on_setUB, Patch.on_setMutex, Patch.on_setStack]
  split
  · rfl
  · split <;> rfl

theorem bad_run (hu : w.ub = none) (hp : ∀ g, topLocks (w.stacks t) = some g → x.spares (.ptr g))
    (h : ∀ w', runTop E w t = some w' → w'.ub ≠ none) : runTop E (x.on w) t = (runTop E w t).map x.on := by
  unfold runTop at h ⊢
  simp only [Patch.on_stacks]
  split <;> (try rename_i hst; rw [hst] at hp; simp only [hst] at h)
  · rename_i m pc rest
    cases pc with
    | start =>
      simp only [runEmit, Patch.on_alive] at h ⊢
      by_cases hc : (!(w.sigs m.g).alive) = true
      · rw [if_pos hc, if_pos hc]; rfl
      · rw [if_neg hc] at h; split at h <;> exact (h _ rfl hu).elim
    | wait => exact bad_acquire hu h
    | copy => exact (h _ rfl hu).elim
    | unlock b => cases b with
      | none => rfl
      | some b => exact (h _ rfl hu).elim
    | iter b pos acc =>
      simp only [runEmit] at h ⊢
      split
      · rfl
      · rename_i hc; rw [hc] at h; simp only at h; split at h <;> exact (h _ rfl hu).elim
  · rename_i s pc m b pos acc rest
    cases pc <;> simp only [runCall] at h ⊢
    case body => rfl
    case invoke => exact (h _ rfl hu).elim
    case chkConnected =>
      split at h
      · split at h <;> exact (h _ rfl hu).elim
      · exact (h _ rfl hu).elim
    all_goals split at h <;> exact (h _ rfl hu).elim
  · rename_i g s d pc rest
    cases pc with
    | wait => exact bad_acquire hu h
    | unlock => simp only [runAdd] at h; split at h <;> exact (h _ rfl hu).elim
    | _ =>
      simp only [runAdd, Patch.on_sig _ (hp g rfl)] at h ⊢
      split
      · rfl
      · rename_i hl; simp only [hl] at h; exact (h _ rfl hu).elim
  · rename_i g tgt pc rest
    cases pc with
    | wait => exact bad_acquire hu h
    | unlock => exact (h _ rfl hu).elim
    | scan i c =>
      simp only [runErase, Patch.on_sig _ (hp g rfl)] at h ⊢
      split
      · rfl
      · rename_i hl; simp only [hl] at h; split at h
        · exact (h _ rfl hu).elim
        · split at h
          · exact (h _ rfl hu).elim
          · exact (h _ rfl (removeAt_ub.trans hu)).elim
          · exact (h _ rfl hu).elim
    | _ =>
      simp only [runErase, Patch.on_sig _ (hp g rfl)] at h ⊢
      split
      · rfl
      · rename_i hl; simp only [hl] at h; exact (h _ rfl hu).elim
  · rename_i s k pc rest
    cases pc with
    | exch =>
      simp only [runDisc] at h; split at h
      · exact (h _ rfl hu).elim
      · exact (h _ rfl (discReturn_fields.2.2.2.2.2.2.1.trans hu)).elim
    | drop g => exact (h _ rfl (discReturn_fields.2.2.2.2.2.2.1.trans hu)).elim
    | crit g pc =>
      cases pc with
      | wait => exact bad_acquire hu h
      | unlock => exact (h _ rfl hu).elim
      | write =>
        simp only [runDisc, Patch.on_sig _ (hp g rfl)] at h ⊢
        split
        · rfl
        · rename_i hl; simp only [hl] at h; split at h
          · exact (h _ rfl (removeAt_ub.trans hu)).elim
          · exact (h _ rfl hu).elim
      | _ =>
        simp only [runDisc, Patch.on_sig _ (hp g rfl)] at h ⊢
        split
        · rfl
        · rename_i hl; simp only [hl] at h; exact (h _ rfl hu).elim
  · rename_i g' g pc rest
    cases pc with
    | wait => exact bad_acquire hu h
    | _ => exact (h _ rfl hu).elim
  · rfl

theorem discStart_ub {h : Option SlotId} {k : DiscK} : (discStart w t h k).ub = w.ub := by
  unfold discStart; split
  · split
    · rfl
    · exact discReturn_fields.2.2.2.2.2.2.1
  · exact discReturn_fields.2.2.2.2.2.2.1

theorem connSet_ub {h : Option SlotId} {c : Bool} : (w.connSetBlocked h c).ub = w.ub := by
  unfold World.connSetBlocked; split
  · split <;> rfl
  · rfl

theorem bad_user {a : Api} (hu : w.ub = none) (hb : ∀ b, topBlk (w.stacks t) = some b → x.spares (.vec b))
    (h : ∀ w', userOp w t a = some w' → w'.ub ≠ none) : userOp (x.on w) t a = (userOp w t a).map x.on := by
  cases a <;> simp only [userOp] at h ⊢
  case combDeref i =>
    simp only [Patch.on_stacks]
    split
    · rename_i hst
      simp only [hst] at h hb
      rw [Patch.on_blk _ (hb _ rfl)]
      split
      · rename_i hi; simp only [hi] at h; exact (h _ rfl hu).elim
      · rfl
    · rfl
  case destroySig g =>
    simp only [Patch.on_nSigs, Patch.on_alive, Patch.on_mutex]
    by_cases hg : g < w.nSigs
    · rw [if_pos hg, if_pos hg] at *
      by_cases ha : (!(w.sigs g).alive) = true
      · rw [if_pos ha, if_pos ha]; rfl
      · rw [if_neg ha, if_neg ha] at *
        by_cases hm : (w.sigs g).mutex.isSome = true
        · rw [if_pos hm, if_pos hm]; rfl
        · rw [if_neg hm] at h; exact (h _ rfl hu).elim
    · rw [if_neg hg, if_neg hg]; rfl
  case moveSig g =>
    simp only [Patch.on_nSigs, Patch.on_alive]
    by_cases hg : g < w.nSigs
    · rw [if_pos hg, if_pos hg] at *
      by_cases ha : (!(w.sigs g).alive) = true
      · rw [if_pos ha, if_pos ha]; rfl
      · rw [if_neg ha] at h; exact (h _ rfl hu).elim
    · rw [if_neg hg, if_neg hg]; rfl
  case connect g fn consume conn blk dest =>
    simp only [Patch.on_nSigs, Patch.on_nObjs]
    by_cases hg : g < w.nSigs ∧ ∀ o, fn.obj? = some o → o < w.nObjs
    · rw [if_pos hg] at h; exact (h _ rfl hu).elim
    · rw [if_neg hg, if_neg hg]; rfl
  case moveAssignSig g g' =>
    simp only [Patch.on_nSigs]
    by_cases hg : g < w.nSigs ∧ g' < w.nSigs
    · rw [if_pos hg, if_pos hg]; rfl
    · rw [if_neg hg, if_neg hg]; rfl
  case emit g comb args =>
    simp only [Patch.on_nSigs]
    by_cases hg : g < w.nSigs
    · rw [if_pos hg] at h; exact (h _ rfl hu).elim
    · rw [if_neg hg, if_neg hg]; rfl
  case sigDisconnect g tgt =>
    simp only [Patch.on_nSigs]
    by_cases hg : g < w.nSigs
    · rw [if_pos hg] at h; exact (h _ rfl hu).elim
    · rw [if_neg hg, if_neg hg]; rfl
  case connMove y z =>
    split at h
    · exact (h _ rfl hu).elim
    · refine (h _ rfl ?_).elim
      cases z <;> exact hu
  case blockerMoveAssign y z =>
    simp only [Patch.on_bv]
    split
    · rename_i h1 h2
      simp only [h1, h2] at h
      split at h <;> exact (h _ rfl (connSet_ub.trans hu)).elim
    · rfl
  all_goals first
    | exact (h _ rfl hu).elim
    | exact (h _ rfl (discStart_ub.trans hu)).elim
    | exact (h _ rfl (connSet_ub.trans hu)).elim
    | (simp only [Patch.on_sv, Patch.on_bv, Patch.on_cv, Patch.on_stacks]
       split
       · rename_i h1
         first
           | (simp only [h1] at h; first
               | exact (h _ rfl hu).elim
               | exact (h _ rfl (discStart_ub.trans hu)).elim
               | exact (h _ rfl (connSet_ub.trans hu)).elim)
           | (rename_i h2; simp only [h1, h2] at h; first
               | exact (h _ rfl hu).elim
               | exact (h _ rfl (discStart_ub.trans hu)).elim)
       · rfl)
    | (split at h
       · first
           | exact (h _ rfl hu).elim
           | exact (h _ rfl (connSet_ub.trans hu)).elim
       · rename_i h1
         first
           | (rw [if_neg h1, if_neg h1]; rfl)
           | (rw [if_neg h1]; simp only [Patch.on_sv, Patch.on_bv, Patch.on_objs, Patch.on_objAlive, Patch.on_pins]; rw [if_neg h1]; rfl))

/-- A step that is impossible or leads to undefined behaviour does not look at the contents of vectors and at stored positions, nor at pointers
except the one whose mutex the thread holds. -/
theorem bad_step {l : Label} (hp : ∀ g, topLocks (w.stacks l.tid) = some g → x.spares (.ptr g))
    (hb : ∀ b, topBlk (w.stacks l.tid) = some b → x.spares (.vec b))
    (h : ∀ w', step E w l = some w' → w'.ub ≠ none) : step E (x.on w) l = (step E w l).map x.on := by
  simp only [step, Patch.on_ub, Patch.on_nThr] at h ⊢
  by_cases h0 : w.ub.isSome = true
  · rw [if_pos h0, if_pos h0]; rfl
  · rw [if_neg h0, if_neg h0] at *
    have hu : w.ub = none := by simpa using h0
    by_cases ht : l.tid < w.nThr
    · rw [if_pos ht, if_pos ht] at *
      cases l with
      | run t => exact bad_run hu hp h
      | call t a =>
        simp only [Patch.on_stacks] at h ⊢
        by_cases hc : userCtx (w.stacks t) = true
        · rw [if_pos hc, if_pos hc] at *; exact bad_user hu hb h
        · rw [if_neg hc, if_neg hc]; rfl
      | ret t v =>
        simp only [userRet, Patch.on_stacks] at h ⊢
        split
        · rename_i hst; simp only [hst] at h; exact (h _ rfl hu).elim
        · rfl
      | throw t c =>
        simp only [userThrow, Patch.on_stacks] at h ⊢
        split
        · rename_i hst; simp only [hst] at h
          split at h
          · rename_i hc; rw [if_pos hc, if_pos hc]
            split at h
            · exact (h _ rfl hu).elim
            · rename_i hm; simp [hm]
          · exact (h _ rfl hu).elim
        · rfl
      | fail t =>
        simp only [Label.tid] at hp
        simp only [allocFail, Patch.on_stacks] at h ⊢
        split <;> (try rename_i hst; rw [hst] at hp; simp only [hst] at h)
        case h_5 => rfl
        all_goals
          rw [Patch.on_sig _ (hp _ rfl)]
          split
          · simp
          · rfl
      | ctl t =>
        simp only [Label.tid] at hp
        simp only [ctlFail, Patch.on_stacks] at h ⊢
        split <;> (try rename_i hst; rw [hst] at hp; simp only [hst] at h)
        case h_4 => rfl
        all_goals
          rw [Patch.on_sig _ (hp _ rfl)]
          split
          · simp
          · rfl
    · rw [if_neg ht, if_neg ht]; rfl

/-! ### What belongs to one thread alone -/

/-- Only thread `t` may touch this location now: the pointer of a signal whose mutex it holds, the vector it is modifying, and the positions of
listeners in that vector, of listeners that came to that signal, and of the listener it is connecting. -/
def priv (w : World) (t : Tid) : Loc → Prop
  | .ptr g => (w.sigs g).mutex = some t
  | .vec b => ∃ g, topW (w.stacks t) = some g ∧ (w.sigs g).list = some b
  | .idx s => (∃ g, topPend (w.stacks t) = some (g, s)) ∨
      (∃ g, (w.sigs g).mutex = some t ∧ (w.sigs g).list ≠ none ∧ Event.added g s ∈ w.log) ∨
      ∃ g, (w.sigs g).mutex = some t ∧ s ∈ w.listOf g

theorem topW_mutex (hr : Reachable E w) {g : SigId} (h : topW (w.stacks t) = some g) : (w.sigs g).mutex = some t :=
  (hr.full.i.i1.mtx g t).2 (topW_locks h)

theorem priv_excl (hr : Reachable E w) {l : Loc} (h : priv w t l) (h' : priv w u l) : t = u := by
  have K := hr.full.i.i3
  cases l with
  | ptr g => simp only [priv] at h h'; rw [h] at h'; cases h'; rfl
  | vec b =>
    obtain ⟨g, h1, h2⟩ := h
    obtain ⟨g', h3, h4⟩ := h'
    cases hr.full.i.i2.uniq g g' b h2 h4
    have e := topW_mutex hr h1
    rw [topW_mutex hr h3] at e; cases e; rfl
  | idx s =>
    have mm : ∀ {g}, (w.sigs g).mutex = some t → (w.sigs g).mutex = some u → t = u := fun a b => by rw [a] at b; cases b; rfl
    rcases h with ⟨g, h⟩ | ⟨g, h1, h2, h3⟩ | ⟨g, h1, h2⟩ <;> rcases h' with ⟨g', h'⟩ | ⟨g', h1', h2', h3'⟩ | ⟨g', h1', h2'⟩
    · exact K.pendu _ _ _ _ _ h h'
    · have := K.pend _ _ _ h; have := added_count h3'; omega
    · have := K.pend _ _ _ h; have := (K.listed _ _ h2').1; omega
    · have := K.pend _ _ _ h'; have := added_count h3; omega
    · cases added_uniq (K.adds s) h3 h3'; exact mm h1 h1'
    · by_cases e : g = g'
      · subst e; exact mm h1 h1'
      · exact absurd (hr.homeOk g g' s h3 h2' e) h2
    · have := K.pend _ _ _ h'; have := (K.listed _ _ h2).1; omega
    · by_cases e : g' = g
      · subst e; exact mm h1 h1'
      · exact absurd (hr.homeOk g' g s h3' h2 e) h2'
    · cases K.disj h2 h2'; exact mm h1 h1'

theorem priv_made (hr : Reachable E w) {l : Loc} (h : priv w t l) : l.made w := by
  cases l with
  | ptr g => exact held_lt hr h
  | vec b => obtain ⟨g, -, h⟩ := h; exact hr.full.i.i1.lst g b h
  | idx s =>
    have K := hr.full.i.i3
    rcases h with ⟨g, h⟩ | ⟨g, h1, h2, h3⟩ | ⟨g, h1, h2⟩
    · exact K.pendlt _ _ _ h
    · exact K.addlt s (added_count h3)
    · exact K.lt h2

theorem swap_mem {l : List Nat} {i j x : Nat} : x ∈ Vec.swap l i j ↔ x ∈ l := by
  unfold Vec.swap
  split
  · rename_i a b ha hb
    simp only [List.mem_iff_getElem?]
    constructor
    · rintro ⟨n, h⟩
      simp only [List.getElem?_set] at h
      split at h
      · split at h
        · exact ⟨i, by rw [ha]; exact h⟩
        · cases h
      · split at h
        · split at h
          · exact ⟨j, by rw [hb]; exact h⟩
          · cases h
        · exact ⟨n, h⟩
    · rintro ⟨n, h⟩
      have hi := (List.getElem?_eq_some_iff.1 ha).1
      have hj := (List.getElem?_eq_some_iff.1 hb).1
      by_cases e1 : n = i
      · subst e1; exact ⟨j, by rw [ha] at h; cases h; simp [hj]⟩
      · by_cases e2 : n = j
        · subst e2; refine ⟨i, ?_⟩; rw [hb] at h; cases h; simp [List.getElem?_set, e1, hi]
        · exact ⟨n, by rw [List.getElem?_set_ne (Ne.symm e2), List.getElem?_set_ne (Ne.symm e1)]; exact h⟩
  · rfl

/-- What a step accesses: locations private to the thread, new ones, pointers of signals nobody has locked, and vectors it owns or that belong to a
signal it has locked or nobody has. -/
theorem acc_priv (hr : Reachable E w) {ops : List Mem} (F : StepF E w u w' ops) {l : Loc} {k : Site} (h : .acc l k ∈ ops) :
    priv w u l ∨ ¬ l.made w ∨ (∃ g, l = .ptr g ∧ (w.sigs g).mutex = none) ∨
    ∃ b, l = .vec b ∧ (own w b u ∨ ∃ g, (w.sigs g).list = some b ∧ ((w.sigs g).mutex = some u ∨ (w.sigs g).mutex = none)) := by
  have I := hr.full.i.i1
  have lk : ∀ {f rest g}, w.stacks u = f :: rest → f.locks = some g → (w.sigs g).mutex = some u := fun hst hf =>
    (I.mtx _ _).2 (by rw [hst]; exact hf)
  have drp : ∀ {b : BlkId}, Mem.acc l k ∈ dropFoot w' b → l = .vec b := by
    intro b h; unfold dropFoot at h; split at h <;> simp at h; exact h.1
  cases F with
  | ub => cases h
  | quiet _ st ops hf q => obtain ⟨s, e⟩ := hf _ h; cases e
  | newSig v hu =>
    simp at h
    rcases h with ⟨rfl, -⟩ | ⟨rfl, -⟩ <;> exact .inr (.inl (Nat.lt_irrefl _))
  | destroy g _ ops hu hg ha hm hw ho =>
    subst ho
    simp only [List.mem_cons, reduceCtorEq, false_or] at h
    rcases h with h | h
    · cases h; exact .inr (.inr (.inl ⟨g, rfl, hm⟩))
    · split at h
      · rename_i b hb
        exact .inr (.inr (.inr ⟨b, drp h, .inr ⟨g, hb, .inr hm⟩⟩))
      · cases h
  | movStart => cases h
  | connStart => simp at h; obtain ⟨rfl, -⟩ := h; exact .inr (.inl (Nat.lt_irrefl _))
  | acq => simp at h
  | tst f f' rest g b pre hst hf hl hp =>
    have hm : (w.sigs g).mutex = some u := lk hst (by unfold Frame.tst at hf; split at hf <;> cases hf <;> rfl)
    simp only [List.mem_append] at h
    rcases h with h | h
    · rcases hp with rfl | ⟨s, k', rfl, rfl⟩
      · cases h
      · simp at h
        obtain ⟨rfl, -⟩ := h
        exact .inl (.inr (.inl ⟨g, hm, by simp [hl], disc_added hr hst⟩))
    · simp [tstFoot] at h
      obtain ⟨rfl, -⟩ := h; exact .inl hm
  | det _ f f' rest g b hst hf hl hw =>
    have hm : (w.sigs g).mutex = some u := lk hst (by unfold Frame.det at hf; split at hf <;> cases hf <;> rfl)
    simp only [detFoot, List.cons_append, List.nil_append, List.mem_cons, Mem.acc.injEq] at h
    rcases h with ⟨rfl, -⟩ | ⟨rfl, -⟩ | ⟨rfl, -⟩ | ⟨rfl, -⟩ | h
    · exact .inl hm
    · exact .inr (.inr (.inr ⟨b, rfl, .inr ⟨g, hl, .inl hm⟩⟩))
    · exact .inr (.inl (Nat.lt_irrefl _))
    · exact .inl hm
    · exact .inr (.inr (.inr ⟨b, drp h, .inr ⟨g, hl, .inl hm⟩⟩))
  | emCopy m rest hst => simp at h; obtain ⟨rfl, -⟩ := h; exact .inl (lk hst rfl)
  | emSnap m b rest hst =>
    simp at h; obtain ⟨rfl, -⟩ := h
    exact .inr (.inr (.inr ⟨b, rfl, .inl ⟨_, by rw [hst]; exact List.mem_cons_self, rfl⟩⟩))
  | walk _ st m b pos acc rest hst q =>
    simp at h; obtain ⟨rfl, -⟩ := h
    exact .inr (.inr (.inr ⟨b, rfl, .inl ⟨_, by rw [hst]; exact List.mem_cons_self, rfl⟩⟩))
  | emEnd _ pre f0 m b pos acc rest evs hst h0 ht hr' hw he hp =>
    have ho : own w b u := ⟨.emit m (.iter b pos acc), by rw [hst]; simp, rfl⟩
    simp only [List.mem_append] at h
    rcases h with h | h
    · rcases hp with rfl | rfl
      · cases h
      · simp at h; obtain ⟨rfl, -⟩ := h; exact .inr (.inr (.inr ⟨b, rfl, .inl ho⟩))
    · exact .inr (.inr (.inr ⟨b, drp h, .inl ho⟩))
  | addWrite g s dest rest b hst hl =>
    simp at h
    rcases h with ⟨rfl, -⟩ | ⟨rfl, -⟩
    · exact .inl (.inl ⟨g, by rw [hst]; rfl⟩)
    · exact .inl ⟨g, by rw [hst]; rfl, hl⟩
  | scan f f' rest g b hst hw hw' hp hp' hb hb' hl => simp at h; obtain ⟨rfl, -⟩ := h; exact .inl ⟨g, hw, hl⟩
  | rem _ f f' rest g b i v ev hst hw hw' hp hp' hb hb' hl hi hev e =>
    simp only [List.mem_cons, Mem.acc.injEq] at h
    rcases h with ⟨rfl, -⟩ | h
    · exact .inl ⟨g, hw, hl⟩
    · unfold remFoot at h
      split at h
      · rename_i s' hs
        simp at h
        rcases h with ⟨rfl, -⟩ | ⟨rfl, -⟩
        · refine .inl (.inr (.inr ⟨g, topW_mutex hr hw, ?_⟩))
          have : s' ∈ Vec.swap (w.blks b) i ((w.blks b).length - 1) := List.mem_of_getElem? hs
          simp only [World.listOf, hl]
          exact swap_mem.1 this
        · exact .inl ⟨g, hw, hl⟩
      · cases h
  | unlock => simp at h
  | fail f rest g s b pre hst hf hl hp =>
    have hm : (w.sigs g).mutex = some u := lk hst (Frame.allocs_locks hf)
    simp only [List.mem_append, List.mem_cons, reduceCtorEq, List.not_mem_nil, or_false, Mem.acc.injEq] at h
    rcases h with h | ⟨rfl, -⟩
    · rcases hp with rfl | ⟨s', dest, rfl, rfl⟩
      · simp at h; obtain ⟨rfl, -⟩ := h; exact .inl hm
      · simp at h; obtain ⟨rfl, -⟩ := h; exact .inl (.inl ⟨g, by rw [hst]; rfl⟩)
    · exact .inr (.inr (.inr ⟨b, rfl, .inr ⟨g, hl, .inl hm⟩⟩))
  | movWrite g' g rest hst =>
    have hx : (w.sigs g').mutex = none := by
      have := (hr.full.i.i2.movx u g' g .write (by rw [hst]; rfl)).1
      cases e : (w.sigs g').mutex with
      | none => rfl
      | some t0 => rw [hr.full.i.i2.live g' t0 e] at this; cases this
    simp at h
    rcases h with ⟨rfl, -⟩ | ⟨rfl, -⟩ | ⟨rfl, -⟩
    · exact .inl (lk hst rfl)
    · exact .inl (lk hst rfl)
    · exact .inr (.inr (.inl ⟨g', rfl, hx⟩))
  | movUnlock => simp at h

/-- A step of another thread stays away from what is private to `t`. -/
theorem priv_apart (hr : Reachable E w) {ops : List Mem} (F : StepF E w u w' ops) (hn : u ≠ t) {l : Loc} {k : Site} (hp : priv w t l) :
    .acc l k ∉ ops := by
  intro ha
  rcases acc_priv hr F ha with h | h | ⟨g, rfl, h⟩ | ⟨b, rfl, h⟩
  · exact hn (priv_excl hr h hp)
  · exact h (priv_made hr hp)
  · simp only [priv] at hp; rw [h] at hp; cases hp
  · obtain ⟨g, h1, h2⟩ := hp
    rcases h with ⟨f, hf, e⟩ | ⟨g', h3, h4⟩
    · exact hr.full.i.i2.excl t g b h1 h2 u f hf e
    · cases hr.full.i.i2.uniq g g' b h2 h3
      rw [topW_mutex hr h1] at h4
      rcases h4 with h4 | h4 <;> cases h4; exact hn rfl

/-- A listener whose `connect` failed: it never came to any signal and never will. -/
def Orphan (w : World) (s : SlotId) : Prop :=
  s < w.nSlots ∧ (∀ t g, topPend (w.stacks t) ≠ some (g, s)) ∧ ∀ g, Event.added g s ∉ w.log

theorem orphan_apart (hr : Reachable E w) {ops : List Mem} (F : StepF E w u w' ops) {s : SlotId} {k : Site} (ho : Orphan w s) :
    .acc (.idx s) k ∉ ops := by
  intro ha
  rcases acc_priv hr F ha with h | h | ⟨g, h, -⟩ | ⟨b, h, -⟩
  · rcases h with ⟨g, h⟩ | ⟨g, -, -, h⟩ | ⟨g, -, h⟩
    · exact ho.2.1 _ _ h
    · exact ho.2.2 _ h
    · have := (hr.full.i.i3.listed g s h).1
      obtain ⟨e, he, h⟩ := List.countP_pos_iff.1 (show 0 < w.log.countP (Event.adds s) by omega)
      unfold Event.adds at h
      split at h
      · simp at h; subst h; exact ho.2.2 _ he
      · cases h
  · exact h ho.1
  · cases h
  · cases h

/-- What a step of another thread leaves as it is. -/
structure Unmoved (w w' : World) (t : Tid) : Prop where
  stk : w'.stacks t = w.stacks t
  ptr : ∀ g, topLocks (w.stacks t) = some g → (w'.sigs g).list = (w.sigs g).list
  vec : ∀ g b, topW (w.stacks t) = some g → (w.sigs g).list = some b → w'.blks b = w.blks b
  idx : ∀ s, priv w t (.idx s) → (w'.slots s).index = (w.slots s).index
  fn : ∀ s, s < w.nSlots → (w'.slots s).fn = (w.slots s).fn
  nBlks : w.nBlks ≤ w'.nBlks
  old : ∀ b, b < w.nBlks → (∀ g, (w.sigs g).list ≠ some b) → (∀ g, (w'.sigs g).list ≠ some b) ∧ w'.blks b = w.blks b

theorem Unmoved.refl (w : World) (t : Tid) : Unmoved w w t :=
  ⟨rfl, fun _ _ => rfl, fun _ _ _ _ => rfl, fun _ _ => rfl, fun _ _ => rfl, Nat.le_refl _, fun _ _ h => ⟨h, rfl⟩⟩

/-- A vector that no signal points to is never pointed to again, and keeps its contents. -/
theorem unlisted_keep {ops : List Mem} (F : StepF E w u w' ops) {b : BlkId} (hb : b < w.nBlks) (h : ∀ g, (w.sigs g).list ≠ some b) :
    (∀ g, (w'.sigs g).list ≠ some b) ∧ w'.blks b = w.blks b := by
  have ne : b ≠ w.nBlks := Nat.ne_of_lt hb
  have up : ∀ (g0 : SigId) (r : SigRec), r.list ≠ some b → ∀ g, (upd w.sigs g0 r g).list ≠ some b := by
    intro g0 r hr g; rw [upd_apply]; split
    · exact hr
    · exact h g
  cases F with
  | quiet _ st ops hf q => rw [q.sigs, q.blks]; exact ⟨h, rfl⟩
  | walk _ st m b pos acc rest hst q => rw [q.sigs, q.blks]; exact ⟨h, rfl⟩
  | unlock _ f rest st g hst hl hb hp hr h1 h2 => rw [h1, h2]; exact ⟨up g _ (h g), rfl⟩
  | newSig v hu => exact ⟨up _ _ (by simpa using Ne.symm ne), by simp [upd_apply, ne]⟩
  | destroy g _ ops hu hg ha hm hw ho => subst hw; exact ⟨up _ _ (by simp), rfl⟩
  | movStart g hu hg ha => exact ⟨up _ _ (by simp), rfl⟩
  | acq f f' rest g => exact ⟨up _ _ (h g), rfl⟩
  | det _ f f' rest g b0 hst hf hl hw =>
    subst hw
    exact ⟨up _ _ (by simpa using Ne.symm ne), by simp [cloneBlk, World.setBlk, World.setList, World.setStack, upd_apply, ne]⟩
  | emSnap m b0 rest hst => exact ⟨up _ _ (h m.g), rfl⟩
  | emEnd _ pre f0 m b0 pos acc rest evs hst h0 ht hr' hw he hp => subst hw; exact ⟨h, rfl⟩
  | addWrite g s dest rest b0 hst hl =>
    have : b ≠ b0 := fun e => h g (by rw [hl, e])
    exact ⟨h, by simp [World.setBlk, World.setIndex, World.setStack, World.emitEv, upd_apply, this]⟩
  | rem _ f f' rest g b0 i v ev hst hw hw' hp hp' hb hb' hl hi hev e =>
    have : b ≠ b0 := fun e => h g (by rw [hl, e])
    subst e
    refine ⟨?_, ?_⟩
    · simp only [World.emitEv, World.setStack, (removeAt_same w b0 i).1]; exact h
    · simp only [World.emitEv, World.setStack]
      rw [removeAt_blks w b0 i (List.getElem?_eq_some_iff.1 hi).1, upd_apply, if_neg this]
  | fail f rest g => exact ⟨up _ _ (h g), rfl⟩
  | movWrite g' g rest hst =>
    refine ⟨fun k => ?_, rfl⟩
    simp only [World.emitEv, World.setStack, World.setList, upd_apply]
    split
    · simp
    · split
      · exact h g
      · exact h k
  | movUnlock g' g rest hst =>
    refine ⟨fun k => ?_, rfl⟩
    simp only [upd_apply]
    split
    · rename_i e; subst e
      split
      · rename_i e; subst e; exact h k
      · exact h k
    · split
      · exact h g
      · exact h k
  | _ => exact ⟨h, rfl⟩

theorem unmoved (hr : Reachable E w) {l : Label} (hs : step E w l = some w') (hn : l.tid ≠ t) : Unmoved w w' t := by
  have I := hr.full.i.i1
  have F := step_foot I hs
  have R := (step_inv hs).2.2
  have kept : ∀ {y}, priv w t y → ¬ writesTo (foot E w w' l) y := fun hp => by
    rintro ⟨k, -, hk⟩; exact priv_apart hr F hn hp hk
  have X := fixed R
  refine ⟨stacks_other R (Ne.symm hn), fun g hg => ?_, fun g b h1 h2 => ?_, fun s hp => ?_, X.fn, X.nBlks,
    fun b hb h => unlisted_keep F hb h⟩
  · have hm := (I.mtx g t).2 hg
    exact Classical.byContradiction fun hc => kept (y := .ptr g) hm (cover_ptr F (held_lt hr hm) hc)
  · exact Classical.byContradiction fun hc => kept (y := .vec b) ⟨g, h1, h2⟩ (cover_vec F (I.lst g b h2) hc)
  · exact Classical.byContradiction fun hc => kept hp (cover_idx F R hc)

theorem orphan_keep (hr : Reachable E w) {l : Label} (hs : step E w l = some w') {s : SlotId} (ho : Orphan w s) : Orphan w' s := by
  have R := (step_inv hs).2.2
  have I := hr.full.i.i1
  have F := step_foot I hs
  rcases ub_or R with ⟨v, rfl⟩ | e
  · exact ho
  have hu : w'.ub = none := e.trans (step_ub hs)
  refine ⟨Nat.lt_of_lt_of_le ho.1 (fixed R).nSlots, fun t g h => ?_, fun g h => ?_⟩
  · rcases pendOk I R hu t (g, s) h with ⟨h, -⟩ | ⟨-, h, -⟩
    · exact ho.2.1 t g h
    · exact absurd ho.1 (by simp only at h; omega)
  · rcases hr.full.i.i3 with K
    have : Event.added g s ∈ w.log ∨ topPend (w.stacks l.tid) = some (g, s) := by
      generalize foot E w w' l = ops at F
      generalize l.tid = t at *
      cases F with
      | quiet _ st ops hf q => exact .inl ((q.adds g s).1 h)
      | walk _ st m b pos acc rest hst q => exact .inl ((q.adds g s).1 h)
      | unlock _ f rest st g hst hl hb hp hr h1 h2 h3 h4 h5 h6 h7 => exact .inl ((h7 _ s).1 h)
      | destroy g _ ops hu hg ha hm hw ho => subst hw; exact .inl (by simpa [World.emitEv] using h)
      | det _ f f' rest g b0 hst hf hl hw => subst hw; exact .inl h
      | emEnd _ pre f0 m b0 pos acc rest evs hst h0 ht hr' hw he hp =>
        subst hw; simp only [List.mem_append] at h; exact .inl (h.resolve_left (he g s))
      | addWrite g0 s0 dest rest b0 hst hl =>
        simp only [World.emitEv, List.mem_cons, Event.added.injEq] at h
        rcases h with ⟨rfl, rfl⟩ | h
        · exact .inr (by rw [hst]; rfl)
        · exact .inl h
      | rem _ f f' rest g b0 i v ev hst hw hw' hp hp' hb hb' hl hi hev e =>
        subst e
        simp only [World.emitEv, World.setStack, List.mem_cons] at h
        rcases h with h | h
        · exact absurd h.symm (hev _ _)
        · rw [show (removeAt w b0 i).log = w.log by unfold removeAt; split <;> rfl] at h; exact .inl h
      | _ =>
        left
        simpa [World.emitEv, World.setStack, World.setMutex, World.setList, World.setUB] using h
    rcases this with h | h
    · exact ho.2.2 g h
    · exact ho.2.1 _ g h

end Verif
