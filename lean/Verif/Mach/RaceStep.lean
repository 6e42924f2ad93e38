import Verif.Mach.Race
import Verif.Mach.Clock

/-!
# Every step keeps the invariant behind the absence of data races
-/

namespace Verif

variable {E : Env} {w w' : World} {t : Tid} {c : Sync} {h h' : HB}

theorem Reachable.homeOk (h : Reachable E w) : HomeOk w := by
  obtain ⟨n, h⟩ := h
  generalize hP : (fun _ : Label => True) = P at h
  generalize h0 : World.init n = w0 at h
  induction h with
  | refl => subst h0; intro g g1 s h; simp [World.init] at h
  | @tail w1 w2 l hs _ hl ih =>
    subst h0 hP
    exact HomeOk.step (Reachable.full ⟨n, hs⟩).i (Reachable.invA ⟨n, hs⟩) ih (step_inv hl).2.2

/-- The one kind of race there is: an emission has walked over a vector and given it up, and a critical section modifies that vector in place
because it saw a reference count of one, without having synchronised with the emission. -/
def Good (c : Sync) (h : HB) (e a : Acc) : Prop :=
  c.count = false ∧ ∃ b, e.loc = .vec b ∧ e.site = .walk ∧ a.site = .update ∧ e.n ∈ h.R b ∧ h.n ≤ a.n

def HInv (c : Sync) (w : World) (h : HB) : Prop := ∀ a ∈ h.acc, AccOk c w h a

/-- What a step achieves: the invariant holds again, and every new race is of that kind. -/
structure Next (c : Sync) (h : HB) (w' : World) (h' : HB) : Prop where
  inv : HInv c w' h'
  races : ∀ e a, (e, a) ∈ h'.races → (e, a) ∈ h.races ∨ Good c h e a

theorem HInv.next {ops : List Mem} (hr : Reachable E w) (R : StepR E w t w') (H : HInv c w h)
    (F : Eff c w t w' h (h.run c t ops))
    (new : ∀ a ∈ (h.run c t ops).acc, a ∉ h.acc → Mem.acc a.loc a.site ∈ ops → a.t = t → a.n ∈ (h.run c t ops).K t →
      AccOk c w' (h.run c t ops) a)
    (race : ∀ pre post e a, ops = pre ++ .acc a.loc a.site :: post → Mem.acc a.loc a.site ∈ ops → AccOk c w h e → e.t ≠ t → e.loc = a.loc →
      (e.site.writes = true ∨ a.site.writes = true) → e.n ∉ (h.run c t pre).K t → h.n ≤ a.n → Good c h e a) :
    Next c h w' (h.run c t ops) where
  inv a ha := by
    by_cases ho : a ∈ h.acc
    · exact (H a ho).keep hr.full.i hr.invA R F
    · rcases run_acc ha with h1 | ⟨h1, h2, -, -, h3⟩
      · exact absurd h1 ho
      · exact new a ha ho h1 h2 h3
  races e a hm := by
    rcases run_races hm with h1 | ⟨pre, post, h1, h2, h3, h4, h5, h6, h7⟩
    · exact .inl h1
    · exact .inr (race pre post e a h1 (by rw [h1]; simp) (H e h2) h3 h4 h5 h6 h7)

theorem mem_pre {X Y pre post : List Mem} {o x : Mem} (e : X ++ o :: Y = pre ++ x :: post) (h1 : x ∉ X) (h2 : x ≠ o) : o ∈ pre := by
  induction X generalizing pre with
  | nil =>
    cases pre with
    | nil => injection e with e _; exact absurd e.symm h2
    | cons p pre => injection e with e _; rw [e]; exact List.mem_cons_self
  | cons a X ih =>
    cases pre with
    | nil => injection e with e _; rw [← e] at h1; exact absurd List.mem_cons_self h1
    | cons p pre =>
      injection e with _ e
      exact List.mem_cons_of_mem _ (ih e (fun h => h1 (List.mem_cons_of_mem _ h)))

theorem new_pre {X Y : List Mem} {o : Mem} {a : Acc} (ha : a ∈ (h.run c t (X ++ o :: Y)).acc) (ho : a ∉ h.acc)
    (h1 : Mem.acc a.loc a.site ∉ o :: Y) : a.n ∈ (h.run c t X).K t := by
  rw [run_append] at ha
  rcases run_acc ha with h2 | ⟨h2, -⟩
  · rcases run_acc h2 with h3 | ⟨-, -, -, -, h3⟩
    · exact absurd h3 ho
    · exact h3
  · exact absurd h2 h1

theorem new_unlock {X Y : List Mem} {g : SigId} {a : Acc} (ha : a ∈ (h.run c t (X ++ .unlock g :: Y)).acc) (ho : a ∉ h.acc)
    (h1 : Mem.acc a.loc a.site ∉ .unlock g :: Y) : a.n ∈ (h.run c t (X ++ .unlock g :: Y)).M g := by
  have := new_pre ha ho h1
  rw [run_append]
  exact run_unlock List.mem_cons_self _ this

theorem new_drop {X Y : List Mem} {b : BlkId} {l : Bool} {a : Acc} (ha : a ∈ (h.run c t (X ++ .drop b l :: Y)).acc) (ho : a ∉ h.acc)
    (h1 : Mem.acc a.loc a.site ∉ .drop b l :: Y) : a.n ∈ (h.run c t (X ++ .drop b l :: Y)).R b := by
  have := new_pre ha ho h1
  rw [run_append]
  exact run_drop List.mem_cons_self _ this

theorem AccOk.newPtr {a : Acc} {g : SigId} (e : a.loc = .ptr g) (ht : a.t = t) (self : a.n ∈ h.K t) (lt : g < w.nSigs)
    (ptr : a.n ∈ sigK w h g ∨ Event.destroyed g ∈ w.log)
    (bld : ∀ t g0 pc, topMov (w.stacks t) = some (g, g0, pc) → pc = .unlock) : AccOk c w h a := by
  subst ht
  constructor
  case self => exact self
  case bld => intro g1 t1 g0 pc h1 h2; rw [e] at h1; injection h1 with h1; subst h1; exact bld t1 g0 pc h2
  all_goals rw [e]
  all_goals simp_all

theorem AccOk.newVec {a : Acc} {b : BlkId} (e : a.loc = .vec b) (ht : a.t = t) (self : a.n ∈ h.K t) (lt : b < w.nBlks)
    (vw : a.site.writes = true → (∀ g, (w.sigs g).list = some b → a.n ∈ sigK w h g) ∧ ∀ t, own w b t → a.n ∈ h.K t)
    (vr : a.site.writes = false → (∃ g, (w.sigs g).list = some b ∧ a.n ∈ sigK w h g) ∨ (a.site = .walk ∧ own w b a.t) ∨
      (a.n ∈ h.R b ∧ (a.site = .walk ∨ ∀ g, (w.sigs g).list ≠ some b)))
    (tw : ∀ t g, topW (w.stacks t) = some g → (w.sigs g).list = some b → a.n ∈ h.K t ∨ (c.count = false ∧ a.site = .walk ∧ a.n ∈ h.R b)) :
    AccOk c w h a := by
  subst ht
  have inj : ∀ {b'}, a.loc = .vec b' → b' = b := fun h => by rw [e] at h; injection h with h; exact h.symm
  constructor
  case self => exact self
  case rvec => intro b' h1; rw [inj h1]; exact lt
  case vw => intro b' h1; rw [inj h1]; exact vw
  case vr => intro b' h1; rw [inj h1]; exact vr
  case tw => intro t1 g b' h1 h2 h3; rw [inj h3] at h2 ⊢; exact tw t1 g h1 h2
  all_goals rw [e]
  all_goals simp

theorem AccOk.newIdx {a : Acc} {s : SlotId} (e : a.loc = .idx s) (ht : a.t = t) (self : a.n ∈ h.K t) (lt : s < w.nSlots)
    (ip : ∀ t g, topPend (w.stacks t) = some (g, s) → a.n ∈ h.K t)
    (io : ∀ g, Event.added g s ∈ w.log → (w.sigs g).list ≠ none → a.n ∈ sigK w h g)
    (il : ∀ g, s ∈ w.listOf g → a.n ∈ sigK w h g) : AccOk c w h a := by
  subst ht
  have inj : ∀ {s'}, a.loc = .idx s' → s' = s := fun h => by rw [e] at h; injection h with h; exact h.symm
  constructor
  case self => exact self
  case ridx => intro b' h1; rw [inj h1]; exact lt
  case ip => intro t1 g s' h1 h2; rw [inj h2] at h1; exact ip t1 g h1
  case io => intro g s' h1 h2 h3; rw [inj h3] at h1; exact io g h1 h2
  case il => intro g s' h1 h3; rw [inj h3] at h1; exact il g h1
  all_goals rw [e]
  all_goals simp

/-- The holder of the mutex of a signal knows every access to its pointer. -/
theorem AccOk.ptrK {e : Acc} {g : SigId} (hr : Reachable E w) (A : AccOk c w h e) (hm : (w.sigs g).mutex = some t) (hl : e.loc = .ptr g) :
    e.n ∈ h.K t := by
  rcases A.ptr g hl with h1 | h1
  · rwa [sigK_held hm] at h1
  · have := (hr.inv9.dst g h1).2.1
    rw [hr.full.i.i2.live g t hm] at this; cases this

theorem held_lt (hr : Reachable E w) {g : SigId} (hm : (w.sigs g).mutex = some t) : g < w.nSigs :=
  Nat.lt_of_not_le fun h => by rw [(hr.full.i.i1.out g h).2.2] at hm; cases hm

theorem held_bld (hr : Reachable E w) {g : SigId} (hm : (w.sigs g).mutex = some t) {t1 g0 pc}
    (h1 : topMov (w.stacks t1) = some (g, g0, pc)) : False := by
  have := (hr.full.i.i2.movx _ _ _ _ h1).1
  rw [hr.full.i.i2.live g t hm] at this; cases this

theorem own_upd {b : BlkId} {st : List Frame} (hst : w'.stacks t = st) : own w' b t ↔ ∃ f ∈ st, f.blk? = some b := by
  unfold own; rw [hst]

theorem own_other (R : StepR E w t w') {b : BlkId} {t1 : Tid} (ht : t1 ≠ t) : own w' b t1 ↔ own w b t1 := by
  unfold own; rw [stacks_other R ht]

theorem Quiet.eff {st : List Frame} (q : Quiet w t w' st) (R : StepR E w t w') (G : Grows t h h') : Eff c w t w' h h' := by
  have e : w'.stacks t = st := by rw [q.stk, upd_same]
  refine Eff.ofLists G (fun t' => stacks_other R) (fun g => sigK_same (by rw [q.sigs]) G) (fun g => by rw [q.sigs]) ?_ ?_ ?_ ?_ ?_ ?_
  · intro b hb; exact .inl ((q.own b).1 ((own_upd e).1 hb))
  · intro b hb; exact .inl ((own_upd e).2 ((q.own b).2 hb))
  · intro g; rw [e, q.topW]; simp
  · intro g s; rw [e, q.pend]; simp
  · intro g s hs; exact .inl ((q.adds g s).1 hs)
  · intro g s; simp only [World.listOf, q.sigs, q.blks]; exact .inl

theorem HInv.ub {u : UB} (H : HInv c w h) : Next c h (w.setUB u) h where
  inv a ha := let A := H a ha
    ⟨A.self, A.rptr, A.rvec, A.ridx, A.ptr, A.bld, A.vw, A.vr, A.tw, A.ip, A.io, A.il⟩
  races _ _ h := .inl h

theorem HInv.quiet {ops : List Mem} {st} (hr : Reachable E w) (R : StepR E w t w') (H : HInv c w h)
    (hf : ∀ o ∈ ops, ∃ s, o = Mem.flag s) (q : Quiet w t w' st) : Next c h w' (h.run c t ops) := by
  refine H.next hr R (q.eff R (run_grows _)) ?_ ?_
  · intro a _ _ h1; obtain ⟨s, e⟩ := hf _ h1; cases e
  · intro _ _ _ a _ h1; obtain ⟨s, e⟩ := hf _ h1; cases e

theorem HInv.walk {st b} (hr : Reachable E w) (hr' : Reachable E w') (R : StepR E w t w') (H : HInv c w h)
    (ho : own w b t) (q : Quiet w t w' st) : Next c h w' (h.run c t [.acc (.vec b) .walk]) := by
  have ho' : own w' b t := (own_upd (by rw [q.stk, upd_same])).2 ((q.own b).2 ho)
  refine H.next hr R (q.eff R (run_grows _)) ?_ ?_
  · intro a _ _ h1 h2 h3
    simp only [List.mem_singleton, Mem.acc.injEq] at h1
    refine .newVec h1.1 h2 h3 (own_lt hr'.full.i.i1 ho') ?_ ?_ ?_
    · rw [h1.2]; intro h; cases h
    · intro _; exact .inr (.inl ⟨h1.2, h2 ▸ ho'⟩)
    · intro t1 g h4 h5
      obtain ⟨f, hf, hb⟩ := ho'
      exact absurd hb (hr'.full.i.i2.excl t1 g b h4 h5 t f hf)
  · intro pre post e a _ h1 A _ h4 h5 h6 hn
    simp only [List.mem_singleton, Mem.acc.injEq] at h1
    rw [h1.2] at h5
    have h5 : e.site.writes = true := by simpa [Site.writes] using h5
    exact absurd ((run_grows pre).K _ _ ((A.vw b (h4.trans h1.1) h5).2 t ho)) h6

theorem own_top {f : Frame} {rest : List Frame} {b : BlkId} (hst : w.stacks t = f :: rest) :
    own w b t ↔ f.blk? = some b ∨ ∃ f ∈ rest, f.blk? = some b := by
  unfold own; rw [hst]; simp

theorem listOf_same {g : SigId} (h1 : (w'.sigs g).list = (w.sigs g).list) (h2 : w'.blks = w.blks) : w'.listOf g = w.listOf g := by
  simp [World.listOf, h1, h2]

theorem HInv.acq {f f' : Frame} {rest : List Frame} {g : SigId} (hr : Reachable E w) (hst : w.stacks t = f :: rest)
      (hf : f.acq = some (g, f')) (hm : (w.sigs g).mutex = none)
      (R : StepR E w t ((w.setMutex g (some t)).setStack t (f' :: rest))) (H : HInv c w h) :
    Next c h ((w.setMutex g (some t)).setStack t (f' :: rest)) (h.run c t [.lock g]) := by
  have e : ((w.setMutex g (some t)).setStack t (f' :: rest)).stacks t = f' :: rest := upd_same _ _ _
  have hb : f.blk? = none ∧ f'.blk? = none ∧ topW (f' :: rest) = none ∧ topPend (f' :: rest) = topPend (f :: rest) := by
    unfold Frame.acq at hf; split at hf <;> simp at hf <;> obtain ⟨rfl, rfl⟩ := hf <;>
      simp [Frame.blk?, topW, topPend]
  have hs : ∀ g', (((w.setMutex g (some t)).setStack t (f' :: rest)).sigs g').list = (w.sigs g').list := by
    intro g'; simp only [World.setStack, World.setMutex, upd_apply]; split
    · rename_i e; subst e; rfl
    · rfl
  refine H.next hr R (Eff.ofLists (run_grows _) (fun t' => stacks_other R) ?_ hs ?_ ?_ ?_ ?_ ?_ ?_) ?_ ?_
  · intro g' n hn
    by_cases eg : g' = g
    · subst eg
      rw [sigK_free hm] at hn
      rw [sigK_held (t := t) (by simp [World.setStack, World.setMutex, upd_same])]
      exact run_lock (by simp) n hn
    · exact sigK_same (by simp only [World.setStack, World.setMutex, upd_apply, if_neg eg]) (run_grows _) n hn
  · intro b hb'; left; rw [own_top e] at hb'; rw [own_top hst, hb.1]; rw [hb.2.1] at hb'; exact hb'
  · intro b hb'; left; rw [own_top e]; rw [own_top hst, hb.1] at hb'; rw [hb.2.1]; exact hb'
  · rw [e, hb.2.2.1]; simp
  · intro g s; rw [e, hb.2.2.2, hst]; exact .inl
  · intro g s h; exact .inl h
  · intro g s; rw [listOf_same (hs g) rfl]; exact .inl
  · intro a _ _ h1; simp at h1
  · intro _ _ _ a _ h1; simp at h1

theorem HInv.unlock {f : Frame} {rest st : List Frame} {g : SigId} (hr : Reachable E w) (hst : w.stacks t = f :: rest)
      (hl : f.locks = some g) (hb : f.blk? = none)
      (hr' : topW st = none ∧ topPend st = none ∧ ∀ b, (∃ f ∈ st, f.blk? = some b) ↔ ∃ f ∈ rest, f.blk? = some b)
      (h1 : ∀ g', (w'.sigs g').list = (w.sigs g').list) (h1' : ∀ g', (w'.sigs g').mutex = if g' = g then none else (w.sigs g').mutex)
      (h2 : w'.blks = w.blks)
      (h6 : w'.stacks = upd w.stacks t st)
      (h7 : ∀ g s, Event.added g s ∈ w'.log ↔ Event.added g s ∈ w.log)
      (R : StepR E w t w') (H : HInv c w h) : Next c h w' (h.run c t [.unlock g]) := by
  have e : w'.stacks t = st := by rw [h6, upd_same]
  refine H.next hr R (Eff.ofLists (run_grows _) (fun t' => stacks_other R) ?_ h1 ?_ ?_ ?_ ?_ ?_ ?_) ?_ ?_
  · intro g' n hn
    by_cases eg : g' = g
    · subst eg
      rw [sigK_held (t := t) ((hr.full.i.i1.mtx _ _).2 (by rw [hst]; exact hl))] at hn
      rw [sigK_free (by rw [h1', if_pos rfl])]
      exact run_unlock (by simp) n hn
    · exact sigK_same (by rw [h1', if_neg eg]) (run_grows _) n hn
  · intro b hb'; left; rw [own_upd e, hr'.2.2] at hb'; rw [own_top hst]; exact .inr hb'
  · intro b hb'; left; rw [own_upd e, hr'.2.2]; rw [own_top hst, hb] at hb'; exact hb'.resolve_left (by simp)
  · rw [e, hr'.1]; simp
  · rw [e, hr'.2.1]; simp
  · intro g s h; exact .inl ((h7 g s).1 h)
  · intro g s; rw [listOf_same (h1 g) h2]; exact .inl
  · intro a _ _ h1; simp at h1
  · intro _ _ _ a _ h1; simp at h1

theorem HInv.emCopy {m : Em} {rest : List Frame} (hr : Reachable E w) (hst : w.stacks t = .emit m .copy :: rest)
      (R : StepR E w t (w.setStack t (.emit m (.unlock (w.sigs m.g).list) :: rest))) (H : HInv c w h) :
    Next c h (w.setStack t (.emit m (.unlock (w.sigs m.g).list) :: rest)) (h.run c t [.acc (.ptr m.g) .read]) := by
  have e : (w.setStack t (.emit m (.unlock (w.sigs m.g).list) :: rest)).stacks t = .emit m (.unlock (w.sigs m.g).list) :: rest :=
    upd_same _ _ _
  have hm : (w.sigs m.g).mutex = some t := (hr.full.i.i1.mtx _ _).2 (by rw [hst]; rfl)
  refine H.next hr R (Eff.ofLists (run_grows _) (fun t' => stacks_other R) (fun g => sigK_same rfl (run_grows _)) (fun _ => rfl) ?_ ?_ ?_ ?_ ?_ ?_) ?_ ?_
  · intro b hb'; rw [own_top e] at hb'
    rcases hb' with hb' | hb'
    · right
      exact ⟨m.g, hb', by rw [sigK_held hm]; exact (run_grows _).K t⟩
    · left; rw [own_top hst]; exact .inr hb'
  · intro b hb'; left; rw [own_top e]; rw [own_top hst] at hb'
    exact .inr (hb'.resolve_left (by simp [Frame.blk?]))
  · rw [e]; simp [topW]
  · rw [e]; simp [topPend]
  · intro g s h; exact .inl h
  · intro g s h; exact .inl h
  · intro a _ _ h1 h2 h3
    simp only [List.mem_singleton, Mem.acc.injEq] at h1
    refine .newPtr h1.1 h2 h3 (held_lt hr hm) (.inl ?_) ?_
    · change a.n ∈ sigK w _ m.g; rw [sigK_held hm]; exact h3
    · intro t1 g0 pc h4
      by_cases ht : t1 = t
      · subst ht; rw [e] at h4; cases h4
      · rw [stacks_other R ht] at h4; exact (held_bld hr hm h4).elim
  · intro pre post e a _ h1 A _ h4 h5 h6 hn
    simp only [List.mem_singleton, Mem.acc.injEq] at h1
    exact absurd ((run_grows pre).K _ _ (A.ptrK hr hm (h4.trans h1.1))) h6

theorem HInv.emSnap {m : Em} {b : BlkId} {rest : List Frame} (hr : Reachable E w)
      (hst : w.stacks t = .emit m (.unlock (some b)) :: rest)
      (hw : w' = ((w.setMutex m.g none).setStack t (.emit m (.iter b 0 none) :: rest)).emitEv (.snap m (w.blks b)))
      (hr' : Reachable E w') (R : StepR E w t w') (H : HInv c w h) :
    Next c h w' (h.run c t [.unlock m.g, .acc (.vec b) .walk]) := by
  have e : w'.stacks t = .emit m (.iter b 0 none) :: rest := by rw [hw]; exact upd_same _ _ _
  have hm : (w.sigs m.g).mutex = some t := (hr.full.i.i1.mtx _ _).2 (by rw [hst]; rfl)
  have hs : ∀ g', (w'.sigs g').list = (w.sigs g').list := by
    intro g'; simp only [hw, World.emitEv, World.setStack, World.setMutex, upd_apply]; split
    · rename_i e; subst e; rfl
    · rfl
  have ho : own w b t := (own_top hst).2 (.inl rfl)
  have ho' : own w' b t := (own_top e).2 (.inl rfl)
  refine H.next hr R (Eff.ofLists (run_grows _) (fun t' => stacks_other R) ?_ hs ?_ ?_ ?_ ?_ ?_ ?_) ?_ ?_
  · intro g' n hn
    by_cases eg : g' = m.g
    · subst eg
      rw [sigK_held hm] at hn
      rw [sigK_free (by rw [hw]; simp [World.emitEv, World.setStack, World.setMutex, upd_same])]
      exact run_unlock (by simp) n hn
    · exact sigK_same (by rw [hw]; simp only [World.emitEv, World.setStack, World.setMutex, upd_apply, if_neg eg]) (run_grows _) n hn
  · intro b' hb'; left; rw [own_top e] at hb'; rw [own_top hst]; exact hb'
  · intro b' hb'; left; rw [own_top e]; rw [own_top hst] at hb'; exact hb'
  · rw [e]; simp [topW]
  · rw [e]; simp [topPend]
  · intro g s h; left; rw [hw] at h; simpa [World.emitEv, World.setStack, World.setMutex] using h
  · intro g s; rw [listOf_same (hs g) (by rw [hw]; rfl)]; exact .inl
  · intro a _ _ h1 h2 h3
    simp only [List.mem_cons, List.not_mem_nil, or_false, reduceCtorEq, false_or, Mem.acc.injEq] at h1
    refine .newVec h1.1 h2 h3 (own_lt hr'.full.i.i1 ho') ?_ ?_ ?_
    · rw [h1.2]; intro h; cases h
    · intro _; exact .inr (.inl ⟨h1.2, h2 ▸ ho'⟩)
    · intro t1 g h4 h5
      obtain ⟨f, hf, hb⟩ := ho'
      exact absurd hb (hr'.full.i.i2.excl t1 g b h4 h5 t f hf)
  · intro pre post e a _ h1 A _ h4 h5 h6 hn
    simp only [List.mem_cons, List.not_mem_nil, or_false, reduceCtorEq, false_or, Mem.acc.injEq] at h1
    rw [h1.2] at h5
    have h5 : e.site.writes = true := by simpa [Site.writes] using h5
    exact absurd ((run_grows pre).K _ _ ((A.vw b (h4.trans h1.1) h5).2 t ho)) h6

theorem drop_mem (w' : World) (b : BlkId) : ∃ l, Mem.drop b l ∈ dropFoot w' b := by
  unfold dropFoot; split
  · exact ⟨false, by simp⟩
  · exact ⟨true, by simp⟩

theorem acc_drop {l : Loc} {k : Site} {b : BlkId} (h : Mem.acc l k ∈ dropFoot w' b) :
    w'.ownedB b = false ∧ l = .vec b ∧ k = .destroy ∧ dropFoot w' b = [.drop b true, .acc (.vec b) .destroy] := by
  unfold dropFoot at h ⊢; split at h
  · simp at h
  · rename_i hb
    rw [if_neg hb]
    simp at h
    exact ⟨by simpa using hb, h.1, h.2, rfl⟩

theorem HInv.emEnd {pre : List Mem} {f0 : List Frame} {m : Em} {b : BlkId} {pos : Nat} {acc : Option Val} {rest : List Frame} {evs : List Event}
      (hr : Reachable E w) (hr1 : Reachable E w')
      (hst : w.stacks t = f0 ++ .emit m (.iter b pos acc) :: rest) (h0 : ∀ f ∈ f0, f.blk? = none)
      (hr' : UserStk rest)
      (hw : w' = { w.setStack t rest with log := evs ++ w.log }) (he : ∀ g s, Event.added g s ∉ evs)
      (hp : pre = [] ∨ pre = [.acc (.vec b) .walk]) (R : StepR E w t w') (H : HInv c w h) :
      Next c h w' (h.run c t (pre ++ dropFoot w' b)) := by
  have e : w'.stacks t = rest := by rw [hw]; exact upd_same _ _ _
  have hs : w'.sigs = w.sigs := by rw [hw]; rfl
  have ownw : ∀ b', own w b' t ↔ b' = b ∨ own w' b' t := by
    intro b'
    rw [own_upd e]; unfold own; rw [hst]
    constructor
    · rintro ⟨f, hf, hb⟩
      rcases List.mem_append.1 hf with hf | hf
      · rw [h0 f hf] at hb; cases hb
      · rcases List.mem_cons.1 hf with rfl | hf
        · left; simpa [Frame.blk?, EmitPc.blk?] using hb.symm
        · exact .inr ⟨f, hf, hb⟩
    · rintro (rfl | ⟨f, hf, hb⟩)
      · exact ⟨_, List.mem_append_right _ List.mem_cons_self, rfl⟩
      · exact ⟨f, List.mem_append_right _ (List.mem_cons_of_mem _ hf), hb⟩
  have ho : own w b t := (ownw b).2 (.inl rfl)
  have acc0 : ∀ {l k}, Mem.acc l k ∈ pre → l = .vec b ∧ k = .walk := by
    intro l k hm; rcases hp with rfl | rfl
    · cases hm
    · simpa using hm
  refine H.next hr R (Eff.ofLists (run_grows _) (fun t' => stacks_other R) (fun g => sigK_same (by rw [hs]) (run_grows _))
    (fun g => by rw [hs]) ?_ ?_ ?_ ?_ ?_ ?_) ?_ ?_
  · intro b' hb'; exact .inl ((ownw b').2 (.inr hb'))
  · intro b' hb'
    rcases (ownw b').1 hb' with rfl | hb'
    · right
      obtain ⟨l, hl⟩ := drop_mem w' b'
      exact run_drop (List.mem_append_right _ hl)
    · exact .inl hb'
  · rw [e, hr'.tops.1]; simp
  · rw [e, hr'.pend]; simp
  · intro g s h
    rw [hw] at h
    rcases List.mem_append.1 h with h | h
    · exact absurd h (he g s)
    · exact .inl h
  · intro g s; rw [listOf_same (w := w) (by rw [hs]) (by rw [hw]; rfl)]; exact .inl
  · intro a ha hn h1 h2 h3
    have lt : b < w'.nBlks := by rw [hw]; exact own_lt hr.full.i.i1 ho
    rcases List.mem_append.1 h1 with h1 | h1
    · obtain ⟨e1, e2⟩ := acc0 h1
      refine .newVec e1 h2 h3 lt ?_ ?_ ?_
      · rw [e2]; intro h; cases h
      · intro _
        refine .inr (.inr ⟨?_, .inl e2⟩)
        unfold dropFoot at ha ⊢
        split <;> rename_i hb
        · rw [if_pos hb] at ha
          exact new_drop ha hn (by simp)
        · rw [if_neg hb] at ha
          exact new_drop ha hn (by simp [e2])
      · intro t1 g h4 h5
        by_cases ht : t1 = t
        · subst ht; rw [e, hr'.tops.1] at h4; cases h4
        · rw [stacks_other R ht] at h4
          rw [hs] at h5
          obtain ⟨f, hf, hb⟩ := ho
          exact absurd hb (hr.full.i.i2.excl t1 g b h4 h5 t f hf)
    · obtain ⟨h4, h5, h6, -⟩ := acc_drop h1
      have no := ownedB_false hr1.full.i.i1 h4
      refine .newVec h5 h2 h3 lt ?_ ?_ ?_
      · intro _; exact ⟨fun g hg => absurd hg (no.2 g), fun t1 h => absurd h (no.1 t1)⟩
      · rw [h6]; intro h; cases h
      · intro t1 g _ h; exact absurd h (no.2 g)
  · intro pre' post e a hsp h1 A het h4 h5 h6 hn
    have kn : e.n ∈ h.K t → Good c h e a := fun h => absurd ((run_grows pre').K _ _ h) h6
    have wr : e.loc = .vec b → e.site.writes = true → Good c h e a := fun h1 h5 => kn ((A.vw b h1 h5).2 t ho)
    rcases List.mem_append.1 h1 with h1 | h1
    · obtain ⟨e1, e2⟩ := acc0 h1
      rw [e2] at h5
      exact wr (h4.trans e1) (by simpa [Site.writes] using h5)
    · obtain ⟨h7, h8, h9, h10⟩ := acc_drop h1
      have no := ownedB_false hr1.full.i.i1 h7
      cases hw' : e.site.writes with
      | true => exact wr (h4.trans h8) hw'
      | false =>
        rcases A.vr b (h4.trans h8) hw' with ⟨g, hg, -⟩ | ⟨-, hg⟩ | ⟨hg, -⟩
        · rw [← hs] at hg; exact absurd hg (no.2 g)
        · rw [← own_other R het] at hg; exact absurd hg (no.1 _)
        · rw [h10] at hsp
          have : Mem.drop b true ∈ pre' := mem_pre hsp (by
            intro hm; obtain ⟨-, e2⟩ := acc0 hm; rw [h9] at e2; cases e2) (by simp)
          exact absurd (run_last this _ hg) h6

/-- Accesses to the vector of a signal by the thread that may write in it. -/
theorem AccOk.newTop {a : Acc} {g : SigId} {b : BlkId} (I : Inv w) (hm : (w.sigs g).mutex = some t) (hl : (w.sigs g).list = some b)
    (e : a.loc = .vec b) (ht : a.t = t) (self : a.n ∈ h.K t) (no : a.site.writes = true → ∀ t1, ¬ own w b t1) : AccOk c w h a := by
  refine .newVec e ht self (I.i1.lst g b hl) ?_ ?_ ?_
  · intro hw
    refine ⟨fun g1 h1 => ?_, fun t1 h1 => absurd h1 (no hw t1)⟩
    rw [I.i2.uniq g1 g b h1 hl, sigK_held hm]; exact self
  · intro _; exact .inl ⟨g, hl, by rw [sigK_held hm]; exact self⟩
  · intro t1 g1 h1 h2
    rw [I.i2.uniq g1 g b h2 hl] at h1
    have := (I.i1.mtx g t1).2 (topW_locks h1)
    rw [hm] at this; injection this with this; subst this
    exact .inl self

/-- Reads of a vector by the holder of the mutex of the signal that owns it. -/
theorem AccOk.readK {e : Acc} {g : SigId} {b : BlkId} (A : AccOk c w h e) (hm : (w.sigs g).mutex = some t)
    (hl : (w.sigs g).list = some b) (he : e.loc = .vec b) (hw : e.site.writes = true) : e.n ∈ h.K t := by
  have := (A.vw b he hw).1 g hl
  rwa [sigK_held hm] at this

theorem HInv.scan {f f' : Frame} {rest : List Frame} {g : SigId} {b : BlkId} (hr : Reachable E w) (hst : w.stacks t = f :: rest)
      (hw : topW (w.stacks t) = some g) (hw' : topW (f' :: rest) = none ∨ topW (f' :: rest) = some g)
      (hp' : topPend (f' :: rest) = none) (hb : f.blk? = none) (hb' : f'.blk? = none)
      (hl : (w.sigs g).list = some b) (hx : w' = w.setStack t (f' :: rest)) (hr' : Reachable E w')
      (R : StepR E w t w') (H : HInv c w h) : Next c h w' (h.run c t [.acc (.vec b) .read]) := by
  have e : w'.stacks t = f' :: rest := by rw [hx]; exact upd_same _ _ _
  have hs : w'.sigs = w.sigs := by rw [hx]; rfl
  have hm : (w.sigs g).mutex = some t := (hr.full.i.i1.mtx _ _).2 (topW_locks hw)
  refine H.next hr R (Eff.ofLists (run_grows _) (fun t' => stacks_other R) (fun g => sigK_same (by rw [hs]) (run_grows _))
    (fun g => by rw [hs]) ?_ ?_ ?_ ?_ ?_ ?_) ?_ ?_
  · intro b' hb1; left; rw [own_top e, hb'] at hb1; rw [own_top hst, hb]; exact hb1
  · intro b' hb1; left; rw [own_top e, hb']; rw [own_top hst, hb] at hb1; exact hb1
  · intro g'; rw [e, hw]; intro h1; rcases hw' with h2 | h2 <;> rw [h2] at h1
    · cases h1
    · exact h1
  · rw [e, hp']; simp
  · intro g s h; left; rw [hx] at h; exact h
  · intro g s; rw [listOf_same (w := w) (by rw [hs]) (by rw [hx]; rfl)]; exact .inl
  · intro a _ _ h1 h2 h3
    simp only [List.mem_singleton, Mem.acc.injEq] at h1
    exact .newTop hr'.full.i (g := g) (by rw [hs]; exact hm) (by rw [hs]; exact hl) h1.1 h2 h3 (by rw [h1.2]; intro h; cases h)
  · intro pre post e a _ h1 A _ h4 h5 h6 hn
    simp only [List.mem_singleton, Mem.acc.injEq] at h1
    rw [h1.2] at h5
    exact absurd ((run_grows pre).K _ _ (A.readK hm hl (h4.trans h1.1) (by simpa [Site.writes] using h5))) h6

theorem HInv.addWrite {g : SigId} {s : SlotId} {dest : Dest} {rest : List Frame} {b : BlkId} (hr : Reachable E w)
      (hst : w.stacks t = .add g s dest .write :: rest) (hl : (w.sigs g).list = some b)
      (hx : w' = (((w.setIndex s (w.blks b).length).setBlk b (w.blks b ++ [s])).setStack t
            (.add g s dest .unlock :: rest)).emitEv (.added g s)) (hr' : Reachable E w')
      (R : StepR E w t w') (H : HInv c w h) : Next c h w' (h.run c t [.acc (.idx s) .update, .acc (.vec b) .update]) := by
  have e : w'.stacks t = .add g s dest .unlock :: rest := by rw [hx]; exact upd_same _ _ _
  have hs : w'.sigs = w.sigs := by rw [hx]; rfl
  have hb : w'.blks = upd w.blks b (w.blks b ++ [s]) := by rw [hx]; rfl
  have hlog : w'.log = .added g s :: w.log := by rw [hx]; rfl
  have hw : topW (w.stacks t) = some g := by rw [hst]; rfl
  have hp : topPend (w.stacks t) = some (g, s) := by rw [hst]; rfl
  have hm : (w.sigs g).mutex = some t := (hr.full.i.i1.mtx _ _).2 (topW_locks hw)
  have hm' : (w'.sigs g).mutex = some t := by rw [hs]; exact hm
  have I := hr.full.i
  have lo : ∀ g' s', s' ∈ w'.listOf g' → s' ∈ w.listOf g' ∨ (g' = g ∧ s' = s) := by
    intro g' s' hm
    cases h1 : (w.sigs g').list with
    | none => simp [World.listOf, hs, h1] at hm
    | some b1 =>
      simp only [World.listOf, hs, h1, hb, upd_apply] at hm ⊢
      split at hm
      · rename_i e; subst e
        rcases List.mem_append.1 hm with h | h
        · exact .inl h
        · exact .inr ⟨I.i2.uniq _ _ _ h1 hl, by simpa using h⟩
      · exact .inl hm
  refine H.next hr R (Eff.ofLists (run_grows _) (fun t' => stacks_other R) (fun g => sigK_same (by rw [hs]) (run_grows _))
    (fun g => by rw [hs]) ?_ ?_ ?_ ?_ ?_ ?_) ?_ ?_
  · intro b' hb1; left; rw [own_top e] at hb1; rw [own_top hst]; exact hb1
  · intro b' hb1; left; rw [own_top e]; rw [own_top hst] at hb1; exact hb1
  · intro g'; rw [e]; simp [topW]
  · rw [e]; simp [topPend]
  · intro g' s' h; rw [hlog] at h
    rcases List.mem_cons.1 h with h | h
    · injection h with e1 e2; subst e1 e2; right
      exact ⟨⟨_, hp⟩, by rw [sigK_held hm']; exact fun _ h => h⟩
    · exact .inl h
  · intro g' s' h
    rcases lo g' s' h with h | ⟨rfl, rfl⟩
    · exact .inl h
    · exact .inr ⟨⟨_, hp⟩, by rw [sigK_held hm']; exact fun _ h => h⟩
  · intro a _ _ h1 h2 h3
    simp only [List.mem_cons, List.not_mem_nil, or_false, Mem.acc.injEq] at h1
    rcases h1 with h1 | h1
    · refine .newIdx h1.1 h2 h3 (Nat.lt_of_lt_of_le (I.i3.pendlt t g s hp) (fixed R).nSlots) ?_ ?_ ?_
      · intro t1 g1 h4
        by_cases ht : t1 = t
        · subst ht; exact h3
        · rw [stacks_other R ht] at h4; exact absurd (I.i3.pendu _ _ _ _ _ h4 hp) ht
      · intro g1 h4 h5
        rw [hlog] at h4
        rcases List.mem_cons.1 h4 with h | h
        · injection h with e1 e2; subst e1; rw [sigK_held hm']; exact h3
        · have := added_count h; have := I.i3.pend t g s hp; omega
      · intro g1 h4
        rcases lo g1 s h4 with h | ⟨rfl, -⟩
        · have := (I.i3.listed g1 s h).1; have := I.i3.pend t g s hp; omega
        · rw [sigK_held hm']; exact h3
    · refine .newTop hr'.full.i hm' (by rw [hs]; exact hl) h1.1 h2 h3 (fun _ t1 ho => ?_)
      have ho : own w b t1 := by
        by_cases ht : t1 = t
        · subst ht; rw [own_top e] at ho; rw [own_top hst]; exact ho
        · exact (own_other R ht).1 ho
      obtain ⟨f, hf, hb⟩ := ho
      exact I.i2.excl t g b hw hl t1 f hf hb
  · intro pre post e a _ h1 A _ h4 h5 h6 hn
    simp only [List.mem_cons, List.not_mem_nil, or_false, Mem.acc.injEq] at h1
    have kn : e.n ∈ h.K t → Good c h e a := fun h => absurd ((run_grows pre).K _ _ h) h6
    rcases h1 with h1 | h1
    · exact kn (A.ip t g s hp (h4.trans h1.1))
    · rcases A.tw t g b hw hl (h4.trans h1.1) with h7 | ⟨h7, h8, h9⟩
      · exact kn h7
      · exact ⟨h7, b, h4.trans h1.1, h8, h1.2, h9, hn⟩

theorem HInv.rem {f f' : Frame} {rest : List Frame} {g : SigId} {b : BlkId} {i : Nat} {v : SlotId} {ev : Event} (hr : Reachable E w)
      (hst : w.stacks t = f :: rest)
      (hw : topW (w.stacks t) = some g) (hw' : topW (f' :: rest) = none ∨ topW (f' :: rest) = some g)
      (hp' : topPend (f' :: rest) = none)
      (hb : f.blk? = none) (hb' : f'.blk? = none)
      (hl : (w.sigs g).list = some b) (hi : (w.blks b)[i]? = some v)
      (hev : ∀ g s, ev ≠ .added g s)
      (hx : w' = ((removeAt w b i).setStack t (f' :: rest)).emitEv ev) (hr' : Reachable E w')
      (R : StepR E w t w') (H : HInv c w h) : Next c h w' (h.run c t (.acc (.vec b) .read :: remFoot w b i)) := by
  have I := hr.full.i
  have same := removeAt_same w b i
  have e : w'.stacks t = f' :: rest := by rw [hx]; exact upd_same _ _ _
  have hs : w'.sigs = w.sigs := by
    rw [hx]; show (removeAt w b i).sigs = w.sigs; unfold removeAt; split <;> rfl
  have hlen : i < (w.blks b).length := (List.getElem?_eq_some_iff.1 hi).1
  have hbl : w'.blks = upd w.blks b (Vec.swapPop (w.blks b) i) := by rw [hx]; exact removeAt_blks w b i hlen
  have hlog : w'.log = ev :: w.log := by
    rw [hx]; show ev :: (removeAt w b i).log = _; congr 1; unfold removeAt; split <;> rfl
  have hm : (w.sigs g).mutex = some t := (hr.full.i.i1.mtx _ _).2 (topW_locks hw)
  have hm' : (w'.sigs g).mutex = some t := by rw [hs]; exact hm
  have hl' : (w'.sigs g).list = some b := by rw [hs]; exact hl
  have lo : ∀ g' s', s' ∈ w'.listOf g' → s' ∈ w.listOf g' := by
    intro g' s' hm
    cases h1 : (w.sigs g').list with
    | none => simp [World.listOf, hs, h1] at hm
    | some b1 =>
      simp only [World.listOf, hs, h1, hbl, upd_apply] at hm ⊢
      split at hm
      · rename_i e; subst e
        have nd := I.i3.nodup g
        rw [listOf_eq hl] at nd
        exact ((mem_swapPop_iff nd hi).1 hm).1
      · exact hm
  obtain ⟨s', hs1, hs2⟩ : ∃ s', remFoot w b i = [.acc (.idx s') .update, .acc (.vec b) .update] ∧ s' ∈ w.listOf g := by
    unfold remFoot
    rw [swap_last _ _ hlen, List.getElem?_eq_getElem (by omega)]
    exact ⟨_, rfl, by rw [listOf_eq hl]; exact List.getElem_mem _⟩
  rw [hs1]
  have ownE : ∀ b' t1, own w' b' t1 ↔ own w b' t1 := by
    intro b' t1
    by_cases ht : t1 = t
    · subst ht; rw [own_top e, own_top hst, hb, hb']
    · exact own_other R ht
  refine H.next hr R (Eff.ofLists (run_grows _) (fun t' => stacks_other R) (fun g => sigK_same (by rw [hs]) (run_grows _))
    (fun g => by rw [hs]) ?_ ?_ ?_ ?_ ?_ ?_) ?_ ?_
  · intro b' hb1; exact .inl ((ownE _ _).1 hb1)
  · intro b' hb1; exact .inl ((ownE _ _).2 hb1)
  · intro g'; rw [e, hw]; intro h1; rcases hw' with h2 | h2 <;> rw [h2] at h1
    · cases h1
    · exact h1
  · rw [e, hp']; simp
  · intro g s h; rw [hlog] at h
    rcases List.mem_cons.1 h with h | h
    · exact absurd h.symm (hev g s)
    · exact .inl h
  · intro g s h; exact .inl (lo g s h)
  · intro a _ _ h1 h2 h3
    simp only [List.mem_cons, List.not_mem_nil, or_false, Mem.acc.injEq] at h1
    rcases h1 with h1 | h1 | h1
    · exact .newTop hr'.full.i hm' hl' h1.1 h2 h3 (by rw [h1.2]; intro h; cases h)
    · have l1 := (I.i3.listed g s' hs2).1
      refine .newIdx h1.1 h2 h3 (Nat.lt_of_lt_of_le (I.i3.lt hs2) (fixed R).nSlots) ?_ ?_ ?_
      · intro t1 g1 h4
        by_cases ht : t1 = t
        · subst ht; exact h3
        · rw [stacks_other R ht] at h4; have := I.i3.pend _ _ _ h4; omega
      · intro g1 h4 h5
        rw [hlog] at h4
        rcases List.mem_cons.1 h4 with h | h
        · exact absurd h.symm (hev _ _)
        · by_cases eg : g1 = g
          · subst eg; rw [sigK_held hm']; exact h3
          · rw [hs] at h5; exact absurd (hr.homeOk g1 g s' h hs2 eg) h5
      · intro g1 h4
        rw [I.i3.disj (lo _ _ h4) hs2, sigK_held hm']; exact h3
    · refine .newTop hr'.full.i hm' hl' h1.1 h2 h3 (fun _ t1 ho => ?_)
      obtain ⟨f, hf, hb⟩ := (ownE _ _).1 ho
      exact I.i2.excl t g b hw hl t1 f hf hb
  · intro pre post e a _ h1 A _ h4 h5 h6 hn
    simp only [List.mem_cons, List.not_mem_nil, or_false, Mem.acc.injEq] at h1
    have kn : e.n ∈ h.K t → Good c h e a := fun h => absurd ((run_grows pre).K _ _ h) h6
    rcases h1 with h1 | h1 | h1
    · rw [h1.2] at h5
      exact kn (A.readK hm hl (h4.trans h1.1) (by simpa [Site.writes] using h5))
    · have := A.il g s' hs2 (h4.trans h1.1)
      rw [sigK_held hm] at this
      exact kn this
    · rcases A.tw t g b hw hl (h4.trans h1.1) with h7 | ⟨h7, h8, h9⟩
      · exact kn h7
      · exact ⟨h7, b, h4.trans h1.1, h8, h1.2, h9, hn⟩

theorem HInv.connStart {g : SigId} {fn : Callable} {consume : List Bool} {conn blk : Bool} {dest : Dest} (hr : Reachable E w)
      (hu : userCtx (w.stacks t) = true)
      (hx : w' = (World.setStack
        { w with
          slots := upd w.slots w.nSlots ⟨fn, consume, 0, conn, blk, g⟩
          nSlots := w.nSlots + 1 } t (.add g w.nSlots dest .wait :: w.stacks t)).emitEv
            (.created g w.nSlots conn blk)) (R : StepR E w t w') (H : HInv c w h) :
      Next c h w' (h.run c t [.acc (.idx w.nSlots) .init]) := by
  have I := hr.full.i
  have e : w'.stacks t = .add g w.nSlots dest .wait :: w.stacks t := by rw [hx]; exact upd_same _ _ _
  have hs : w'.sigs = w.sigs := by rw [hx]; rfl
  have hlog : w'.log = .created g w.nSlots conn blk :: w.log := by rw [hx]; rfl
  have lo : ∀ g, w'.listOf g = w.listOf g := fun g => listOf_same (w := w) (by rw [hs]) (by rw [hx]; rfl)
  refine H.next hr R (Eff.ofLists (run_grows _) (fun t' => stacks_other R) (fun g => sigK_same (by rw [hs]) (run_grows _))
    (fun g => by rw [hs]) ?_ ?_ ?_ ?_ ?_ ?_) ?_ ?_
  · intro b' hb1; left; rw [own_top e] at hb1; exact hb1.resolve_left (by simp [Frame.blk?])
  · intro b' hb1; left; rw [own_top e]; exact .inr hb1
  · rw [e]; simp [topW]
  · intro g' s' h; rw [e] at h; simp [topPend] at h; exact .inr h.2.symm
  · intro g s h; rw [hlog] at h; exact .inl (by simpa using h)
  · intro g s; rw [lo]; exact .inl
  · intro a _ _ h1 h2 h3
    simp only [List.mem_singleton, Mem.acc.injEq] at h1
    refine .newIdx h1.1 h2 h3 (by rw [hx]; exact Nat.lt_succ_self _) ?_ ?_ ?_
    · intro t1 g1 h4
      by_cases ht : t1 = t
      · subst ht; exact h3
      · rw [stacks_other R ht] at h4; have := I.i3.pendlt _ _ _ h4; omega
    · intro g1 h4 _
      rw [hlog] at h4
      have h4 : Event.added g1 w.nSlots ∈ w.log := by simpa using h4
      have := I.i3.addlt _ (added_count h4); omega
    · intro g1 h4; rw [lo] at h4; have := I.i3.lt h4; omega
  · intro pre post e a _ h1 A _ h4 h5 h6 hn
    simp only [List.mem_singleton, Mem.acc.injEq] at h1
    have := A.ridx _ (h4.trans h1.1); omega

theorem HInv.movStart {g : SigId} (hr : Reachable E w) (hu : userCtx (w.stacks t) = true)
      (hx : w' = World.setStack
        { w with
          sigs := upd w.sigs w.nSigs ⟨none, none, (w.sigs g).sblocked, false, (w.sigs g).isVoid⟩
          nSigs := w.nSigs + 1 } t (.mov w.nSigs g .wait :: w.stacks t)) (R : StepR E w t w') (H : HInv c w h) :
      Next c h w' (h.run c t []) := by
  have I := hr.full.i
  have e : w'.stacks t = .mov w.nSigs g .wait :: w.stacks t := by rw [hx]; exact upd_same _ _ _
  have out := I.i1.out w.nSigs (Nat.le_refl _)
  have hs : ∀ g, (w'.sigs g).list = (w.sigs g).list ∧ (w'.sigs g).mutex = (w.sigs g).mutex := by
    intro g'; simp only [hx, World.setStack, upd_apply]; split
    · rename_i e; subst e; exact ⟨out.1.symm, out.2.2.symm⟩
    · exact ⟨rfl, rfl⟩
  refine H.next hr R (Eff.ofLists (run_grows _) (fun t' => stacks_other R) (fun g => sigK_same (hs g).2 (run_grows _))
    (fun g => (hs g).1) ?_ ?_ ?_ ?_ ?_ ?_) ?_ ?_
  · intro b' hb1; left; rw [own_top e] at hb1; exact hb1.resolve_left (by simp [Frame.blk?])
  · intro b' hb1; left; rw [own_top e]; exact .inr hb1
  · rw [e]; simp [topW]
  · rw [e]; simp [topPend]
  · intro g s h; rw [hx] at h; exact .inl h
  · intro g s; rw [listOf_same (w := w) (hs g).1 (by rw [hx]; rfl)]; exact .inl
  · intro a _ _ h1; simp at h1
  · intro _ _ _ a _ h1; simp at h1

/-- A thread that is about to read the position of the listener it disconnects. -/
theorem disc_added (hr : Reachable E w) {s : SlotId} {k : DiscK} {g : SigId} {pc : CritPc} {rest : List Frame}
    (hst : w.stacks t = .disc s k (.crit g pc) :: rest) : Event.added g s ∈ w.log := by
  have hf : Frame.disc s k (.crit g pc) ∈ w.stacks t := by rw [hst]; exact List.mem_cons_self
  rw [(hr.full.d.fh t _ hf).2]
  exact added_owner hr ⟨t, .inr ⟨_, hf, .inl rfl⟩⟩

theorem shared_false (I : Inv1 w) {g : SigId} {b : BlkId} (hs : w.shared g b = false) : ∀ t, ¬ own w b t := by
  rintro t ⟨f, hf, e⟩
  by_cases ht : t < w.nThr
  · simp only [World.shared, World.anyFrame, Bool.or_eq_false_iff, List.any_eq_false, List.mem_range, beq_iff_eq] at hs
    have := hs.1 t ht
    simp only [List.any_eq_true, beq_iff_eq, not_exists, not_and] at this
    exact this f hf e
  · rw [I.thr t (Nat.le_of_not_lt ht)] at hf; cases hf

theorem HInv.tst {f f' : Frame} {rest : List Frame} {g : SigId} {b : BlkId} {pre : List Mem} (hr : Reachable E w)
      (hst : w.stacks t = f :: rest)
      (hf : f.tst (w.shared g b) = some (g, f')) (hl : (w.sigs g).list = some b)
      (hp : pre = [] ∨ ∃ s k, f = .disc s k (.crit g .detach) ∧ pre = [.acc (.idx s) .read])
      (hx : w' = w.setStack t (f' :: rest)) (hr' : Reachable E w')
      (R : StepR E w t w') (H : HInv c w h) :
      Next c h w' (h.run c t (pre ++ tstFoot g b)) := by
  have I := hr.full.i
  have e : w'.stacks t = f' :: rest := by rw [hx]; exact upd_same _ _ _
  have hb : f.blk? = none ∧ f'.blk? = none ∧ (∀ g', topW (f' :: rest) = some g' → g' = g ∧ w.shared g b = false) ∧
      topPend (f' :: rest) = topPend (f :: rest) ∧ f.locks = some g := by
    revert hf
    cases w.shared g b <;> intro hf <;> unfold Frame.tst at hf <;> split at hf <;> simp at hf <;> obtain ⟨rfl, rfl⟩ := hf <;>
      simp [Frame.blk?, topW, topPend, Frame.locks]
  have hm : (w.sigs g).mutex = some t := (I.i1.mtx _ _).2 (by rw [hst]; exact hb.2.2.2.2)
  have hs : w'.sigs = w.sigs := by rw [hx]; rfl
  have hm' : (w'.sigs g).mutex = some t := by rw [hs]; exact hm
  have hlog : w'.log = w.log := by rw [hx]; rfl
  have lo : ∀ g', w'.listOf g' = w.listOf g' := fun g' => by rw [hx]; rfl
  have ownE : ∀ b' t1, own w' b' t1 ↔ own w b' t1 := by
    intro b' t1
    by_cases ht : t1 = t
    · subst ht; rw [own_top e, own_top hst, hb.1, hb.2.1]
    · exact own_other R ht
  have pend : ∀ t' g s, topPend (w'.stacks t') = some (g, s) → topPend (w.stacks t') = some (g, s) ∨ s = w.nSlots := by
    intro t1 g1 s h1
    by_cases ht : t1 = t
    · subst ht; rw [e, hb.2.2.2.1, ← hst] at h1; exact .inl h1
    · rw [stacks_other R ht] at h1; exact .inl h1
  have F : Eff c w t w' h (h.run c t (pre ++ tstFoot g b)) := by
    refine ⟨run_grows _, fun g' => sigK_same (by rw [hs]) (run_grows _), fun g1 b1 h1 => .inl (by rw [hs] at h1; exact h1),
      fun g1 b1 h1 => .inl ⟨g1, by rw [hs]; exact h1⟩, fun b' h1 => .inl ((ownE _ _).1 h1),
      fun b' h1 => .inl ((ownE _ _).2 h1), ?_, pend, fun g s h1 => .inl (by rw [hlog] at h1; exact h1),
      fun g s h1 => .inl (by rw [lo] at h1; exact h1)⟩
    intro t1 g1 b1 h1 h2
    rw [hs] at h2
    by_cases ht : t1 = t
    · subst ht
      rw [e] at h1
      obtain ⟨rfl, h3⟩ := hb.2.2.1 _ h1
      rw [hl] at h2; injection h2 with h2; subst h2
      refine .inr (.inr ⟨rfl, hl, ?_, shared_false I.i1 h3, fun hc => run_count hc (by simp [tstFoot])⟩)
      rw [sigK_held hm]; exact (run_grows _).K _
    · rw [stacks_other R ht] at h1
      exact .inl ⟨h1, h2⟩
  have accs : ∀ {l k}, Mem.acc l k ∈ pre ++ tstFoot g b → (∃ s, l = .idx s ∧ k = .read ∧ Event.added g s ∈ w.log) ∨ l = .ptr g := by
    intro l k h1
    rcases List.mem_append.1 h1 with h1 | h1
    · rcases hp with rfl | ⟨s, k', e1, rfl⟩
      · cases h1
      · left
        simp only [List.mem_singleton, Mem.acc.injEq] at h1
        exact ⟨s, h1.1, h1.2, disc_added hr (by rw [hst, e1])⟩
    · simp [tstFoot] at h1
      exact .inr h1.1
  refine H.next hr R F ?_ ?_
  · intro a ha hn h1 h2 h3
    rcases accs h1 with ⟨s, h4, h5, h6⟩ | h4
    · refine .newIdx h4 h2 h3 (Nat.lt_of_lt_of_le (I.i3.addlt s (added_count h6)) (fixed R).nSlots) ?_ ?_ ?_
      · intro t1 g1 h7
        rcases pend _ _ _ h7 with h7 | h7
        · have := I.i3.pend _ _ _ h7; have := added_count h6; omega
        · have := I.i3.addlt s (added_count h6); omega
      · intro g1 h7 _
        rw [hlog] at h7
        rw [added_uniq (I.i3.adds s) h7 h6, sigK_held hm']; exact h3
      · intro g1 h7
        rw [lo] at h7
        by_cases eg : g1 = g
        · subst eg; rw [sigK_held hm']; exact h3
        · have := hr.homeOk g g1 s h6 h7 (Ne.symm eg)
          rw [hl] at this; cases this
    · refine .newPtr h4 h2 h3 (held_lt hr' hm') (.inl (by rw [sigK_held hm']; exact h3)) ?_
      intro t1 g0 pc h5; exact (held_bld hr' hm' h5).elim
  · intro pre' post e a _ h1 A _ h4 h5 h6 hn
    have kn : e.n ∈ h.K t → Good c h e a := fun h => absurd ((run_grows pre').K _ _ h) h6
    rcases accs h1 with ⟨s, h7, h8, h9⟩ | h7
    · have := A.io g s h9 (by rw [hl]; simp) (h4.trans h7)
      rw [sigK_held hm] at this
      exact kn this
    · exact kn (A.ptrK hr hm (h4.trans h7))

theorem HInv.det {f f' : Frame} {rest : List Frame} {g : SigId} {b : BlkId} (hr : Reachable E w)
      (hst : w.stacks t = f :: rest)
      (hf : f.det = some (g, f')) (hl : (w.sigs g).list = some b)
      (hx : w' = (cloneBlk w g b).setStack t (f' :: rest)) (hr' : Reachable E w')
      (R : StepR E w t w') (H : HInv c w h) :
      Next c h w' (h.run c t (detFoot w w' g b)) := by
  have I := hr.full.i
  have e : w'.stacks t = f' :: rest := by rw [hx]; exact upd_same _ _ _
  have hb : f.blk? = none ∧ f'.blk? = none ∧ topW (f' :: rest) = some g ∧ topPend (f' :: rest) = topPend (f :: rest) ∧
      f.locks = some g := by
    unfold Frame.det at hf; split at hf <;> simp at hf <;> obtain ⟨rfl, rfl⟩ := hf <;>
      simp [Frame.blk?, topW, topPend, Frame.locks]
  have hm : (w.sigs g).mutex = some t := (I.i1.mtx _ _).2 (by rw [hst]; exact hb.2.2.2.2)
  have hmx : ∀ g', (w'.sigs g').mutex = (w.sigs g').mutex := by
    intro g'; rw [hx]; unfold cloneBlk
    simp only [World.setStack, World.setList, World.setBlk, upd_apply]; split
    · rename_i e; subst e; rfl
    · rfl
  have hm' : (w'.sigs g).mutex = some t := by rw [hmx]; exact hm
  have hlog : w'.log = w.log := by rw [hx]; rfl
  have hlt : b < w.nBlks := I.i1.lst g b hl
  have lo : ∀ g', w'.listOf g' = w.listOf g' := by
    intro g'; rw [hx]; unfold cloneBlk
    by_cases eg : g' = g
    · subst eg; simp [World.listOf, World.setStack, World.setList, World.setBlk, upd_same, hl]
    · simp only [World.listOf, World.setStack, World.setList, World.setBlk, upd_apply, if_neg eg]
      cases h1 : (w.sigs g').list with
      | none => rfl
      | some b1 =>
        have := I.i1.lst g' b1 h1
        simp only [if_neg (show ¬ b1 = w.nBlks by omega)]
  have ownE : ∀ b' t1, own w' b' t1 ↔ own w b' t1 := by
    intro b' t1
    by_cases ht : t1 = t
    · subst ht; rw [own_top e, own_top hst, hb.1, hb.2.1]
    · exact own_other R ht
  have lists : ∀ g', (w'.sigs g').list = if g' = g then some w.nBlks else (w.sigs g').list := by
    intro g'; rw [hx]; unfold cloneBlk
    simp only [World.setStack, World.setList, World.setBlk, upd_apply]
    split <;> rfl
  have nblk : w'.nBlks = w.nBlks + 1 := by rw [hx]; rfl
  have no : ∀ g1, (w'.sigs g1).list ≠ some b := by
    intro g1 h10
    rw [lists] at h10; split at h10
    · injection h10 with h10; omega
    · rename_i ne; exact ne (I.i2.uniq _ _ _ h10 hl)
  have pend : ∀ t' g s, topPend (w'.stacks t') = some (g, s) → topPend (w.stacks t') = some (g, s) ∨ s = w.nSlots := by
    intro t1 g1 s h1
    by_cases ht : t1 = t
    · subst ht; rw [e, hb.2.2.2.1, ← hst] at h1; exact .inl h1
    · rw [stacks_other R ht] at h1; exact .inl h1
  have notW : ∀ t1 g1, t1 ≠ t → topW (w.stacks t1) = some g1 → g1 ≠ g := by
    rintro t1 g1 h1 h2 rfl
    have := (I.i1.mtx g1 t1).2 (topW_locks h2)
    rw [hm] at this; injection this with this; exact h1 this.symm
  have F : Eff c w t w' h (h.run c t (detFoot w w' g b)) := by
    refine ⟨run_grows _, fun g' => sigK_same (hmx g') (run_grows _), ?_, ?_, fun b' h1 => .inl ((ownE _ _).1 h1),
      fun b' h1 => .inl ((ownE _ _).2 h1), ?_, pend, fun g s h1 => .inl (by rw [hlog] at h1; exact h1),
      fun g s h1 => .inl (by rw [lo] at h1; exact h1)⟩
    · intro g1 b1 h1
      rw [lists] at h1; split at h1
      · injection h1 with h1; exact .inr (.inl h1.symm)
      · exact .inl h1
    · intro g1 b1 h1
      by_cases eg : g1 = g
      · subst eg
        rw [hl] at h1; injection h1 with h1; subst h1
        refine .inr ⟨no, ?_⟩
        rw [sigK_held hm]
        obtain ⟨l, hd⟩ := drop_mem w' b
        exact run_drop (l := l) (List.mem_append_right _ hd)
      · exact .inl ⟨g1, by rw [lists, if_neg eg]; exact h1⟩
    · intro t1 g1 b1 h1 h2
      by_cases ht : t1 = t
      · subst ht
        rw [e, hb.2.2.1] at h1; injection h1 with h1; subst h1
        rw [lists, if_pos rfl] at h2; injection h2 with h2; exact .inr (.inl h2.symm)
      · rw [stacks_other R ht] at h1
        have ne := notW t1 g1 ht h1
        refine .inl ⟨h1, ?_⟩
        rw [lists, if_neg ne] at h2; exact h2
  have accs : ∀ {l k}, Mem.acc l k ∈ detFoot w w' g b → l = .ptr g ∨ (l = .vec b ∧ k = .read) ∨ l = .vec w.nBlks ∨
      Mem.acc l k ∈ dropFoot w' b := by
    intro l k h1
    rcases List.mem_append.1 h1 with h1 | h1
    · simp at h1
      rcases h1 with h1 | h1 | h1 | h1
      · exact .inl h1.1
      · exact .inr (.inl h1)
      · exact .inr (.inr (.inl h1.1))
      · exact .inl h1.1
    · exact .inr (.inr (.inr h1))
  refine H.next hr R F ?_ ?_
  · intro a ha hn h1 h2 h3
    rcases accs h1 with h4 | ⟨h5, h9⟩ | h5 | h5
    · refine .newPtr h4 h2 h3 (held_lt hr' hm') (.inl (by rw [sigK_held hm']; exact h3)) ?_
      intro t1 g0 pc h5; exact (held_bld hr' hm' h5).elim
    · refine .newVec h5 h2 h3 (by omega) (by rw [h9]; intro h; cases h) ?_ (fun t1 g1 _ h10 => absurd h10 (no g1))
      intro _
      refine .inr (.inr ⟨?_, .inr no⟩)
      unfold detFoot at ha ⊢
      unfold dropFoot at ha ⊢
      split at ha
      · rename_i ho; rw [if_pos ho]
        exact new_drop ha hn (by simp)
      · rename_i ho; rw [if_neg ho]
        exact new_drop ha hn (by rw [h9]; simp)
    · refine .newTop hr'.full.i hm' (by rw [lists, if_pos rfl]) h5 h2 h3 (fun _ t1 ho => ?_)
      have := own_lt I.i1 ((ownE _ _).1 ho); omega
    · obtain ⟨h6, h7, h8, -⟩ := acc_drop h5
      have no := ownedB_false hr'.full.i.i1 h6
      refine .newVec h7 h2 h3 (by omega) ?_ (by rw [h8]; intro h; cases h) ?_
      · intro _; exact ⟨fun g hg => absurd hg (no.2 g), fun t1 h => absurd h (no.1 t1)⟩
      · intro t1 g _ h; exact absurd h (no.2 g)
  · intro pre' post e a hsp h1 A _ h4 h5 h6 hn
    have kn : e.n ∈ h.K t → Good c h e a := fun h => absurd ((run_grows pre').K _ _ h) h6
    rcases accs h1 with h7 | ⟨h8, h9⟩ | h8 | h9
    · exact kn (A.ptrK hr hm (h4.trans h7))
    · rw [h9] at h5
      exact kn (A.readK hm hl (h4.trans h8) (by simpa [Site.writes] using h5))
    · have := A.rvec _ (h4.trans h8); omega
    · obtain ⟨h10, h11, h12, h13⟩ := acc_drop h9
      have no := ownedB_false hr'.full.i.i1 h10
      cases hw' : e.site.writes with
      | true =>
        have := (A.vw b (h4.trans h11) hw').1 g hl
        rw [sigK_held hm] at this; exact kn this
      | false =>
        rcases A.vr b (h4.trans h11) hw' with ⟨g1, hg, hk⟩ | ⟨-, hg⟩ | ⟨hg, -⟩
        · rw [I.i2.uniq _ _ _ hg hl, sigK_held hm] at hk; exact kn hk
        · rw [← ownE] at hg; exact absurd hg (no.1 _)
        · rw [detFoot, h13, h11, h12] at hsp
          have : Mem.drop b true ∈ pre' := mem_pre hsp (by simp) (by simp)
          exact absurd (run_last this _ hg) h6

theorem HInv.newSig {v : Bool} (hr : Reachable E w)
      (hx : w' = { w with
          sigs := upd w.sigs w.nSigs ⟨some w.nBlks, none, false, true, v⟩
          nSigs := w.nSigs + 1
          blks := upd w.blks w.nBlks []
          nBlks := w.nBlks + 1 }) (R : StepR E w t w') (H : HInv c w h) :
      Next c h w' (h.run c t [.acc (.vec w.nBlks) .init, .acc (.ptr w.nSigs) .init, .unlock w.nSigs]) := by
  have I := hr.full.i
  have hst : w'.stacks = w.stacks := by rw [hx]
  have out := I.i1.out w.nSigs (Nat.le_refl _)
  have hlist : ∀ g, (w'.sigs g).list = if g = w.nSigs then some w.nBlks else (w.sigs g).list := by
    intro g; rw [hx]; simp only [upd_apply]; split <;> rfl
  have hmx : ∀ g, (w'.sigs g).mutex = (w.sigs g).mutex := by
    intro g; rw [hx]; simp only [upd_apply]; split
    · rename_i e; subst e; exact out.2.2.symm
    · rfl
  have lo : ∀ g s, s ∈ w'.listOf g → s ∈ w.listOf g := by
    intro g s hm
    have h2 : w'.blks = upd w.blks w.nBlks [] := by rw [hx]
    simp only [World.listOf, hlist, h2] at hm ⊢
    split at hm
    · rename_i b1 h1
      split at h1
      · injection h1 with h1; subst h1; simp [upd_same] at hm
      · have := I.i1.lst g b1 h1
        rw [h1]
        simpa only [upd_apply, if_neg (show ¬ b1 = w.nBlks by omega)] using hm
    · cases hm
  have ownE : ∀ b t1, own w' b t1 ↔ own w b t1 := by intro b t1; unfold own; rw [hst]
  have notW : ∀ t1, topW (w.stacks t1) ≠ some w.nSigs := by
    intro t1 h2
    have := (I.i1.mtx _ t1).2 (topW_locks h2)
    rw [out.2.2] at this; cases this
  have fromB : ∀ g, (w'.sigs g).list = some w.nBlks → g = w.nSigs := by
    intro g h1; rw [hlist] at h1; split at h1
    · assumption
    · have := I.i1.lst _ _ h1; omega
  refine H.next hr R ⟨run_grows _, fun g' => sigK_same (hmx g') (run_grows _), ?_, ?_, fun b' h1 => .inl ((ownE _ _).1 h1),
      fun b' h1 => .inl ((ownE _ _).2 h1), ?_, fun t1 g s h1 => .inl (by rw [hst] at h1; exact h1),
      fun g s h1 => .inl (by rw [hx] at h1; exact h1), fun g s h1 => .inl (lo g s h1)⟩ ?_ ?_
  · intro g b h1; rw [hlist] at h1; split at h1
    · injection h1 with h1; exact .inr (.inl h1.symm)
    · exact .inl h1
  · intro g b h1
    refine .inl ⟨g, ?_⟩
    rw [hlist, if_neg]
    · exact h1
    · rintro rfl; rw [out.1] at h1; cases h1
  · intro t1 g b h1 h2
    rw [hst] at h1
    rw [hlist, if_neg] at h2
    · exact .inl ⟨h1, h2⟩
    · rintro rfl; exact notW t1 h1
  · intro a ha hn h1 h2 h3
    have hM : a.n ∈ sigK w' (h.run c t [.acc (.vec w.nBlks) .init, .acc (.ptr w.nSigs) .init, .unlock w.nSigs]) w.nSigs := by
      rw [sigK_free (by rw [hmx]; exact out.2.2)]
      exact new_unlock (X := [.acc (.vec w.nBlks) .init, .acc (.ptr w.nSigs) .init]) (Y := []) ha hn (by simp)
    simp at h1
    rcases h1 with h1 | h1
    · refine .newVec h1.1 h2 h3 (by rw [hx]; exact Nat.lt_succ_self _) ?_ (by rw [h1.2]; intro h; cases h) ?_
      · intro _
        refine ⟨fun g h4 => by rw [fromB g h4]; exact hM, fun t1 h4 => ?_⟩
        have := own_lt I.i1 ((ownE _ _).1 h4); omega
      · intro t1 g h4 h5
        rw [hst, fromB g h5] at h4; exact absurd h4 (notW t1)
    · refine .newPtr h1.1 h2 h3 (by rw [hx]; exact Nat.lt_succ_self _) (.inl hM) ?_
      intro t1 g0 pc h4
      rw [hst] at h4
      unfold topMov at h4
      split at h4
      · rename_i g1 g2 p rest hst1
        simp at h4
        have := I.i1.rng t1 (.mov g1 g2 p) (by rw [hst1]; exact List.mem_cons_self)
        have := this.1
        omega
      · cases h4
  · intro pre' post e a _ h1 A _ h4 h5 h6 hn
    simp at h1
    rcases h1 with h1 | h1
    · have := A.rvec _ (h4.trans h1.1); omega
    · have := A.rptr _ (h4.trans h1.1); omega

theorem HInv.destroy {g : SigId} {ops : List Mem} (hr : Reachable E w) (hr' : Reachable E w')
      (ha : (w.sigs g).alive = true) (hm : (w.sigs g).mutex = none)
      (hx : w' = { w with
          sigs := upd w.sigs g { w.sigs g with alive := false, list := none } }.emitEv (.destroyed g))
      (ho : ops = .lock g :: .acc (.ptr g) .destroy :: match (w.sigs g).list with
          | some b => dropFoot w' b
          | none => []) (R : StepR E w t w') (H : HInv c w h) :
      Next c h w' (h.run c t ops) := by
  have I := hr.full.i
  have hst : w'.stacks = w.stacks := by rw [hx]; rfl
  have hlist : ∀ g', (w'.sigs g').list = if g' = g then none else (w.sigs g').list := by
    intro g'; rw [hx]; simp only [World.emitEv, upd_apply]; split <;> rfl
  have hmx : ∀ g', (w'.sigs g').mutex = (w.sigs g').mutex := by
    intro g'; rw [hx]; simp only [World.emitEv, upd_apply]; split
    · rename_i e; subst e; rfl
    · rfl
  have hlog : w'.log = .destroyed g :: w.log := by rw [hx]; rfl
  have hb : w'.blks = w.blks := by rw [hx]; rfl
  have lo : ∀ g' s, s ∈ w'.listOf g' → s ∈ w.listOf g' := by
    intro g' s hm
    simp only [World.listOf, hlist, hb] at hm ⊢
    by_cases eg : g' = g
    · rw [if_pos eg] at hm; cases hm
    · rw [if_neg eg] at hm; exact hm
  have ownE : ∀ b t1, own w' b t1 ↔ own w b t1 := by intro b t1; unfold own; rw [hst]
  have hM : ∀ {pre post : List Mem} {x : Mem}, (∀ g', x ≠ .lock g') → ops = pre ++ x :: post → ∀ n ∈ h.M g, n ∈ (h.run c t pre).K t := by
    intro pre post x hx e
    refine run_lock ?_
    rw [ho] at e
    exact mem_pre (X := []) e (by simp) (hx g)
  obtain ⟨tl, htl, hops⟩ : ∃ tl, (tl = [] ∧ (w.sigs g).list = none ∨ ∃ b, (w.sigs g).list = some b ∧ tl = dropFoot w' b) ∧
      ops = .lock g :: .acc (.ptr g) .destroy :: tl := by
    cases hl : (w.sigs g).list with
    | none => rw [hl] at ho; exact ⟨[], .inl ⟨rfl, rfl⟩, ho⟩
    | some b => rw [hl] at ho; exact ⟨_, .inr ⟨b, rfl, rfl⟩, ho⟩
  have accs : ∀ {l k}, Mem.acc l k ∈ ops → (l = .ptr g) ∨
      ∃ b, (w.sigs g).list = some b ∧ tl = dropFoot w' b ∧ Mem.acc l k ∈ dropFoot w' b := by
    intro l k h1
    rw [hops] at h1
    rcases List.mem_cons.1 h1 with h1 | h1
    · cases h1
    · rcases List.mem_cons.1 h1 with h1 | h1
      · injection h1 with h1; exact .inl h1
      · rcases htl with ⟨rfl, -⟩ | ⟨b, h2, h3⟩
        · cases h1
        · exact .inr ⟨b, h2, h3, h3 ▸ h1⟩
  refine H.next hr R ⟨run_grows _, fun g' => sigK_same (hmx g') (run_grows _), ?_, ?_, fun b' h1 => .inl ((ownE _ _).1 h1),
      fun b' h1 => .inl ((ownE _ _).2 h1), ?_, fun t1 g s h1 => .inl (by rw [hst] at h1; exact h1),
      fun g s h1 => .inl (by rw [hlog] at h1; simpa using h1), fun g s h1 => .inl (lo g s h1)⟩ ?_ ?_
  · intro g' b h1; rw [hlist] at h1; split at h1
    · cases h1
    · exact .inl h1
  · intro g' b h1
    by_cases eg : g' = g
    · subst eg
      right
      constructor
      · intro g2 h2
        rw [hlist] at h2; split at h2
        · cases h2
        · rename_i ne; exact ne (I.i2.uniq _ _ _ h2 h1)
      · rw [sigK_free hm]
        intro n hn
        rcases htl with ⟨-, h2⟩ | ⟨b1, h2, h3⟩
        · rw [h1] at h2; cases h2
        · rw [h1] at h2; injection h2 with h2; subst h2
          rw [hops]
          have e1 : Mem.lock g' :: .acc (.ptr g') .destroy :: tl = [Mem.lock g', .acc (.ptr g') .destroy] ++ tl := rfl
          rw [e1, run_append]
          obtain ⟨l, hl⟩ := drop_mem w' b
          exact run_drop (h3 ▸ hl) n (run_lock (by simp) n hn)
    · exact .inl ⟨g', by rw [hlist, if_neg eg]; exact h1⟩
  · intro t1 g' b h1 h2
    rw [hst] at h1
    rw [hlist] at h2; split at h2
    · cases h2
    · exact .inl ⟨h1, h2⟩
  · intro a ha' hn h1 h2 h3
    rcases accs h1 with h4 | ⟨b, h4, -, h5⟩
    · refine .newPtr h4 h2 h3 ?_ (.inr (by rw [hlog]; exact List.mem_cons_self)) ?_
      · have : g < w.nSigs := Nat.lt_of_not_le fun h => by rw [(I.i1.out g h).2.1] at ha; cases ha
        rw [hx]; exact this
      · intro t1 g0 pc h5
        rw [hst] at h5
        rw [(I.i2.movx _ _ _ _ h5).1] at ha; cases ha
    · obtain ⟨h6, h7, h8, -⟩ := acc_drop h5
      have no := ownedB_false hr'.full.i.i1 h6
      refine .newVec h7 h2 h3 (by rw [hx]; exact I.i1.lst g b h4) ?_ (by rw [h8]; intro h; cases h) ?_
      · intro _; exact ⟨fun g hg => absurd hg (no.2 g), fun t1 h => absurd h (no.1 t1)⟩
      · intro t1 g _ h; exact absurd h (no.2 g)
  · intro pre' post e a hsp h1 A het h4 h5 h6 hn
    have kn : e.n ∈ h.M g → Good c h e a := fun h1 => absurd (hM (by simp) hsp _ h1) h6
    rcases accs h1 with h7 | ⟨b, h7, h8, h9⟩
    · rcases A.ptr g (h4.trans h7) with h8 | h8
      · rw [sigK_free hm] at h8; exact kn h8
      · rw [(hr.inv9.dst g h8).2.1] at ha; cases ha
    · obtain ⟨h10, h11, h12, h13⟩ := acc_drop h9
      have no := ownedB_false hr'.full.i.i1 h10
      cases hw' : e.site.writes with
      | true =>
        have := (A.vw b (h4.trans h11) hw').1 g h7
        rw [sigK_free hm] at this; exact kn this
      | false =>
        rcases A.vr b (h4.trans h11) hw' with ⟨g1, hg, hk⟩ | ⟨-, hg⟩ | ⟨hg, -⟩
        · rw [I.i2.uniq _ _ _ hg h7, sigK_free hm] at hk; exact kn hk
        · rw [← ownE] at hg; exact absurd hg (no.1 _)
        · rw [hops, h8, h13, h11, h12] at hsp
          have : Mem.drop b true ∈ pre' := mem_pre (X := [.lock g, .acc (.ptr g) .destroy]) hsp (by simp) (by simp)
          exact absurd (run_last this _ hg) h6

theorem HInv.movWrite {g' g : SigId} {rest : List Frame} (hr : Reachable E w) (hst : w.stacks t = .mov g' g .write :: rest)
      (hx : w' = (((w.setList g' (w.sigs g).list).setList g none).setStack t
        (.mov g' g .unlock :: rest)).emitEv (.moved g g')) (hr' : Reachable E w') (R : StepR E w t w') (H : HInv c w h) :
      Next c h w' (h.run c t [.acc (.ptr g) .read, .acc (.ptr g) .update, .acc (.ptr g') .init, .unlock g']) := by
  have I := hr.full.i
  have e : w'.stacks t = .mov g' g .unlock :: rest := by rw [hx]; exact upd_same _ _ _
  have hm : (w.sigs g).mutex = some t := (I.i1.mtx _ _).2 (by rw [hst]; rfl)
  have tm : topMov (w.stacks t) = some (g', g, .write) := by rw [hst]; rfl
  have rg := I.i1.rng t (.mov g' g .write) (by rw [hst]; exact List.mem_cons_self)
  have ne : g' ≠ g := rg.2.2
  have mv := I.i2.movx _ _ _ _ tm
  have hm0 : (w.sigs g').mutex = none := by
    cases h1 : (w.sigs g').mutex with
    | none => rfl
    | some t1 => rw [I.i2.live _ _ h1] at mv; cases mv.1
  have hl0 : (w.sigs g').list = none := mv.2 (by simp)
  have hlist : ∀ x, (w'.sigs x).list = if x = g then none else if x = g' then (w.sigs g).list else (w.sigs x).list := by
    intro x; rw [hx]; simp only [World.emitEv, World.setStack, World.setList, upd_apply]
    split
    · rfl
    · split <;> rfl
  have hmx : ∀ x, (w'.sigs x).mutex = (w.sigs x).mutex := by
    intro x; rw [hx]; simp only [World.emitEv, World.setStack, World.setList, upd_apply]
    split
    · rename_i e; subst e; rw [if_neg (Ne.symm ne)]
    · split
      · rename_i e; subst e; rfl
      · rfl
  have hm' : (w'.sigs g).mutex = some t := by rw [hmx]; exact hm
  have hm0' : (w'.sigs g').mutex = none := by rw [hmx]; exact hm0
  have hlog : w'.log = .moved g g' :: w.log := by rw [hx]; rfl
  have hb : w'.blks = w.blks := by rw [hx]; rfl
  have ul : ∀ n ∈ sigK w h g, n ∈ sigK w' (h.run c t [.acc (.ptr g) .read, .acc (.ptr g) .update, .acc (.ptr g') .init, .unlock g']) g' := by
    rw [sigK_held hm, sigK_free hm0']
    exact run_unlock (by simp)
  have ownE : ∀ b t1, own w' b t1 ↔ own w b t1 := by
    intro b t1
    by_cases ht : t1 = t
    · subst ht; rw [own_top e, own_top hst]; simp [Frame.blk?]
    · exact own_other R ht
  refine H.next hr R ⟨run_grows _, fun x => sigK_same (hmx x) (run_grows _), ?_, ?_, fun b' h1 => .inl ((ownE _ _).1 h1),
      fun b' h1 => .inl ((ownE _ _).2 h1), ?_, ?_, fun g s h1 => .inl (by rw [hlog] at h1; simpa using h1), ?_⟩ ?_ ?_
  · intro x b h1; rw [hlist] at h1; split at h1
    · cases h1
    · split at h1
      · rename_i e; subst e; exact .inr (.inr ⟨g, h1, ul⟩)
      · exact .inl h1
  · intro x b h1
    by_cases eg : x = g
    · subst eg
      exact .inl ⟨g', by rw [hlist, if_neg ne, if_pos rfl]; exact h1⟩
    · refine .inl ⟨x, ?_⟩
      rw [hlist, if_neg eg, if_neg]
      · exact h1
      · rintro rfl; rw [hl0] at h1; cases h1
  · intro t1 x b h1 h2
    by_cases ht : t1 = t
    · subst ht; rw [e] at h1; cases h1
    · rw [stacks_other R ht] at h1
      have hmx := (I.i1.mtx x t1).2 (topW_locks h1)
      rw [hlist] at h2
      split at h2
      · cases h2
      · split at h2
        · rename_i e; subst e; rw [hm0] at hmx; cases hmx
        · exact .inl ⟨h1, h2⟩
  · intro t1 x s h1
    by_cases ht : t1 = t
    · subst ht; rw [e] at h1; cases h1
    · rw [stacks_other R ht] at h1; exact .inl h1
  · intro x s h1
    simp only [World.listOf, hlist, hb] at h1
    by_cases eg : x = g
    · rw [if_pos eg] at h1; cases h1
    · rw [if_neg eg] at h1
      by_cases eg' : x = g'
      · subst eg'
        rw [if_pos rfl] at h1
        exact .inr (.inr ⟨g, h1, ul⟩)
      · rw [if_neg eg'] at h1; exact .inl h1
  · intro a ha hn h1 h2 h3
    have hM : a.n ∈ sigK w' (h.run c t [.acc (.ptr g) .read, .acc (.ptr g) .update, .acc (.ptr g') .init, .unlock g']) g' := by
      rw [sigK_free hm0']
      exact new_unlock (X := [.acc (.ptr g) .read, .acc (.ptr g) .update, .acc (.ptr g') .init]) (Y := []) ha hn (by simp)
    have h1 : a.loc = .ptr g ∨ a.loc = .ptr g' := by
      simp at h1
      rcases h1 with h1 | h1 | h1
      · exact .inl h1.1
      · exact .inl h1.1
      · exact .inr h1.1
    rcases h1 with h1 | h1
    · refine .newPtr h1 h2 h3 (held_lt hr' hm') (.inl (by rw [sigK_held hm']; exact h3)) ?_
      intro t1 g0 pc h5; exact (held_bld hr' hm' h5).elim
    · refine .newPtr h1 h2 h3 (by rw [hx]; exact rg.1) (.inl hM) ?_
      intro t1 g0 pc h5
      by_cases ht : t1 = t
      · subst ht; rw [e] at h5; simp [topMov] at h5; exact h5.2.symm
      · rw [stacks_other R ht] at h5; exact absurd (I.i2.movu _ _ _ _ _ _ _ h5 tm) ht
  · intro pre' post e a _ h1 A _ h4 h5 h6 hn
    have kn : e.n ∈ h.K t → Good c h e a := fun h => absurd ((run_grows pre').K _ _ h) h6
    have h1 : a.loc = .ptr g ∨ a.loc = .ptr g' := by
      simp at h1
      rcases h1 with h1 | h1 | h1
      · exact .inl h1.1
      · exact .inl h1.1
      · exact .inr h1.1
    rcases h1 with h1 | h1
    · exact kn (A.ptrK hr hm (h4.trans h1))
    · have := A.bld g' t g .write (h4.trans h1) tm
      cases this

theorem HInv.fail {f : Frame} {rest : List Frame} {g : SigId} {s : Option SlotId} {b : BlkId} {pre : List Mem} (hr : Reachable E w)
      (hst : w.stacks t = f :: rest) (hf : f.allocs = some (g, s)) (hl : (w.sigs g).list = some b)
      (hp : pre = [.acc (.ptr g) .read] ∨ ∃ s' dest, f = .add g s' dest .write ∧ pre = [.acc (.idx s') .update])
      (hx : w' = ((w.setMutex g none).setStack t rest).emitEv (.failed t g s)) (hr' : Reachable E w')
      (R : StepR E w t w') (H : HInv c w h) : Next c h w' (h.run c t (pre ++ [.acc (.vec b) .read, .unlock g])) := by
  have I := hr.full.i
  have e : w'.stacks t = rest := by rw [hx]; exact upd_same _ _ _
  have hu : UserStk rest := (hst ▸ I.i1.stk t).tail (Frame.allocs_isCall hf)
  have hm : (w.sigs g).mutex = some t := (I.i1.mtx _ _).2 (by rw [hst]; exact Frame.allocs_locks hf)
  have hm' : (w'.sigs g).mutex = none := by rw [hx]; simp [World.emitEv, World.setStack, World.setMutex, upd_same]
  have hb : f.blk? = none := by rcases Frame.allocs_inv hf with ⟨_, _, _, rfl, _⟩ | ⟨_, rfl, _⟩ <;> rfl
  have hs : ∀ g', (w'.sigs g').list = (w.sigs g').list := by
    intro g'; simp only [hx, World.emitEv, World.setStack, World.setMutex, upd_apply]; split
    · rename_i e; subst e; rfl
    · rfl
  have hlog : w'.log = .failed t g s :: w.log := by rw [hx]; rfl
  have hlo : ∀ g', w'.listOf g' = w.listOf g' := fun g' => listOf_same (hs g') (by rw [hx]; rfl)
  have split : pre ++ [.acc (.vec b) .read, .unlock g] = (pre ++ [.acc (.vec b) .read]) ++ .unlock g :: [] := by simp
  have acc : ∀ l k, Mem.acc l k ∈ pre ++ [.acc (.vec b) .read, .unlock g] →
      (l = .ptr g ∧ k = .read) ∨ (∃ s' dest, f = .add g s' dest .write ∧ l = .idx s' ∧ k = .update) ∨ (l = .vec b ∧ k = .read) := by
    intro l k h
    simp only [List.mem_append, List.mem_cons, List.not_mem_nil, or_false, reduceCtorEq, Mem.acc.injEq] at h
    rcases h with h | h
    · rcases hp with rfl | ⟨s', dest, e1, rfl⟩
      · simp only [List.mem_cons, List.not_mem_nil, or_false, reduceCtorEq, Mem.acc.injEq] at h; exact .inl h
      · simp only [List.mem_cons, List.not_mem_nil, or_false, Mem.acc.injEq] at h; exact .inr (.inl ⟨s', dest, e1, h⟩)
    · exact .inr (.inr h)
  refine H.next hr R (Eff.ofLists (run_grows _) (fun t' => stacks_other R) ?_ hs ?_ ?_ ?_ ?_ ?_ ?_) ?_ ?_
  · intro g' n hn
    by_cases eg : g' = g
    · subst eg
      rw [sigK_held hm] at hn
      rw [sigK_free hm']
      exact run_unlock (by simp) n hn
    · exact sigK_same (by rw [hx]; simp only [World.emitEv, World.setStack, World.setMutex, upd_apply, if_neg eg]) (run_grows _) n hn
  · intro b hb'; left; rw [own_upd e] at hb'; rw [own_top hst]; exact .inr hb'
  · intro b hb'; left; rw [own_upd e]; rw [own_top hst, hb] at hb'; exact hb'.resolve_left (by simp)
  · rw [e, hu.tops.1]; simp
  · rw [e, hu.pend]; simp
  · intro g s h; rw [hlog] at h; exact .inl (by simpa using h)
  · intro g s; rw [hlo]; exact .inl
  · intro a ha ho h1 h2 h3
    have hM : a.n ∈ sigK w' (h.run c t (pre ++ [.acc (.vec b) .read, .unlock g])) g := by
      rw [sigK_free hm']
      rw [split] at ha ⊢
      exact new_unlock ha ho (by simp)
    rcases acc _ _ h1 with h4 | ⟨s', dest, ef, h4⟩ | h4
    · refine .newPtr h4.1 h2 h3 (Nat.lt_of_lt_of_le (held_lt hr hm) (fixed R).nSigs) (.inl hM) ?_
      intro t1 g0 pc h5
      by_cases ht : t1 = t
      · subst ht; rw [e, hu.tops.2.1] at h5; cases h5
      · rw [stacks_other R ht] at h5; exact (held_bld hr hm h5).elim
    · have hp : topPend (w.stacks t) = some (g, s') := by rw [hst, ef]; rfl
      have none := I.i3.pend t g s' hp
      refine .newIdx h4.1 h2 h3 (Nat.lt_of_lt_of_le (I.i3.pendlt t g s' hp) (fixed R).nSlots) ?_ ?_ ?_
      · intro t1 g1 h5
        by_cases ht : t1 = t
        · subst ht; rw [e, hu.pend] at h5; cases h5
        · rw [stacks_other R ht] at h5; exact absurd (I.i3.pendu _ _ _ _ _ h5 hp) ht
      · intro g1 h5 _
        rw [hlog] at h5
        have := added_count (by simpa using h5 : Event.added g1 s' ∈ w.log); omega
      · intro g1 h5
        rw [hlo] at h5
        have := (I.i3.listed g1 s' h5).1; omega
    · refine .newVec h4.1 h2 h3 (hr'.full.i.i1.lst g b (by rw [hs]; exact hl)) ?_ ?_ ?_
      · rw [h4.2]; intro h; cases h
      · intro _; exact .inl ⟨g, by rw [hs]; exact hl, hM⟩
      · intro t1 g1 h5 h6
        rw [hs] at h6
        rw [I.i2.uniq g1 g b h6 hl] at h5
        have := (hr'.full.i.i1.mtx g t1).2 (topW_locks h5)
        rw [hm'] at this; cases this
  · intro pre post e a _ h1 A _ h4 h5 h6 hn
    have kn : e.n ∈ h.K t → Good c h e a := fun h => absurd ((run_grows pre).K _ _ h) h6
    rcases acc _ _ h1 with h7 | ⟨s', dest, ef, h7⟩ | h7
    · exact kn (A.ptrK hr hm (h4.trans h7.1))
    · exact kn (A.ip t g s' (by rw [hst, ef]; rfl) (h4.trans h7.1))
    · rw [h7.2] at h5
      exact kn (A.readK hm hl (h4.trans h7.1) (by simpa [Site.writes] using h5))

theorem HInv.step {ops : List Mem} (hr : Reachable E w) (hr' : Reachable E w') (R : StepR E w t w') (F : StepF E w t w' ops)
    (H : HInv c w h) : Next c h w' (h.run c t ops) := by
  cases F with
  | ub u => exact H.ub
  | quiet w' st ops hf q => exact H.quiet hr R hf q
  | newSig v hu => exact H.newSig hr rfl R
  | destroy g w' ops hu hg ha hm hw ho => exact H.destroy hr hr' ha hm hw ho R
  | movStart g hu hg ha => exact H.movStart hr hu rfl R
  | connStart g fn consume conn blk dest hu hg => exact H.connStart hr hu rfl R
  | acq f f' rest g hst hf ha hm => exact H.acq hr hst hf hm R
  | tst f f' rest g b pre hst hf hl hp => exact H.tst hr hst hf hl hp rfl hr' R
  | det w' f f' rest g b hst hf hl hw => exact H.det hr hst hf hl hw hr' R
  | emCopy m rest hst => exact H.emCopy hr hst R
  | emSnap m b rest hst => exact H.emSnap hr hst rfl hr' R
  | walk w' st m b pos acc rest hst q => exact H.walk hr hr' R ((own_top hst).2 (.inl rfl)) q
  | emEnd w' pre f0 m b pos acc rest evs hst h0 ht hu hw he hp => exact H.emEnd hr hr' hst h0 hu hw he hp R
  | addWrite g s dest rest b hst hl => exact H.addWrite hr hst hl rfl hr' R
  | scan f f' rest g b hst hw hw' hp hp' hb hb' hl => exact H.scan hr hst hw hw' hp' hb hb' hl rfl hr' R
  | rem w' f f' rest g b i v ev hst hw hw' hp hp' hb hb' hl hi hev e => exact H.rem hr hst hw hw' hp' hb hb' hl hi hev e hr' R
  | unlock w' f rest st g hst hl hb hp hu h1 h2 h3 h4 h5 h6 h7 =>
    refine H.unlock hr hst hl hb hu ?_ ?_ h2 h6 h7 R
    · intro x; rw [h1]; simp only [World.setMutex, upd_apply]; split
      · rename_i e; subst e; rfl
      · rfl
    · intro x; rw [h1]; simp only [World.setMutex, upd_apply]; split <;> rfl
  | fail f rest g s b pre hst hf hl hp => exact H.fail hr hst hf hl hp rfl hr' R
  | movWrite g' g rest hst => exact H.movWrite hr hst rfl hr' R
  | movUnlock g' g rest hst =>
    have I := hr.full.i
    have rg := I.i1.rng t (.mov g' g .unlock) (by rw [hst]; exact List.mem_cons_self)
    have ne : g' ≠ g := rg.2.2
    have hu : UserStk rest := (hst ▸ I.i1.stk t).tail rfl
    refine H.unlock (st := rest) hr hst rfl rfl ⟨hu.tops.1, hu.pend, fun _ => Iff.rfl⟩ ?_ ?_ rfl rfl (fun _ _ => Iff.rfl) R
    · intro x; simp only [upd_apply, if_neg ne]; split
      · rename_i e; subst e; rfl
      · split
        · rename_i e; subst e; rfl
        · rfl
    · intro x; simp only [upd_apply, if_neg ne]; split
      · rename_i e; subst e; rw [if_neg ne]
      · split <;> rfl

variable {tr : List Op}

theorem Traced.reach (h : Traced E w tr) : Reachable E w := by
  induction h with
  | init n => exact ⟨n, .refl _⟩
  | step l _ hs ih => exact ih.step hs

theorem Traced.next {l : Label} (hr : Traced E w tr) (hs : Verif.step E w l = some w') (H : HInv c w (HB.of c tr)) :
    Next c (HB.of c tr) w' (HB.of c (tr ++ (foot E w w' l).map (l.tid, ·))) := by
  rw [of_run]
  exact H.step hr.reach (hr.reach.step hs) (step_inv hs).2.2 (step_foot hr.reach.full.i.i1 hs)

theorem Traced.inv (h : Traced E w tr) : HInv c w (HB.of c tr) := by
  induction h with
  | init n => intro a ha; cases ha
  | step l hr hs ih => exact (hr.next hs ih).inv

/-- Every race is of that kind, and the emission gave the vector up before the second access. -/
theorem Traced.races (h : Traced E w tr) {e a : Acc} (hm : (e, a) ∈ (HB.of c tr).races) :
    c.count = false ∧ ∃ b, e.loc = .vec b ∧ e.site = .walk ∧ a.site = .update ∧
      ∃ m t' l, m < a.n ∧ tr[m]? = some (t', .drop b l) ∧ Before c tr e.n m := by
  induction h with
  | init n => cases hm
  | @step w w' tr l hr hs ih =>
    rcases (hr.next hs hr.inv).races e a hm with h1 | ⟨h1, b, h2, h3, h4, h5, h6⟩
    · obtain ⟨h1, b, h2, h3, h4, m, t', l, h5, h6, h7⟩ := ih h1
      exact ⟨h1, b, h2, h3, h4, m, t', l, h5, get_app _ h6, h7.mono _⟩
    · obtain ⟨m, t', l, h7, h8⟩ := (Clock.of tr).R b _ h5
      refine ⟨h1, b, h2, h3, h4, m, t', l, ?_, get_app _ h7, h8.mono _⟩
      have := get_lt h7
      rw [(Clock.of tr).n] at h6
      omega

end Verif
