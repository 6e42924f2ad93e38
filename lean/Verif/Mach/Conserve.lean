import Verif.Mach.Lists

/-!
# Lists are what the history says, listeners are conserved, stored positions are right
-/

namespace Verif

/-- A `connect` that has not yet put its listener into the list. -/
def topPend : List Frame → Option (SigId × SlotId)
  | .add _ _ _ .unlock :: _ => none
  | .add g s _ _ :: _ => some (g, s)
  | _ => none

theorem UserStk.topPend {st : List Frame} (h : UserStk st) : topPend st = none := by
  cases h <;> rfl

theorem userCtx_topPend {st : List Frame} (h : userCtx st = true) : topPend st = none := by
  unfold userCtx at h; split at h <;> first | rfl | cases h

def PendOk (w : World) (t : Tid) (w' : World) : Prop :=
  ∀ t' x, topPend (w'.stacks t') = some x →
    (topPend (w.stacks t') = some x ∧
      ¬ (t' = t ∧ ∃ d rest, w.stacks t = .add x.1 x.2 d .write :: rest)) ∨
    (t' = t ∧ x.2 = w.nSlots ∧ w'.nSlots = w.nSlots + 1)

theorem PendOk.none {w w' : World} {t : Tid} {st : List Frame} (hs : w'.stacks = upd w.stacks t st)
    (h : topPend st = none) : PendOk w t w' := by
  intro t' x hx
  rw [hs, upd_apply] at hx
  split at hx
  · rw [h] at hx; cases hx
  · rename_i n; exact .inl ⟨hx, fun a => n a.1⟩

theorem PendOk.refl {w w' : World} {t : Tid} (hs : w'.stacks = w.stacks) (hu : topPend (w.stacks t) = .none) :
    PendOk w t w' := by
  intro t' x hx
  rw [hs] at hx
  refine .inl ⟨hx, ?_⟩
  rintro ⟨rfl, -⟩
  rw [hu] at hx; cases hx

theorem pendOk {E : Env} {w w' : World} {t : Tid} (I : Inv1 w) (h : StepR E w t w') (hub : w'.ub = none) :
    PendOk w t w' := by
  have hok := I.stk t
  cases h
  case ub => simp [World.setUB] at hub
  case hand cv sv bv hu hs => exact .refl rfl (userCtx_topPend hu)
  case flag s c cv sv bv hu hs hh ha => exact .refl rfl (userCtx_topPend hu)
  case objs f n hu hn hd => exact .refl rfl (userCtx_topPend hu)
  case pins hu hp => exact .refl rfl (userCtx_topPend hu)
  case newSig v hu => exact .refl rfl (userCtx_topPend hu)
  case destroy g hu hg ha hm => exact .refl rfl (userCtx_topPend hu)
  case movStart => exact .none rfl rfl
  case connStart g fn consume conn blk dest hu hg ho =>
    intro t' x hx
    simp only [World.emitEv, World.setStack, upd_apply] at hx
    split at hx
    · rename_i e; simp [topPend] at hx; subst hx; exact .inr ⟨e, rfl, rfl⟩
    · rename_i n; exact .inl ⟨hx, fun a => n a.1⟩
  case emitStart => exact .none rfl rfl
  case eraseStart => exact .none rfl rfl
  case discPush => exact .none rfl rfl
  case discFail h' cv sv bv hu hs => exact .refl rfl (userCtx_topPend hu)
  case acq f f' rest g hst hf ha hm =>
    intro t' x hx
    simp only [World.setStack, World.setMutex, upd_apply] at hx
    split at hx
    · rename_i e; subst e
      rw [hst]
      unfold Frame.acq at hf
      split at hf <;> simp at hf <;> obtain ⟨rfl, rfl⟩ := hf <;> simp [topPend] at hx
      subst hx
      exact .inl ⟨rfl, by simp⟩
    · rename_i n; exact .inl ⟨hx, fun a => n a.1⟩
  case tst f f' rest g b hst hf hl =>
    intro t' x hx
    have : (w.setStack t (f' :: rest)).stacks = upd w.stacks t (f' :: rest) := by
      rfl
    rw [this, upd_apply] at hx
    split at hx
    · rename_i e; subst e
      rw [hst]
      revert hf
      cases w.shared g b <;> intro hf <;> unfold Frame.tst at hf <;>
        split at hf <;> simp at hf <;> obtain ⟨rfl, rfl⟩ := hf <;> simp [topPend] at hx
      all_goals
        subst hx
        exact .inl ⟨rfl, by simp⟩
    · rename_i n; exact .inl ⟨hx, fun a => n a.1⟩
  case det f f' rest g b hst hf hl =>
    intro t' x hx
    have : ((cloneBlk w g b).setStack t (f' :: rest)).stacks = upd w.stacks t (f' :: rest) := by
      rfl
    rw [this, upd_apply] at hx
    split at hx
    · rename_i e; subst e
      rw [hst]
      unfold Frame.det at hf
      split at hf <;> simp at hf <;> obtain ⟨rfl, rfl⟩ := hf <;> simp [topPend] at hx
      subst hx
      exact .inl ⟨rfl, by simp⟩
    · rename_i n; exact .inl ⟨hx, fun a => n a.1⟩
  case emSupp m rest hst ha hb => rw [hst] at hok; exact .none rfl (hok.tail rfl).topPend
  case emPass => exact .none rfl rfl
  case emCopy => exact .none rfl rfl
  case emSnap => exact .none rfl rfl
  case emCall => exact .none rfl rfl
  case emDone m b pos acc r rest hst hp => rw [hst] at hok; exact .none rfl (hok.tail rfl).topPend
  case combThrow m b pos acc rest hst hc => rw [hst] at hok; exact .none rfl (hok.tail rfl).topPend
  case callUnblk => exact .none rfl rfl
  case callConn => exact .none rfl rfl
  case callConnT => exact .none rfl rfl
  case callLock => exact .none rfl rfl
  case callSkip => exact .none rfl rfl
  case callExpired => exact .none rfl rfl
  case callEnter => exact .none rfl rfl
  case callRet => exact .none rfl rfl
  case callCatch => exact .none rfl rfl
  case callThrow s o m b pos acc rest hst => rw [hst] at hok; exact .none rfl hok.callTail.topPend
  case addWrite => exact .none rfl rfl
  case addUnlock g s dest rest cv sv bv hst hs => rw [hst] at hok; exact .none rfl (hok.tail rfl).topPend
  case eraseEnd => exact .none rfl rfl
  case eraseThrow => exact .none rfl rfl
  case eraseMiss => exact .none rfl rfl
  case eraseHit g tgt i cnt rest b s hst hl hi he =>
    refine .none (st := .erase g tgt (.scan i (cnt + 1)) :: rest) ?_ rfl
    simp only [World.emitEv, World.setStack, (removeAt_same w b i).2.2.2.2.2.2.1]
  case fail f rest g s hst hf => rw [hst] at hok; exact .none rfl (hok.tail (Frame.allocs_isCall hf)).topPend
  case eraseUnlock g tgt r rest hst => rw [hst] at hok; exact .none rfl (hok.tail rfl).topPend
  case exchTrue => exact .none rfl rfl
  case exchFalse s k rest cv sv bv hst hc hs => rw [hst] at hok; exact .none rfl (hok.tail rfl).topPend
  case discWrite s v k rest g b hst hl hi =>
    refine .none (st := .disc s k (.crit g .unlock) :: rest) ?_ rfl
    simp only [World.emitEv, World.setStack, (removeAt_same w b _).2.2.2.2.2.2.1]
  case discMiss => exact .none rfl rfl
  case discUnlock s k rest g hst => exact .none rfl rfl
  case discDrop s k rest g cv sv bv hst hs => rw [hst] at hok; exact .none rfl (hok.tail rfl).topPend
  case movWrite => exact .none rfl rfl
  case movUnlock g' g rest hst => rw [hst] at hok; exact .none rfl (hok.tail rfl).topPend

theorem nSlots_le {E : Env} {w w' : World} {t : Tid} (h : StepR E w t w') : w.nSlots ≤ w'.nSlots := by
  cases h <;> first | exact Nat.le_refl _ | exact Nat.le_succ _ | skip
  · exact Nat.le_of_eq (removeAt_same _ _ _).2.2.2.1.symm
  · exact Nat.le_of_eq (removeAt_same _ _ _).2.2.2.1.symm

/-! ### Lists without repetition -/

theorem nodup_of_index {l : List SlotId} {ix : SlotId → Nat}
    (h : ∀ i s, l[i]? = some s → ix s = i) : l.Nodup := by
  rw [List.Nodup, List.pairwise_iff_getElem]
  intro i j hi hj hij he
  have a := h i _ (List.getElem?_eq_getElem hi)
  have b := h j _ (List.getElem?_eq_getElem hj)
  rw [he] at a; omega

theorem swapPop_takeOut {l : List SlotId} {i : Nat} {v : SlotId} (hn : l.Nodup) (hv : l[i]? = some v) :
    Vec.swapPop l i = takeOut v l := by
  obtain ⟨hi, hv⟩ := List.getElem?_eq_some_iff.1 hv
  rw [Vec.swapPop_eq l i hi, takeOut]
  congr 1
  apply List.ext_getElem
  · simp
  · intro n h1 h2
    simp only [List.length_set] at h1
    rw [List.getElem_set, List.getElem_map]
    have hlast : l.getLast?.getD v = l[l.length - 1]'(by omega) := by
      rw [List.getLast?_eq_getElem?, List.getElem?_eq_getElem (by omega)]; rfl
    by_cases e : i = n
    · subst e; simp [hv, hlast]
    · rw [if_neg e, if_neg]
      intro h
      exact e ((List.getElem_inj hn).1 (hv.trans h.symm))

theorem mem_swapPop_iff {l : List SlotId} {i : Nat} {v x : SlotId} (hn : l.Nodup) (hv : l[i]? = some v) :
    x ∈ Vec.swapPop l i ↔ x ∈ l ∧ x ≠ v := by
  obtain ⟨hi, hv⟩ := List.getElem?_eq_some_iff.1 hv
  have hp := Vec.swapPop_perm l i hi
  rw [hv] at hp
  have hn' := hp.nodup_iff.2 hn
  rw [List.nodup_cons] at hn'
  rw [← hp.mem_iff, List.mem_cons]
  constructor
  · intro h; exact ⟨.inr h, by rintro rfl; exact hn'.1 h⟩
  · rintro ⟨rfl | h, n⟩
    · exact absurd rfl n
    · exact h

theorem replay_quiet {evs log : List Event} (h : ∀ e ∈ evs, e.isList = false) :
    replay (evs ++ log) = replay log := by
  induction evs with
  | nil => rfl
  | cons e evs ih =>
    have := h e (by simp)
    have ih := ih fun x hx => h x (List.mem_cons_of_mem _ hx)
    cases e <;> simp [Event.isList] at this <;> exact ih

theorem home_quiet {evs log : List Event} {x : SlotId} (h : ∀ e ∈ evs, e.isList = false) :
    home (evs ++ log) x = home log x := by
  induction evs with
  | nil => rfl
  | cons e evs ih =>
    have := h e (by simp)
    have ih := ih fun x hx => h x (List.mem_cons_of_mem _ hx)
    cases e <;> simp [Event.isList] at this <;> exact ih

theorem countP_quiet {evs log : List Event} {p : Event → Bool} (h : ∀ e ∈ evs, e.isList = false)
    (hp : ∀ e, p e = true → e.isList = true) : (evs ++ log).countP p = log.countP p := by
  rw [List.countP_append]
  have : evs.countP p = 0 := by
    rw [List.countP_eq_zero]
    intro e he hpe
    have := hp e hpe
    rw [h e he] at this; cases this
  omega

theorem adds_isList (s : SlotId) (e : Event) (h : e.adds s = true) : e.isList = true := by
  cases e <;> simp [Event.adds] at h; rfl

theorem takes_isList (s : SlotId) (e : Event) (h : e.takes s = true) : e.isList = true := by
  cases e <;> simp [Event.takes] at h <;> rfl

structure Inv3 (w : World) : Prop where
  idx : ∀ g i s, (w.listOf g)[i]? = some s → (w.slots s).index = i
  hom : ∀ g s, s ∈ w.listOf g ↔ home w.log s = some g
  rep : ∀ g, w.listOf g = replay w.log g
  addlt : ∀ s, 0 < w.log.countP (Event.adds s) → s < w.nSlots
  adds : ∀ s, w.log.countP (Event.adds s) ≤ 1
  takes : ∀ s, w.log.countP (Event.takes s) ≤ w.log.countP (Event.adds s)
  listed : ∀ g s, s ∈ w.listOf g → w.log.countP (Event.adds s) = 1 ∧ w.log.countP (Event.takes s) = 0
  pend : ∀ t g s, topPend (w.stacks t) = some (g, s) → w.log.countP (Event.adds s) = 0
  pendu : ∀ t t' g g' s, topPend (w.stacks t) = some (g, s) → topPend (w.stacks t') = some (g', s) → t = t'
  pendlt : ∀ t g s, topPend (w.stacks t) = some (g, s) → s < w.nSlots

theorem Inv3.nodup {w : World} (K : Inv3 w) (g : SigId) : (w.listOf g).Nodup :=
  nodup_of_index (ix := fun s => (w.slots s).index) (K.idx g)

theorem Inv3.disj {w : World} (K : Inv3 w) {g g' : SigId} {s : SlotId} (h : s ∈ w.listOf g)
    (h' : s ∈ w.listOf g') : g = g' := by
  rw [K.hom] at h h'; rw [h] at h'; injection h'

theorem Inv3.lt {w : World} (K : Inv3 w) {g : SigId} {s : SlotId} (h : s ∈ w.listOf g) : s < w.nSlots :=
  K.addlt s (by have := (K.listed g s h).1; omega)

theorem Inv3.init (n : Nat) : Inv3 (World.init n) where
  idx := by simp [World.init, World.listOf]
  hom := by simp [World.init, World.listOf, home]
  rep := by simp [World.init, World.listOf, replay]
  addlt := by simp [World.init]
  adds := by simp [World.init]
  takes := by simp [World.init]
  listed := by simp [World.init, World.listOf]
  pend := by simp [World.init, topPend]
  pendu := by simp [World.init, topPend]
  pendlt := by simp [World.init, topPend]

theorem Inv3.step {E : Env} {w w' : World} {t : Tid} (I : Inv1 w) (J : Inv2 w) (K : Inv3 w)
    (h : StepR E w t w') (hub : w'.ub = none) : Inv3 w' := by
  have hp := pendOk I h hub
  have hns := nSlots_le h
  have fresh : ∀ s, w.nSlots ≤ s → w.log.countP (Event.adds s) = 0 := by
    intro s hs
    rcases Nat.eq_zero_or_pos (w.log.countP (Event.adds s)) with h | h
    · exact h
    · have := K.addlt s h; omega
  have pendlt' : ∀ t' g s, topPend (w'.stacks t') = some (g, s) → s < w'.nSlots := by
    intro t' g s hx
    rcases hp t' _ hx with ⟨a, -⟩ | ⟨-, a, b⟩
    · have := K.pendlt _ _ _ a; omega
    · simp only at a; omega
  have pendu' : ∀ t1 t2 g g' s, topPend (w'.stacks t1) = some (g, s) →
      topPend (w'.stacks t2) = some (g', s) → t1 = t2 := by
    intro t1 t2 g g' s h1 h2
    rcases hp _ _ h1 with ⟨a, -⟩ | ⟨a, b, c⟩ <;> rcases hp _ _ h2 with ⟨a', -⟩ | ⟨a', b', c'⟩
    · exact K.pendu _ _ _ _ _ a a'
    · have := K.pendlt _ _ _ a; simp only at b'; omega
    · have := K.pendlt _ _ _ a'; simp only at b; omega
    · omega
  -- events that are not `added` keep the pending part
  have pend' : (∀ s, w'.log.countP (Event.adds s) = w.log.countP (Event.adds s)) →
      ∀ t' g s, topPend (w'.stacks t') = some (g, s) → w'.log.countP (Event.adds s) = 0 := by
    intro hc t' g s hx
    rw [hc]
    rcases hp t' _ hx with ⟨a, -⟩ | ⟨-, a, b⟩
    · exact K.pend _ _ _ a
    · exact fresh s (by simp only at a; omega)
  cases listEff I J h with
  | same hl hi hlog =>
    obtain ⟨evs, hlog, hq⟩ := hlog
    have ca : ∀ s, w'.log.countP (Event.adds s) = w.log.countP (Event.adds s) := by
      intro s; rw [hlog]; exact countP_quiet hq (adds_isList s)
    have ct : ∀ s, w'.log.countP (Event.takes s) = w.log.countP (Event.takes s) := by
      intro s; rw [hlog]; exact countP_quiet hq (takes_isList s)
    refine ⟨?_, ?_, ?_, ?_, ?_, ?_, ?_, pend' ca, pendu', pendlt'⟩
    · intro g i s hs; rw [hl] at hs
      rw [hi s (K.lt (List.mem_of_getElem? hs))]; exact K.idx g i s hs
    · intro g s; rw [hl, hlog, home_quiet hq]; exact K.hom g s
    · intro g; rw [hl, hlog, replay_quiet hq]; exact K.rep g
    · intro s hs; rw [ca] at hs; have := K.addlt s hs; omega
    · intro s; rw [ca]; exact K.adds s
    · intro s; rw [ca, ct]; exact K.takes s
    · intro g s hs; rw [hl] at hs; rw [ca, ct]; exact K.listed g s hs
  | add g s b dest rest hst hb hl hi hlog =>
    have hpe : topPend (w.stacks t) = some (g, s) := by rw [hst]; rfl
    have hs0 := K.pend _ _ _ hpe
    have hsn := K.pendlt _ _ _ hpe
    have ht0 : w.log.countP (Event.takes s) = 0 := by have := K.takes s; omega
    have hsl : ∀ g, s ∉ w.listOf g := by
      intro g' hm; have := (K.listed g' s hm).1; omega
    have ca : ∀ s', w'.log.countP (Event.adds s') = w.log.countP (Event.adds s') + if s' = s then 1 else 0 := by
      intro s'; rw [hlog, List.countP_cons]; simp [Event.adds]
      by_cases e : s = s' <;> simp [e, eq_comm]
    have ct : ∀ s', w'.log.countP (Event.takes s') = w.log.countP (Event.takes s') := by
      intro s'; rw [hlog, List.countP_cons]; simp [Event.takes]
    refine ⟨?_, ?_, ?_, ?_, ?_, ?_, ?_, ?_, pendu', pendlt'⟩
    · intro g' i s' hs'
      rw [hl] at hs'; rw [hi]
      split at hs'
      · rename_i e; subst e
        rcases Nat.lt_or_ge i (w.listOf g').length with h | h
        · rw [List.getElem?_append_left h] at hs'
          rw [if_neg]
          · exact K.idx _ _ _ hs'
          · rintro rfl; exact hsl _ (List.mem_of_getElem? hs')
        · rw [List.getElem?_append_right h] at hs'
          have : i - (w.listOf g').length = 0 := by
            rcases Nat.eq_zero_or_pos (i - (w.listOf g').length) with h | h
            · exact h
            · rw [List.getElem?_eq_none (by simp; omega)] at hs'; cases hs'
          rw [this] at hs'; simp at hs'; subst hs'
          rw [if_pos rfl]; omega
      · rw [if_neg]
        · exact K.idx _ _ _ hs'
        · rintro rfl; exact hsl _ (List.mem_of_getElem? hs')
    · intro g' s'
      rw [hl, hlog]
      simp only [home]
      by_cases e : s' = s
      · subst e
        rw [if_pos rfl]
        by_cases e' : g' = g
        · subst e'; simp
        · rw [if_neg e']; constructor
          · intro h; exact absurd h (hsl g')
          · intro h; injection h with h; exact absurd h.symm e'
      · rw [if_neg e, ← K.hom g' s']
        split
        · rename_i e'; subst e'; simp [e]
        · rfl
    · intro g'
      rw [hl, hlog]; simp only [replay, upd_apply]
      split
      · rw [K.rep g]
      · exact K.rep g'
    · intro s' h
      rw [ca] at h
      by_cases e : s' = s
      · omega
      · rw [if_neg e] at h; have := K.addlt s' h; omega
    · intro s'; rw [ca]; have := K.adds s'
      split
      · rename_i e; subst e; omega
      · omega
    · intro s'; rw [ca, ct]; have := K.takes s'; omega
    · intro g' s' hs'
      rw [ca, ct]
      by_cases e : s' = s
      · subst e; rw [if_pos rfl]; omega
      · rw [if_neg e]
        refine K.listed g' s' ?_
        rw [hl] at hs'
        split at hs'
        · rename_i e'; subst e'; simpa [e] using hs'
        · exact hs'
    · intro t' g' s' hx
      rw [ca]
      rcases hp t' _ hx with ⟨a, n⟩ | ⟨-, a, c⟩
      · rw [if_neg]
        · exact K.pend _ _ _ a
        · rintro rfl
          have e := K.pendu _ _ _ _ _ a hpe; subst e
          rw [hpe] at a; simp at a; subst a
          exact n ⟨rfl, dest, rest, hst⟩
      · simp only at a
        rw [if_neg (by omega)]; exact fresh s' (by omega)
  | rem g i v ev hst hv hl hi hev hlog =>
    have hvm : v ∈ w.listOf g := List.mem_of_getElem? hv
    have hlt := (List.getElem?_eq_some_iff.1 hv).1
    obtain ⟨va, vt⟩ := K.listed g v hvm
    have ca : ∀ s', w'.log.countP (Event.adds s') = w.log.countP (Event.adds s') := by
      intro s'; rw [hlog, List.countP_cons]
      rcases hev with rfl | ⟨_, rfl⟩ <;> simp [Event.adds]
    have ct : ∀ s', w'.log.countP (Event.takes s') = w.log.countP (Event.takes s') + if s' = v then 1 else 0 := by
      intro s'; rw [hlog, List.countP_cons]
      rcases hev with rfl | ⟨_, rfl⟩ <;> simp [Event.takes] <;> by_cases e : v = s' <;> simp [e, eq_comm]
    have hmem : ∀ g' s', s' ∈ w'.listOf g' ↔ s' ∈ w.listOf g' ∧ s' ≠ v := by
      intro g' s'
      rw [hl]
      split
      · rename_i e; subst e; exact mem_swapPop_iff (K.nodup g') hv
      · rename_i e
        constructor
        · intro h; refine ⟨h, ?_⟩; rintro rfl; exact e (K.disj h hvm)
        · exact fun h => h.1
    refine ⟨?_, ?_, ?_, ?_, ?_, ?_, ?_, pend' ca, pendu', pendlt'⟩
    · intro g' j s' hs'
      rw [hl] at hs'; rw [hi]
      split at hs'
      · rename_i e; subst e
        rw [Vec.getElem?_swapPop _ _ hlt] at hs'
        split at hs'
        · rename_i hj
          split at hs'
          · rename_i e; subst e; rw [if_pos hs']
          · rw [if_neg]
            · exact K.idx _ _ _ hs'
            · intro h
              have a := K.idx _ _ _ h
              have b := K.idx _ _ _ hs'
              omega
        · cases hs'
      · rename_i e
        rw [if_neg]
        · exact K.idx _ _ _ hs'
        · intro h; exact e (K.disj (List.mem_of_getElem? hs') (List.mem_of_getElem? h))
    · intro g' s'
      rw [hmem, K.hom, hlog]
      rcases hev with rfl | ⟨_, rfl⟩ <;> simp only [home] <;> by_cases e : s' = v <;> simp [e]
    · intro g'
      rw [hl, hlog]
      rcases hev with rfl | ⟨_, rfl⟩ <;> simp only [replay, upd_apply] <;> split
      all_goals first | exact K.rep g' | (rw [← K.rep g]; exact swapPop_takeOut (K.nodup g) hv)
    · intro s' h; rw [ca] at h; have := K.addlt s' h; omega
    · intro s'; rw [ca]; exact K.adds s'
    · intro s'; rw [ca, ct]
      split
      · rename_i e; subst e; omega
      · exact K.takes s'
    · intro g' s' hs'
      rw [hmem] at hs'
      rw [ca, ct, if_neg hs'.2]; exact K.listed g' s' hs'.1
  | move g g' hne hst h0 hd hl hi hlog =>
    have ca : ∀ s', w'.log.countP (Event.adds s') = w.log.countP (Event.adds s') := by
      intro s'; rw [hlog, List.countP_cons]; simp [Event.adds]
    have ct : ∀ s', w'.log.countP (Event.takes s') = w.log.countP (Event.takes s') := by
      intro s'; rw [hlog, List.countP_cons]; simp [Event.takes]
    refine ⟨?_, ?_, ?_, ?_, ?_, ?_, ?_, pend' ca, pendu', pendlt'⟩
    · intro x i s hs
      rw [hl] at hs; rw [hi]
      split at hs
      · simp at hs
      · split at hs
        · exact K.idx _ _ _ hs
        · exact K.idx _ _ _ hs
    · intro x s
      rw [hl, hlog]; simp only [home]
      have hg := K.hom g s
      have hg' := K.hom g' s
      have hx := K.hom x s
      rw [h0] at hg'
      by_cases e : home w.log s = some g
      · rw [if_pos e]
        split
        · rename_i e'; subst e'; simp; exact hne
        · split
          · rename_i e'; subst e'; simp; exact hg.2 e
          · rename_i n1 n2
            constructor
            · intro h; exact absurd (K.disj h (hg.2 e)) n1
            · intro h; injection h with h; exact absurd h.symm n2
      · rw [if_neg e]
        split
        · rename_i e'; subst e'; simp; exact e
        · split
          · rename_i e'; subst e'
            constructor
            · intro h; exact absurd (hg.1 h) e
            · intro h; have := hg'.2 h; cases this
          · exact hx
    · intro x
      rw [hl, hlog]; simp only [replay, upd_apply]
      split
      · rfl
      · split
        · exact K.rep g
        · exact K.rep x
    · intro s h; rw [ca] at h; have := K.addlt s h; omega
    · intro s; rw [ca]; exact K.adds s
    · intro s; rw [ca, ct]; exact K.takes s
    · intro x s hs
      rw [ca, ct]; rw [hl] at hs
      split at hs
      · cases hs
      · split at hs
        · exact K.listed _ _ hs
        · exact K.listed _ _ hs
  | destroy g hm hl hi hlog =>
    have ca : ∀ s', w'.log.countP (Event.adds s') = w.log.countP (Event.adds s') := by
      intro s'; rw [hlog, List.countP_cons]; simp [Event.adds]
    have ct : ∀ s', w'.log.countP (Event.takes s') = w.log.countP (Event.takes s') := by
      intro s'; rw [hlog, List.countP_cons]; simp [Event.takes]
    refine ⟨?_, ?_, ?_, ?_, ?_, ?_, ?_, pend' ca, pendu', pendlt'⟩
    · intro x i s hs
      rw [hl] at hs; rw [hi]
      split at hs
      · simp at hs
      · exact K.idx _ _ _ hs
    · intro x s
      rw [hl, hlog]; simp only [home]
      have hg := K.hom g s
      have hx := K.hom x s
      by_cases e : home w.log s = some g
      · rw [if_pos e]
        split
        · simp
        · rename_i n
          constructor
          · intro h; exact absurd (K.disj h (hg.2 e)) n
          · intro h; cases h
      · rw [if_neg e]
        split
        · rename_i e'; subst e'; simp; exact e
        · exact hx
    · intro x
      rw [hl, hlog]; simp only [replay, upd_apply]
      split
      · rfl
      · exact K.rep x
    · intro s h; rw [ca] at h; have := K.addlt s h; omega
    · intro s; rw [ca]; exact K.adds s
    · intro s; rw [ca, ct]; exact K.takes s
    · intro x s hs
      rw [ca, ct]; rw [hl] at hs
      split at hs
      · cases hs
      · exact K.listed _ _ hs

end Verif
