import Verif.Mach.StepR

/-!
# Structural invariant: stack shapes, identifiers in range, who holds which mutex
-/

namespace Verif

/-- Stacks of a thread that is in user code. -/
inductive UserStk : List Frame → Prop where
  | nil : UserStk []
  | body (s : SlotId) (o : Option ObjId) (m : Em) (b : BlkId) (pos : Nat) (acc : Option Val)
      (rest : List Frame) (h : UserStk rest) :
      UserStk (.call s (.body o) :: .emit m (.iter b pos acc) :: rest)
  | comb (m : Em) (b : BlkId) (pos : Nat) (acc : Option Val) (rest : List Frame)
      (hc : m.comb = .custom) (h : UserStk rest) : UserStk (.emit m (.iter b pos acc) :: rest)

def Frame.isCall : Frame → Bool
  | .call _ _ => true
  | _ => false

theorem Frame.allocs_isCall {f : Frame} {g : SigId} {s : Option SlotId} (h : f.allocs = some (g, s)) : f.isCall = false := by
  rcases Frame.allocs_inv h with ⟨_, _, _, rfl, _⟩ | ⟨_, rfl, _⟩ <;> rfl

/-- All stacks that occur. -/
inductive OkStk : List Frame → Prop where
  | user (st) (h : UserStk st) : OkStk st
  | call (s : SlotId) (pc : CallPc) (m : Em) (b : BlkId) (pos : Nat) (acc : Option Val)
      (rest : List Frame) (h : UserStk rest) : OkStk (.call s pc :: .emit m (.iter b pos acc) :: rest)
  | lib (f : Frame) (rest : List Frame) (hf : f.isCall = false) (h : UserStk rest) : OkStk (f :: rest)

theorem OkStk.toUser {st : List Frame} (h : OkStk st) (hu : userCtx st = true) : UserStk st := by
  cases h with
  | user _ h => exact h
  | call s pc m b pos acc rest h =>
    cases pc <;> simp [userCtx] at hu
    exact .body _ _ _ _ _ _ _ h
  | lib f rest hf h =>
    unfold userCtx at hu
    split at hu
    · rename_i e; cases e
    · rename_i e; injection e with e1 e2; subst e1; simp [Frame.isCall] at hf
    · rename_i e; injection e with e1 e2; subst e1; subst e2
      exact .comb _ _ _ _ _ rfl h
    · cases hu

theorem OkStk.tail {f : Frame} {rest : List Frame} (h : OkStk (f :: rest)) (hf : f.isCall = false) :
    UserStk rest := by
  cases h with
  | user _ h =>
    cases h with
    | body => simp [Frame.isCall] at hf
    | comb _ _ _ _ _ _ h => exact h
  | call => simp [Frame.isCall] at hf
  | lib _ _ _ h => exact h

theorem OkStk.callTail {s : SlotId} {pc : CallPc} {m : Em} {p : EmitPc} {rest : List Frame}
    (h : OkStk (.call s pc :: .emit m p :: rest)) : UserStk rest := by
  cases h with
  | user _ h => cases h with | body _ _ _ _ _ _ _ h => exact h
  | call _ _ _ _ _ _ _ h => exact h
  | lib _ _ hf => simp [Frame.isCall] at hf

theorem UserStk.locks {st : List Frame} (h : UserStk st) : ∀ f ∈ st, f.locks = none := by
  induction h with
  | nil => simp
  | body s o m b pos acc rest h ih => simp [Frame.locks]; exact ih
  | comb m b pos acc rest hc h ih => simp [Frame.locks]; exact ih

/-- The mutex held by the top frame. -/
def topLocks : List Frame → Option SigId
  | [] => none
  | f :: _ => f.locks

theorem UserStk.topLocks {st : List Frame} (h : UserStk st) : topLocks st = none := by
  cases h <;> rfl

theorem userCtx_topLocks {st : List Frame} (h : userCtx st = true) : topLocks st = none := by
  unfold userCtx at h; split at h <;> first | rfl | cases h

/-- Signal being locked by a removal. -/
def DiscPc.sig? : DiscPc → Option SigId
  | .crit g _ => some g
  | _ => none

def EmitPc.blk? : EmitPc → Option BlkId
  | .iter b _ _ => some b
  | .unlock b => b
  | _ => none

/-- Identifiers mentioned by a frame are in range. -/
def Frame.inRange (w : World) : Frame → Prop
  | .emit m pc => m.g < w.nSigs ∧ m.e < w.nEm ∧ ∀ b, pc.blk? = some b → b < w.nBlks
  | .call s _ => s < w.nSlots
  | .add g s _ _ => g < w.nSigs ∧ s < w.nSlots
  | .erase g _ _ => g < w.nSigs
  | .disc s _ pc => s < w.nSlots ∧ ∀ g, pc.sig? = some g → g < w.nSigs
  | .mov g' g _ => g' < w.nSigs ∧ g < w.nSigs ∧ g' ≠ g

structure Inv1 (w : World) : Prop where
  stk : ∀ t, OkStk (w.stacks t)
  thr : ∀ t, w.nThr ≤ t → w.stacks t = []
  rng : ∀ t, ∀ f ∈ w.stacks t, f.inRange w
  mtx : ∀ g t, (w.sigs g).mutex = some t ↔ topLocks (w.stacks t) = some g
  lst : ∀ g b, (w.sigs g).list = some b → b < w.nBlks
  out : ∀ g, w.nSigs ≤ g → (w.sigs g).list = none ∧ (w.sigs g).alive = false ∧ (w.sigs g).mutex = none
  own : ∀ s, s < w.nSlots → (w.slots s).owner < w.nSigs
  blk : ∀ b, ∀ s ∈ w.blks b, s < w.nSlots
  hld : ∀ s, w.held s → s < w.nSlots
  bnd : ∀ b, w.nBlks ≤ b → w.blks b = []

theorem Inv1.init (n : Nat) : Inv1 (World.init n) where
  stk _ := .user _ .nil
  thr _ _ := rfl
  rng _ _ h := by simp [World.init] at h
  mtx g t := by simp [World.init, topLocks]
  lst g b h := by simp [World.init] at h
  out g h := ⟨rfl, rfl, rfl⟩
  own s h := by simp [World.init] at h
  blk b s h := by simp [World.init] at h
  hld s h := by simp [World.init, World.held] at h
  bnd _ _ := rfl

theorem Frame.inRange_mono {w w' : World} {f : Frame} (h : f.inRange w) (h1 : w.nSigs ≤ w'.nSigs)
    (h2 : w.nEm ≤ w'.nEm) (h3 : w.nBlks ≤ w'.nBlks) (h4 : w.nSlots ≤ w'.nSlots) : f.inRange w' := by
  cases f <;> simp only [Frame.inRange] at h ⊢
  · exact ⟨by omega, by omega, fun b hb => Nat.lt_of_lt_of_le (h.2.2 b hb) h3⟩
  · omega
  · omega
  · omega
  · exact ⟨by omega, fun g hg => Nat.lt_of_lt_of_le (h.2 g hg) h1⟩
  · omega

/-- Generic preservation of the range part when thread `t`'s stack becomes `st`. -/
theorem rng_upd {w w' : World} {t : Tid} {st : List Frame}
    (h : ∀ t, ∀ f ∈ w.stacks t, f.inRange w) (h1 : w.nSigs ≤ w'.nSigs)
    (h2 : w.nEm ≤ w'.nEm) (h3 : w.nBlks ≤ w'.nBlks) (h4 : w.nSlots ≤ w'.nSlots)
    (hs : w'.stacks = upd w.stacks t st) (hst : ∀ f ∈ st, f.inRange w') :
    ∀ t, ∀ f ∈ w'.stacks t, f.inRange w' := by
  intro t' f hf
  rw [hs, upd_apply] at hf
  split at hf
  · exact hst f hf
  · exact Frame.inRange_mono (h t' f hf) h1 h2 h3 h4

theorem upd_self {α : Type} (f : Nat → α) (a : Nat) : upd f a (f a) = f := by
  funext x; simp [upd]; intro h; rw [h]

theorem mem_swap {α : Type} {l : List α} {i j : Nat} {x : α} (h : x ∈ Vec.swap l i j) : x ∈ l := by
  unfold Vec.swap at h
  split at h
  · rename_i a b ha hb
    rcases List.mem_or_eq_of_mem_set h with h | h
    · rcases List.mem_or_eq_of_mem_set h with h | h
      · exact h
      · subst h; exact List.mem_of_getElem? hb
    · subst h; exact List.mem_of_getElem? ha
  · exact h

theorem mem_swapPop' {α : Type} {l : List α} {i : Nat} {x : α} (h : x ∈ Vec.swapPop l i) : x ∈ l :=
  mem_swap (List.dropLast_subset _ h)


theorem mtx_same {w w' : World} {t : Tid} {st : List Frame}
    (I : ∀ g t, (w.sigs g).mutex = some t ↔ topLocks (w.stacks t) = some g)
    (hs : w'.stacks = upd w.stacks t st) (ht : topLocks st = topLocks (w.stacks t))
    (hg : ∀ g, (w'.sigs g).mutex = (w.sigs g).mutex) :
    ∀ g t, (w'.sigs g).mutex = some t ↔ topLocks (w'.stacks t) = some g := by
  intro g t'
  rw [hg, hs, upd_apply, I]
  split
  · rename_i e; subst e; rw [ht]
  · rfl

theorem mtx_acq {w w' : World} {t : Tid} {st : List Frame} {g0 : SigId}
    (I : ∀ g t, (w.sigs g).mutex = some t ↔ topLocks (w.stacks t) = some g)
    (hs : w'.stacks = upd w.stacks t st) (ht : topLocks (w.stacks t) = none)
    (hm : (w.sigs g0).mutex = none) (hst : topLocks st = some g0)
    (hg : ∀ g, (w'.sigs g).mutex = if g = g0 then some t else (w.sigs g).mutex) :
    ∀ g t, (w'.sigs g).mutex = some t ↔ topLocks (w'.stacks t) = some g := by
  intro g t'
  rw [hg, hs, upd_apply]
  by_cases h1 : g = g0 <;> by_cases h2 : t' = t
  · subst h1; subst h2; simp [hst]
  · subst h1
    have := I g t'
    rw [hm] at this
    simp [h2]
    constructor
    · intro h; exact absurd h.symm h2
    · intro h; rw [← this] at h; cases h
  · subst h2
    have := I g t'
    rw [ht] at this
    simp [h1, hst, this]
    exact fun h => h1 h.symm
  · simp [h1, h2, I]

theorem mtx_rel {w w' : World} {t : Tid} {st : List Frame} {g0 : SigId}
    (I : ∀ g t, (w.sigs g).mutex = some t ↔ topLocks (w.stacks t) = some g)
    (hs : w'.stacks = upd w.stacks t st) (ht : topLocks (w.stacks t) = some g0)
    (hst : topLocks st = none)
    (hg : ∀ g, (w'.sigs g).mutex = if g = g0 then none else (w.sigs g).mutex) :
    ∀ g t, (w'.sigs g).mutex = some t ↔ topLocks (w'.stacks t) = some g := by
  intro g t'
  rw [hg, hs, upd_apply]
  by_cases h1 : g = g0 <;> by_cases h2 : t' = t
  · subst h1; subst h2; simp [hst]
  · subst h1
    simp [h2]
    intro h
    have h3 := (I g t').2 h
    have h4 := (I g t).2 ht
    rw [h3] at h4; injection h4 with h4; exact h2 h4
  · subst h2
    have := I g t'
    rw [ht] at this
    simp [h1, hst, this]
    exact fun h => h1 h.symm
  · simp [h1, h2, I]

theorem Frame.acq_locks {f f' : Frame} {g : SigId} (h : f.acq = some (g, f')) :
    f.locks = none ∧ f'.locks = some g ∧ f.isCall = false ∧ f'.isCall = false := by
  unfold Frame.acq at h
  split at h <;> simp at h <;> obtain ⟨rfl, rfl⟩ := h <;> simp [Frame.locks, Frame.isCall]

theorem Frame.det_locks {f f' : Frame} {g : SigId} (h : f.det = some (g, f')) :
    f.locks = some g ∧ f'.locks = some g ∧ f.isCall = false ∧ f'.isCall = false := by
  unfold Frame.det at h
  split at h <;> simp at h <;> obtain ⟨rfl, rfl⟩ := h <;> simp [Frame.locks, Frame.isCall]

theorem Frame.tst_locks {f f' : Frame} {g : SigId} {c : Bool} (h : f.tst c = some (g, f')) :
    f.locks = some g ∧ f'.locks = some g ∧ f.isCall = false ∧ f'.isCall = false := by
  unfold Frame.tst at h
  split at h <;> simp at h <;> obtain ⟨rfl, rfl⟩ := h <;> cases c <;> simp [Frame.locks, Frame.isCall]

theorem Frame.acq_inRange {f f' : Frame} {g : SigId} {w : World} (h : f.acq = some (g, f'))
    (hr : f.inRange w) : f'.inRange w := by
  unfold Frame.acq at h
  split at h <;> simp at h <;> obtain ⟨rfl, rfl⟩ := h <;>
    simp [Frame.inRange, EmitPc.blk?, DiscPc.sig?] at hr ⊢ <;> assumption

theorem Frame.det_inRange {f f' : Frame} {g : SigId} {w : World} (h : f.det = some (g, f'))
    (hr : f.inRange w) : f'.inRange w := by
  unfold Frame.det at h
  split at h <;> simp at h <;> obtain ⟨rfl, rfl⟩ := h <;>
    simp [Frame.inRange, DiscPc.sig?] at hr ⊢ <;> assumption

theorem Frame.tst_inRange {f f' : Frame} {g : SigId} {c : Bool} {w : World} (h : f.tst c = some (g, f'))
    (hr : f.inRange w) : f'.inRange w := by
  unfold Frame.tst at h
  split at h <;> simp at h <;> obtain ⟨rfl, rfl⟩ := h <;> cases c <;>
    simp [Frame.inRange, DiscPc.sig?] at hr ⊢ <;> assumption

/-- Lemma for the many steps that leave signals, counters and vectors alone. -/
theorem Inv1.same {w w' : World} {t : Tid} {st : List Frame} (I : Inv1 w) (ht : t < w.nThr)
    (hs : w'.stacks = upd w.stacks t st) (hok : OkStk st) (hr : ∀ f ∈ st, f.inRange w)
    (htop : topLocks st = topLocks (w.stacks t))
    (h1 : w'.sigs = w.sigs) (h2 : w'.nSigs = w.nSigs) (h3 : w'.nBlks = w.nBlks)
    (h4 : w'.nSlots = w.nSlots) (h5 : w'.nEm = w.nEm) (h6 : w'.nThr = w.nThr)
    (h7 : ∀ s, (w'.slots s).owner = (w.slots s).owner)
    (h8 : ∀ b, ∀ s ∈ w'.blks b, s < w.nSlots) (h8' : ∀ b, w.nBlks ≤ b → w'.blks b = [])
    (h9 : ∀ s, w'.held s → s < w.nSlots) : Inv1 w' where
  stk t' := by rw [hs, upd_apply]; split <;> first | exact hok | exact I.stk t'
  thr t' h := by
    rw [h6] at h; rw [hs, upd_apply, if_neg (by omega)]; exact I.thr t' h
  rng := rng_upd I.rng (by omega) (by omega) (by omega) (by omega) hs
    (fun f hf => Frame.inRange_mono (hr f hf) (by omega) (by omega) (by omega) (by omega))
  mtx := mtx_same I.mtx hs htop (by simp [h1])
  lst g b h := by rw [h1] at h; rw [h3]; exact I.lst g b h
  out g h := by rw [h1]; exact I.out g (by omega)
  own s h := by rw [h7, h2]; exact I.own s (by omega)
  blk b s h := by rw [h4]; exact h8 b s h
  hld s h := by rw [h4]; exact h9 s h
  bnd b h := h8' b (by omega)


theorem removeAt_same (w : World) (b i : Nat) :
    (removeAt w b i).sigs = w.sigs ∧ (removeAt w b i).nSigs = w.nSigs ∧ (removeAt w b i).nBlks = w.nBlks ∧
    (removeAt w b i).nSlots = w.nSlots ∧ (removeAt w b i).nEm = w.nEm ∧ (removeAt w b i).nThr = w.nThr ∧
    (removeAt w b i).stacks = w.stacks ∧ (removeAt w b i).cv = w.cv ∧ (removeAt w b i).sv = w.sv ∧
    (removeAt w b i).bv = w.bv ∧ (removeAt w b i).log = w.log ∧ (removeAt w b i).objs = w.objs ∧
    (removeAt w b i).nObjs = w.nObjs ∧ (removeAt w b i).ub = w.ub := by
  unfold removeAt; split <;> simp [World.setIndex, World.setBlk]

theorem removeAt_owner (w : World) (b i s : Nat) : ((removeAt w b i).slots s).owner = (w.slots s).owner := by
  unfold removeAt; split <;> simp [World.setIndex, World.setBlk, upd_apply]
  split
  · rename_i h; subst h; rfl
  · rfl

theorem removeAt_blk (w : World) (b i b' s : Nat) (h : s ∈ (removeAt w b i).blks b') : s ∈ w.blks b' := by
  unfold removeAt at h; split at h
  · simp only [World.setBlk, World.setIndex, upd_apply] at h
    split at h
    · rename_i e; subst e; exact mem_swapPop' h
    · exact h
  · exact h

theorem removeAt_bnd (w : World) (b i b' : Nat) (h : w.blks b' = []) : (removeAt w b i).blks b' = [] := by
  cases h' : (removeAt w b i).blks b' with
  | nil => rfl
  | cons x l =>
    have := removeAt_blk w b i b' x (by rw [h']; simp)
    rw [h] at this; cases this

theorem removeAt_pins (w : World) (b i : Nat) : (removeAt w b i).pins = w.pins := by
  unfold removeAt; split <;> rfl

theorem held_ext {w w' : World} (h1 : w'.cv = w.cv) (h2 : w'.sv = w.sv) (h3 : w'.bv = w.bv) {s : Nat}
    (h : w'.held s) (h4 : w'.pins = w.pins := by first | rfl | exact removeAt_pins _ _ _) : w.held s := by
  unfold World.held at *; rw [h1, h2, h3, h4] at h; exact h

theorem Inv1.step {E : Env} {w w' : World} {t : Tid} (I : Inv1 w) (ht : t < w.nThr)
    (h : StepR E w t w') : Inv1 w' := by
  have hok := I.stk t
  have hrng := I.rng t
  have hself : w.stacks = upd w.stacks t (w.stacks t) := (upd_self _ _).symm
  cases h
  case ub u => exact ⟨I.stk, I.thr, I.rng, I.mtx, I.lst, I.out, I.own, I.blk, I.hld, I.bnd⟩
  case hand cv sv bv hu hs =>
    exact ⟨I.stk, I.thr, I.rng, I.mtx, I.lst, I.out, I.own, I.blk, fun s h => I.hld s (hs s h), I.bnd⟩
  case flag s c cv sv bv hu hs hh ha =>
    refine ⟨I.stk, I.thr, I.rng, I.mtx, I.lst, I.out, ?_, I.blk, fun s h => I.hld s (hs s h), I.bnd⟩
    intro s' hs'
    simp only [World.emitEv, World.setBlocked, World.setH, upd_apply]
    split
    · rename_i e; subst e; exact I.own _ hs'
    · exact I.own _ hs'
  case objs => exact ⟨I.stk, I.thr, I.rng, I.mtx, I.lst, I.out, I.own, I.blk, I.hld, I.bnd⟩
  case pins ps hu hp =>
    exact ⟨I.stk, I.thr, I.rng, I.mtx, I.lst, I.out, I.own, I.blk, fun s h => I.hld s (held_pins hp h), I.bnd⟩
  case newSig v hu =>
    refine ⟨I.stk, I.thr, ?_, ?_, ?_, ?_, ?_, ?_, I.hld, ?_⟩
    · exact rng_upd I.rng (by simp) (by simp) (by simp) (by simp) hself
        (fun f hf => Frame.inRange_mono (hrng f hf) (by simp) (by simp) (by simp) (by simp))
    · refine mtx_same I.mtx hself rfl ?_
      intro g; simp only [upd_apply]; split
      · rename_i e; subst e; exact (I.out _ (Nat.le_refl _)).2.2.symm
      · rfl
    · intro g b hb; simp only [upd_apply] at hb; split at hb
      · simp at hb; simp; omega
      · have := I.lst g b hb; simp; omega
    · intro g hg; simp only at hg; simp only [upd_apply]; rw [if_neg (by omega)]; exact I.out g (by omega)
    · intro s hs; have := I.own s hs; simp; omega
    · intro b s hs; simp only [upd_apply] at hs; split at hs
      · simp at hs
      · exact I.blk b s hs
    · intro b hb; simp only at hb; simp only [upd_apply]; rw [if_neg (by omega)]; exact I.bnd b (by omega)
  case destroy g hu hg ha hm =>
    refine ⟨I.stk, I.thr, I.rng, ?_, ?_, ?_, I.own, I.blk, I.hld, I.bnd⟩
    · refine mtx_same I.mtx hself rfl ?_
      intro g'; simp only [World.emitEv, upd_apply]; split
      · rename_i e; subst e; rfl
      · rfl
    · intro g' b hb; simp only [World.emitEv, upd_apply] at hb; split at hb
      · simp at hb
      · exact I.lst g' b hb
    · intro g' hg'; simp only [World.emitEv] at hg'
      simp only [World.emitEv, upd_apply]; rw [if_neg (by omega)]; exact I.out g' hg'
  case movStart g hu hg ha =>
    refine ⟨?_, ?_, ?_, ?_, ?_, ?_, ?_, I.blk, I.hld, I.bnd⟩
    · intro t'; simp only [World.setStack, upd_apply]; split
      · exact .lib _ _ rfl (hok.toUser hu)
      · exact I.stk t'
    · intro t' h; simp only [World.setStack, upd_apply] at h ⊢; rw [if_neg (by omega)]; exact I.thr t' h
    · refine rng_upd I.rng (by simp [World.setStack]) (by simp [World.setStack]) (by simp [World.setStack]) (by simp [World.setStack]) rfl ?_
      intro f hf; rcases List.mem_cons.1 hf with rfl | hf
      · simp [Frame.inRange, World.setStack]; omega
      · exact Frame.inRange_mono (hrng f hf) (by simp [World.setStack]) (by simp [World.setStack]) (by simp [World.setStack]) (by simp [World.setStack])
    · refine mtx_same I.mtx rfl ?_ ?_
      · rw [userCtx_topLocks hu]; rfl
      · intro g'; simp only [World.setStack, upd_apply]; split
        · rename_i e; subst e; exact (I.out _ (Nat.le_refl _)).2.2.symm
        · rfl
    · intro g' b hb; simp only [World.setStack, upd_apply] at hb; split at hb
      · simp at hb
      · exact I.lst g' b hb
    · intro g' hg'; simp only [World.setStack] at hg'
      simp only [World.setStack, upd_apply]; rw [if_neg (by omega)]; exact I.out g' (by omega)
    · intro s hs; have := I.own s hs; simp [World.setStack]; omega
  case connStart g fn consume conn blk dest hu hg ho =>
    refine ⟨?_, ?_, ?_, ?_, I.lst, I.out, ?_, ?_, ?_, I.bnd⟩
    · intro t'; simp only [World.emitEv, World.setStack, upd_apply]; split
      · exact .lib _ _ rfl (hok.toUser hu)
      · exact I.stk t'
    · intro t' h; simp only [World.emitEv, World.setStack, upd_apply] at h ⊢; rw [if_neg (by omega)]; exact I.thr t' h
    · refine rng_upd I.rng (by simp [World.emitEv, World.setStack]) (by simp [World.emitEv, World.setStack]) (by simp [World.emitEv, World.setStack]) (by simp [World.emitEv, World.setStack]) rfl ?_
      intro f hf; rcases List.mem_cons.1 hf with rfl | hf
      · simp [Frame.inRange, World.emitEv, World.setStack]; omega
      · exact Frame.inRange_mono (hrng f hf) (by simp [World.emitEv, World.setStack]) (by simp [World.emitEv, World.setStack]) (by simp [World.emitEv, World.setStack]) (by simp [World.emitEv, World.setStack])
    · exact mtx_same I.mtx rfl (by rw [userCtx_topLocks hu]; rfl) (fun _ => rfl)
    · intro s hs; simp only [World.emitEv, World.setStack] at hs; simp only [World.emitEv, World.setStack, upd_apply]; split
      · exact hg
      · exact I.own s (by omega)
    · intro b s hs; have := I.blk b s hs; simp [World.emitEv, World.setStack]; omega
    · intro s hs; have := I.hld s hs; simp [World.emitEv, World.setStack]; omega
  case emitStart g comb args hu hg =>
    refine ⟨?_, ?_, ?_, ?_, I.lst, I.out, I.own, I.blk, I.hld, I.bnd⟩
    · intro t'; simp only [World.emitEv, World.setStack, upd_apply]; split
      · exact .lib _ _ rfl (hok.toUser hu)
      · exact I.stk t'
    · intro t' h; simp only [World.emitEv, World.setStack, upd_apply] at h ⊢; rw [if_neg (by omega)]; exact I.thr t' h
    · refine rng_upd I.rng (by simp [World.emitEv, World.setStack]) (by simp [World.emitEv, World.setStack]) (by simp [World.emitEv, World.setStack]) (by simp [World.emitEv, World.setStack]) rfl ?_
      intro f hf; rcases List.mem_cons.1 hf with rfl | hf
      · simp [Frame.inRange, World.emitEv, World.setStack, EmitPc.blk?]; omega
      · exact Frame.inRange_mono (hrng f hf) (by simp [World.emitEv, World.setStack]) (by simp [World.emitEv, World.setStack]) (by simp [World.emitEv, World.setStack]) (by simp [World.emitEv, World.setStack])
    · exact mtx_same I.mtx rfl (by rw [userCtx_topLocks hu]; rfl) (fun _ => rfl)
  case eraseStart g tgt hu hg =>
    refine I.same ht rfl (.lib _ _ rfl (hok.toUser hu)) ?_ ?_ rfl rfl rfl rfl rfl rfl (fun _ => rfl)
      I.blk I.bnd I.hld
    · intro f hf; rcases List.mem_cons.1 hf with rfl | hf
      · exact hg
      · exact hrng f hf
    · rw [userCtx_topLocks hu]; rfl
  case discPush s k cv sv bv hu hs hh ha =>
    refine I.same ht rfl (.lib _ _ rfl (hok.toUser hu)) ?_ ?_ rfl rfl rfl rfl rfl rfl (fun _ => rfl)
      I.blk I.bnd (fun s h => I.hld s (hs s h))
    · intro f hf; rcases List.mem_cons.1 hf with rfl | hf
      · exact ⟨I.hld s hh, by simp [DiscPc.sig?]⟩
      · exact hrng f hf
    · rw [userCtx_topLocks hu]; rfl
  case discFail h cv sv bv hu hs =>
    exact ⟨I.stk, I.thr, I.rng, I.mtx, I.lst, I.out, I.own, I.blk, fun s h => I.hld s (hs s h), I.bnd⟩
  case acq f f' rest g hst hf ha hm =>
    rw [hst] at hok hrng
    obtain ⟨l1, l2, c1, c2⟩ := Frame.acq_locks hf
    have hu := hok.tail c1
    refine ⟨?_, ?_, ?_, ?_, ?_, ?_, I.own, I.blk, I.hld, I.bnd⟩
    · intro t'; simp only [World.setStack, upd_apply]; split
      · exact .lib _ _ c2 hu
      · exact I.stk t'
    · intro t' h; simp only [World.setStack, World.setMutex, upd_apply] at h ⊢; rw [if_neg (by omega)]; exact I.thr t' h
    · refine rng_upd I.rng (by simp [World.setStack, World.setMutex]) (by simp [World.setStack, World.setMutex]) (by simp [World.setStack, World.setMutex]) (by simp [World.setStack, World.setMutex]) rfl ?_
      intro x hx; rcases List.mem_cons.1 hx with rfl | hx
      · exact Frame.acq_inRange hf (hrng f (by simp))
      · exact hrng x (List.mem_cons_of_mem _ hx)
    · refine mtx_acq I.mtx rfl ?_ hm l2 ?_
      · rw [hst]; exact l1
      · intro g'; simp only [World.setStack, World.setMutex, upd_apply]; split
        · rfl
        · rfl
    · intro g' b hb; simp only [World.setStack, World.setMutex, upd_apply] at hb; split at hb
      · rename_i e; subst e; exact I.lst g' b hb
      · exact I.lst g' b hb
    · intro g' hg'; simp only [World.setStack, World.setMutex] at hg'
      simp only [World.setStack, World.setMutex, upd_apply]; split
      · rename_i e; subst e; have := (I.out g' hg').2.1; rw [this] at ha; cases ha
      · exact I.out g' hg'
  case tst f f' rest g b hst hf hl =>
    rw [hst] at hok hrng
    obtain ⟨l1, l2, c1, c2⟩ := Frame.tst_locks hf
    have hu := hok.tail c1
    refine I.same ht rfl (.lib _ _ c2 hu) ?_ ?_ rfl rfl rfl rfl rfl rfl (fun _ => rfl) I.blk I.bnd I.hld
    · intro x hx; rcases List.mem_cons.1 hx with rfl | hx
      · exact Frame.tst_inRange hf (hrng f (by simp))
      · exact hrng x (List.mem_cons_of_mem _ hx)
    · rw [hst]; exact l2.trans l1.symm
  case det f f' rest g b hst hf hl =>
    rw [hst] at hok hrng
    obtain ⟨l1, l2, c1, c2⟩ := Frame.det_locks hf
    have hu := hok.tail c1
    unfold cloneBlk
    refine ⟨?_, ?_, ?_, ?_, ?_, ?_, I.own, ?_, I.hld, ?_⟩
    · intro t'; simp only [World.setStack, World.setList, World.setBlk, upd_apply]; split
      · exact .lib _ _ c2 hu
      · exact I.stk t'
    · intro t' h; simp only [World.setStack, World.setList, World.setBlk, upd_apply] at h ⊢; rw [if_neg (by omega)]; exact I.thr t' h
    · refine rng_upd I.rng (by simp [World.setStack, World.setList, World.setBlk]) (by simp [World.setStack, World.setList, World.setBlk]) (by simp [World.setStack, World.setList, World.setBlk]) (by simp [World.setStack, World.setList, World.setBlk]) rfl ?_
      intro x hx; rcases List.mem_cons.1 hx with rfl | hx
      · exact Frame.inRange_mono (Frame.det_inRange hf (hrng f (by simp))) (by simp [World.setStack, World.setList, World.setBlk]) (by simp [World.setStack, World.setList, World.setBlk]) (by simp [World.setStack, World.setList, World.setBlk]) (by simp [World.setStack, World.setList, World.setBlk])
      · exact Frame.inRange_mono (hrng x (List.mem_cons_of_mem _ hx)) (by simp [World.setStack, World.setList, World.setBlk]) (by simp [World.setStack, World.setList, World.setBlk]) (by simp [World.setStack, World.setList, World.setBlk]) (by simp [World.setStack, World.setList, World.setBlk])
    · refine mtx_same I.mtx rfl ?_ ?_
      · rw [hst]; exact l2.trans l1.symm
      · intro g'; simp only [World.setStack, World.setList, World.setBlk, upd_apply]; split
        · rename_i e; subst e; rfl
        · rfl
    · intro g' b' hb; simp only [World.setStack, World.setList, World.setBlk, upd_apply] at hb ⊢; split at hb
      · simp at hb; omega
      · have := I.lst g' b' hb; omega
    · intro g' hg'; simp only [World.setStack, World.setList, World.setBlk] at hg'
      simp only [World.setStack, World.setList, World.setBlk, upd_apply]; split
      · rename_i e; subst e; have := (I.out g' hg').1; rw [this] at hl; cases hl
      · exact I.out g' hg'
    · intro b' s hs; simp only [World.setStack, World.setList, World.setBlk, upd_apply] at hs; split at hs
      · exact I.blk b s hs
      · exact I.blk b' s hs
    · intro b' hb'; simp only [World.setStack, World.setList, World.setBlk] at hb'
      simp only [World.setStack, World.setList, World.setBlk, upd_apply]; rw [if_neg (by omega)]; exact I.bnd b' (by omega)
  case emSupp m rest hst ha hb =>
    rw [hst] at hok hrng
    refine I.same ht rfl (.user _ (hok.tail rfl)) (fun x hx => hrng x (List.mem_cons_of_mem _ hx)) ?_ rfl rfl rfl rfl rfl rfl (fun _ => rfl) I.blk I.bnd I.hld
    rw [hst, (hok.tail rfl).topLocks]; rfl
  case emPass m rest hst ha hb =>
    rw [hst] at hok hrng
    refine I.same ht rfl (.lib _ _ rfl (hok.tail rfl)) ?_ (by rw [hst]; rfl) rfl rfl rfl rfl rfl rfl (fun _ => rfl) I.blk I.bnd I.hld
    intro x hx; rcases List.mem_cons.1 hx with rfl | hx
    · exact hrng (.emit m .start) (by simp)
    · exact hrng x (List.mem_cons_of_mem _ hx)
  case emCopy m rest hst =>
    rw [hst] at hok hrng
    refine I.same ht rfl (.lib _ _ rfl (hok.tail rfl)) ?_ (by rw [hst]; rfl) rfl rfl rfl rfl rfl rfl (fun _ => rfl) I.blk I.bnd I.hld
    intro x hx; rcases List.mem_cons.1 hx with rfl | hx
    · have := hrng (.emit m .copy) (by simp)
      exact ⟨this.1, this.2.1, fun b hb => I.lst m.g b hb⟩
    · exact hrng x (List.mem_cons_of_mem _ hx)
  case emSnap m b rest hst =>
    rw [hst] at hok hrng
    have hu := hok.tail rfl
    refine ⟨?_, ?_, ?_, ?_, ?_, ?_, I.own, I.blk, I.hld, I.bnd⟩
    · intro t'; simp only [World.emitEv, World.setStack, upd_apply]; split
      · exact .lib _ _ rfl hu
      · exact I.stk t'
    · intro t' h; simp only [World.emitEv, World.setStack, World.setMutex, upd_apply] at h ⊢; rw [if_neg (by omega)]; exact I.thr t' h
    · refine rng_upd I.rng (by simp [World.emitEv, World.setStack, World.setMutex]) (by simp [World.emitEv, World.setStack, World.setMutex]) (by simp [World.emitEv, World.setStack, World.setMutex]) (by simp [World.emitEv, World.setStack, World.setMutex]) rfl ?_
      intro x hx; rcases List.mem_cons.1 hx with rfl | hx
      · exact hrng (.emit m (.unlock (some b))) (by simp)
      · exact hrng x (List.mem_cons_of_mem _ hx)
    · refine mtx_rel I.mtx rfl (g0 := m.g) ?_ rfl ?_
      · rw [hst]; rfl
      · intro g'; simp only [World.emitEv, World.setStack, World.setMutex, upd_apply]; split <;> rfl
    · intro g' b hb; simp only [World.emitEv, World.setStack, World.setMutex, upd_apply] at hb; split at hb
      · rename_i e; subst e; exact I.lst _ b hb
      · exact I.lst g' b hb
    · intro g' hg'; simp only [World.emitEv, World.setStack, World.setMutex] at hg'
      simp only [World.emitEv, World.setStack, World.setMutex, upd_apply]; split
      · rename_i e; subst e; have := I.out _ hg'; simp [this]
      · exact I.out g' hg'
  case emCall m b pos pos' acc s rest hst hp hs =>
    rw [hst] at hok hrng
    have hu := hok.tail rfl
    refine I.same ht rfl (.call _ _ _ _ _ _ _ hu) ?_ (by rw [hst]; rfl) rfl rfl rfl rfl rfl rfl (fun _ => rfl) I.blk I.bnd I.hld
    intro x hx; rcases List.mem_cons.1 hx with rfl | hx
    · exact I.blk b s (List.mem_of_getElem? hs)
    · rcases List.mem_cons.1 hx with rfl | hx
      · exact hrng (.emit m (.iter b pos acc)) (by simp)
      · exact hrng x (List.mem_cons_of_mem _ hx)
  case emDone m b pos acc r rest hst hp =>
    rw [hst] at hok hrng
    have hu := hok.tail rfl
    refine I.same ht rfl (.user _ hu) (fun x hx => hrng x (List.mem_cons_of_mem _ hx)) ?_ rfl rfl rfl rfl rfl rfl (fun _ => rfl) I.blk I.bnd I.hld
    rw [hst, hu.topLocks]; rfl
  case combThrow m b pos acc rest hst hc =>
    rw [hst] at hok hrng
    have hu := hok.tail rfl
    refine I.same ht rfl (.user _ hu) (fun x hx => hrng x (List.mem_cons_of_mem _ hx)) ?_ rfl rfl rfl rfl rfl rfl (fun _ => rfl) I.blk I.bnd I.hld
    rw [hst, hu.topLocks]; rfl
  case callUnblk s m b pos acc rest hst hb =>
    rw [hst] at hok hrng
    refine I.same ht rfl (.call _ _ _ _ _ _ _ hok.callTail) ?_ (by rw [hst]; rfl) rfl rfl rfl rfl rfl rfl (fun _ => rfl) I.blk I.bnd I.hld
    intro x hx; rcases List.mem_cons.1 hx with rfl | hx
    · exact hrng (.call s .chkBlocked) (by simp)
    · exact hrng x (List.mem_cons_of_mem _ hx)
  case callConn s m b pos acc rest hst hc ho =>
    rw [hst] at hok hrng
    refine I.same ht rfl (.call _ _ _ _ _ _ _ hok.callTail) ?_ (by rw [hst]; rfl) rfl rfl rfl rfl rfl rfl (fun _ => rfl) I.blk I.bnd I.hld
    intro x hx; rcases List.mem_cons.1 hx with rfl | hx
    · exact hrng (.call s .chkConnected) (by simp)
    · exact hrng x (List.mem_cons_of_mem _ hx)
  case callConnT s m b pos acc rest o hst hc ho =>
    rw [hst] at hok hrng
    refine I.same ht rfl (.call _ _ _ _ _ _ _ hok.callTail) ?_ (by rw [hst]; rfl) rfl rfl rfl rfl rfl rfl (fun _ => rfl) I.blk I.bnd I.hld
    intro x hx; rcases List.mem_cons.1 hx with rfl | hx
    · exact hrng (.call s .chkConnected) (by simp)
    · exact hrng x (List.mem_cons_of_mem _ hx)
  case callLock s m b pos acc rest o hst ho =>
    rw [hst] at hok hrng
    refine I.same ht rfl (.call _ _ _ _ _ _ _ hok.callTail) ?_ (by rw [hst]; rfl) rfl rfl rfl rfl rfl rfl (fun _ => rfl) I.blk I.bnd I.hld
    intro x hx; rcases List.mem_cons.1 hx with rfl | hx
    · exact hrng (.call s (.lockObj o)) (by simp)
    · exact hrng x (List.mem_cons_of_mem _ hx)
  case callSkip s pc why m b pos acc rest hst hpc =>
    rw [hst] at hok hrng
    refine I.same ht rfl (.lib _ _ rfl hok.callTail) ?_ ?_ rfl rfl rfl rfl rfl rfl (fun _ => rfl) I.blk I.bnd I.hld
    · intro x hx; rcases List.mem_cons.1 hx with rfl | hx
      · have := hrng (.emit m (.iter b pos acc)) (by simp)
        unfold deliver; cases m.comb <;> exact this
      · exact hrng x (List.mem_cons_of_mem _ (List.mem_cons_of_mem _ hx))
    · rw [hst]; unfold deliver; cases m.comb <;> rfl
  case callExpired s o m b pos acc rest hst ho =>
    rw [hst] at hok hrng
    refine I.same ht rfl (.lib _ _ rfl hok.callTail) ?_ ?_ rfl rfl rfl rfl rfl rfl ?_ I.blk I.bnd I.hld
    · intro x hx; rcases List.mem_cons.1 hx with rfl | hx
      · have := hrng (.emit m (.iter b pos acc)) (by simp)
        unfold deliver; cases m.comb <;> exact this
      · exact hrng x (List.mem_cons_of_mem _ (List.mem_cons_of_mem _ hx))
    · rw [hst]; unfold deliver; cases m.comb <;> rfl
    · intro s'; simp only [World.emitEv, World.setStack, World.setConnected, upd_apply]; split
      · rename_i e; subst e; rfl
      · rfl
  case callEnter s pc o m b pos acc rest hst hpc =>
    rw [hst] at hok hrng
    refine I.same ht rfl (.call _ _ _ _ _ _ _ hok.callTail) ?_ ?_ rfl rfl rfl rfl rfl rfl (fun _ => rfl) I.blk I.bnd I.hld
    · intro x hx; rcases List.mem_cons.1 hx with rfl | hx
      · exact hrng (.call s pc) (by simp)
      · rcases List.mem_cons.1 hx with rfl | hx
        · exact hrng (.emit m (.iter b pos acc)) (by simp)
        · exact hrng x (List.mem_cons_of_mem _ (List.mem_cons_of_mem _ hx))
    · rw [hst]; rfl
  case callRet s o v r m b pos acc rest hst hr =>
    rw [hst] at hok hrng
    refine I.same ht rfl (.lib _ _ rfl hok.callTail) ?_ ?_ rfl rfl rfl rfl rfl rfl (fun _ => rfl) I.blk I.bnd I.hld
    · intro x hx; rcases List.mem_cons.1 hx with rfl | hx
      · have := hrng (.emit m (.iter b pos acc)) (by simp)
        unfold deliver; cases m.comb <;> exact this
      · exact hrng x (List.mem_cons_of_mem _ (List.mem_cons_of_mem _ hx))
    · rw [hst]; unfold deliver; cases m.comb <;> rfl
  case callCatch s o m b pos acc rest hst hc =>
    rw [hst] at hok hrng
    refine I.same ht rfl (.lib _ _ rfl hok.callTail) ?_ (by rw [hst]; rfl) rfl rfl rfl rfl rfl rfl (fun _ => rfl) I.blk I.bnd I.hld
    intro x hx; rcases List.mem_cons.1 hx with rfl | hx
    · exact hrng (.emit m (.iter b pos acc)) (by simp)
    · exact hrng x (List.mem_cons_of_mem _ (List.mem_cons_of_mem _ hx))
  case callThrow s o m b pos acc rest hst =>
    rw [hst] at hok hrng
    refine I.same ht rfl (.user _ hok.callTail) (fun x hx => hrng x (List.mem_cons_of_mem _ (List.mem_cons_of_mem _ hx))) ?_ rfl rfl rfl rfl rfl rfl (fun _ => rfl) I.blk I.bnd I.hld
    rw [hst, hok.callTail.topLocks]; rfl
  case addWrite g s dest rest b hst hl =>
    rw [hst] at hok hrng
    refine I.same ht rfl (.lib _ _ rfl (hok.tail rfl)) ?_ (by rw [hst]; rfl) rfl rfl rfl rfl rfl rfl ?_ ?_ ?_ I.hld
    · intro x hx; rcases List.mem_cons.1 hx with rfl | hx
      · exact hrng (.add g s dest .write) (by simp)
      · exact hrng x (List.mem_cons_of_mem _ hx)
    · intro s'; simp only [World.emitEv, World.setStack, World.setBlk, World.setIndex, upd_apply]; split
      · rename_i e; subst e; rfl
      · rfl
    · intro b' s' hs'
      simp only [World.emitEv, World.setStack, World.setBlk, World.setIndex, upd_apply] at hs'
      split at hs'
      · rcases List.mem_append.1 hs' with h | h
        · exact I.blk b s' h
        · simp at h; subst h; exact (hrng (.add g s' dest .write) (by simp)).2
      · exact I.blk b' s' hs'
    · intro b' hb'
      simp only [World.emitEv, World.setStack, World.setBlk, World.setIndex, upd_apply]
      have := I.lst g b hl
      rw [if_neg (by omega)]; exact I.bnd b' hb'
  case addUnlock g s dest rest cv sv bv hst hs =>
    rw [hst] at hok hrng
    have hu := hok.tail rfl
    refine ⟨?_, ?_, ?_, ?_, ?_, ?_, I.own, I.blk, ?_, I.bnd⟩
    · intro t'; simp only [World.emitEv, World.setH, World.setStack, upd_apply]; split
      · exact .user _ hu
      · exact I.stk t'
    · intro t' h; simp only [World.emitEv, World.setH, World.setStack, World.setMutex, upd_apply] at h ⊢; rw [if_neg (by omega)]; exact I.thr t' h
    · refine rng_upd I.rng (by simp [World.emitEv, World.setH, World.setStack, World.setMutex]) (by simp [World.emitEv, World.setH, World.setStack, World.setMutex]) (by simp [World.emitEv, World.setH, World.setStack, World.setMutex]) (by simp [World.emitEv, World.setH, World.setStack, World.setMutex]) rfl ?_
      intro x hx
      exact hrng x (List.mem_cons_of_mem _ hx)
    · refine mtx_rel I.mtx rfl (g0 := g) ?_ hu.topLocks ?_
      · rw [hst]; rfl
      · intro g'; simp only [World.emitEv, World.setH, World.setStack, World.setMutex, upd_apply]; split <;> rfl
    · intro g' b hb; simp only [World.emitEv, World.setH, World.setStack, World.setMutex, upd_apply] at hb; split at hb
      · rename_i e; subst e; exact I.lst _ b hb
      · exact I.lst g' b hb
    · intro g' hg'; simp only [World.emitEv, World.setH, World.setStack, World.setMutex] at hg'
      simp only [World.emitEv, World.setH, World.setStack, World.setMutex, upd_apply]; split
      · rename_i e; subst e; have := I.out _ hg'; simp [this]
      · exact I.out g' hg'
    · intro s' h
      rcases hs s' h with h | rfl
      · exact I.hld s' h
      · exact (hrng (.add g s' dest .unlock) (by simp)).2
  case eraseEnd g tgt i cnt rest b hst hl hi =>
    rw [hst] at hok hrng
    refine I.same ht rfl (.lib _ _ rfl (hok.tail rfl)) ?_ (by rw [hst]; rfl) rfl rfl rfl rfl rfl rfl (fun _ => rfl) I.blk I.bnd I.hld
    intro x hx; rcases List.mem_cons.1 hx with rfl | hx
    · exact hrng (.erase g tgt (.scan i cnt)) (by simp)
    · exact hrng x (List.mem_cons_of_mem _ hx)
  case eraseThrow g tgt i cnt rest b s hst hl hi he =>
    rw [hst] at hok hrng
    refine I.same ht rfl (.lib _ _ rfl (hok.tail rfl)) ?_ (by rw [hst]; rfl) rfl rfl rfl rfl rfl rfl (fun _ => rfl) I.blk I.bnd I.hld
    intro x hx; rcases List.mem_cons.1 hx with rfl | hx
    · exact hrng (.erase g tgt (.scan i cnt)) (by simp)
    · exact hrng x (List.mem_cons_of_mem _ hx)
  case eraseMiss g tgt i cnt rest b s hst hl hi he =>
    rw [hst] at hok hrng
    refine I.same ht rfl (.lib _ _ rfl (hok.tail rfl)) ?_ (by rw [hst]; rfl) rfl rfl rfl rfl rfl rfl (fun _ => rfl) I.blk I.bnd I.hld
    intro x hx; rcases List.mem_cons.1 hx with rfl | hx
    · exact hrng (.erase g tgt (.scan i cnt)) (by simp)
    · exact hrng x (List.mem_cons_of_mem _ hx)
  case eraseHit g tgt i cnt rest b s hst hl hi he =>
    rw [hst] at hok hrng
    obtain ⟨e1, e2, e3, e4, e5, e6, e7, e8, e9, e10, -⟩ := removeAt_same w b i
    refine I.same ht (st := .erase g tgt (.scan i (cnt + 1)) :: rest) ?_ (.lib _ _ rfl (hok.tail rfl)) ?_
      (by rw [hst]; rfl) e1 e2 e3 e4 e5 e6 (removeAt_owner w b i) ?_ ?_ ?_
    · simp only [World.emitEv, World.setStack, e7]
    · intro x hx; rcases List.mem_cons.1 hx with rfl | hx
      · exact hrng (.erase g tgt (.scan i cnt)) (by simp)
      · exact hrng x (List.mem_cons_of_mem _ hx)
    · intro b' s' h; exact I.blk b' s' (removeAt_blk w b i b' s' h)
    · intro b' h; exact removeAt_bnd w b i b' (I.bnd b' h)
    · intro s' h; exact I.hld s' (held_ext e8 e9 e10 h)
  case fail f rest g s hst hf =>
    rw [hst] at hok hrng
    have hu := hok.tail (Frame.allocs_isCall hf)
    refine ⟨?_, ?_, ?_, ?_, ?_, ?_, I.own, I.blk, I.hld, I.bnd⟩
    · intro t'; simp only [World.emitEv, World.setStack, upd_apply]; split
      · exact .user _ hu
      · exact I.stk t'
    · intro t' h; simp only [World.emitEv, World.setStack, World.setMutex, upd_apply] at h ⊢; rw [if_neg (by omega)]; exact I.thr t' h
    · refine rng_upd I.rng (by simp [World.emitEv, World.setStack, World.setMutex]) (by simp [World.emitEv, World.setStack, World.setMutex]) (by simp [World.emitEv, World.setStack, World.setMutex]) (by simp [World.emitEv, World.setStack, World.setMutex]) rfl ?_
      intro x hx
      exact hrng x (List.mem_cons_of_mem _ hx)
    · refine mtx_rel I.mtx rfl (g0 := g) ?_ hu.topLocks ?_
      · rw [hst]; exact Frame.allocs_locks hf
      · intro g'; simp only [World.emitEv, World.setStack, World.setMutex, upd_apply]; split <;> rfl
    · intro g' b hb; simp only [World.emitEv, World.setStack, World.setMutex, upd_apply] at hb; split at hb
      · rename_i e; subst e; exact I.lst _ b hb
      · exact I.lst g' b hb
    · intro g' hg'; simp only [World.emitEv, World.setStack, World.setMutex] at hg'
      simp only [World.emitEv, World.setStack, World.setMutex, upd_apply]; split
      · rename_i e; subst e; have := I.out _ hg'; simp [this]
      · exact I.out g' hg'
  case eraseUnlock g tgt r rest hst =>
    rw [hst] at hok hrng
    have hu := hok.tail rfl
    refine ⟨?_, ?_, ?_, ?_, ?_, ?_, I.own, I.blk, I.hld, I.bnd⟩
    · intro t'; simp only [World.emitEv, World.setStack, upd_apply]; split
      · exact .user _ hu
      · exact I.stk t'
    · intro t' h; simp only [World.emitEv, World.setStack, World.setMutex, upd_apply] at h ⊢; rw [if_neg (by omega)]; exact I.thr t' h
    · refine rng_upd I.rng (by simp [World.emitEv, World.setStack, World.setMutex]) (by simp [World.emitEv, World.setStack, World.setMutex]) (by simp [World.emitEv, World.setStack, World.setMutex]) (by simp [World.emitEv, World.setStack, World.setMutex]) rfl ?_
      intro x hx
      exact hrng x (List.mem_cons_of_mem _ hx)
    · refine mtx_rel I.mtx rfl (g0 := g) ?_ hu.topLocks ?_
      · rw [hst]; rfl
      · intro g'; simp only [World.emitEv, World.setStack, World.setMutex, upd_apply]; split <;> rfl
    · intro g' b hb; simp only [World.emitEv, World.setStack, World.setMutex, upd_apply] at hb; split at hb
      · rename_i e; subst e; exact I.lst _ b hb
      · exact I.lst g' b hb
    · intro g' hg'; simp only [World.emitEv, World.setStack, World.setMutex] at hg'
      simp only [World.emitEv, World.setStack, World.setMutex, upd_apply]; split
      · rename_i e; subst e; have := I.out _ hg'; simp [this]
      · exact I.out g' hg'
  case exchTrue s k rest hst hc =>
    rw [hst] at hok hrng
    have hr : s < w.nSlots := (hrng (.disc s k .exch) (by simp)).1
    refine I.same ht rfl (.lib _ _ rfl (hok.tail rfl)) ?_ (by rw [hst]; rfl) rfl rfl rfl rfl rfl rfl ?_ I.blk I.bnd I.hld
    · intro x hx; rcases List.mem_cons.1 hx with rfl | hx
      · refine ⟨hr, ?_⟩
        intro g hg; simp [DiscPc.sig?] at hg; subst hg; exact I.own s hr
      · exact hrng x (List.mem_cons_of_mem _ hx)
    · intro s'; simp only [World.emitEv, World.setStack, World.setConnected, upd_apply]; split
      · rename_i e; subst e; rfl
      · rfl
  case exchFalse s k rest cv sv bv hst hc hs =>
    rw [hst] at hok hrng
    refine I.same ht rfl (.user _ (hok.tail rfl)) (fun x hx => hrng x (List.mem_cons_of_mem _ hx)) ?_ rfl rfl rfl rfl rfl rfl (fun _ => rfl) I.blk I.bnd (fun s h => I.hld s (hs s h))
    rw [hst, (hok.tail rfl).topLocks]; rfl
  case discWrite s v k rest g b hst hl hi =>
    rw [hst] at hok hrng
    obtain ⟨e1, e2, e3, e4, e5, e6, e7, e8, e9, e10, -⟩ := removeAt_same w b (w.slots s).index
    refine I.same ht (st := .disc s k (.crit g .unlock) :: rest) ?_ (.lib _ _ rfl (hok.tail rfl)) ?_
      (by rw [hst]; rfl) e1 e2 e3 e4 e5 e6 (removeAt_owner w b _) ?_ ?_ ?_
    · simp only [World.emitEv, World.setStack, e7]
    · intro x hx; rcases List.mem_cons.1 hx with rfl | hx
      · exact hrng (.disc s k (.crit g .write)) (by simp)
      · exact hrng x (List.mem_cons_of_mem _ hx)
    · intro b' s' h; exact I.blk b' s' (removeAt_blk w b _ b' s' h)
    · intro b' h; exact removeAt_bnd w b _ b' (I.bnd b' h)
    · intro s' h; exact I.hld s' (held_ext e8 e9 e10 h)
  case discMiss s k rest g b hst hl hi =>
    rw [hst] at hok hrng
    refine I.same ht rfl (.lib _ _ rfl (hok.tail rfl)) ?_ (by rw [hst]; rfl) rfl rfl rfl rfl rfl rfl (fun _ => rfl) I.blk I.bnd I.hld
    intro x hx; rcases List.mem_cons.1 hx with rfl | hx
    · exact hrng (.disc s k (.crit g .write)) (by simp)
    · exact hrng x (List.mem_cons_of_mem _ hx)
  case discDrop s k rest g cv sv bv hst hs =>
    rw [hst] at hok hrng
    refine I.same ht rfl (.user _ (hok.tail rfl)) (fun x hx => hrng x (List.mem_cons_of_mem _ hx)) ?_ rfl rfl rfl rfl rfl rfl (fun _ => rfl) I.blk I.bnd (fun s h => I.hld s (hs s h))
    rw [hst, (hok.tail rfl).topLocks]; rfl
  case discUnlock s k rest g hst =>
    rw [hst] at hok hrng
    have hu := hok.tail rfl
    refine ⟨?_, ?_, ?_, ?_, ?_, ?_, I.own, I.blk, I.hld, I.bnd⟩
    · intro t'; simp only [World.setStack, upd_apply]; split
      · exact .lib _ _ rfl hu
      · exact I.stk t'
    · intro t' h; simp only [World.setStack, World.setMutex, upd_apply] at h ⊢; rw [if_neg (by omega)]; exact I.thr t' h
    · refine rng_upd I.rng (by simp [World.setStack, World.setMutex]) (by simp [World.setStack, World.setMutex]) (by simp [World.setStack, World.setMutex]) (by simp [World.setStack, World.setMutex]) rfl ?_
      intro x hx; rcases List.mem_cons.1 hx with rfl | hx
      · exact ⟨(hrng (.disc s k (.crit g .unlock)) (by simp)).1, fun _ h => by cases h⟩
      · exact hrng x (List.mem_cons_of_mem _ hx)
    · refine mtx_rel I.mtx rfl (g0 := g) ?_ rfl ?_
      · rw [hst]; rfl
      · intro g'; simp only [World.setStack, World.setMutex, upd_apply]; split <;> rfl
    · intro g' b hb; simp only [World.setStack, World.setMutex, upd_apply] at hb; split at hb
      · rename_i e; subst e; exact I.lst _ b hb
      · exact I.lst g' b hb
    · intro g' hg'; simp only [World.setStack, World.setMutex] at hg'
      simp only [World.setStack, World.setMutex, upd_apply]; split
      · rename_i e; subst e; have := I.out _ hg'; simp [this]
      · exact I.out g' hg'
  case movWrite g' g rest hst =>
    rw [hst] at hok hrng
    have hr := hrng (.mov g' g .write) (by simp)
    refine ⟨?_, ?_, ?_, ?_, ?_, ?_, I.own, I.blk, I.hld, I.bnd⟩
    · intro t'; simp only [World.emitEv, World.setStack, upd_apply]; split
      · exact .lib _ _ rfl (hok.tail rfl)
      · exact I.stk t'
    · intro t' h; simp only [World.emitEv, World.setStack, World.setList, upd_apply] at h ⊢; rw [if_neg (by omega)]; exact I.thr t' h
    · refine rng_upd I.rng (by simp [World.emitEv, World.setStack, World.setList]) (by simp [World.emitEv, World.setStack, World.setList]) (by simp [World.emitEv, World.setStack, World.setList]) (by simp [World.emitEv, World.setStack, World.setList]) rfl ?_
      intro x hx; rcases List.mem_cons.1 hx with rfl | hx
      · exact hr
      · exact hrng x (List.mem_cons_of_mem _ hx)
    · refine mtx_same I.mtx rfl (by rw [hst]; rfl) ?_
      intro x; simp only [World.emitEv, World.setStack, World.setList, upd_apply]
      split
      · rename_i e; subst e; split
        · rename_i e; subst e; rfl
        · rfl
      · split
        · rename_i e; subst e; rfl
        · rfl
    · intro x b hb; simp only [World.emitEv, World.setStack, World.setList, upd_apply] at hb; split at hb
      · simp at hb
      · split at hb
        · exact I.lst g b hb
        · exact I.lst x b hb
    · intro x hx; simp only [World.emitEv, World.setStack, World.setList] at hx
      obtain ⟨h1, h2, -⟩ := hr
      simp only [World.emitEv, World.setStack, World.setList, upd_apply]
      rw [if_neg (by omega), if_neg (by omega)]; exact I.out x hx
  case movUnlock g' g rest hst =>
    rw [hst] at hok hrng
    have hr := hrng (.mov g' g .unlock) (by simp)
    have hu := hok.tail rfl
    refine ⟨?_, ?_, ?_, ?_, ?_, ?_, I.own, I.blk, I.hld, I.bnd⟩
    · intro t'; simp only [upd_apply]; split
      · exact .user _ hu
      · exact I.stk t'
    · intro t' h; simp only [upd_apply] at h ⊢; rw [if_neg (by omega)]; exact I.thr t' h
    · refine rng_upd I.rng (by simp) (by simp) (by simp) (by simp) rfl ?_
      intro x hx
      exact hrng x (List.mem_cons_of_mem _ hx)
    · refine mtx_rel I.mtx rfl (g0 := g) ?_ hu.topLocks ?_
      · rw [hst]; rfl
      · intro x; simp only [upd_apply]
        split
        · rename_i e; subst e; split <;> rfl
        · split <;> rfl
    · intro x b hb; simp only [upd_apply] at hb
      split at hb
      · rename_i e; subst e; split at hb
        · rename_i e; subst e; exact I.lst _ b hb
        · exact I.lst _ b hb
      · split at hb
        · rename_i e; subst e; exact I.lst _ b hb
        · exact I.lst _ b hb
    · intro x hx; simp only at hx
      obtain ⟨h1, h2, -⟩ := hr
      simp only [upd_apply]
      rw [if_neg (by omega), if_neg (by omega)]; exact I.out x hx

theorem nThr_eq {E : Env} {w w' : World} {t : Tid} (h : StepR E w t w') : w'.nThr = w.nThr := by
  cases h <;> first | rfl | skip
  · exact (removeAt_same _ _ _).2.2.2.2.2.1
  · exact (removeAt_same _ _ _).2.2.2.2.2.1

/-- Induction principle over reachable worlds. -/
theorem Steps.induct {E : Env} {P : Label → Prop} {w0 w : World} {I : World → Prop}
    (h : Steps E P w0 w) (h0 : I w0)
    (hs : ∀ w w' l, I w → P l → step E w l = some w' → I w') : I w := by
  induction h with
  | refl => exact h0
  | tail l _ hp hst ih => exact hs _ _ l ih hp hst

theorem Inv1.reach {E : Env} {P : Label → Prop} {n : Nat} {w : World} (h : Steps E P (World.init n) w) :
    Inv1 w :=
  h.induct (Inv1.init n) fun _ _ _ I _ hst =>
    let ⟨_, ht, hr⟩ := step_inv hst
    I.step ht hr

end Verif
