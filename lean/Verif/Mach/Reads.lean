import Verif.Mach.Cover

/-!
# The footprints cover what the steps look at

Change the contents of any locations behind a step's back: a step whose footprint does not mention these locations does the same as before and
leaves them alone.

Two things are recomputed by the machine and not by the code.

* Reference counts are not stored but computed from the pointers (`World.shared`, `World.slotAlive`); the change must leave them alone.
* The reference returned by `m_Slots.write()` and the position read by `remove_slot` are kept in local variables by the code
  (1801, 1812-1813, 1829); the machine looks them up again (`cached`).
-/

namespace Verif

/-- Other contents for any number of locations. -/
structure Patch where
  ptr : SigId → Option (Option BlkId) := fun _ => none
  vec : BlkId → Option (List SlotId) := fun _ => none
  idx : SlotId → Option Nat := fun _ => none

/-- Put them there. -/
def Patch.on (x : Patch) (w : World) : World :=
  { w with
    sigs := fun g => { w.sigs g with list := (x.ptr g).getD (w.sigs g).list }
    blks := fun b => (x.vec b).getD (w.blks b)
    slots := fun s => { w.slots s with index := (x.idx s).getD (w.slots s).index } }

/-- Does the change leave this location alone? -/
def Patch.spares (x : Patch) : Loc → Prop
  | .ptr g => x.ptr g = none
  | .vec b => x.vec b = none
  | .idx s => x.idx s = none

/-- Does the location exist? -/
def Loc.made (w : World) : Loc → Prop
  | .ptr g => g < w.nSigs
  | .vec b => b < w.nBlks
  | .idx s => s < w.nSlots

/-- The change is to locations that exist. -/
def Patch.fits (x : Patch) (w : World) : Prop := ∀ l, x.spares l ∨ l.made w

/-- The change leaves alone all that the operations access. -/
def Patch.apart (x : Patch) (ops : List Mem) : Prop := ∀ l k, .acc l k ∈ ops → x.spares l

/-- What a thread with this stack has read earlier in its critical section and holds in local variables. -/
def cachedBy : List Frame → List Loc
  | .add g _ _ .write :: _ => [.ptr g]
  | .erase g _ (.scan _ _) :: _ => [.ptr g]
  | .disc s _ (.crit _ .clone) :: _ => [.idx s]
  | .disc s _ (.crit g .write) :: _ => [.ptr g, .idx s]
  | _ => []

def cached (w : World) (t : Tid) : List Loc := cachedBy (w.stacks t)

namespace Patch

variable (x : Patch) (w : World)

@[simp] theorem on_stacks : (x.on w).stacks = w.stacks := id rfl
@[simp] theorem on_nThr : (x.on w).nThr = w.nThr := id rfl
@[simp] theorem on_nSigs : (x.on w).nSigs = w.nSigs := id rfl
@[simp] theorem on_nSlots : (x.on w).nSlots = w.nSlots := id rfl
@[simp] theorem on_nBlks : (x.on w).nBlks = w.nBlks := id rfl
@[simp] theorem on_objs : (x.on w).objs = w.objs := id rfl
@[simp] theorem on_nObjs : (x.on w).nObjs = w.nObjs := id rfl
@[simp] theorem on_nEm : (x.on w).nEm = w.nEm := id rfl
@[simp] theorem on_cv : (x.on w).cv = w.cv := id rfl
@[simp] theorem on_sv : (x.on w).sv = w.sv := id rfl
@[simp] theorem on_bv : (x.on w).bv = w.bv := id rfl
@[simp] theorem on_pins : (x.on w).pins = w.pins := id rfl
@[simp] theorem on_ub : (x.on w).ub = w.ub := id rfl
@[simp] theorem on_log : (x.on w).log = w.log := id rfl

@[simp] theorem on_alive (g : SigId) : ((x.on w).sigs g).alive = (w.sigs g).alive := id rfl
@[simp] theorem on_mutex (g : SigId) : ((x.on w).sigs g).mutex = (w.sigs g).mutex := id rfl
@[simp] theorem on_sblocked (g : SigId) : ((x.on w).sigs g).sblocked = (w.sigs g).sblocked := id rfl
@[simp] theorem on_isVoid (g : SigId) : ((x.on w).sigs g).isVoid = (w.sigs g).isVoid := id rfl
@[simp] theorem on_fn (s : SlotId) : ((x.on w).slots s).fn = (w.slots s).fn := id rfl
@[simp] theorem on_consume (s : SlotId) : ((x.on w).slots s).consume = (w.slots s).consume := id rfl
@[simp] theorem on_connected (s : SlotId) : ((x.on w).slots s).connected = (w.slots s).connected := id rfl
@[simp] theorem on_blocked (s : SlotId) : ((x.on w).slots s).blocked = (w.slots s).blocked := id rfl
@[simp] theorem on_owner (s : SlotId) : ((x.on w).slots s).owner = (w.slots s).owner := id rfl

variable {x}

theorem on_sig {g : SigId} (h : x.spares (.ptr g)) : (x.on w).sigs g = w.sigs g := by
  simp only [spares] at h; simp only [on, h, Option.getD]

theorem on_slot {s : SlotId} (h : x.spares (.idx s)) : (x.on w).slots s = w.slots s := by
  simp only [spares] at h; simp only [on, h, Option.getD]

theorem on_blk {b : BlkId} (h : x.spares (.vec b)) : (x.on w).blks b = w.blks b := by
  simp only [spares] at h; simp only [on, h, Option.getD]

variable (x)

@[simp] theorem on_setStack (t : Tid) (st : List Frame) : (x.on w).setStack t st = x.on (w.setStack t st) := id rfl
@[simp] theorem on_emitEv (ev : Event) : (x.on w).emitEv ev = x.on (w.emitEv ev) := id rfl
@[simp] theorem on_setUB (u : UB) : (x.on w).setUB u = x.on (w.setUB u) := id rfl

/-- A pointwise change commutes with an update. -/
theorem upd_map {α} (f : Nat → α) (p : Nat → α → α) (a : Nat) (v v' : α) (h : v' = p a v) :
    upd (fun b => p b (f b)) a v' = fun b => p b (upd f a v b) := by
  funext b
  simp only [upd_apply]
  split
  · rename_i e; subst e; exact h
  · rfl

@[simp] theorem on_setMutex (g : SigId) (m : Option Tid) : (x.on w).setMutex g m = x.on (w.setMutex g m) := by
  simp only [on, World.setMutex]
  rw [upd_map w.sigs (fun g r => { r with list := (x.ptr g).getD r.list }) g { w.sigs g with mutex := m } _ rfl]

@[simp] theorem on_setAlive (g : SigId) : ({ x.on w with sigs := upd (x.on w).sigs g { (x.on w).sigs g with alive := true } } : World) =
    x.on { w with sigs := upd w.sigs g { w.sigs g with alive := true } } := by
  simp only [on]
  rw [upd_map w.sigs (fun g r => { r with list := (x.ptr g).getD r.list }) g { w.sigs g with alive := true } _ rfl]

@[simp] theorem on_setConnected (s : SlotId) (c : Bool) : (x.on w).setConnected s c = x.on (w.setConnected s c) := by
  simp only [on, World.setConnected]
  rw [upd_map w.slots (fun s r => { r with index := (x.idx s).getD r.index }) s { w.slots s with connected := c } _ rfl]

@[simp] theorem on_setBlocked (s : SlotId) (c : Bool) : (x.on w).setBlocked s c = x.on (w.setBlocked s c) := by
  simp only [on, World.setBlocked]
  rw [upd_map w.slots (fun s r => { r with index := (x.idx s).getD r.index }) s { w.slots s with blocked := c } _ rfl]

variable {x}

theorem on_setList {g : SigId} (p : Option BlkId) (h : x.spares (.ptr g)) : (x.on w).setList g p = x.on (w.setList g p) := by
  simp only [spares] at h
  simp only [on, World.setList]
  rw [upd_map w.sigs (fun g r => { r with list := (x.ptr g).getD r.list }) g { w.sigs g with list := p } _ (by simp [h])]

theorem on_setBlk {b : BlkId} (l : List SlotId) (h : x.spares (.vec b)) : (x.on w).setBlk b l = x.on (w.setBlk b l) := by
  simp only [spares] at h
  simp only [on, World.setBlk]
  rw [upd_map w.blks (fun b l => (x.vec b).getD l) b l _ (by simp [h])]

theorem on_setIndex {s : SlotId} (i : Nat) (h : x.spares (.idx s)) : (x.on w).setIndex s i = x.on (w.setIndex s i) := by
  simp only [spares] at h
  simp only [on, World.setIndex]
  rw [upd_map w.slots (fun s r => { r with index := (x.idx s).getD r.index }) s { w.slots s with index := i } _ (by simp [h])]

variable (x)

@[simp] theorem on_anyFrame (p : Frame → Bool) : (x.on w).anyFrame p = w.anyFrame p := id rfl
@[simp] theorem on_objAlive (o : ObjId) : (x.on w).objAlive o = w.objAlive o := id rfl
@[simp] theorem on_slotConnected (s : SlotId) : (x.on w).slotConnected s = w.slotConnected s := id rfl
@[simp] theorem on_hval (h : Handle) : (x.on w).hval h = w.hval h := id rfl
@[simp] theorem on_pval (h : Handle ⊕ Var) : (x.on w).pval h = w.pval h := id rfl

@[simp] theorem on_setCv (f : Var → Option SlotId) : ({ x.on w with cv := f } : World) = x.on { w with cv := f } := id rfl
@[simp] theorem on_setSv (f : Var → Option (Option SlotId)) : ({ x.on w with sv := f } : World) = x.on { w with sv := f } := id rfl
@[simp] theorem on_setBv (f : Var → Option (Option SlotId)) : ({ x.on w with bv := f } : World) = x.on { w with bv := f } := id rfl

@[simp] theorem on_discReturn (t : Tid) (rest : List Frame) (s : Option SlotId) (k : DiscK) (b : Bool) :
    discReturn (x.on w) t rest s k b = x.on (discReturn w t rest s k b) := by
  cases k with
  | ret => rfl
  | assign y z => simp only [discReturn]; split <;> rfl

end Patch

/-- The change leaves the reference counts as they are: whether a signal's vector has other owners, and whether a listener has any. -/
structure SameCounts (w v : World) : Prop where
  vecs : ∀ g b, (w.sigs g).list = some b → v.shared g b = w.shared g b
  slots : ∀ s, v.slotAlive s = w.slotAlive s

/-- Stored positions do not count. Vectors may be reordered, shortened or lengthened as long as they keep their members. -/
theorem SameCounts.vecs_idx {w : World} {x : Patch} (hp : ∀ g, x.ptr g = none) (h : ∀ b l, x.vec b = some l → ∀ s, s ∈ l ↔ s ∈ w.blks b) :
    SameCounts w (x.on w) := by
  have hg : ∀ g, (x.on w).sigs g = w.sigs g := fun g => Patch.on_sig w (hp g)
  refine ⟨fun g b _ => ?_, fun s => ?_⟩
  · simp only [World.shared, Patch.on_anyFrame, Patch.on_nSigs, hg]
  · have e : ∀ b', ((x.on w).blks b').contains s = (w.blks b').contains s := fun b' => by
      simp only [Patch.on]
      cases hb : x.vec b' with
      | none => rfl
      | some l => rw [Bool.eq_iff_iff]; simp [h b' l hb]
    simp only [World.slotAlive, Patch.on_anyFrame, Patch.on_nSigs, Patch.on_pins, hg, e]

/-- A signal may be made to point to another vector with the same members, if neither vector is some other signal's and nobody owns the new one. -/
theorem SameCounts.ptr {w : World} {x : Patch} {g : SigId} {b b' : BlkId} (hl : (w.sigs g).list = some b) (hx : x.ptr g = some (some b'))
    (ho : ∀ g', g' ≠ g → x.ptr g' = none) (hv : ∀ b, x.vec b = none)
    (h1 : ∀ g', g' ≠ g → (w.sigs g').list ≠ some b) (h2 : ∀ g', (w.sigs g').list ≠ some b')
    (h : ∀ s, s ∈ w.blks b' ↔ s ∈ w.blks b) : SameCounts w (x.on w) := by
  have hb : (x.on w).blks = w.blks := by funext c; exact Patch.on_blk w (hv c)
  refine ⟨fun g' c hc => ?_, fun s => ?_⟩
  · simp only [World.shared, Patch.on_anyFrame, Patch.on_nSigs]
    congr 2
    funext k
    by_cases hk : k = g
    · subst hk
      by_cases hg : k = g'
      · simp [hg]
      · have e1 : c ≠ b := fun e => h1 g' (Ne.symm hg) (by rw [hc, e])
        have e2 : c ≠ b' := fun e => h2 g' (by rw [hc, e])
        simp [Patch.on, hx, hl, beq_false_of_ne (Ne.symm e1), beq_false_of_ne (Ne.symm e2)]
    · rw [Patch.on_sig w (ho k hk)]
  · simp only [World.slotAlive, Patch.on_anyFrame, Patch.on_nSigs, Patch.on_pins, hb]
    congr 1
    congr 1
    congr 1
    funext k
    by_cases hk : k = g
    · subst hk
      simp only [Patch.on, hx, Option.getD, hl]
      rw [Bool.eq_iff_iff]; simp [h]
    · rw [Patch.on_sig w (ho k hk)]

variable {E : Env} {w w' : World} {t : Tid} {x : Patch}

theorem patch_acquire {g : SigId} {next : List Frame} (h : acquire w t g next = some w') :
    acquire (x.on w) t g next = some (x.on w') := by
  simp only [acquire, Patch.on_alive, Patch.on_mutex] at h ⊢
  split at h
  · rename_i hc; cases h; rw [if_pos hc]; simp
  · rename_i hc; rw [if_neg hc]
    split at h
    · cases h
    · cases h; simp

theorem patch_clone {g : SigId} {b : BlkId} (hm : x.fits w)
    (hf : x.apart (detFoot w w' g b)) : cloneBlk (x.on w) g b = x.on (cloneBlk w g b) := by
  have hg : x.spares (.ptr g) := hf _ .read (by simp [detFoot])
  simp only [cloneBlk]
  have hb : x.spares (.vec b) := hf _ .read (by simp [detFoot])
  have hn : x.spares (.vec w.nBlks) := (hm (.vec w.nBlks)).resolve_right (Nat.lt_irrefl _)
  rw [Patch.on_blk _ hb, Patch.on_nBlks, Patch.on_setBlk _ _ hn, Patch.on_setList _ _ hg]
  rfl

theorem patch_remove {b : BlkId} {i : Nat} (hb : x.spares (.vec b)) (hf : x.apart (remFoot w b i)) :
    removeAt (x.on w) b i = x.on (removeAt w b i) := by
  simp only [removeAt, Patch.on_blk _ hb]
  split
  · rename_i s' hs
    have hi : x.spares (.idx s') := hf _ .update (by simp [remFoot, hs])
    rw [Patch.on_setIndex _ _ hi, Patch.on_setBlk _ _ hb]
  · rfl

theorem patch_discStart {h : Option SlotId} {k : DiscK} (hC : SameCounts w (x.on w)) :
    discStart (x.on w) t h k = x.on (discStart w t h k) := by
  unfold discStart
  split
  · rw [hC.slots]
    split <;> simp
  · simp

theorem patch_connSet {h : Option SlotId} {c : Bool} (hC : SameCounts w (x.on w)) :
    (x.on w).connSetBlocked h c = x.on (w.connSetBlocked h c) := by
  unfold World.connSetBlocked
  split
  · rw [hC.slots]; split <;> simp
  · rfl

theorem patch_emit {m : Em} {rest : List Frame} {pc : EmitPc} (h : runEmit w t rest m pc = some w') (hu : w'.ub = none)
    (hf : x.apart (emitFoot w w' m pc)) : runEmit (x.on w) t rest m pc = some (x.on w') := by
  cases pc with
  | start =>
    simp only [runEmit, Patch.on_alive, Patch.on_sblocked] at h ⊢
    split at h
    · cases h; cases hu
    · rename_i hc; rw [if_neg hc]
      split at h <;> rename_i hb <;> cases h <;> simp [hb]
  | wait => exact patch_acquire h
  | copy =>
    have hg : x.spares (.ptr m.g) := hf _ .read (by simp [emitFoot])
    simp only [runEmit, Patch.on_sig _ hg] at h ⊢
    cases h; simp
  | unlock b =>
    cases b with
    | none => simp only [runEmit] at h; cases h; cases hu
    | some b =>
      have hb : x.spares (.vec b) := hf _ .walk (by simp [emitFoot])
      simp only [runEmit, Patch.on_blk _ hb] at h ⊢
      cases h; simp
  | iter b pos acc =>
    have hb : x.spares (.vec b) := hf _ .walk (by simp [emitFoot])
    simp only [runEmit, Patch.on_blk _ hb] at h ⊢
    split at h
    · cases h
    · split at h <;> cases h <;> simp

theorem patch_call {s : SlotId} {m : Em} {b : BlkId} {pos : Nat} {acc : Option Val} {rest : List Frame} {pc : CallPc}
    (h : runCall w t s m b pos acc rest pc = some w') : runCall (x.on w) t s m b pos acc rest pc = some (x.on w') := by
  cases pc with
  | body => cases h
  | invoke => simp only [runCall] at h ⊢; cases h; simp
  | chkBlocked =>
    simp only [runCall, Patch.on_blocked] at h ⊢
    split at h <;> rename_i hc <;> cases h <;> simp [hc]
  | chkConnected =>
    simp only [runCall, Patch.on_slotConnected, Patch.on_fn] at h ⊢
    split at h <;> rename_i hc
    · rw [if_pos hc]; split at h <;> rename_i ho <;> cases h <;> simp
    · cases h; simp [hc]
  | lockObj o =>
    simp only [runCall, Patch.on_objAlive] at h ⊢
    split at h <;> rename_i hc <;> cases h <;> simp [hc]
  | recheck o =>
    simp only [runCall, Patch.on_slotConnected] at h ⊢
    split at h <;> rename_i hc <;> cases h <;> simp [hc]

theorem patch_add {g : SigId} {s : SlotId} {dest : Dest} {rest : List Frame} {pc : CritPc}
    (h : runAdd w t rest g s dest pc = some w') (hu : w'.ub = none) (hC : SameCounts w (x.on w)) (hm : x.fits w)
    (hk : pc = .write → x.spares (.ptr g))
    (hf : x.apart (addFoot w w' g s pc)) : runAdd (x.on w) t rest g s dest pc = some (x.on w') := by
  cases pc with
  | wait => exact patch_acquire h
  | detach =>
    simp only [runAdd] at h ⊢
    split at h
    · cases h; cases hu
    · rename_i b hb
      simp only [addFoot, hb] at hf
      have hg : x.spares (.ptr g) := hf _ .read (by simp [tstFoot])
      cases h
      simp only [Patch.on_sig _ hg, hb, hC.vecs g b hb, Patch.on_setStack]
  | clone =>
    simp only [runAdd] at h ⊢
    split at h
    · cases h; cases hu
    · rename_i b hb
      simp only [addFoot, hb] at hf
      have hg : x.spares (.ptr g) := hf _ .read (by simp [detFoot])
      cases h
      simp only [Patch.on_sig _ hg, hb, patch_clone hm hf, Patch.on_setStack]
  | write =>
    simp only [runAdd, Patch.on_sig _ (hk rfl)] at h ⊢
    split at h
    · cases h; cases hu
    · rename_i b hb
      simp only [addFoot, hb] at hf
      have h1 : x.spares (.idx s) := hf _ .update (by simp)
      have h2 : x.spares (.vec b) := hf _ .update (by simp)
      cases h
      simp only [Patch.on_blk _ h2, Patch.on_setIndex _ _ h1, Patch.on_setBlk _ _ h2, Patch.on_setStack, Patch.on_emitEv]
  | unlock =>
    simp only [runAdd, Patch.on_setMutex, Patch.on_setStack, Patch.on_emitEv] at h ⊢
    split at h <;> cases h <;> rfl

theorem patch_erase {g : SigId} {tgt : Option Callable} {rest : List Frame} {pc : ErasePc}
    (h : runErase E w t rest g tgt pc = some w') (hu : w'.ub = none) (hC : SameCounts w (x.on w)) (hm : x.fits w)
    (hk : ∀ i c, pc = .scan i c → x.spares (.ptr g))
    (hf : x.apart (eraseFoot E w w' g tgt pc)) : runErase E (x.on w) t rest g tgt pc = some (x.on w') := by
  cases pc with
  | wait => exact patch_acquire h
  | detach =>
    simp only [runErase] at h ⊢
    split at h
    · cases h; cases hu
    · rename_i b hb
      simp only [eraseFoot, hb] at hf
      have hg : x.spares (.ptr g) := hf _ .read (by simp [tstFoot])
      cases h
      simp only [Patch.on_sig _ hg, hb, hC.vecs g b hb, Patch.on_setStack]
  | clone =>
    simp only [runErase] at h ⊢
    split at h
    · cases h; cases hu
    · rename_i b hb
      simp only [eraseFoot, hb] at hf
      have hg : x.spares (.ptr g) := hf _ .read (by simp [detFoot])
      cases h
      simp only [Patch.on_sig _ hg, hb, patch_clone hm hf, Patch.on_setStack]
  | scan i c =>
    simp only [runErase, Patch.on_sig _ (hk i c rfl)] at h ⊢
    split at h
    · cases h; cases hu
    · rename_i b hb
      simp only [eraseFoot, hb] at hf
      have h2 : x.spares (.vec b) := hf _ .read (by simp)
      simp only [Patch.on_blk _ h2, Patch.on_fn]
      split at h
      · cases h; simp
      · rename_i s hi
        simp only [hi] at hf ⊢
        split at h <;> cases h <;> rename_i he
        · simp
        · have hf' : x.apart (remFoot w b i) := fun l k hk => hf l k (by rw [if_pos he]; exact List.mem_cons_of_mem _ hk)
          simp [patch_remove h2 hf']
        · simp
  | unlock r =>
    simp only [runErase] at h ⊢
    cases h; simp

theorem patch_disc {s : SlotId} {k : DiscK} {rest : List Frame} {pc : DiscPc}
    (h : runDisc w t rest s k pc = some w') (hu : w'.ub = none) (hC : SameCounts w (x.on w)) (hm : x.fits w)
    (hk : ∀ g, pc = .crit g .write → x.spares (.ptr g) ∧ x.spares (.idx s))
    (hf : x.apart (discFoot w w' s pc)) : runDisc (x.on w) t rest s k pc = some (x.on w') := by
  cases pc with
  | exch =>
    simp only [runDisc, Patch.on_connected, Patch.on_owner] at h ⊢
    split at h <;> cases h <;> rename_i hc <;> simp [hc]
  | crit g pc =>
    cases pc with
    | wait => exact patch_acquire h
    | detach =>
      simp only [runDisc] at h ⊢
      split at h
      · cases h; cases hu
      · rename_i b hb
        simp only [discFoot, hb] at hf
        have hg : x.spares (.ptr g) := hf _ .read (by simp [tstFoot])
        cases h
        simp only [Patch.on_sig _ hg, hb, hC.vecs g b hb, Patch.on_setStack]
    | clone =>
      simp only [runDisc] at h ⊢
      split at h
      · cases h; cases hu
      · rename_i b hb
        simp only [discFoot, hb] at hf
        have hg : x.spares (.ptr g) := hf _ .read (by simp [detFoot])
        cases h
        simp only [Patch.on_sig _ hg, hb, patch_clone hm hf, Patch.on_setStack]
    | write =>
      obtain ⟨h1, h2⟩ := hk g rfl
      simp only [runDisc, Patch.on_sig _ h1, Patch.on_slot _ h2] at h ⊢
      split at h
      · cases h; cases hu
      · rename_i b hb
        simp only [discFoot, hb] at hf
        have h3 : x.spares (.vec b) := hf _ .read (by simp)
        have hf' : x.apart (remFoot w b (w.slots s).index) := fun l k hk => hf l k (List.mem_cons_of_mem _ hk)
        simp only [Patch.on_blk _ h3]
        split at h <;> cases h
        · simp [patch_remove h3 hf']
        · simp
    | unlock =>
      simp only [runDisc] at h ⊢
      cases h; simp
  | drop g =>
    simp only [runDisc] at h ⊢
    cases h; simp

theorem patch_mov {g g' : SigId} {rest : List Frame} {pc : MovPc} (h : runMov w t rest g' g pc = some w')
    (hf : x.apart (movFoot g' g pc)) : runMov (x.on w) t rest g' g pc = some (x.on w') := by
  cases pc with
  | wait => exact patch_acquire h
  | write =>
    have h1 : x.spares (.ptr g) := hf _ .read (by simp [movFoot])
    have h2 : x.spares (.ptr g') := hf _ .init (by simp [movFoot])
    simp only [runMov] at h ⊢
    cases h
    rw [Patch.on_sig _ h1, Patch.on_setList _ _ h2, Patch.on_setList _ _ h1]
    simp
  | unlock =>
    simp only [runMov] at h ⊢
    cases h
    rw [Patch.on_setMutex, Patch.on_setStack, Patch.on_setAlive]

theorem patch_run (h : runTop E w t = some w') (hu : w'.ub = none) (hC : SameCounts w (x.on w)) (hm : x.fits w)
    (hk : ∀ y ∈ cached w t, x.spares y) (hf : x.apart (runFoot E w w' t)) : runTop E (x.on w) t = some (x.on w') := by
  simp only [runTop, Patch.on_stacks] at h ⊢
  simp only [cached, cachedBy] at hk
  simp only [runFoot] at hf
  split at h <;> rename_i hst
  · rw [hst] at hf; exact patch_emit h hu hf
  · exact patch_call h
  · rw [hst] at hf hk
    exact patch_add h hu hC hm (fun e => by subst e; exact hk _ (by simp)) hf
  · rw [hst] at hf hk
    exact patch_erase h hu hC hm (fun i c e => by subst e; exact hk _ (by simp)) hf
  · rw [hst] at hf hk
    exact patch_disc h hu hC hm (fun g e => by subst e; exact ⟨hk _ (by simp), hk _ (by simp)⟩) hf
  · rw [hst] at hf; exact patch_mov h hf
  · cases h

theorem patch_fail (h : allocFail w t = some w') (hu : w'.ub = none)
    (hk : ∀ y ∈ cached w t, x.spares y) (hf : x.apart (failFoot w t)) : allocFail (x.on w) t = some (x.on w') := by
  simp only [allocFail, Patch.on_stacks] at h ⊢
  simp only [cached, cachedBy] at hk
  simp only [failFoot] at hf
  split at h <;> rename_i hst
  · rw [hst] at hf
    split at h
    · rename_i b hb
      simp only [hb] at hf
      have hg : x.spares (.ptr _) := hf _ .read List.mem_cons_self
      simp only [Patch.on_sig _ hg, hb]
      cases h; simp
    · cases h
  · rw [hst] at hf hk
    have hg : x.spares (.ptr _) := hk _ List.mem_cons_self
    rw [Patch.on_sig _ hg]
    split at h
    · rename_i b hb; cases h; simp
    · cases h
  · rw [hst] at hf
    split at h
    · rename_i b hb
      simp only [hb] at hf
      have hg : x.spares (.ptr _) := hf _ .read List.mem_cons_self
      simp only [Patch.on_sig _ hg, hb]
      cases h; simp
    · cases h
  · split at h
    · cases h; cases hu
    · cases h
  · cases h

theorem patch_clear (h : Handle) : (x.on w).clearHandle h = x.on (w.clearHandle h) := by
  cases h <;> rfl

theorem patch_user {a : Api} (h : userOp w t a = some w') (hu : w'.ub = none) (hC : SameCounts w (x.on w)) (hm : x.fits w)
    (hf : x.apart (userFoot w w' t a)) : userOp (x.on w) t a = some (x.on w') := by
  cases a with
  | newSig v =>
    simp only [userOp] at h ⊢
    have h1 : x.spares (.vec w.nBlks) := hf _ .init (by simp [userFoot])
    have h2 : x.spares (.ptr w.nSigs) := hf _ .init (by simp [userFoot])
    cases h
    simp only [Patch.spares] at h1 h2
    simp only [Patch.on]
    rw [Patch.upd_map w.sigs (fun g r => { r with list := (x.ptr g).getD r.list }) w.nSigs ⟨some w.nBlks, none, false, true, v⟩ _
      (by simp [h2]), Patch.upd_map w.blks (fun b l => (x.vec b).getD l) w.nBlks [] _ (by simp [h1])]
  | destroySig g =>
    simp only [userOp, Patch.on_nSigs, Patch.on_alive, Patch.on_mutex] at h ⊢
    simp only [userFoot] at hf
    split at h <;> rename_i hg
    · rw [if_pos hg]
      split at h <;> rename_i ha
      · cases h; cases hu
      · rw [if_neg ha]
        split at h <;> rename_i hx
        · cases h; cases hu
        · rw [if_neg hx]
          have hc : ((w.sigs g).alive && (w.sigs g).mutex.isNone) = true := by
            simp at ha hx; simp [ha, hx]
          rw [if_pos hc] at hf
          have h2 : x.spares (.ptr g) := hf _ .destroy (by simp)
          cases h
          simp only [Patch.spares] at h2
          simp only [Patch.on, World.emitEv]
          rw [Patch.upd_map w.sigs (fun g r => { r with list := (x.ptr g).getD r.list }) g { w.sigs g with alive := false, list := none } _
            (by simp [h2])]
    · cases h
  | moveSig g =>
    simp only [userOp, Patch.on_nSigs, Patch.on_alive, Patch.on_isVoid, Patch.on_sblocked, Patch.on_stacks] at h ⊢
    split at h <;> rename_i hg
    · rw [if_pos hg]
      split at h <;> rename_i ha
      · cases h; cases hu
      · rw [if_neg ha]
        cases h
        have h2 : x.spares (.ptr w.nSigs) := (hm (.ptr w.nSigs)).resolve_right (Nat.lt_irrefl _)
        simp only [Patch.spares] at h2
        simp only [Patch.on, World.setStack]
        rw [Patch.upd_map w.sigs (fun g r => { r with list := (x.ptr g).getD r.list }) w.nSigs
          ⟨none, none, (w.sigs g).sblocked, false, (w.sigs g).isVoid⟩ _ (by simp [h2])]
    · cases h
  | moveAssignSig g g' =>
    simp only [userOp] at h
    split at h
    · cases h; cases hu
    · cases h
  | connect g fn consume conn blk dest =>
    simp only [userOp, Patch.on_nSigs, Patch.on_nObjs, Patch.on_nSlots, Patch.on_stacks] at h ⊢
    split at h <;> rename_i hg
    · rw [if_pos hg]
      cases h
      have h2 : x.spares (.idx w.nSlots) := (hm (.idx w.nSlots)).resolve_right (Nat.lt_irrefl _)
      simp only [Patch.spares] at h2
      simp only [Patch.on, World.setStack, World.emitEv]
      rw [Patch.upd_map w.slots (fun s r => { r with index := (x.idx s).getD r.index }) w.nSlots
        ⟨fn, consume, 0, conn, blk, g⟩ _ (by simp [h2])]
    · cases h
  | emit g comb args =>
    simp only [userOp, Patch.on_nSigs, Patch.on_nEm, Patch.on_stacks] at h ⊢
    split at h <;> rename_i hg
    · rw [if_pos hg]; cases h; rfl
    · cases h
  | sigDisconnect g tgt =>
    simp only [userOp, Patch.on_nSigs, Patch.on_stacks] at h ⊢
    split at h <;> rename_i hg
    · rw [if_pos hg]; cases h; simp
    · cases h
  | disconnect => simp only [userOp, Patch.on_hval, patch_discStart hC] at h ⊢; cases h; rfl
  | block => simp only [userOp, Patch.on_hval, patch_connSet hC] at h ⊢; cases h; rfl
  | unblock => simp only [userOp, Patch.on_hval, patch_connSet hC] at h ⊢; cases h; rfl
  | connCopy => simp only [userOp, Patch.on_hval, Patch.on_cv] at h ⊢; cases h; rfl
  | connMove y z =>
    simp only [userOp, Patch.on_hval, patch_clear, Patch.on_cv] at h ⊢
    split at h <;> rename_i hz
    · cases h; rw [if_pos hz]
    · cases h; rw [if_neg hz]; rfl
  | connSwap => simp only [userOp, Patch.on_cv] at h ⊢; cases h; rfl
  | scopedNew =>
    simp only [userOp, Patch.on_sv] at h ⊢
    split at h <;> rename_i hz
    · cases h; rw [if_pos hz]; rfl
    · cases h
  | scopedOfConn =>
    simp only [userOp, Patch.on_sv, Patch.on_cv] at h ⊢
    split at h <;> rename_i hz
    · cases h; rw [if_pos hz]; rfl
    · cases h
  | scopedMoveCtor =>
    simp only [userOp, Patch.on_sv, Patch.on_cv] at h ⊢
    split at h
    · cases h; rfl
    · cases h
  | scopedMoveAssign =>
    simp only [userOp, Patch.on_sv, patch_discStart hC] at h ⊢
    split at h
    · cases h; rfl
    · cases h
  | scopedRelease =>
    simp only [userOp, Patch.on_sv, Patch.on_cv] at h ⊢
    split at h
    · cases h; rfl
    · cases h
  | scopedSwap =>
    simp only [userOp, Patch.on_sv, Patch.on_cv] at h ⊢
    split at h
    · cases h; rfl
    · cases h
  | scopedBase =>
    simp only [userOp, Patch.on_sv, Patch.on_hval] at h ⊢
    split at h <;> rename_i hz
    · cases h; rw [if_pos hz]; rfl
    · cases h
  | scopedDtor y =>
    simp only [userOp, Patch.on_sv] at h ⊢
    split at h
    · cases h
      have e : ({ x.on w with sv := upd w.sv y none } : World) = x.on { w with sv := upd w.sv y none } := by rfl
      simp only [e]
      exact congrArg some (patch_discStart ⟨fun g b hl => by rw [← e]; exact hC.vecs g b hl, fun s => by rw [← e]; exact hC.slots s⟩)
    · cases h
  | blockerNew =>
    simp only [userOp, Patch.on_bv] at h ⊢
    split at h <;> rename_i hz
    · cases h; rw [if_pos hz]; rfl
    · cases h
  | blockerOf y z =>
    simp only [userOp, Patch.on_bv, Patch.on_hval] at h ⊢
    split at h <;> rename_i hz
    · cases h; rw [if_pos hz]
      have e : ({ x.on w with bv := upd w.bv y (some (w.hval z)) } : World) = x.on { w with bv := upd w.bv y (some (w.hval z)) } := by
        rfl
      simp only [e]
      exact congrArg some (patch_connSet ⟨fun g b hl => by rw [← e]; exact hC.vecs g b hl, fun s => by rw [← e]; exact hC.slots s⟩)
    · cases h
  | blockerMoveCtor =>
    simp only [userOp, Patch.on_bv, Patch.on_cv] at h ⊢
    split at h
    · cases h; rfl
    · cases h
  | blockerMoveAssign =>
    simp only [userOp, Patch.on_bv, patch_connSet hC] at h ⊢
    split at h
    · split at h <;> rename_i hz <;> cases h
      · rw [if_pos hz]
      · rw [if_neg hz]; rfl
    · cases h
  | blockerSwap =>
    simp only [userOp, Patch.on_bv, Patch.on_cv] at h ⊢
    split at h
    · cases h; rfl
    · cases h
  | blockerDtor y =>
    simp only [userOp, Patch.on_bv] at h ⊢
    split at h
    · cases h
      have e : ({ x.on w with bv := upd w.bv y none } : World) = x.on { w with bv := upd w.bv y none } := by rfl
      simp only [e]
      exact congrArg some (patch_connSet ⟨fun g b hl => by rw [← e]; exact hC.vecs g b hl, fun s => by rw [← e]; exact hC.slots s⟩)
    · cases h
  | objNew => simp only [userOp, Patch.on_objs, Patch.on_nObjs] at h ⊢; cases h; rfl
  | objShare =>
    simp only [userOp, Patch.on_objs, Patch.on_objAlive] at h ⊢
    split at h <;> rename_i hz
    · cases h; rw [if_pos hz]; rfl
    · cases h
  | objDrop =>
    simp only [userOp, Patch.on_objs] at h ⊢
    split at h <;> rename_i hz
    · cases h; rw [if_pos hz]; rfl
    · cases h
  | pin =>
    have e : (x.on w).slotAlive = w.slotAlive := funext hC.slots
    simp only [userOp, Patch.on_pval, Patch.on_pins, e] at h ⊢
    cases h; rfl
  | unpin =>
    simp only [userOp, Patch.on_pins] at h ⊢
    split at h <;> rename_i hz
    · cases h; rw [if_pos hz]; rfl
    · cases h
  | combDeref i =>
    simp only [userOp, Patch.on_stacks] at h ⊢
    split at h
    · rename_i e g args b pos acc rest hst
      have hb : x.spares (.vec b) := hf _ .walk (by simp [userFoot, hst, topBlk])
      rw [Patch.on_blk _ hb]
      split at h
      · cases h; simp
      · cases h; cases hu
    · cases h
  | combDone =>
    simp only [userOp, Patch.on_stacks] at h ⊢
    split at h
    · cases h; simp
    · cases h
  | combThrow =>
    simp only [userOp, Patch.on_stacks] at h ⊢
    split at h
    · cases h; simp
    · cases h

theorem patch_ret {v : Val} (h : userRet w t v = some w') : userRet (x.on w) t v = some (x.on w') := by
  simp only [userRet, Patch.on_stacks, Patch.on_isVoid] at h ⊢
  split at h
  · cases h; simp
  · cases h

theorem patch_throw {c : Bool} (h : userThrow w t c = some w') : userThrow (x.on w) t c = some (x.on w') := by
  simp only [userThrow, Patch.on_stacks] at h ⊢
  split at h
  · split at h <;> rename_i hc
    · rw [if_pos hc]
      split at h
      · cases h; simp
      · cases h
    · rw [if_neg hc]; cases h; simp
  · cases h

/-- A step that does not access a location neither depends on its contents nor changes them. -/
theorem patch_step {l : Label} (hs : step E w l = some w') (hu : w'.ub = none) (hC : SameCounts w (x.on w)) (hm : x.fits w)
    (hk : ∀ y ∈ cached w l.tid, x.spares y) (hf : x.apart (foot E w w' l)) : step E (x.on w) l = some (x.on w') := by
  have hs0 := hs
  simp only [step, Patch.on_ub, Patch.on_nThr] at hs ⊢
  have hu' : w'.ub.isSome = false := by rw [hu]; rfl
  simp only [foot, hu', Bool.false_eq_true, if_false] at hf
  split at hs
  · cases hs
  · rename_i h0
    rw [if_neg h0]
    split at hs
    · rename_i ht
      rw [if_pos ht]
      cases l with
      | run t => exact patch_run hs hu hC hm hk hf
      | call t a =>
        simp only [Patch.on_stacks] at hs ⊢
        split at hs <;> rename_i hx
        · rw [if_pos hx]; exact patch_user hs hu hC hm hf
        · cases hs
      | ret t v => exact patch_ret hs
      | throw t c => exact patch_throw hs
      | fail t => exact patch_fail hs hu hk hf
      | ctl t => obtain ⟨-, -, rfl, -⟩ := step_ctl hs0; cases hu
    · cases hs

theorem kept_user {st : List Frame} (h : UserStk st) : cachedBy st = [] := by cases h <;> rfl

theorem frame_run {l : Label} {f f' : Frame} {rest : List Frame} {v : World}
    (hs : step E w l = some (v.setStack t (f' :: rest))) (ht : l.tid = t) (hst : w.stacks t = f :: rest)
    (hf : f.tst true ≠ none ∨ f.tst false ≠ none ∨ f.det ≠ none) (hn : f' ≠ f) : l = .run t := by
  cases l with
  | run t' => cases ht; rfl
  | call t' a =>
    cases ht
    obtain ⟨-, -, hu, -⟩ := step_call hs
    simp only [Label.tid] at hst hu
    rw [hst] at hu
    exfalso
    cases f <;> simp [Frame.tst, Frame.det] at hf <;> cases hu
  | ret t' v =>
    cases ht
    obtain ⟨-, -, s, o, m, b, pos, acc, rest', h, -⟩ := step_ret hs
    simp only [Label.tid] at hst
    rw [hst] at h; cases h; simp [Frame.tst, Frame.det] at hf
  | throw t' c =>
    cases ht
    obtain ⟨-, -, s, o, m, b, pos, acc, rest', h, -⟩ := step_throw hs
    simp only [Label.tid] at hst
    rw [hst] at h; cases h; simp [Frame.tst, Frame.det] at hf
  | fail t' =>
    cases ht
    simp only [Label.tid] at hst hs
    rcases step_fail_cases hs with ⟨h, -⟩ | ⟨f1, rest1, g1, s1, b1, h1, h2, h3, h⟩
    · have := congrArg (fun v => v.stacks t') h
      simp only [World.setStack, World.setUB, upd_apply, if_pos, hst] at this
      cases this
      exact absurd rfl hn
    · rw [hst] at h1; cases h1
      have := congrArg (fun v => (v.stacks t').length) h
      simp [World.setStack, World.emitEv, upd_apply] at this
  | ctl t' =>
    cases ht
    simp only [Label.tid] at hst hs
    obtain ⟨-, -, h, -⟩ := step_ctl hs
    have := congrArg (fun v => v.stacks t') h
    simp only [World.setStack, World.setUB, upd_apply, if_pos, hst] at this
    cases this
    exact absurd rfl hn

/-- What the thread holds in local variables it has read in an earlier step, which recorded the access. -/
theorem kept_step {l : Label} {y : Loc} (I : Inv1 w) (hs : step E w l = some w') (hu : w'.ub = none) (hy : y ∈ cached w' l.tid) :
    y ∈ cached w l.tid ∨ .acc y .read ∈ foot E w w' l := by
  have R := (step_inv hs).2.2
  have hu' : w'.ub.isSome = false := by rw [hu]; rfl
  have tail : ∀ {f rest}, w.stacks l.tid = f :: rest → f.isCall = false → cachedBy rest = [] := fun hst hf => by
    have := I.stk l.tid; rw [hst] at this; exact kept_user (this.tail hf)
  have tail2 : ∀ {s pc m p rest}, w.stacks l.tid = .call s pc :: .emit m p :: rest → cachedBy rest = [] := fun hst => by
    have := I.stk l.tid; rw [hst] at this; exact kept_user this.callTail
  simp only [cached] at hy ⊢
  generalize ht : l.tid = t at *
  cases R with
  | ub => cases hu
  | hand | flag | objs | pins | newSig | destroy | discFail => exact .inl hy
  | tst f f' rest g b hst hf hl =>
    have hl' : Label.run t = l := by
      refine (frame_run hs ht hst ?_ ?_).symm
      · cases h : w.shared g b <;> rw [h] at hf <;> simp [hf]
      · rintro rfl
        revert hf; cases w.shared g b <;> intro hf <;> unfold Frame.tst at hf <;> split at hf <;> simp at hf
    subst hl'
    simp only [foot, hu', Bool.false_eq_true, if_false, runFoot, hst]
    simp only [World.setStack, upd_apply, if_pos] at hy
    right
    revert hf hy
    cases w.shared g b <;> intro hf hy <;> unfold Frame.tst at hf <;> split at hf <;> cases hf
    all_goals simp only [cachedBy, List.mem_cons, List.not_mem_nil, or_false, if_true, Bool.false_eq_true, if_false] at hy
    · subst hy; simp [addFoot, hl, tstFoot]
    · subst hy; simp [eraseFoot, hl, tstFoot]
    · rcases hy with rfl | rfl <;> simp [discFoot, hl, tstFoot]
    · subst hy; simp [discFoot, hl, tstFoot]
  | det f f' rest g b hst hf hl =>
    have hl' : Label.run t = l := by
      refine (frame_run hs ht hst (.inr (.inr (by simp [hf]))) ?_).symm
      rintro rfl
      unfold Frame.det at hf; split at hf <;> simp at hf
    subst hl'
    simp only [foot, hu', Bool.false_eq_true, if_false, runFoot, hst]
    simp only [World.setStack, upd_apply, if_pos] at hy
    unfold Frame.det at hf
    split at hf <;> cases hf
    · simp only [cachedBy, List.mem_singleton] at hy; subst hy; right; simp [addFoot, hl, detFoot]
    · simp only [cachedBy, List.mem_singleton] at hy; subst hy; right; simp [eraseFoot, hl, detFoot]
    · simp only [cachedBy, List.mem_cons, List.not_mem_nil, or_false] at hy
      rcases hy with rfl | rfl
      · right; simp [discFoot, hl, detFoot]
      · left; simp [cachedBy]
  | eraseHit g tgt i c rest b s hst => rw [hst]; simp only [World.emitEv, World.setStack, upd_apply, if_pos] at hy; exact .inl hy
  | eraseMiss g tgt i c rest b s hst => rw [hst]; simp only [World.setStack, upd_apply, if_pos] at hy; exact .inl hy
  | acq f f' rest g hst hf =>
    simp only [World.setStack, upd_apply, if_pos] at hy
    unfold Frame.acq at hf; split at hf <;> cases hf <;> cases hy
  | emSupp m rest hst | emDone m b pos acc r rest hst | combThrow m b pos acc rest hst | addUnlock g s d rest cv sv bv hst
  | eraseUnlock g tgt r rest hst | exchFalse s k rest cv sv bv hst | discDrop s k rest g cv sv bv hst | movUnlock g' g rest hst =>
    have e := tail hst rfl
    simp only [World.emitEv, World.setStack, World.setH, upd_apply, if_pos, e] at hy
    cases hy
  | callThrow s o m b pos acc rest hst =>
    have e := tail2 hst
    simp only [World.emitEv, World.setStack, upd_apply, if_pos, e] at hy
    cases hy
  | fail f rest g s hst hf =>
    have e := tail hst (by unfold Frame.allocs at hf; split at hf <;> first | rfl | cases hf)
    simp only [World.emitEv, World.setStack, upd_apply, if_pos, e] at hy
    cases hy
  | _ => simp only [World.emitEv, World.setStack, upd_apply, if_pos] at hy; cases hy

end Verif
