import Verif.Seq
import Verif.Mach.Alive
import Verif.Mach.Life
import Verif.Props.Emission
import Verif.Props.Lists
import Verif.Props.Pin
import Verif.Props.Disconnect

/-!
# C71: used from one thread, the library does what the sequential specification says
-/

namespace Verif

open _root_.Verif.Seq

variable {E : Env} {w w' : World} {t : Tid}

/-! ### What the specification sees of the model -/

/-- What can be seen of an event. -/
def Event.obs : Event → Option Obs
  | .connRet _ _ s => some (.conn s)
  | .discRet _ _ b => some (.disc b)
  | .eraseRet _ _ _ r => some (.erased r)
  | .enter _ s args => some (.call s args)
  | .done _ r => some (.ret r)
  | .aborted _ => some .threw
  | _ => none

namespace World

/-- A listener. -/
def lisOf (w : World) (s : SlotId) : Lis :=
  ⟨(w.slots s).fn, (w.slots s).consume, (w.slots s).connected, (w.slots s).blocked, (w.slots s).owner⟩

/-- A signal. -/
def sigOf (w : World) (g : SigId) : Option (Option (List SlotId)) :=
  if (w.sigs g).alive then some ((w.sigs g).list.map w.blks) else none

/-- An emission. -/
def frOf (w : World) (m : Em) (b : BlkId) (pos : Nat) (acc : Option Val) (cur : Option (SlotId × Option ObjId)) : Fr :=
  ⟨(w.sigs m.g).isVoid, m.comb == .custom, m.args, w.blks b, pos, acc, cur⟩

/-- The emissions that are in progress on a stack. -/
def frs (w : World) : List Frame → List Fr
  | .call s (.body o) :: .emit m (.iter b pos acc) :: rest => w.frOf m b pos acc (some (s, o)) :: frs w rest
  | .emit m (.iter b pos acc) :: rest => w.frOf m b pos acc none :: frs w rest
  | _ => []

/-- What a program sees whose stack is `st`. -/
def view (w : World) (st : List Frame) : St where
  lis := w.lisOf
  n := w.nSlots
  sig := w.sigOf
  void := fun g => (w.sigs g).isVoid
  nSig := w.nSigs
  objs := w.objs
  nObjs := w.nObjs
  cv := w.cv
  sv := w.sv
  bv := w.bv
  fr := w.frs st
  out := w.log.filterMap Event.obs

end World

/-- One thread, no local `shared_ptr`s of other functions. -/
structure Alone (E : Env) (t : Tid) (w : World) : Prop where
  reach : Reachable E w
  others : ∀ u, u ≠ t → w.stacks u = []
  pins : w.pins = []

theorem Alone.any (A : Alone E t w) {p : Frame → Prop} : (∃ u, ∃ f ∈ w.stacks u, p f) ↔ ∃ f ∈ w.stacks t, p f := by
  constructor
  · rintro ⟨u, f, hf, h⟩
    by_cases hu : u = t
    · subst hu; exact ⟨f, hf, h⟩
    · rw [A.others u hu] at hf; cases hf
  · rintro ⟨f, hf, h⟩; exact ⟨t, f, hf, h⟩

theorem frs_items {st : List Frame} (h : UserStk st) (s : SlotId) :
    (∃ f ∈ st, f.slot? = some s ∨ ∃ b, f.blk? = some b ∧ s ∈ w.blks b) ↔ ∃ f ∈ w.frs st, s ∈ f.items := by
  induction h with
  | nil => simp [World.frs]
  | body s' o m b pos acc rest h ih =>
    simp only [World.frs, List.mem_cons, exists_eq_or_imp, ih]
    simp [Frame.slot?, Frame.blk?, World.frOf]
  | comb m b pos acc rest hc h ih =>
    simp only [World.frs, List.mem_cons, exists_eq_or_imp, ih]
    simp [Frame.slot?, Frame.blk?, World.frOf]

theorem frs_obj {st : List Frame} (h : UserStk st) (o : ObjId) :
    (∃ f ∈ st, f.obj? = some o) ↔ ∃ f ∈ w.frs st, ∃ s, f.cur = some (s, some o) := by
  induction h with
  | nil => simp [World.frs]
  | body s' o' m b pos acc rest h ih =>
    simp only [World.frs, List.mem_cons, exists_eq_or_imp, ih]
    simp [Frame.obj?, World.frOf]
  | comb m b pos acc rest hc h ih =>
    simp only [World.frs, List.mem_cons, exists_eq_or_imp, ih]
    simp [Frame.obj?, World.frOf]

theorem frs_congr {st : List Frame} (h : ∀ m b pos acc, Frame.emit m (.iter b pos acc) ∈ st →
    (w'.sigs m.g).isVoid = (w.sigs m.g).isVoid ∧ w'.blks b = w.blks b) : w'.frs st = w.frs st := by
  fun_induction World.frs w st with
  | case1 s o m b pos acc rest ih =>
    obtain ⟨h1, h2⟩ := h m b pos acc (by simp)
    simp only [World.frs, World.frOf, h1, h2]
    rw [ih fun m b pos acc hm => h m b pos acc (by simp [hm])]
  | case2 m b pos acc rest ih =>
    obtain ⟨h1, h2⟩ := h m b pos acc (by simp)
    simp only [World.frs, World.frOf, h1, h2]
    rw [ih fun m b pos acc hm => h m b pos acc (by simp [hm])]
  | case3 st h1 h2 =>
    unfold World.frs
    split
    · exact absurd rfl (h1 _ _ _ _ _ _ _)
    · exact absurd rfl (h2 _ _ _ _ _)
    · rfl

theorem frs_step (h : Reachable E w) (R : StepR E w t w') {st : List Frame} {u : Tid} (hst : ∀ f ∈ st, f ∈ w.stacks u) :
    w'.frs st = w.frs st := by
  refine frs_congr fun m b pos acc hm => ?_
  have := h.full.i.i1.rng u _ (hst _ hm)
  exact ⟨(fixed R).isVoid _ this.1, owned_blk h.full.i R (hst _ hm) rfl⟩

theorem lives_iff (A : Alone E t w) (hu : userCtx (w.stacks t) = true) (s : SlotId) :
    w.slotAlive s = true ↔ (w.view (w.stacks t)).lives s := by
  have U : UserStk (w.stacks t) := (A.reach.full.i.i1.stk t).toUser hu
  rw [slotAlive_iff A.reach.full.i.i1, A.any, frs_items U, A.pins]
  simp only [St.lives, World.view, List.not_mem_nil, or_false]
  refine or_congr_left ⟨fun ⟨g, hg⟩ => ?_, fun ⟨g, l, hg, hl⟩ => ?_⟩
  · unfold World.listOf at hg
    cases hl : (w.sigs g).list with
    | none => rw [hl] at hg; cases hg
    | some b =>
      rw [hl] at hg
      have ha : (w.sigs g).alive = true := by
        cases ha : (w.sigs g).alive with
        | true => rfl
        | false =>
          exfalso
          have hlt : g < w.nSigs := by
            refine Nat.lt_of_not_le fun hle => ?_
            rw [(A.reach.full.i.i1.out g hle).1] at hl; cases hl
          rcases A.reach.inv9.ali g hlt ha with h | ⟨u, g0, pc, h⟩
          · rw [(A.reach.inv9.dst g h).2.2.1] at hl; cases hl
          · by_cases hut : u = t
            · subst hut; rw [U.tops.2.1] at h; cases h
            · rw [A.others u hut] at h; cases h
      exact ⟨g, w.blks b, by simp [World.sigOf, ha, hl], hg⟩
  · refine ⟨g, ?_⟩
    simp only [World.sigOf] at hg
    split at hg
    · injection hg with hg
      unfold World.listOf
      cases hb : (w.sigs g).list with
      | none => rw [hb] at hg; cases hg
      | some b => rw [hb] at hg; injection hg with hg; subst hg; exact hl
    · cases hg

/-- With frames on top that hold no object. -/
theorem objLives_iff (A : Alone E t w) {pre st : List Frame} (hst : w.stacks t = pre ++ st) (U : UserStk st)
    (hp : ∀ f ∈ pre, f.obj? = none) (o : ObjId) : w.objAlive o = true ↔ (w.view st).objLives o := by
  rw [objAlive_iff A.reach.full.i.i1, A.any, hst]
  simp only [St.objLives, World.view, ← frs_obj U]
  refine or_congr_right ⟨fun ⟨f, hf, h⟩ => ?_, fun ⟨f, hf, h⟩ => ⟨f, by simp [hf], h⟩⟩
  rcases List.mem_append.1 hf with hf | hf
  · rw [hp f hf] at h; cases h
  · exact ⟨f, hf, h⟩

theorem up_iff (A : Alone E t w) {pre st : List Frame} (hst : w.stacks t = pre ++ st) (U : UserStk st)
    (hp : ∀ f ∈ pre, f.obj? = none) (s : SlotId) : w.slotConnected s = true ↔ (w.view st).up s := by
  unfold World.slotConnected St.up
  rw [Bool.and_eq_true]
  refine and_congr ?_ (by simp [World.view, World.lisOf])
  have e : ((w.view st).lis s).fn = (w.slots s).fn := rfl
  rw [e]
  cases ho : (w.slots s).fn.obj? with
  | none => simp
  | some o => simp [objLives_iff A hst U hp]

/-! ### Finishing what the library is doing -/

/-- What the caller of `disconnect` does afterwards. -/
def DiscK.done (k : DiscK) (a : St) : Res :=
  match k with
  | .ret => .ok a
  | .assign x y => .ok (if x = y then a else { a with sv := upd (upd a.sv x (a.sv y)) y (some none) })

open Classical in
/-- `disconnect()` of a listener that exists. -/
noncomputable def hang (a : St) (s : SlotId) : Res :=
  if (a.lis s).conn = true then
    a.onList (a.lis s).home fun l =>
      .ok (({ a with lis := upd a.lis s { a.lis s with conn := false } }.setSig (a.lis s).home (St.unlist s l)).say (.disc true))
  else .ok (a.say (.disc false))

/-- A listener has been passed over. -/
noncomputable def passed (a : St) (f : Fr) : St :=
  if f.custom then { a with fr := { f with acc := none } :: a.fr }
  else a.drive { f with pos := f.pos + 1 } (f.items.drop (f.pos + 1))

/-- The emission `f` calls listener `s`, keeping `o`. -/
def enterO (a : St) (f : Fr) (s : SlotId) (o : Option ObjId) : St :=
  { a with
    fr := { f with args := passArgs (a.lis s).consume f.args, cur := some (s, o) } :: a.fr
    out := .call s f.args :: a.out }

open Classical in
/-- What a call on a listener comes to. -/
noncomputable def settledCall (w : World) (s : SlotId) (f : Fr) (a : St) : CallPc → St
  | .chkBlocked => if (a.lis s).blk = false ∧ a.up s then a.enter f s else passed a f
  | .chkConnected => if a.up s then a.enter f s else passed a f
  | .invoke => enterO a f s none
  | .lockObj o =>
      if w.objAlive o then if w.slotConnected s then enterO a f s (some o) else passed a f
      else passed { a with lis := upd a.lis s { a.lis s with conn := false } } f
  | .recheck o => if w.slotConnected s then enterO a f s (some o) else passed a f
  | .body _ => a

open Classical in
/-- What the program sees when the library has finished what it is doing in `w`, where the stack is as given. -/
noncomputable def settled (E : Env) (w : World) : List Frame → Res
  | .add _ s d .unlock :: rest => .ok (((w.view rest).say (.conn s)).keep s d)
  | .add g s d _ :: rest =>
      (w.view rest).onList g fun l => .ok ((((w.view rest).setSig g (l ++ [s])).say (.conn s)).keep s d)
  | .erase _ _ (.unlock r) :: rest => .ok ((w.view rest).say (.erased r))
  | .erase g tgt (.scan i c) :: rest =>
      (w.view rest).onList g fun l =>
        let r := Vec.eraseScan (fun s => slotEq E (some (w.lisOf s).fn) tgt) l i c
        .ok (((w.view rest).setSig g r.1).say (.erased r.2))
  | .erase g tgt _ :: rest =>
      (w.view rest).onList g fun l =>
        let r := Vec.eraseScan (fun s => slotEq E (some (w.lisOf s).fn) tgt) l 0 0
        .ok (((w.view rest).setSig g r.1).say (.erased r.2))
  | .disc s k .exch :: rest => (hang (w.view rest) s).bind k.done
  | .disc _ k (.crit _ .unlock) :: rest => k.done ((w.view rest).say (.disc true))
  | .disc _ k (.drop _) :: rest => k.done ((w.view rest).say (.disc true))
  | .disc s k (.crit g _) :: rest =>
      ((w.view rest).onList g fun l => .ok (((w.view rest).setSig g (St.unlist s l)).say (.disc true))).bind k.done
  | .mov g' _ .unlock :: rest =>
      .ok { w.view rest with sig := upd w.sigOf g' (some ((w.sigs g').list.map w.blks)) }
  | .mov g' g _ :: rest =>
      if w.sigOf g = none then .ub .deadSignal
      else .ok { w.view rest with sig := upd (upd w.sigOf g (some none)) g' (w.sigOf g) }
  | .emit _ (.unlock none) :: _ => .ub .nullList
  | .emit m (.unlock (some b)) :: rest => .ok ((w.view rest).begin_ (w.frOf m b 0 none none))
  | .emit m (.iter b pos acc) :: rest =>
      if m.comb = .custom then .ok (w.view (.emit m (.iter b pos acc) :: rest))
      else .ok ((w.view rest).drive (w.frOf m b pos acc none) ((w.blks b).drop pos))
  | .emit m _ :: rest =>
      (w.view rest).onList m.g fun l =>
        .ok ((w.view rest).begin_ ⟨(w.sigs m.g).isVoid, m.comb == .custom, m.args, l, 0, none, none⟩)
  | .call s (.body o) :: rest => .ok (w.view (.call s (.body o) :: rest))
  | .call s pc :: .emit m (.iter b pos acc) :: rest =>
      .ok (settledCall w s (w.frOf m b pos acc none) (w.view rest) pc)
  | st => .ok (w.view st)

/-- The outcome of `w`. -/
noncomputable def outcome (E : Env) (t : Tid) (w : World) : Res :=
  match w.ub with
  | some u => .ub u
  | none => settled E w (w.stacks t)

/-- The listener that `disconnect()` is about to take out of the list is in it. -/
def Ready (w : World) : List Frame → Prop
  | .disc s _ .exch :: _ => (w.slots s).connected = true → ∀ l, w.sigOf (w.slots s).owner = some (some l) → s ∈ l
  | .disc _ _ (.crit _ .unlock) :: _ => True
  | .disc s _ (.crit g _) :: _ => ∀ l, w.sigOf g = some (some l) → s ∈ l
  | _ => True

theorem settled_user {st : List Frame} (h : UserStk st) : settled E w st = .ok (w.view st) := by
  cases h with
  | nil => rfl
  | body => rfl
  | comb m b pos acc rest hc => simp [settled, hc]

theorem ready_user {st : List Frame} (h : UserStk st) : Ready w st := by
  cases h <;> trivial

/-! ### What single steps do to the view -/

theorem view_setStack (w : World) (u : Tid) (st' st : List Frame) : (w.setStack u st').view st = w.view st := by
  simp only [World.view, frs_congr (w := w) (w' := w.setStack u st') (st := st) fun _ _ _ _ _ => ⟨rfl, rfl⟩]
  rfl

theorem view_setMutex (w : World) (g : SigId) (m : Option Tid) (st : List Frame) : (w.setMutex g m).view st = w.view st := by
  have hv : ∀ h, ((w.setMutex g m).sigs h).isVoid = (w.sigs h).isVoid := by
    intro h; simp only [World.setMutex, upd]; split <;> simp_all
  simp only [World.view, frs_congr (w := w) (w' := w.setMutex g m) (st := st) fun m' _ _ _ _ => ⟨hv m'.g, rfl⟩, hv]
  have hs : (w.setMutex g m).sigOf = w.sigOf := by
    funext h; simp only [World.sigOf, World.setMutex, upd]; split <;> simp_all
  rw [hs]
  rfl

theorem view_setIndex (w : World) (s i : Nat) (st : List Frame) : (w.setIndex s i).view st = w.view st := by
  simp only [World.view, frs_congr (w := w) (w' := w.setIndex s i) (st := st) fun _ _ _ _ _ => ⟨rfl, rfl⟩]
  have hs : (w.setIndex s i).lisOf = w.lisOf := by
    funext h; simp only [World.lisOf, World.setIndex, upd]; split <;> simp_all
  rw [hs]
  rfl

theorem view_setConnected (w : World) (s : SlotId) (c : Bool) (st : List Frame) :
    (w.setConnected s c).view st = { w.view st with lis := upd (w.view st).lis s { (w.view st).lis s with conn := c } } := by
  simp only [World.view, frs_congr (w := w) (w' := w.setConnected s c) (st := st) fun _ _ _ _ _ => ⟨rfl, rfl⟩]
  have hs : (w.setConnected s c).lisOf = upd w.lisOf s { w.lisOf s with conn := c } := by
    funext h; simp only [World.lisOf, World.setConnected, upd]; split <;> simp_all
  rw [hs]
  rfl

theorem view_setBlocked (w : World) (s : SlotId) (c : Bool) (st : List Frame) :
    (w.setBlocked s c).view st = { w.view st with lis := upd (w.view st).lis s { (w.view st).lis s with blk := c } } := by
  simp only [World.view, frs_congr (w := w) (w' := w.setBlocked s c) (st := st) fun _ _ _ _ _ => ⟨rfl, rfl⟩]
  have hs : (w.setBlocked s c).lisOf = upd w.lisOf s { w.lisOf s with blk := c } := by
    funext h; simp only [World.lisOf, World.setBlocked, upd]; split <;> simp_all
  rw [hs]
  rfl

theorem view_silent (w : World) {ev : Event} (he : ev.obs = none) (st : List Frame) : (w.emitEv ev).view st = w.view st := by
  simp only [World.view, frs_congr (w := w) (w' := w.emitEv ev) (st := st) fun _ _ _ _ _ => ⟨rfl, rfl⟩]
  simp only [World.emitEv, List.filterMap_cons, he]
  rfl

theorem view_say (w : World) {ev : Event} {o : Obs} (he : ev.obs = some o) (st : List Frame) :
    (w.emitEv ev).view st = (w.view st).say o := by
  simp only [World.view, frs_congr (w := w) (w' := w.emitEv ev) (st := st) fun _ _ _ _ _ => ⟨rfl, rfl⟩]
  simp only [World.emitEv, List.filterMap_cons, he]
  rfl

theorem view_setBlk {g : SigId} {b : BlkId} {l : List SlotId} {st : List Frame} (hl : (w.sigs g).list = some b)
    (ha : (w.sigs g).alive = true) (hu : ∀ g', (w.sigs g').list = some b → g' = g) (hf : ∀ f ∈ st, f.blk? ≠ some b) :
    (w.setBlk b l).view st = (w.view st).setSig g l := by
  have e : (w.setBlk b l).frs st = w.frs st := frs_congr fun m b' pos acc hm => by
    refine ⟨rfl, ?_⟩
    have : b' ≠ b := fun e => hf _ hm (by simp [Frame.blk?, e])
    simp [World.setBlk, upd, this]
  simp only [World.view, e]
  have hs : (w.setBlk b l).sigOf = upd w.sigOf g (some (some l)) := by
    funext h
    simp only [World.sigOf, World.setBlk, upd]
    by_cases hg : h = g
    · subst hg; simp [ha, hl, upd]
    · simp only [hg, if_false]
      cases hlh : (w.sigs h).list with
      | none => rfl
      | some b' =>
        have : b' ≠ b := fun e => hg (hu h (e ▸ hlh))
        simp [this, upd]
  rw [hs]
  rfl

theorem view_cloneBlk (I : Inv1 w) {g : SigId} {b : BlkId} (hl : (w.sigs g).list = some b) {st : List Frame} {u : Tid}
    (hst : ∀ f ∈ st, f ∈ w.stacks u) : (cloneBlk w g b).view st = w.view st := by
  have hv : ∀ h, ((cloneBlk w g b).sigs h).isVoid = (w.sigs h).isVoid := by
    intro h; simp only [cloneBlk, World.setList, World.setBlk, upd]; split <;> simp_all
  have e : (cloneBlk w g b).frs st = w.frs st := frs_congr fun m b' pos acc hm => by
    refine ⟨hv _, ?_⟩
    have : b' < w.nBlks := (I.rng u _ (hst _ hm)).2.2 b' rfl
    simp [cloneBlk, World.setList, World.setBlk, upd, Nat.ne_of_lt this]
  simp only [World.view, e, hv]
  have hs : (cloneBlk w g b).sigOf = w.sigOf := by
    funext h
    simp only [World.sigOf, cloneBlk, World.setList, World.setBlk, upd]
    by_cases hg : h = g
    · subst hg; simp [hl, upd]
    · simp only [hg, if_false]
      cases hlh : (w.sigs h).list with
      | none => rfl
      | some b' => simp [Nat.ne_of_lt (I.lst h b' hlh), upd]
  rw [hs]
  rfl

theorem view_removeAt {g : SigId} {b : BlkId} {i : Nat} {st : List Frame} (hl : (w.sigs g).list = some b)
    (ha : (w.sigs g).alive = true) (hu : ∀ g', (w.sigs g').list = some b → g' = g) (hf : ∀ f ∈ st, f.blk? ≠ some b)
    (hi : i < (w.blks b).length) : (removeAt w b i).view st = (w.view st).setSig g (Vec.swapPop (w.blks b) i) := by
  unfold removeAt
  split
  · rename_i s' _
    rw [← view_setIndex w s' i st]
    exact view_setBlk (w := w.setIndex s' i) hl ha hu hf
  · rename_i hn
    exfalso
    have := List.getElem?_eq_none_iff.1 hn
    unfold Vec.swap at this
    split at this
    · simp at this; omega
    · omega

theorem view_cv (w : World) (c : Var → Option SlotId) (st : List Frame) :
    ({ w with cv := c } : World).view st = { w.view st with cv := c } := by
  simp only [World.view, frs_congr (w := w) (w' := { w with cv := c }) (st := st) fun _ _ _ _ _ => ⟨rfl, rfl⟩]
  rfl

theorem view_sv (w : World) (c : Var → Option (Option SlotId)) (st : List Frame) :
    ({ w with sv := c } : World).view st = { w.view st with sv := c } := by
  simp only [World.view, frs_congr (w := w) (w' := { w with sv := c }) (st := st) fun _ _ _ _ _ => ⟨rfl, rfl⟩]
  rfl

theorem view_bv (w : World) (c : Var → Option (Option SlotId)) (st : List Frame) :
    ({ w with bv := c } : World).view st = { w.view st with bv := c } := by
  simp only [World.view, frs_congr (w := w) (w' := { w with bv := c }) (st := st) fun _ _ _ _ _ => ⟨rfl, rfl⟩]
  rfl

theorem unlist_eq {s : SlotId} {l : List SlotId} {i : Nat} (hd : l.Nodup) (hi : l[i]? = some s) :
    St.unlist s l = Vec.swapPop l i := by
  obtain ⟨hlt, hs⟩ := List.getElem?_eq_some_iff.1 hi
  have hm : s ∈ l := hs ▸ List.getElem_mem hlt
  rw [Vec.swapPop_eq l i hlt, St.unlist, if_pos hm]
  apply List.ext_getElem
  · simp
  · intro j h1 h2
    simp only [List.length_map, List.length_dropLast, List.length_set] at h1 h2
    simp only [List.getElem_map, List.getElem_dropLast, List.getElem_set]
    have hg : l.getLastD s = l[l.length - 1]'(by omega) := by
      rw [List.getLastD_eq_getLast?, List.getLast?_eq_getElem?, List.getElem?_eq_getElem (by omega)]; rfl
    by_cases hj : i = j
    · subst hj; simp only [hs, if_true, hg]
    · have : l[j]'(by omega) ≠ s := fun e => hj (by
        have hp := List.pairwise_iff_getElem.1 hd
        rcases Nat.lt_or_gt_of_ne hj with hlj | hlj
        · exact absurd (hs.trans e.symm) (hp i j hlt (by omega) hlj)
        · exact absurd (e.trans hs.symm) (hp j i (by omega) hlt hlj))
      simp [hj, this]

/-- Positions in the list of a signal. -/
theorem list_pos (h : Reachable E w) {g : SigId} {b : BlkId} {s : SlotId} (hl : (w.sigs g).list = some b) (hs : s ∈ w.blks b) :
    (w.blks b)[(w.slots s).index]? = some s ∧ (w.blks b).Nodup := by
  have e : w.listOf g = w.blks b := by simp [World.listOf, hl]
  obtain ⟨i, hi, his⟩ := List.getElem_of_mem hs
  have h1 : (w.listOf g)[i]? = some s := by rw [e, List.getElem?_eq_getElem hi, his]
  refine ⟨?_, e ▸ h.full.i.i3.nodup g⟩
  rw [h.full.i.i3.idx g i s h1, ← e, h1]

/-! ### Steps of the library do not change what the program will see -/

theorem outcome_ub {u : UB} (h : w.ub = some u) : outcome E t w = .ub u := by simp [outcome, h]

theorem outcome_st {st : List Frame} (h : w.ub = none) (hst : w.stacks t = st) : outcome E t w = settled E w st := by
  simp [outcome, h, hst]

theorem acquire_view {g : SigId} {next : List Frame} (hub : w.ub = none) (h : acquire w t g next = some w') :
    ((w.sigs g).alive = false ∧ w'.ub = some .deadSignal ∧ w'.stacks t = w.stacks t) ∨
    ((w.sigs g).alive = true ∧ w'.ub = none ∧ w'.stacks t = next ∧ ∀ st, w'.view st = w.view st) := by
  unfold acquire at h
  split at h
  · rename_i ha
    injection h with h; subst h
    exact .inl ⟨by simpa using ha, rfl, rfl⟩
  · rename_i ha
    split at h
    · cases h
    · injection h with h; subst h
      refine .inr ⟨by simpa using ha, hub, by simp [World.setStack, upd], fun st => ?_⟩
      rw [view_setStack, view_setMutex]

theorem onList_dead {g : SigId} {st : List Frame} {f : List SlotId → Res} (h : (w.sigs g).alive = false) :
    (w.view st).onList g f = .ub .deadSignal := by
  simp [St.onList, World.view, World.sigOf, h]

theorem onList_null {g : SigId} {st : List Frame} {f : List SlotId → Res} (ha : (w.sigs g).alive = true)
    (h : (w.sigs g).list = none) : (w.view st).onList g f = .ub .nullList := by
  simp [St.onList, World.view, World.sigOf, h, ha]

theorem onList_some {g : SigId} {b : BlkId} {st : List Frame} {f : List SlotId → Res} (ha : (w.sigs g).alive = true)
    (h : (w.sigs g).list = some b) : (w.view st).onList g f = f (w.blks b) := by
  simp [St.onList, World.view, World.sigOf, h, ha]

theorem setSig_self {g : SigId} {b : BlkId} {st : List Frame} (ha : (w.sigs g).alive = true) (h : (w.sigs g).list = some b) :
    (w.view st).setSig g (w.blks b) = w.view st := by
  have : upd w.sigOf g (some (some (w.blks b))) = w.sigOf := by
    funext x; unfold upd; split
    · rename_i e; subst e; simp [World.sigOf, ha, h]
    · rfl
  simp only [St.setSig, World.view, this]

theorem setSig_twice (a : St) (g : SigId) (l l' : List SlotId) : (a.setSig g l).setSig g l' = a.setSig g l' := by
  have : upd (upd a.sig g (some (some l))) g (some (some l')) = upd a.sig g (some (some l')) := by
    funext x; simp only [upd]; split <;> rfl
  simp only [St.setSig, this]

theorem onList_setSig (a : St) (g : SigId) (l : List SlotId) (f : List SlotId → Res) : (a.setSig g l).onList g f = f l := by
  simp [St.onList, St.setSig, upd]

theorem locked_alive (h : Reachable E w) {g : SigId} (hl : topLocks (w.stacks t) = some g) : (w.sigs g).alive = true :=
  h.full.i.i2.live g t ((h.full.i.i1.mtx g t).2 hl)

theorem stops {u : UB} {r : Res} (h : w.ub = some u) (he : r = .ub u) :
    outcome E t w = r ∧ (w.ub = none → Ready w (w.stacks t)) := by
  refine ⟨by rw [outcome_ub h, he], fun h' => ?_⟩
  rw [h] at h'; cases h'

theorem goes {st : List Frame} {r : Res} (h : w.ub = none) (hst : w.stacks t = st) (hr : Ready w st) (he : settled E w st = r) :
    outcome E t w = r ∧ (w.ub = none → Ready w (w.stacks t)) :=
  ⟨by rw [outcome_st h hst, he], fun _ => hst ▸ hr⟩

theorem run_add (A : Alone E t w) (hub : w.ub = none) {g s : Nat} {d : Dest} {pc : CritPc} {rest : List Frame}
    (hst : w.stacks t = .add g s d pc :: rest) (hs : runAdd w t rest g s d pc = some w') :
    outcome E t w' = settled E w (.add g s d pc :: rest) ∧ (w'.ub = none → Ready w' (w'.stacks t)) := by
  have hin : ∀ f ∈ rest, f ∈ w.stacks t := fun f hf => by rw [hst]; exact List.mem_cons_of_mem _ hf
  have U : UserStk rest := by have := A.reach.full.i.i1.stk t; rw [hst] at this; exact this.tail rfl
  cases pc with
  | wait =>
    rcases acquire_view hub hs with ⟨ha, hu, hk⟩ | ⟨ha, hu, hk, hv⟩
    · exact stops hu (by simp only [settled]; rw [onList_dead ha])
    · exact goes hu hk trivial (by simp only [settled, hv])
  | detach =>
    have ha := locked_alive (t := t) (g := g) A.reach (by rw [hst]; rfl)
    simp only [runAdd] at hs
    split at hs
    · rename_i hl
      injection hs with hs; subst hs
      exact stops rfl (by simp only [settled]; rw [onList_null ha hl])
    · rename_i b hl
      injection hs with hs; subst hs
      refine goes (st := .add g s d (if w.shared g b then .clone else .write) :: rest) hub (by simp [World.setStack, upd]) trivial ?_
      split <;> simp only [settled, view_setStack]
  | clone =>
    have ha := locked_alive (t := t) (g := g) A.reach (by rw [hst]; rfl)
    simp only [runAdd] at hs
    split at hs
    · rename_i hl
      injection hs with hs; subst hs
      exact stops rfl (by simp only [settled]; rw [onList_null ha hl])
    · rename_i b hl
      injection hs with hs; subst hs
      refine goes (st := .add g s d .write :: rest) hub (by simp [World.setStack, upd]) trivial ?_
      simp only [settled, view_setStack, view_cloneBlk A.reach.full.i.i1 hl hin]
  | write =>
    have ha := locked_alive (t := t) (g := g) A.reach (by rw [hst]; rfl)
    simp only [runAdd] at hs
    split at hs
    · rename_i hl
      injection hs with hs; subst hs
      exact stops rfl (by simp only [settled]; rw [onList_null ha hl])
    · rename_i b hl
      injection hs with hs; subst hs
      refine goes (st := .add g s d .unlock :: rest) hub (by simp [World.setStack, World.emitEv, upd]) trivial ?_
      have hx := A.reach.full.i.i2.excl t g b (by rw [hst]; rfl) hl t
      simp only [settled]
      rw [onList_some ha hl, view_silent _ rfl, view_setStack,
        view_setBlk (w := w.setIndex s (w.blks b).length) (g := g) hl ha
          (fun g' h' => A.reach.full.i.i2.uniq g' g b h' hl) (fun f hf => hx f (hin f hf)), view_setIndex]
  | unlock =>
    simp only [runAdd] at hs
    cases d with
    | conn x =>
      injection hs with hs; subst hs
      refine goes (st := rest) hub (by simp [World.setStack, World.emitEv, upd]) (ready_user U) ?_
      rw [settled_user U, view_cv, view_say _ rfl, view_setStack, view_setMutex]; rfl
    | «scoped» x =>
      injection hs with hs; subst hs
      refine goes (st := rest) hub (by simp [World.setStack, World.emitEv, upd]) (ready_user U) ?_
      rw [settled_user U, view_sv, view_say _ rfl, view_setStack, view_setMutex]; rfl

theorem run_erase (A : Alone E t w) (hub : w.ub = none) {g : Nat} {tgt : Option Callable} {pc : ErasePc} {rest : List Frame}
    (hst : w.stacks t = .erase g tgt pc :: rest) (hs : runErase E w t rest g tgt pc = some w') :
    outcome E t w' = settled E w (.erase g tgt pc :: rest) ∧ (w'.ub = none → Ready w' (w'.stacks t)) := by
  have hin : ∀ f ∈ rest, f ∈ w.stacks t := fun f hf => by rw [hst]; exact List.mem_cons_of_mem _ hf
  have U : UserStk rest := by have := A.reach.full.i.i1.stk t; rw [hst] at this; exact this.tail rfl
  cases pc with
  | wait =>
    rcases acquire_view hub hs with ⟨ha, hu, hk⟩ | ⟨ha, hu, hk, hv⟩
    · exact stops hu (by simp only [settled]; rw [onList_dead ha])
    · refine goes hu hk trivial ?_
      have hl : w'.lisOf = w.lisOf := congrArg St.lis (hv [])
      simp only [settled, hv, hl]
  | detach =>
    have ha := locked_alive (t := t) (g := g) A.reach (by rw [hst]; rfl)
    simp only [runErase] at hs
    split at hs
    · rename_i hl
      injection hs with hs; subst hs
      exact stops rfl (by simp only [settled]; rw [onList_null ha hl])
    · rename_i b hl
      injection hs with hs; subst hs
      refine goes (st := .erase g tgt (if w.shared g b then .clone else .scan 0 0) :: rest) hub (by simp [World.setStack, upd]) trivial ?_
      split <;> simp only [settled, view_setStack] <;> rfl
  | clone =>
    have ha := locked_alive (t := t) (g := g) A.reach (by rw [hst]; rfl)
    simp only [runErase] at hs
    split at hs
    · rename_i hl
      injection hs with hs; subst hs
      exact stops rfl (by simp only [settled]; rw [onList_null ha hl])
    · rename_i b hl
      injection hs with hs; subst hs
      refine goes (st := .erase g tgt (.scan 0 0) :: rest) hub (by simp [World.setStack, upd]) trivial ?_
      simp only [settled, view_setStack, view_cloneBlk A.reach.full.i.i1 hl hin]; rfl
  | scan i c =>
    have ha := locked_alive (t := t) (g := g) A.reach (by rw [hst]; rfl)
    simp only [runErase] at hs
    split at hs
    · rename_i hl
      injection hs with hs; subst hs
      exact stops rfl (by simp only [settled]; rw [onList_null ha hl])
    · rename_i b hl
      split at hs
      · rename_i hn
        injection hs with hs; subst hs
        refine goes (st := .erase g tgt (.unlock (some c)) :: rest) hub (by simp [World.setStack, upd]) trivial ?_
        simp only [settled, view_setStack]
        rw [onList_some ha hl, Vec.eraseScan, dif_neg (by have := List.getElem?_eq_none_iff.1 hn; omega)]
        simp only [setSig_self ha hl]
      · rename_i s hsome
        obtain ⟨hlt, hget⟩ := List.getElem?_eq_some_iff.1 hsome
        split at hs
        · rename_i heq
          injection hs with hs; subst hs
          refine goes (st := .erase g tgt (.unlock none) :: rest) hub (by simp [World.setStack, upd]) trivial ?_
          simp only [settled, view_setStack]
          rw [onList_some ha hl, Vec.eraseScan, dif_pos hlt]
          simp only [World.lisOf, hget, heq, setSig_self ha hl]
        · rename_i heq
          injection hs with hs; subst hs
          refine goes (st := .erase g tgt (.scan i (c + 1)) :: rest) (by simpa [World.setStack, World.emitEv, (removeAt_same w b i)] using hub) (by simp [World.setStack, World.emitEv, upd]) trivial ?_
          have hx := A.reach.full.i.i2.excl t g b (by rw [hst]; rfl) hl t
          have hv := view_removeAt (w := w) (g := g) (b := b) (i := i) (st := rest) hl ha
            (fun g' h' => A.reach.full.i.i2.uniq g' g b h' hl) (fun f hf => hx f (hin f hf)) hlt
          simp only [settled]
          rw [view_silent _ rfl, view_setStack, hv]
          rw [onList_some ha hl, onList_setSig]
          have hlis : (((removeAt w b i).setStack t (.erase g tgt (.scan i (c + 1)) :: rest)).emitEv (.erased g s)).lisOf = w.lisOf :=
            congrArg St.lis hv
          have hq : slotEq E (some (w.lisOf (w.blks b)[i]).fn) tgt = some true := by rw [hget]; exact heq
          conv => rhs; rw [Vec.eraseScan, dif_pos hlt]
          simp only [hlis, hq, setSig_twice]
        · rename_i heq
          injection hs with hs; subst hs
          refine goes (st := .erase g tgt (.scan (i + 1) c) :: rest) hub (by simp [World.setStack, upd]) trivial ?_
          simp only [settled, view_setStack]
          rw [onList_some ha hl, onList_some ha hl]
          conv => rhs; rw [Vec.eraseScan, dif_pos hlt]
          simp only [World.lisOf, hget, heq]
          rfl
  | unlock r =>
    injection hs with hs; subst hs
    refine goes (st := rest) hub (by simp [World.setStack, World.emitEv, upd]) (ready_user U) ?_
    rw [settled_user U, view_say _ rfl, view_setStack, view_setMutex]; rfl

theorem discReturn_goes (hub : w.ub = none) {rest : List Frame} (U : UserStk rest) {o : Option SlotId} {k : DiscK} {b : Bool} :
    outcome E t (discReturn w t rest o k b) = k.done ((w.view rest).say (.disc b)) ∧
    ((discReturn w t rest o k b).ub = none → Ready (discReturn w t rest o k b) ((discReturn w t rest o k b).stacks t)) := by
  cases k with
  | ret =>
    refine goes (st := rest) hub (by simp [discReturn, World.setStack, World.emitEv, upd]) (ready_user U) ?_
    simp only [discReturn]
    rw [settled_user U, view_say _ rfl, view_setStack]; rfl
  | assign x y =>
    by_cases hxy : x = y
    · refine goes (st := rest) (by simp [discReturn, hxy]; exact hub) (by simp [discReturn, World.setStack, World.emitEv, upd, hxy]) (ready_user U) ?_
      simp only [discReturn, if_pos hxy]
      rw [settled_user U, view_say _ rfl, view_setStack]; simp [DiscK.done, hxy]
    · refine goes (st := rest) (by simp [discReturn, hxy]; exact hub) (by simp [discReturn, World.setStack, World.emitEv, upd, hxy]) (ready_user U) ?_
      simp only [discReturn, if_neg hxy]
      rw [settled_user U, view_sv, view_say _ rfl, view_setStack]; simp [DiscK.done, hxy]; rfl

theorem run_disc (A : Alone E t w) (hub : w.ub = none) {s : Nat} {k : DiscK} {pc : DiscPc} {rest : List Frame}
    (hst : w.stacks t = .disc s k pc :: rest) (hr : Ready w (.disc s k pc :: rest)) (hs : runDisc w t rest s k pc = some w') :
    outcome E t w' = settled E w (.disc s k pc :: rest) ∧ (w'.ub = none → Ready w' (w'.stacks t)) := by
  have hin : ∀ f ∈ rest, f ∈ w.stacks t := fun f hf => by rw [hst]; exact List.mem_cons_of_mem _ hf
  have U : UserStk rest := by have := A.reach.full.i.i1.stk t; rw [hst] at this; exact this.tail rfl
  cases pc with
  | exch =>
    simp only [runDisc] at hs
    split at hs
    · rename_i hc
      injection hs with hs; subst hs
      refine goes (st := .disc s k (.crit (w.slots s).owner .wait) :: rest) hub (by simp [World.setStack, World.emitEv, upd]) (hr hc) ?_
      have hc' : ((w.view rest).lis s).conn = true := hc
      simp only [settled]
      rw [view_silent _ rfl, view_setStack, view_setConnected, hang, if_pos hc']
      rfl
    · rename_i hc
      injection hs with hs; subst hs
      have hc' : ¬((w.view rest).lis s).conn = true := hc
      have := discReturn_goes (E := E) (t := t) (w := w.emitEv (.exch s false)) hub U (o := some s) (k := k) (b := false)
      rw [view_silent _ rfl] at this
      simp only [settled]
      rw [hang, if_neg hc']
      exact this
  | drop g =>
    injection hs with hs; subst hs
    exact discReturn_goes hub U
  | crit g pc =>
    cases pc with
    | wait =>
      rcases acquire_view hub hs with ⟨ha, hu, hk⟩ | ⟨ha, hu, hk, hv⟩
      · exact stops hu (by simp only [settled]; rw [onList_dead ha]; rfl)
      · have e : w'.sigOf = w.sigOf := congrArg St.sig (hv [])
        exact goes hu hk (by simp only [Ready, e]; exact hr) (by simp only [settled, hv])
    | detach =>
      have ha := locked_alive (t := t) (g := g) A.reach (by rw [hst]; rfl)
      simp only [runDisc] at hs
      split at hs
      · rename_i hl
        injection hs with hs; subst hs
        exact stops rfl (by simp only [settled]; rw [onList_null ha hl]; rfl)
      · rename_i b hl
        injection hs with hs; subst hs
        refine goes (st := .disc s k (.crit g (if w.shared g b then .clone else .write)) :: rest) hub (by simp [World.setStack, upd]) ?_ ?_
        · split <;> exact hr
        · split <;> simp only [settled, view_setStack]
    | clone =>
      have ha := locked_alive (t := t) (g := g) A.reach (by rw [hst]; rfl)
      simp only [runDisc] at hs
      split at hs
      · rename_i hl
        injection hs with hs; subst hs
        exact stops rfl (by simp only [settled]; rw [onList_null ha hl]; rfl)
      · rename_i b hl
        injection hs with hs; subst hs
        have hv := view_cloneBlk A.reach.full.i.i1 hl hin
        refine goes (st := .disc s k (.crit g .write) :: rest) hub (by simp [World.setStack, upd]) ?_ ?_
        · have e : ((cloneBlk w g b).setStack t (.disc s k (.crit g .write) :: rest)).sigOf = w.sigOf := congrArg St.sig hv
          simp only [Ready, e]; exact hr
        · simp only [settled, view_setStack, hv]
    | write =>
      have ha := locked_alive (t := t) (g := g) A.reach (by rw [hst]; rfl)
      simp only [runDisc] at hs
      split at hs
      · rename_i hl
        injection hs with hs; subst hs
        exact stops rfl (by simp only [settled]; rw [onList_null ha hl]; rfl)
      · rename_i b hl
        have hmem : s ∈ w.blks b := hr _ (by simp [World.sigOf, ha, hl])
        obtain ⟨hidx, hnd⟩ := list_pos A.reach hl hmem
        rw [hidx] at hs
        injection hs with hs; subst hs
        have hlt := (List.getElem?_eq_some_iff.1 hidx).1
        have hx := A.reach.full.i.i2.excl t g b (by rw [hst]; rfl) hl t
        have hv := view_removeAt (w := w) (g := g) (b := b) (i := (w.slots s).index) (st := rest) hl ha
          (fun g' h' => A.reach.full.i.i2.uniq g' g b h' hl) (fun f hf => hx f (hin f hf)) hlt
        refine goes (st := .disc s k (.crit g .unlock) :: rest)
          (by simpa [World.setStack, World.emitEv, (removeAt_same w b (w.slots s).index)] using hub)
          (by simp [World.setStack, World.emitEv, upd]) trivial ?_
        simp only [settled]
        rw [view_silent _ rfl, view_setStack, hv, onList_some ha hl, unlist_eq hnd hidx]
        rfl
    | unlock =>
      injection hs with hs; subst hs
      refine goes (st := .disc s k (.drop g) :: rest) hub (by simp [World.setStack, upd]) trivial ?_
      simp only [settled, view_setStack, view_setMutex]

theorem run_mov (A : Alone E t w) (hub : w.ub = none) {g' g : Nat} {pc : MovPc} {rest : List Frame}
    (hst : w.stacks t = .mov g' g pc :: rest) (hs : runMov w t rest g' g pc = some w') :
    outcome E t w' = settled E w (.mov g' g pc :: rest) ∧ (w'.ub = none → Ready w' (w'.stacks t)) := by
  have hin : ∀ f ∈ rest, f ∈ w.stacks t := fun f hf => by rw [hst]; exact List.mem_cons_of_mem _ hf
  have U : UserStk rest := by have := A.reach.full.i.i1.stk t; rw [hst] at this; exact this.tail rfl
  have hne : g' ≠ g := by
    have := A.reach.full.i.i1.rng t (.mov g' g pc) (by rw [hst]; exact List.mem_cons_self)
    exact this.2.2
  cases pc with
  | wait =>
    rcases acquire_view hub hs with ⟨ha, hu, hk⟩ | ⟨ha, hu, hk, hv⟩
    · exact stops hu (by simp only [settled]; rw [if_pos (by simp [World.sigOf, ha])])
    · have e : w'.sigOf = w.sigOf := congrArg St.sig (hv [])
      exact goes hu hk trivial (by simp only [settled, hv, e])
  | write =>
    have ha := locked_alive (t := t) (g := g) A.reach (by rw [hst]; rfl)
    have hx := (A.reach.full.i.i2.movx t g' g .write (by rw [hst]; rfl)).1
    injection hs with hs; subst hs
    refine goes (st := .mov g' g .unlock :: rest) hub (by simp [World.setStack, World.emitEv, upd]) trivial ?_
    simp only [settled]
    rw [if_neg (by simp [World.sigOf, ha]), view_silent _ rfl, view_setStack]
    have hv : ∀ x, (((w.setList g' (w.sigs g).list).setList g none).sigs x).isVoid = (w.sigs x).isVoid := by
      intro x; simp only [World.setList, upd]; (repeat' split) <;> simp_all
    have e1 : ((w.setList g' (w.sigs g).list).setList g none).frs rest = w.frs rest := frs_congr fun m b pos acc _ => ⟨hv _, rfl⟩
    simp only [World.view, e1, hv]
    congr 1
    congr 1
    funext x
    simp only [upd, World.sigOf, World.emitEv, World.setStack, World.setList]
    by_cases h1 : x = g' <;> by_cases h2 : x = g <;> simp_all
  | unlock =>
    have ha := locked_alive (t := t) (g := g) A.reach (by rw [hst]; rfl)
    injection hs with hs; subst hs
    refine goes (st := rest) hub (by simp [World.setStack, upd]) (ready_user U) ?_
    rw [settled_user U]
    simp only [settled]
    have hv : ∀ x, ((upd (w.setMutex g none).sigs g' { (w.setMutex g none).sigs g' with alive := true } x)).isVoid =
        (w.sigs x).isVoid := by
      intro x; simp only [World.setMutex, upd]; (repeat' split) <;> simp_all
    have e1 : ({ (w.setMutex g none).setStack t rest with
        sigs := upd ((w.setMutex g none).setStack t rest).sigs g'
          { ((w.setMutex g none).setStack t rest).sigs g' with alive := true } } : World).frs rest = w.frs rest :=
      frs_congr fun m b pos acc _ => ⟨hv _, rfl⟩
    simp only [World.view, e1]
    congr 1
    congr 1
    · funext x
      simp only [upd, World.sigOf, World.setStack, World.setMutex]
      by_cases h1 : x = g' <;> by_cases h2 : x = g <;> simp_all
    · funext x; exact hv x

theorem view_comb (w : World) (m : Em) (b : BlkId) (pos : Nat) (acc : Option Val) (rest : List Frame) :
    w.view (.emit m (.iter b pos acc) :: rest) = { w.view rest with fr := w.frOf m b pos acc none :: (w.view rest).fr } := rfl

theorem view_body (w : World) (s : SlotId) (o : Option ObjId) (m : Em) (b : BlkId) (pos : Nat) (acc : Option Val) (rest : List Frame) :
    w.view (.call s (.body o) :: .emit m (.iter b pos acc) :: rest) =
      { w.view rest with fr := w.frOf m b pos acc (some (s, o)) :: (w.view rest).fr } := rfl

theorem settled_passed (w : World) (m : Em) (b : BlkId) (pos : Nat) (acc : Option Val) (rest : List Frame) :
    settled E w (.emit m (deliver m.comb b pos acc none) :: rest) = .ok (passed (w.view rest) (w.frOf m b pos acc none)) := by
  cases hc : m.comb with
  | lastValue => simp [deliver, settled, passed, World.frOf, hc]
  | custom => simp [deliver, settled, passed, World.frOf, hc, view_comb]

theorem run_emit (A : Alone E t w) (hub : w.ub = none) {m : Em} {pc : EmitPc} {rest : List Frame}
    (hst : w.stacks t = .emit m pc :: rest) (hs : runEmit w t rest m pc = some w') :
    outcome E t w' = settled E w (.emit m pc :: rest) ∧ (w'.ub = none → Ready w' (w'.stacks t)) := by
  have U : UserStk rest := by have := A.reach.full.i.i1.stk t; rw [hst] at this; exact this.tail rfl
  cases pc with
  | start =>
    simp only [runEmit] at hs
    split at hs
    · rename_i ha
      injection hs with hs; subst hs
      exact stops rfl (by simp only [settled]; rw [onList_dead (by simpa using ha)])
    · rw [A.reach.full.k.sig m.g] at hs
      injection hs with hs; subst hs
      refine goes (st := .emit m .wait :: rest) hub (by simp [World.setStack, upd]) trivial ?_
      simp only [settled, view_setStack]; rfl
  | wait =>
    rcases acquire_view hub hs with ⟨ha, hu, hk⟩ | ⟨ha, hu, hk, hv⟩
    · exact stops hu (by simp only [settled]; rw [onList_dead ha])
    · have e : (w'.sigs m.g).isVoid = (w.sigs m.g).isVoid := congrFun (congrArg St.void (hv [])) m.g
      exact goes hu hk trivial (by simp only [settled, hv, e])
  | copy =>
    have ha := locked_alive (t := t) (g := m.g) A.reach (by rw [hst]; rfl)
    injection hs with hs; subst hs
    refine goes (st := .emit m (.unlock (w.sigs m.g).list) :: rest) hub (by simp [World.setStack, upd]) trivial ?_
    cases hl : (w.sigs m.g).list with
    | none => simp only [settled]; rw [onList_null ha hl]
    | some b => simp only [settled, view_setStack]; rw [onList_some ha hl]; rfl
  | unlock b =>
    cases b with
    | none =>
      injection hs with hs; subst hs
      exact stops rfl rfl
    | some b =>
      injection hs with hs; subst hs
      refine goes (st := .emit m (.iter b 0 none) :: rest) hub (by simp [World.setStack, World.emitEv, upd]) trivial ?_
      have e : ∀ st, ((((w.setMutex m.g none).setStack t (.emit m (.iter b 0 none) :: rest)).emitEv (.snap m (w.blks b)))).view st =
          w.view st := fun st => by rw [view_silent _ rfl, view_setStack, view_setMutex]
      have hf : ((((w.setMutex m.g none).setStack t (.emit m (.iter b 0 none) :: rest)).emitEv (.snap m (w.blks b)))).frOf m b 0 none none =
          w.frOf m b 0 none none := by
        simp only [World.frOf, Fr.mk.injEq, and_true]
        exact ⟨congrFun (congrArg St.void (e [])) m.g, trivial, trivial, rfl⟩
      simp only [settled, view_comb, e, hf]
      cases hc : m.comb <;> simp [St.begin_, World.frOf, hc] <;> rfl
  | iter b pos acc =>
    cases hc : m.comb with
    | custom => simp [runEmit, hc] at hs
    | lastValue =>
      simp only [runEmit, hc] at hs
      split at hs
      · rename_i s hsome
        obtain ⟨hlt, hget⟩ := List.getElem?_eq_some_iff.1 hsome
        injection hs with hs; subst hs
        refine goes (st := .call s .chkBlocked :: .emit m (.iter b pos acc) :: rest) hub (by simp [World.setStack, World.emitEv, upd]) trivial ?_
        simp only [settled]
        rw [view_silent _ rfl, view_setStack, if_neg (by simp [hc]), List.drop_eq_getElem_cons hlt, hget]
        simp only [St.drive, settledCall]
        congr 1
        split
        · rfl
        · simp only [passed, World.frOf, hc]; rfl
      · rename_i hn
        injection hs with hs; subst hs
        refine goes (st := rest) hub (by simp [World.setStack, World.emitEv, upd]) (ready_user U) ?_
        rw [settled_user U, view_say _ rfl, view_setStack]
        simp only [settled]
        rw [if_neg (by simp [hc]), List.drop_eq_nil_of_le (List.getElem?_eq_none_iff.1 hn)]
        rfl

/-- Labels that a program with one thread and enough memory has: no functions of other threads that hold a local `shared_ptr`. -/
def Label.plain : Label → Bool
  | .call _ (.pin _) => false
  | .call _ (.unpin _) => false
  | .fail _ => false
  | .ctl _ => false
  | _ => true

theorem Alone.step {l : Label} (A : Alone E t w) (ht : l.tid = t) (hp : l.plain = true) (hs : step E w l = some w') : Alone E t w' where
  reach := A.reach.step hs
  others u hu := by rw [stacks_other (step_inv hs).2.2 (ht ▸ hu)]; exact A.others u hu
  pins := by
    rcases pins_label hs with h | ⟨_, _, rfl, _⟩ | ⟨_, _, rfl, _⟩
    · rw [h]; exact A.pins
    · simp [Label.plain] at hp
    · simp [Label.plain] at hp

theorem run_call (A : Alone E t w) (hub : w.ub = none) {s : Nat} {pc : CallPc} {m : Em} {b pos : Nat} {acc : Option Val}
    {rest : List Frame} (hst : w.stacks t = .call s pc :: .emit m (.iter b pos acc) :: rest)
    (hs : runCall w t s m b pos acc rest pc = some w') (A' : Alone E t w') :
    outcome E t w' = settled E w (.call s pc :: .emit m (.iter b pos acc) :: rest) ∧ (w'.ub = none → Ready w' (w'.stacks t)) := by
  have U : UserStk rest := by have := A.reach.full.i.i1.stk t; rw [hst] at this; exact this.callTail
  have hd : ∀ {v : World} {r}, Ready v (.emit m (deliver m.comb b pos acc r) :: rest) := by
    intro v r; trivial
  cases pc with
  | chkBlocked =>
    simp only [runCall] at hs
    split at hs
    · rename_i hb
      injection hs with hs; subst hs
      refine goes (st := .emit m (deliver m.comb b pos acc none) :: rest) hub (by simp [World.setStack, World.emitEv, upd]) hd ?_
      rw [settled_passed, view_silent _ rfl, view_setStack]
      simp only [settled, settledCall]
      rw [if_neg (by simp [World.view, World.lisOf, hb])]
      rfl
    · rename_i hb
      injection hs with hs; subst hs
      refine goes (st := .call s .chkConnected :: .emit m (.iter b pos acc) :: rest) hub (by simp [World.setStack, upd]) trivial ?_
      have hb' : ((w.view rest).lis s).blk = false := by simpa [World.view, World.lisOf] using hb
      simp only [settled, settledCall]
      rw [view_setStack]
      by_cases hup : (w.view rest).up s
      · rw [if_pos hup, if_pos ⟨hb', hup⟩]; rfl
      · rw [if_neg hup, if_neg fun h => hup h.2]; rfl
  | chkConnected =>
    have hup := up_iff A (pre := [.call s .chkConnected, .emit m (.iter b pos acc)]) hst U (by simp [Frame.obj?]) s
    simp only [runCall] at hs
    split at hs
    · rename_i hc
      split at hs
      · rename_i o ho
        injection hs with hs; subst hs
        have hst' : (w.setStack t (.call s (.lockObj o) :: .emit m (.iter b pos acc) :: rest)).stacks t =
          [.call s (.lockObj o), .emit m (.iter b pos acc)] ++ rest := by simp [World.setStack, upd]
        have hup' := up_iff A' hst' U (by simp [Frame.obj?]) s
        have hol := objLives_iff A' hst' U (by simp [Frame.obj?]) o
        rw [view_setStack] at hup' hol
        refine goes (st := .call s (.lockObj o) :: .emit m (.iter b pos acc) :: rest) hub hst' trivial ?_
        simp only [settled, settledCall, view_setStack]
        rw [if_pos (hup.1 hc), if_pos (hup'.2 (hup.1 hc)), if_pos (hol.2 ((hup.1 hc).1 o ho))]
        have ho' : ((w.view rest).lis s).fn.obj? = some o := ho
        simp only [St.enter, enterO, ho']
        rfl
      · rename_i ho
        injection hs with hs; subst hs
        refine goes (st := .call s .invoke :: .emit m (.iter b pos acc) :: rest) hub (by simp [World.setStack, upd]) trivial ?_
        simp only [settled, settledCall, view_setStack]
        rw [if_pos (hup.1 hc)]
        have ho' : ((w.view rest).lis s).fn.obj? = none := ho
        simp only [St.enter, enterO, ho']
        rfl
    · rename_i hc
      injection hs with hs; subst hs
      refine goes (st := .emit m (deliver m.comb b pos acc none) :: rest) hub (by simp [World.setStack, World.emitEv, upd]) hd ?_
      rw [settled_passed, view_silent _ rfl, view_setStack]
      simp only [settled, settledCall]
      rw [if_neg fun h => hc (hup.2 h)]
      rfl
  | invoke =>
    injection hs with hs; subst hs
    refine goes (st := .call s (.body none) :: .emit { m with args := passArgs (w.slots s).consume m.args } (.iter b pos acc) :: rest)
      hub (by simp [World.setStack, World.emitEv, upd]) trivial ?_
    simp only [settled, settledCall]
    rw [view_body, view_say _ rfl, view_setStack]
    rfl
  | lockObj o =>
    simp only [runCall] at hs
    split at hs
    · rename_i ho
      injection hs with hs; subst hs
      refine goes (st := .call s (.recheck o) :: .emit m (.iter b pos acc) :: rest) hub (by simp [World.setStack, upd]) trivial ?_
      simp only [settled, settledCall, view_setStack]
      rw [if_pos ho]
      have : (w.setStack t (.call s (.recheck o) :: .emit m (.iter b pos acc) :: rest)).slotConnected s = w.slotConnected s := by
        unfold World.slotConnected
        congr 1
        show (match (w.slots s).fn.obj? with | some o' => _ | none => _) = _
        cases (w.slots s).fn.obj? with
        | none => rfl
        | some o' =>
          rw [Bool.eq_iff_iff, objAlive_iff A'.reach.full.i.i1, objAlive_iff A.reach.full.i.i1, A'.any, A.any, hst]
          rw [objAlive_iff A.reach.full.i.i1, A.any, hst] at ho
          simp only [World.setStack, upd, if_true, List.mem_cons, exists_eq_or_imp, Frame.obj?] at ho ⊢
          constructor
          · rintro (h | h | h)
            · exact .inl h
            · injection h with h; subst h; exact ho
            · exact .inr (.inr h)
          · rintro (h | h | h)
            · exact .inl h
            · cases h
            · exact .inr (.inr h)
      rw [this]
      rfl
    · rename_i ho
      injection hs with hs; subst hs
      refine goes (st := .emit m (deliver m.comb b pos acc none) :: rest) hub (by simp [World.setStack, World.emitEv, upd]) hd ?_
      rw [settled_passed, view_silent _ rfl, view_setStack, view_setConnected]
      simp only [settled, settledCall]
      rw [if_neg ho]
      rfl
  | recheck o =>
    simp only [runCall] at hs
    split at hs
    · rename_i hc
      injection hs with hs; subst hs
      refine goes (st := .call s (.body (some o)) :: .emit { m with args := passArgs (w.slots s).consume m.args } (.iter b pos acc) :: rest)
        hub (by simp [World.setStack, World.emitEv, upd]) trivial ?_
      simp only [settled, settledCall]
      rw [view_body, view_say _ rfl, view_setStack, if_pos hc]
      rfl
    · rename_i hc
      injection hs with hs; subst hs
      refine goes (st := .emit m (deliver m.comb b pos acc none) :: rest) hub (by simp [World.setStack, World.emitEv, upd]) hd ?_
      rw [settled_passed, view_silent _ rfl, view_setStack]
      simp only [settled, settledCall]
      rw [if_neg hc]
      rfl
  | body o => cases hs

/-- One step of the library. -/
theorem lib_step (A : Alone E t w) (hr : Ready w (w.stacks t)) (hs : step E w (.run t) = some w') :
    outcome E t w' = outcome E t w ∧ (w'.ub = none → Ready w' (w'.stacks t)) := by
  have A' := A.step rfl rfl hs
  obtain ⟨hub, -, h⟩ := step_run hs
  rw [outcome_st (w := w) hub rfl]
  unfold runTop at h
  split at h
  · rename_i hst; rw [hst] at hr ⊢; exact run_emit A hub hst h
  · rename_i hst; rw [hst] at hr ⊢; exact run_call A hub hst h A'
  · rename_i hst; rw [hst] at hr ⊢; exact run_add A hub hst h
  · rename_i hst; rw [hst] at hr ⊢; exact run_erase A hub hst h
  · rename_i hst; rw [hst] at hr ⊢; exact run_disc A hub hst hr h
  · rename_i hst; rw [hst] at hr ⊢; exact run_mov A hub hst h
  · cases h

/-! ### What user code does -/

theorem user_goes {st : List Frame} {r : St} (h : w.ub = none) (hst : w.stacks t = st) (U : UserStk st) (he : w.view st = r) :
    .ok r = outcome E t w ∧ (w.ub = none → Ready w (w.stacks t)) := by
  rw [outcome_st h hst, settled_user U, he]
  exact ⟨rfl, fun _ => hst ▸ ready_user U⟩

theorem calls_goes {st : List Frame} {r : Res} (h : w.ub = none) (hst : w.stacks t = st) (hr : Ready w st) (he : r = settled E w st) :
    r = outcome E t w ∧ (w.ub = none → Ready w (w.stacks t)) := by
  rw [outcome_st h hst, he]
  exact ⟨rfl, fun _ => hst ▸ hr⟩

theorem calls_stops {u : UB} {r : Res} (h : w.ub = some u) (he : r = .ub u) :
    r = outcome E t w ∧ (w.ub = none → Ready w (w.stacks t)) := by
  rw [outcome_ub h, he]
  exact ⟨rfl, fun h' => by rw [h] at h'; cases h'⟩

theorem ptr_eq (w : World) (st : List Frame) (h : Handle) : (w.view st).ptr h = w.hval h := by cases h <;> rfl

/-- `disconnect()`, when the scoped connections have become `c`. -/
theorem hangUp_step (A : Alone E t w) (hub : w.ub = none) (hu : userCtx (w.stacks t) = true) {h : Option SlotId} {k : DiscK}
    (c : Var → Option (Option SlotId))
    (hn : ∀ s m, h = some s → (w.view (w.stacks t)).lives s → ((w.view (w.stacks t)).lis s).conn = true →
      (w.view (w.stacks t)).sig ((w.view (w.stacks t)).lis s).home = some (some m) → s ∈ m) :
    (({ w.view (w.stacks t) with sv := c } : St).hangUp h).bind k.done = outcome E t (discStart { w with sv := c } t h k) ∧
      ((discStart { w with sv := c } t h k).ub = none →
        Ready (discStart { w with sv := c } t h k) ((discStart { w with sv := c } t h k).stacks t)) := by
  have U := (A.reach.full.i.i1.stk t).toUser hu
  rw [← view_sv]
  cases h with
  | none =>
    have := discReturn_goes (E := E) (t := t) (w := { w with sv := c }) hub U (o := none) (k := k) (b := false)
    exact ⟨this.1.symm, this.2⟩
  | some s =>
    simp only [discStart]
    have hlv : ((({ w with sv := c } : World).view (w.stacks t)).lives s ↔ (w.view (w.stacks t)).lives s) := by rw [view_sv]; exact Iff.rfl
    split
    · rename_i hl
      have hl' := (lives_iff A hu s).1 hl
      refine calls_goes (st := .disc s k .exch :: w.stacks t) hub (by simp [World.setStack, upd]) ?_ ?_
      · intro hc l hl
        exact hn s l rfl hl' hc hl
      · simp only [settled, view_setStack, St.hangUp, hang]
        by_cases hc : (((({ w with sv := c } : World).view (w.stacks t))).lis s).conn = true
        · rw [if_pos ⟨hlv.2 hl', hc⟩, if_pos hc]
        · rw [if_neg fun h => hc h.2, if_neg hc]
    · rename_i hl
      have hl' : ¬(w.view (w.stacks t)).lives s := fun h => hl ((lives_iff A hu s).2 h)
      have := discReturn_goes (E := E) (t := t) (w := { w with sv := c }) hub U (o := some s) (k := k) (b := false)
      refine ⟨?_, this.2⟩
      rw [show discReturn { w with sv := c } t (({ w with sv := c } : World).stacks t) = discReturn { w with sv := c } t (w.stacks t) from rfl,
        this.1, St.hangUp, if_neg fun h => hl' (hlv.1 h.1)]
      rfl

/-- `block()` and the like. -/
theorem setBlk_view (A : Alone E t w) (hu : userCtx (w.stacks t) = true) {h : Option SlotId} {c : Bool} :
    (w.connSetBlocked h c).view (w.stacks t) = (w.view (w.stacks t)).setBlk h c := by
  cases h with
  | none => rfl
  | some s =>
    simp only [World.connSetBlocked, St.setBlk]
    split
    · rename_i hl
      rw [if_pos ((lives_iff A hu s).1 hl), view_silent _ rfl, view_setBlocked]
    · rename_i hl
      rw [if_neg fun h => hl ((lives_iff A hu s).2 h)]

theorem bind_ret (r : Res) : r.bind DiscK.ret.done = r := by cases r <;> rfl

theorem bv_setBlocked (w : World) (c : Var → Option (Option SlotId)) (h : Option SlotId) (b : Bool) :
    ({ w with bv := c } : World).connSetBlocked h b = { w.connSetBlocked h b with bv := c } := by
  cases h with
  | none => rfl
  | some s =>
    simp only [World.connSetBlocked]
    have : ({ w with bv := c } : World).slotAlive s = w.slotAlive s := rfl
    rw [this]
    split <;> rfl

theorem bv_setBlk (a : St) (c : Var → Option (Option SlotId)) (h : Option SlotId) (b : Bool) :
    ({ a with bv := c } : St).setBlk h b = { a.setBlk h b with bv := c } := by
  cases h with
  | none => rfl
  | some s =>
    simp only [St.setBlk]
    by_cases hl : a.lives s
    · rw [if_pos hl, if_pos (show ({ a with bv := c } : St).lives s from hl)]
    · rw [if_neg hl, if_neg (show ¬({ a with bv := c } : St).lives s from hl)]

theorem connSetBlocked_rest (w : World) (h : Option SlotId) (b : Bool) :
    (w.connSetBlocked h b).ub = w.ub ∧ (w.connSetBlocked h b).stacks = w.stacks ∧ (w.connSetBlocked h b).bv = w.bv := by
  cases h with
  | none => exact ⟨rfl, rfl, rfl⟩
  | some s => simp only [World.connSetBlocked]; split <;> exact ⟨rfl, rfl, rfl⟩

/-- One call. -/
theorem call_step {x : Api} (A : Alone E t w) (hp : (Label.call t x).plain = true) (hs : step E w (.call t x) = some w')
    (hn : ¬(w.view (w.stacks t)).Stray (.call t x)) :
    (w.view (w.stacks t)).op E x = outcome E t w' ∧ (w'.ub = none → Ready w' (w'.stacks t)) := by
  have R := (step_inv hs).2.2
  obtain ⟨hub, -, hu, h⟩ := step_call hs
  have U := (A.reach.full.i.i1.stk t).toUser hu
  have I := A.reach.full.i.i1
  have hf := frs_step A.reach R (st := w.stacks t) (u := t) fun f hf => hf
  have hst0 : ∀ s m, (w.view (w.stacks t)).hungUp (.call t x) = some s → (w.view (w.stacks t)).lives s →
      ((w.view (w.stacks t)).lis s).conn = true → (w.view (w.stacks t)).sig ((w.view (w.stacks t)).lis s).home = some (some m) → s ∈ m :=
    fun s m h1 h2 h3 h4 => Classical.byContradiction fun h5 => hn ⟨s, m, h1, h2, h3, h4, h5⟩
  cases x <;> simp only [userOp] at h
  case newSig v =>
    injection h with h; subst h
    refine user_goes hub rfl U ?_
    simp only [World.view, hf]
    congr 1
    · funext x
      simp only [World.sigOf, upd]
      by_cases hx : x = w.nSigs
      · simp [hx, upd]
      · simp only [hx, if_false]
        cases hl : (w.sigs x).list with
        | none => rfl
        | some b => simp [upd, Nat.ne_of_lt (I.lst x b hl)]
    · funext x; simp only [upd]; split <;> rfl
  case destroySig g =>
    split at h
    · rename_i hlt
      simp only [St.op]
      rw [if_pos (show g < (w.view (w.stacks t)).nSig from hlt)]
      split at h
      · rename_i ha
        injection h with h; subst h
        refine calls_stops rfl (if_pos ?_)
        simpa [World.view, World.sigOf] using ha
      · rename_i ha
        have ha : (w.sigs g).alive = true := by simpa using ha
        rw [if_neg (by simp [World.view, World.sigOf, ha])]
        split at h
        · rename_i hm
          exfalso
          obtain ⟨u, hm⟩ := Option.isSome_iff_exists.1 hm
          have := (I.mtx g u).1 hm
          by_cases hut : u = t
          · subst hut; rw [U.topLocks] at this; cases this
          · rw [A.others u hut] at this; cases this
        · injection h with h; subst h
          refine user_goes (st := w.stacks t) hub rfl U ?_
          simp only [World.view, hf]
          congr 1
          · funext x; simp only [World.sigOf, World.emitEv, upd]; split <;> simp_all
          · funext x; simp only [World.emitEv, upd]; split <;> simp_all
    · cases h
  case moveSig g =>
    split at h
    · rename_i hlt
      simp only [St.op]
      rw [if_pos (show g < (w.view (w.stacks t)).nSig from hlt)]
      split at h
      · rename_i ha
        injection h with h; subst h
        refine calls_stops rfl (if_pos ?_)
        simpa [World.view, World.sigOf] using ha
      · rename_i ha
        have ha : (w.sigs g).alive = true := by simpa using ha
        rw [if_neg (by simp [World.view, World.sigOf, ha])]
        injection h with h; subst h
        refine calls_goes (st := .mov w.nSigs g .wait :: w.stacks t) hub (by simp [World.setStack, upd]) trivial ?_
        have hgn : g ≠ w.nSigs := Nat.ne_of_lt hlt
        have hsg : ∀ x, x ≠ w.nSigs → ({ w with
            sigs := upd w.sigs w.nSigs ⟨none, none, (w.sigs g).sblocked, false, (w.sigs g).isVoid⟩
            nSigs := w.nSigs + 1 }.setStack t (.mov w.nSigs g .wait :: w.stacks t)).sigOf x = w.sigOf x := by
          intro x hx; simp [World.sigOf, World.setStack, upd, hx]
        simp only [settled]
        rw [if_neg (by rw [hsg g hgn]; simp [World.sigOf, ha])]
        simp only [World.view, hf]
        congr 2
        · funext x
          by_cases hx : x = w.nSigs
          · subst hx; simp [upd, hsg g hgn]
          · by_cases hxg : x = g
            · simp [upd, hxg, hgn]
            · simp [upd, hx, hxg, hsg x hx]
        · funext x; simp only [upd, World.setStack]; split <;> simp_all
    · cases h
  case moveAssignSig g g' =>
    split at h
    · rename_i hlt
      injection h with h; subst h
      exact calls_stops rfl (if_pos hlt)
    · cases h
  case connect g fn consume conn blk dest =>
    split at h
    · rename_i hlt
      injection h with h; subst h
      refine calls_goes (st := .add g w.nSlots dest .wait :: w.stacks t) hub (by simp [World.setStack, World.emitEv, upd]) trivial ?_
      simp only [St.op, settled]
      rw [if_pos (show g < (w.view (w.stacks t)).nSig ∧ ∀ o, fn.obj? = some o → o < (w.view (w.stacks t)).nObjs from hlt)]
      have hv : (({ w with
          slots := upd w.slots w.nSlots ⟨fn, consume, 0, conn, blk, g⟩
          nSlots := w.nSlots + 1 }.setStack t (.add g w.nSlots dest .wait :: w.stacks t)).emitEv
          (.created g w.nSlots conn blk)).view (w.stacks t) =
        { w.view (w.stacks t) with lis := upd (w.view (w.stacks t)).lis w.nSlots ⟨fn, consume, conn, blk, g⟩, n := w.nSlots + 1 } := by
        simp only [World.view, hf]
        congr 1
        funext x; simp only [World.lisOf, World.emitEv, World.setStack, upd]; split <;> rfl
      rw [hv]
      rfl
    · cases h
  case emit g comb args =>
    split at h
    · rename_i hlt
      injection h with h; subst h
      refine calls_goes (st := .emit ⟨w.nEm, g, comb, args⟩ .start :: w.stacks t) hub (by simp [World.setStack, World.emitEv, upd]) trivial ?_
      simp only [St.op, settled]
      rw [if_pos (show g < (w.view (w.stacks t)).nSig from hlt)]
      have hv : (({ w with nEm := w.nEm + 1 }.setStack t
          (.emit ⟨w.nEm, g, comb, args⟩ .start :: w.stacks t)).emitEv (.began t ⟨w.nEm, g, comb, args⟩)).view (w.stacks t) =
          w.view (w.stacks t) := by
        simp only [World.view, hf]
        rfl
      rw [hv]
      rfl
    · cases h
  case sigDisconnect g tgt =>
    split at h
    · rename_i hlt
      injection h with h; subst h
      refine calls_goes (st := .erase g tgt .wait :: w.stacks t) hub (by simp [World.setStack, upd]) trivial ?_
      simp only [St.op, settled, view_setStack]
      rw [if_pos (show g < (w.view (w.stacks t)).nSig from hlt)]
      rfl
    · cases h
  case disconnect x =>
    injection h with h; subst h
    have := hangUp_step (E := E) A hub hu (h := w.hval x) (k := .ret) w.sv
      (fun s m h1 => hst0 s m (by simp only [St.hungUp, ptr_eq]; exact h1))
    refine ⟨?_, this.2⟩
    rw [← show _ = outcome E t (discStart w t (w.hval x) .ret) from this.1]
    simp only [St.op, ptr_eq]
    exact (bind_ret _).symm
  case block x =>
    injection h with h; subst h
    obtain ⟨e1, e2, -⟩ := connSetBlocked_rest w (w.hval x) true
    refine user_goes (st := w.stacks t) (e1.trans hub) (congrFun e2 t) U ?_
    rw [setBlk_view A hu, ptr_eq]
  case unblock x =>
    injection h with h; subst h
    obtain ⟨e1, e2, -⟩ := connSetBlocked_rest w (w.hval x) false
    refine user_goes (st := w.stacks t) (e1.trans hub) (congrFun e2 t) U ?_
    rw [setBlk_view A hu, ptr_eq]
  case connCopy x y =>
    injection h with h; subst h
    exact user_goes (st := w.stacks t) hub rfl U (by rw [view_cv, ptr_eq]; rfl)
  case connMove x y =>
    simp only [St.op]
    split at h
    · rename_i hxy
      injection h with h; subst h
      rw [if_pos hxy]
      exact user_goes (st := w.stacks t) hub rfl U rfl
    · rename_i hxy
      rw [if_neg hxy]
      injection h with h; subst h
      cases y with
      | conn y => exact user_goes (st := w.stacks t) hub rfl U (by rw [view_cv, World.clearHandle, view_cv]; rfl)
      | «scoped» y => exact user_goes (st := w.stacks t) hub rfl U (by rw [view_cv, World.clearHandle, view_sv]; rfl)
  case connSwap x y =>
    injection h with h; subst h
    exact user_goes (st := w.stacks t) hub rfl U (by rw [view_cv]; rfl)
  case scopedNew x =>
    split at h
    · rename_i hx
      injection h with h; subst h
      simp only [St.op]
      rw [if_pos (show (w.view (w.stacks t)).sv x = none by simpa [World.view] using hx)]
      exact user_goes (st := w.stacks t) hub rfl U (by rw [view_sv]; rfl)
    · cases h
  case scopedOfConn x y =>
    split at h
    · rename_i hx
      injection h with h; subst h
      simp only [St.op]
      rw [if_pos (show (w.view (w.stacks t)).sv x = none by simpa [World.view] using hx)]
      exact user_goes (st := w.stacks t) hub rfl U (by rw [view_sv]; rfl)
    · cases h
  case scopedMoveCtor x y =>
    split at h
    · rename_i h1 h2
      injection h with h; subst h
      simp only [St.op, World.view, h1, h2]
      exact user_goes (st := w.stacks t) hub rfl U (by rw [view_sv]; rfl)
    · cases h
  case scopedMoveAssign x y =>
    split at h
    · rename_i v v' h1 h2
      injection h with h; subst h
      have := hangUp_step (E := E) A hub hu (h := v) (k := .assign x y) w.sv
        (fun s m h3 => hst0 s m (by simp only [St.hungUp, World.view, h1]; exact h3))
      refine ⟨?_, this.2⟩
      rw [← show _ = outcome E t (discStart w t v (.assign x y)) from this.1]
      have e1 : (w.view (w.stacks t)).sv x = some v := h1
      have e2 : (w.view (w.stacks t)).sv y = some v' := h2
      simp only [St.op, e1, e2]
      rfl
    · cases h
  case scopedRelease y x =>
    split at h
    · rename_i h1
      injection h with h; subst h
      simp only [St.op, World.view, h1]
      refine user_goes (st := w.stacks t) hub rfl U ?_
      simp only [World.view, hf]
      rfl
    · cases h
  case scopedSwap x y =>
    split at h
    · rename_i h1 h2
      injection h with h; subst h
      simp only [St.op, World.view, h1, h2]
      exact user_goes (st := w.stacks t) hub rfl U (by rw [view_sv]; rfl)
    · cases h
  case scopedDtor x =>
    split at h
    · rename_i v h1
      injection h with h; subst h
      have := hangUp_step (E := E) A hub hu (h := v) (k := .ret) (upd w.sv x none)
        (fun s m h3 => hst0 s m (by simp only [St.hungUp, World.view, h1]; exact h3))
      refine ⟨?_, this.2⟩
      rw [← this.1, bind_ret]
      have e1 : (w.view (w.stacks t)).sv x = some v := h1
      simp only [St.op, e1]
      rfl
    · cases h
  case scopedBase x y =>
    split at h
    · rename_i hx
      injection h with h; subst h
      simp only [St.op]
      rw [if_neg (show ¬(w.view (w.stacks t)).sv x = none by
        intro h0; rw [show w.sv x = none from h0] at hx; cases hx)]
      exact user_goes (st := w.stacks t) hub rfl U (by rw [view_sv, ptr_eq]; rfl)
    · cases h
  case blockerNew x =>
    split at h
    · rename_i hx
      injection h with h; subst h
      simp only [St.op]
      rw [if_pos (show (w.view (w.stacks t)).bv x = none by simpa [World.view] using hx)]
      exact user_goes (st := w.stacks t) hub rfl U (by rw [view_bv]; rfl)
    · cases h
  case blockerOf x y =>
    split at h
    · rename_i hx
      injection h with h; subst h
      obtain ⟨e1, e2, -⟩ := connSetBlocked_rest w (w.hval y) true
      simp only [St.op]
      rw [if_pos (show (w.view (w.stacks t)).bv x = none by simpa [World.view] using hx), bv_setBlocked]
      refine user_goes (st := w.stacks t) (e1.trans hub) (congrFun e2 t) U ?_
      rw [view_bv, setBlk_view A hu, ptr_eq]
      exact (bv_setBlk _ _ _ _).symm
    · cases h
  case blockerMoveCtor x y =>
    split at h
    · rename_i h1 h2
      injection h with h; subst h
      simp only [St.op, World.view, h1, h2]
      exact user_goes (st := w.stacks t) hub rfl U (by rw [view_bv]; rfl)
    · cases h
  case blockerMoveAssign x y =>
    split at h
    · rename_i v v' h1 h2
      have g1 : (w.view (w.stacks t)).bv x = some v := h1
      have g2 : (w.view (w.stacks t)).bv y = some v' := h2
      simp only [St.op, g1, g2]
      obtain ⟨e1, e2, e3⟩ := connSetBlocked_rest w v false
      split at h
      · rename_i hxy
        injection h with h; subst h
        rw [if_pos hxy]
        refine user_goes (st := w.stacks t) (e1.trans hub) (congrFun e2 t) U ?_
        rw [setBlk_view A hu]
      · rename_i hxy
        injection h with h; subst h
        rw [if_neg hxy]
        refine user_goes (st := w.stacks t) (e1.trans hub) (congrFun e2 t) U ?_
        have e4 : ((w.view (w.stacks t)).setBlk v false).bv = w.bv := by rw [← setBlk_view A hu]; exact e3
        rw [view_bv, setBlk_view A hu, e3, e4]
    · cases h
  case blockerSwap x y =>
    split at h
    · rename_i h1 h2
      injection h with h; subst h
      simp only [St.op, World.view, h1, h2]
      exact user_goes (st := w.stacks t) hub rfl U (by rw [view_bv]; rfl)
    · cases h
  case blockerDtor x =>
    split at h
    · rename_i v h1
      injection h with h; subst h
      have g1 : (w.view (w.stacks t)).bv x = some v := h1
      simp only [St.op, g1]
      obtain ⟨e1, e2, -⟩ := connSetBlocked_rest w v false
      rw [bv_setBlocked]
      refine user_goes (st := w.stacks t) (e1.trans hub) (congrFun e2 t) U ?_
      rw [view_bv, setBlk_view A hu]
      exact (bv_setBlk _ _ _ _).symm
    · cases h
  case objNew =>
    injection h with h; subst h
    exact user_goes (st := w.stacks t) hub rfl U (by simp only [World.view, hf]; rfl)
  case objShare o =>
    have ho := objLives_iff A (pre := []) (st := w.stacks t) rfl U (by simp) o
    split at h
    · rename_i hx
      injection h with h; subst h
      simp only [St.op]
      rw [if_pos (ho.1 hx)]
      exact user_goes (st := w.stacks t) hub rfl U (by simp only [World.view, hf]; rfl)
    · cases h
  case objDrop o =>
    split at h
    · rename_i hx
      injection h with h; subst h
      simp only [St.op]
      rw [if_pos (show 0 < (w.view (w.stacks t)).objs o from hx)]
      exact user_goes (st := w.stacks t) hub rfl U (by simp only [World.view, hf]; rfl)
    · cases h
  case pin => cases hp
  case unpin => cases hp
  case combDeref i =>
    split at h
    · rename_i e g args b p acc rest hst
      rw [hst] at U
      have U' : UserStk rest := by cases U with | comb _ _ _ _ _ _ h => exact h
      rw [hst, view_comb]
      have hc : (w.frOf ⟨e, g, .custom, args⟩ b p acc none).custom = true ∧ (w.frOf ⟨e, g, .custom, args⟩ b p acc none).cur = none :=
        ⟨rfl, rfl⟩
      simp only [St.op]
      rw [if_pos hc]
      split at h
      · rename_i s hsome
        injection h with h; subst h
        refine calls_goes (st := .call s .chkBlocked :: .emit ⟨e, g, .custom, args⟩ (.iter b i acc) :: rest) hub
          (by simp [World.setStack, World.emitEv, upd]) trivial ?_
        have hi : (w.frOf ⟨e, g, .custom, args⟩ b p acc none).items[i]? = some s := hsome
        rw [hi]
        simp only [settled]
        rw [view_silent _ rfl, view_setStack]
        simp only [settledCall]
        have hup : (({ w.view rest with fr := w.frOf ⟨e, g, .custom, args⟩ b p acc none :: (w.view rest).fr } : St).up s ↔
            (w.view rest).up s) := by
          have e1 := up_iff A (pre := [.emit ⟨e, g, .custom, args⟩ (.iter b p acc)]) (st := rest) hst U' (by simp [Frame.obj?]) s
          have e2 := up_iff A (pre := []) (st := .emit ⟨e, g, .custom, args⟩ (.iter b p acc) :: rest) hst U (by simp) s
          rw [view_comb] at e2
          exact e2.symm.trans e1
        by_cases hx : ((w.view rest).lis s).blk = false ∧ (w.view rest).up s
        · rw [if_pos hx, if_pos ⟨hx.1, hup.2 hx.2⟩]; rfl
        · rw [if_neg hx, if_neg fun h => hx ⟨h.1, hup.1 h.2⟩]; rfl
      · rename_i hnone
        injection h with h; subst h
        have hi : (w.frOf ⟨e, g, .custom, args⟩ b p acc none).items[i]? = none := hnone
        rw [hi]
        exact calls_stops rfl rfl
    · cases h
  case combDone v =>
    split at h
    · rename_i e g args b p acc rest hst
      injection h with h; subst h
      rw [hst] at U
      have U' : UserStk rest := by cases U with | comb _ _ _ _ _ _ h => exact h
      rw [hst, view_comb]
      have hc : (w.frOf ⟨e, g, .custom, args⟩ b p acc none).custom = true ∧ (w.frOf ⟨e, g, .custom, args⟩ b p acc none).cur = none :=
        ⟨rfl, rfl⟩
      simp only [St.op]
      rw [if_pos hc]
      refine user_goes (st := rest) hub (by simp [World.setStack, World.emitEv, upd]) U' ?_
      rw [view_say _ rfl, view_setStack]
    · cases h
  case combThrow =>
    split at h
    · rename_i e g args b p acc rest hst
      injection h with h; subst h
      rw [hst] at U
      have U' : UserStk rest := by cases U with | comb _ _ _ _ _ _ h => exact h
      rw [hst, view_comb]
      have hc : (w.frOf ⟨e, g, .custom, args⟩ b p acc none).custom = true ∧ (w.frOf ⟨e, g, .custom, args⟩ b p acc none).cur = none :=
        ⟨rfl, rfl⟩
      simp only [St.op]
      rw [if_pos hc]
      refine user_goes (st := rest) hub (by simp [World.setStack, World.emitEv, upd]) U' ?_
      rw [view_say _ rfl, view_setStack]
    · cases h

/-- A listener returns. -/
theorem ret_step {v : Val} (A : Alone E t w) (hs : step E w (.ret t v) = some w') :
    (w.view (w.stacks t)).ret v = outcome E t w' ∧ (w'.ub = none → Ready w' (w'.stacks t)) := by
  obtain ⟨hub, -, s, o, m, b, pos, acc, rest, hst, rfl⟩ := step_ret hs
  have U : UserStk rest := by have := A.reach.full.i.i1.stk t; rw [hst] at this; exact this.callTail
  refine calls_goes (st := .emit m (deliver m.comb b pos acc (if (w.sigs m.g).isVoid then none else some v)) :: rest) hub
    (by simp [World.setStack, World.emitEv, upd]) (by trivial) ?_
  rw [hst, view_body]
  simp only [St.ret]
  rw [if_neg (by simp [World.frOf])]
  cases hc : m.comb with
  | lastValue =>
    simp only [deliver, settled]
    rw [if_neg (show ¬m.comb = .custom by simp [hc]),
      if_neg (show ¬(w.frOf m b pos acc (some (s, o))).custom = true by simp [World.frOf, hc]), view_silent _ rfl, view_setStack]
    rfl
  | custom =>
    simp only [deliver, settled]
    rw [if_pos hc, if_pos (by simp [World.frOf, hc]), view_silent _ rfl, view_setStack, view_comb]
    rfl

/-- A listener throws. -/
theorem throw_step {c : Bool} (A : Alone E t w) (hs : step E w (.throw t c) = some w') :
    (w.view (w.stacks t)).throw_ c = outcome E t w' ∧ (w'.ub = none → Ready w' (w'.stacks t)) := by
  obtain ⟨hub, -, s, o, m, b, pos, acc, rest, hst, h⟩ := step_throw hs
  have U : UserStk rest := by have := A.reach.full.i.i1.stk t; rw [hst] at this; exact this.callTail
  rw [hst, view_body]
  simp only [St.throw_]
  rw [if_neg (by simp [World.frOf])]
  rcases h with ⟨rfl, rfl⟩ | ⟨rfl, hc, rfl⟩
  · rw [if_neg (by simp)]
    refine user_goes (st := rest) hub (by simp [World.setStack, World.emitEv, upd]) U ?_
    rw [view_say _ rfl, view_silent _ rfl, view_setStack]
  · rw [if_pos rfl, if_pos (by simp [World.frOf, hc])]
    refine user_goes (st := .emit m (.iter b pos none) :: rest) hub (by simp [World.setStack, World.emitEv, upd])
      (.comb _ _ _ _ _ hc U) ?_
    rw [view_silent _ rfl, view_setStack, view_comb]
    rfl

/-- One step of any kind. -/
theorem one_step {l : Label} (A : Alone E t w) (hr : Ready w (w.stacks t)) (ht : l.tid = t) (hp : l.plain = true)
    (hs : step E w l = some w')
    (hn : ∀ a, outcome E t w = .ok a → ¬a.Stray l) :
    (outcome E t w).bind (·.next E l) = outcome E t w' ∧ (w'.ub = none → Ready w' (w'.stacks t)) := by
  have user : userCtx (w.stacks t) = true → outcome E t w = .ok (w.view (w.stacks t)) := fun hu => by
    rw [outcome_st (step_inv hs).1 rfl, settled_user ((A.reach.full.i.i1.stk t).toUser hu)]
  cases l with
  | run u =>
    have ht : u = t := ht
    subst ht
    obtain ⟨h1, h2⟩ := lib_step A hr hs
    refine ⟨?_, h2⟩
    rw [h1]
    cases outcome E u w <;> rfl
  | call u x =>
    have ht : u = t := ht
    subst ht
    have e := user (step_call hs).2.2.1
    rw [e]
    exact call_step A hp hs (hn _ e)
  | ret u v =>
    have ht : u = t := ht
    subst ht
    have e := user (by obtain ⟨-, -, s, o, m, b, pos, acc, rest, hst, -⟩ := step_ret hs; rw [hst]; rfl)
    rw [e]
    exact ret_step A hs
  | throw u c =>
    have ht : u = t := ht
    subst ht
    have e := user (by obtain ⟨-, -, s, o, m, b, pos, acc, rest, hst, -⟩ := step_throw hs; rw [hst]; rfl)
    rw [e]
    exact throw_step A hs
  | fail u => cases hp
  | ctl u => cases hp

theorem Seq.Res.bind_assoc (r : Res) (f g : St → Res) : (r.bind f).bind g = r.bind fun a => (f a).bind g := by cases r <;> rfl

theorem Seq.Res.bind_ok (r : Res) : r.bind .ok = r := by cases r <;> rfl

/-- Any number of steps. -/
theorem many_steps {ls : List Label} (A : Alone E t w) (hr : Ready w (w.stacks t)) (hl : ∀ l ∈ ls, l.tid = t ∧ l.plain = true)
    (hx : exec E w ls = some w') (hn : ∀ a, outcome E t w = .ok a → a.Tame E ls) :
    (outcome E t w).bind (·.run E ls) = outcome E t w' ∧ Alone E t w' ∧ (w'.ub = none → Ready w' (w'.stacks t)) := by
  induction ls generalizing w with
  | nil =>
    injection hx with hx; subst hx
    exact ⟨Seq.Res.bind_ok _, A, fun _ => hr⟩
  | cons l ls ih =>
    simp only [exec] at hx
    split at hx
    · rename_i w1 hs
      obtain ⟨ht, hp⟩ := hl l List.mem_cons_self
      obtain ⟨h1, h2⟩ := one_step A hr ht hp hs fun a ha => (hn a ha).1
      have A1 := A.step ht hp hs
      by_cases hub : w1.ub = none
      · have := ih A1 (h2 hub) (fun l' h' => hl l' (List.mem_cons_of_mem _ h')) hx fun a ha => by
          rw [← h1] at ha
          cases ho : outcome E t w with
          | ok a0 => rw [ho] at ha; exact (hn a0 ho).2 a ha
          | ub u => rw [ho] at ha; cases ha
          | no => rw [ho] at ha; cases ha
        rw [← h1, Seq.Res.bind_assoc] at this
        exact this
      · cases ls with
        | nil =>
          injection hx with hx; subst hx
          refine ⟨?_, A1, h2⟩
          rw [← h1]
          cases outcome E t w with
          | ok a0 => exact Seq.Res.bind_ok _
          | ub u => rfl
          | no => rfl
        | cons l' ls' =>
          simp only [exec] at hx
          split at hx
          · rename_i w2 hs2; exact absurd (step_inv hs2).1 hub
          · cases hx
    · cases hx

theorem view_init (n : Nat) : (World.init n).view [] = St.start := rfl

/-- C71 (partial: it does not hold when a stray listener is disconnected, see `C71_false`). Used from one thread, the library does what the
sequential specification says. -/
theorem C71_partial {n : Nat} {ls : List Label} (hl : ∀ l ∈ ls, l.tid = t ∧ l.plain = true) (hx : exec E (World.init n) ls = some w)
    (hn : St.start.Tame E ls) :
    (∀ u, w.ub = some u → St.start.run E ls = .ub u) ∧
    (w.ub = none → userCtx (w.stacks t) = true → St.start.run E ls = .ok (w.view (w.stacks t))) := by
  have A : Alone E t (World.init n) := ⟨⟨n, .refl _⟩, fun _ _ => rfl, rfl⟩
  obtain ⟨h1, h2, -⟩ := many_steps A trivial hl hx fun a ha => by
    rw [outcome_st (w := World.init n) rfl rfl] at ha
    injection ha with ha
    rw [← ha]; exact hn
  have h1 : St.start.run E ls = outcome E t w := h1
  refine ⟨fun u hu => by rw [h1, outcome_ub hu], fun hub hu => ?_⟩
  rw [h1, outcome_st hub rfl, settled_user ((h2.reach.full.i.i1.stk t).toUser hu)]

/-! ### Programs that do not use `disconnect(callable)` -/

/-- Every connected listener is in the list of its signal, if that has one. -/
structure Homely (a : St) : Prop where
  lt : ∀ s, (a.lis s).conn = true → s < a.n
  dom : ∀ s, s < a.n → (a.lis s).home < a.nSig
  mem : ∀ s l, (a.lis s).conn = true → a.sig (a.lis s).home = some (some l) → s ∈ l

theorem Homely.same {a a' : St} (H : Homely a) (h1 : a'.lis = a.lis) (h2 : a'.n = a.n) (h3 : a'.sig = a.sig) (h4 : a'.nSig = a.nSig) :
    Homely a' := by
  obtain ⟨p, q, r⟩ := H
  exact ⟨by rw [h1, h2]; exact p, by rw [h1, h2, h4]; exact q, by rw [h1, h3]; exact r⟩

theorem Homely.drive {a : St} (H : Homely a) (f : Fr) (l : List SlotId) : Homely (a.drive f l) := by
  induction l generalizing f with
  | nil => exact H.same rfl rfl rfl rfl
  | cons s l ih =>
    simp only [St.drive]
    split
    · exact H.same rfl rfl rfl rfl
    · exact ih _

theorem Homely.setBlk {a : St} (H : Homely a) (h : Option SlotId) (c : Bool) : Homely (a.setBlk h c) := by
  cases h with
  | none => exact H
  | some s =>
    simp only [St.setBlk]
    split
    · have e : ∀ x, ((upd a.lis s { a.lis s with blk := c }) x).conn = (a.lis x).conn ∧
          ((upd a.lis s { a.lis s with blk := c }) x).home = (a.lis x).home := by
        intro x; simp only [upd]; split <;> simp_all
      exact ⟨fun x hx => H.lt x (by rw [← (e x).1]; exact hx), fun x hx => by rw [(e x).2]; exact H.dom x hx,
        fun x l hx hl => by rw [(e x).1] at hx; rw [(e x).2] at hl; exact H.mem x l hx hl⟩
    · exact H

theorem mem_unlist {s x : SlotId} {l : List SlotId} (hx : x ∈ l) (hne : x ≠ s) : x ∈ St.unlist s l := by
  unfold St.unlist
  split
  · rename_i hs
    rcases List.eq_nil_or_concat l with rfl | ⟨m, b, rfl⟩
    · cases hx
    · simp only [List.concat_eq_append, List.mem_append, List.mem_singleton, List.dropLast_concat, List.mem_map] at hx hs ⊢
      rcases hx with hx | rfl
      · exact ⟨x, hx, by simp [hne]⟩
      · rcases hs with hs | rfl
        · refine ⟨s, hs, ?_⟩
          simp [List.getLastD_eq_getLast?]
        · exact absurd rfl hne
  · exact hx

theorem Homely.hangUp {a a' : St} (H : Homely a) {h : Option SlotId} (he : a.hangUp h = .ok a') : Homely a' := by
  cases h with
  | none => injection he with he; subst he; exact H.same rfl rfl rfl rfl
  | some s =>
    simp only [St.hangUp] at he
    split at he
    · rename_i hc
      unfold St.onList at he
      split at he
      · cases he
      · cases he
      · rename_i l hl
        injection he with he; subst he
        have e : ∀ x, ((upd a.lis s { a.lis s with conn := false }) x).home = (a.lis x).home := by
          intro x; simp only [upd]; split <;> simp_all
        refine ⟨fun x hx => ?_, fun x hx => ?_, fun x m hx hm => ?_⟩
        · simp only [St.say, St.setSig, upd] at hx
          split at hx
          · cases hx
          · exact H.lt x hx
        · simp only [St.say, St.setSig, e]; exact H.dom x hx
        · simp only [St.say, St.setSig, e] at hm hx
          have hxs : x ≠ s := by
            rintro rfl; simp [upd] at hx
          simp only [upd, if_neg hxs] at hx hm
          split at hm
          · rename_i hg
            injection hm with hm; injection hm with hm; subst hm
            exact mem_unlist (H.mem x l hx (by rw [hg]; exact hl)) hxs
          · exact H.mem x m hx hm
    · injection he with he; subst he; exact H.same rfl rfl rfl rfl

theorem Homely.next {a a' : St} (H : Homely a) {l : Label} (hl : ∀ u g tgt, l ≠ .call u (.sigDisconnect g tgt))
    (he : a.next E l = .ok a') : Homely a' := by
  cases l with
  | run u => injection he with he; subst he; exact H
  | fail u => cases he
  | ctl u => cases he
  | throw u c =>
    simp only [St.next, St.throw_] at he
    (repeat' split at he) <;> first | cases he; done | (injection he with he; subst he; exact H.same rfl rfl rfl rfl)
  | ret u v =>
    simp only [St.next, St.ret] at he
    (repeat' split at he) <;> first
      | cases he; done
      | (injection he with he; subst he; first | exact H.same rfl rfl rfl rfl | (refine Homely.drive ?_ _ _; exact H.same rfl rfl rfl rfl))
  | call u x =>
    simp only [St.next] at he
    cases x <;> simp only [St.op] at he
    case newSig v =>
      injection he with he; subst he
      refine ⟨H.lt, fun s hs => Nat.lt_succ_of_lt (H.dom s hs), fun s m hc hm => ?_⟩
      have := Nat.ne_of_lt (H.dom s (H.lt s hc))
      simp only [upd, if_neg this] at hm
      exact H.mem s m hc hm
    case destroySig g =>
      split at he
      · split at he
        · cases he
        · injection he with he; subst he
          refine ⟨H.lt, H.dom, fun s m hc hm => ?_⟩
          simp only [upd] at hm
          split at hm
          · cases hm
          · exact H.mem s m hc hm
      · cases he
    case moveSig g =>
      split at he
      · split at he
        · cases he
        · injection he with he; subst he
          refine ⟨H.lt, fun s hs => Nat.lt_succ_of_lt (H.dom s hs), fun s m hc hm => ?_⟩
          have := Nat.ne_of_lt (H.dom s (H.lt s hc))
          simp only [upd, if_neg this] at hm
          split at hm
          · cases hm
          · exact H.mem s m hc hm
      · cases he
    case connect g fn consume conn blk dest =>
      split at he
      · rename_i hg
        unfold St.onList at he
        split at he
        · cases he
        · cases he
        · rename_i l hl
          injection he with he; subst he
          suffices H' : Homely ({ a with lis := upd a.lis a.n ⟨fn, consume, conn, blk, g⟩, n := a.n + 1 }.setSig g (l ++ [a.n])) by
            cases dest <;> exact H'.same rfl rfl rfl rfl
          refine ⟨fun s hc => ?_, fun s hs => ?_, fun s m hc hm => ?_⟩
          · simp only [St.setSig, upd] at hc ⊢
            split at hc
            · omega
            · exact Nat.lt_succ_of_lt (H.lt s hc)
          · simp only [St.setSig, upd] at hs ⊢
            split
            · exact hg.1
            · exact H.dom s (by omega)
          · simp only [St.setSig, upd] at hc hm
            by_cases hs : s = a.n
            · simp only [hs, if_true] at hm
              injection hm with hm; injection hm with hm; subst hm
              simp [hs]
            · simp only [if_neg hs] at hc hm
              split at hm
              · rename_i hgs
                injection hm with hm; injection hm with hm; subst hm
                exact List.mem_append_left _ (H.mem s l hc (by rw [hgs]; exact hl))
              · exact H.mem s m hc hm
      · cases he
    case emit g comb args =>
      split at he
      · unfold St.onList at he
        split at he
        · cases he
        · cases he
        · injection he with he; subst he
          unfold St.begin_
          split
          · exact H.same rfl rfl rfl rfl
          · exact H.drive _ _
      · cases he
    case sigDisconnect g tgt => exact absurd rfl (hl u g tgt)
    case disconnect x => exact H.hangUp he
    case block x => injection he with he; subst he; exact H.setBlk _ _
    case unblock x => injection he with he; subst he; exact H.setBlk _ _
    case scopedMoveAssign x y =>
      split at he
      · rename_i v _ _ _
        cases hh : a.hangUp v with
        | ok a1 =>
          rw [hh] at he
          injection he with he; subst he
          have := H.hangUp hh
          split
          · exact this
          · exact this.same rfl rfl rfl rfl
        | ub u => rw [hh] at he; cases he
        | no => rw [hh] at he; cases he
      · cases he
    case scopedDtor x =>
      split at he
      · refine Homely.hangUp ?_ he
        exact H.same rfl rfl rfl rfl
      · cases he
    case blockerOf =>
      split at he
      · injection he with he; subst he
        refine Homely.setBlk ?_ _ _; exact H.same rfl rfl rfl rfl
      · cases he
    case blockerDtor =>
      split at he
      · injection he with he; subst he
        refine Homely.setBlk ?_ _ _; exact H.same rfl rfl rfl rfl
      · cases he
    case blockerMoveAssign x y =>
      split at he
      · rename_i v _ _ _
        injection he with he; subst he
        have := H.setBlk v false
        split
        · exact this
        · exact this.same rfl rfl rfl rfl
      · cases he
    all_goals
      (repeat' split at he) <;> first | cases he; done | (injection he with he; subst he; exact H.same rfl rfl rfl rfl)

theorem Homely.tame {a : St} (H : Homely a) {ls : List Label} (hl : ∀ l ∈ ls, ∀ u g tgt, l ≠ .call u (.sigDisconnect g tgt)) :
    a.Tame E ls := by
  induction ls generalizing a with
  | nil => trivial
  | cons l ls ih =>
    refine ⟨?_, fun a' ha => ih (H.next (hl l List.mem_cons_self) ha) fun l' h' => hl l' (List.mem_cons_of_mem _ h')⟩
    rintro ⟨s, m, -, -, hc, hm, hs⟩
    exact hs (H.mem s m hc hm)

theorem Homely.start : Homely .start := ⟨fun _ h => (by cases h), fun _ h => (by cases h), fun _ _ h => (by cases h)⟩

/-- Programs that never call `disconnect(callable)` need no further assumption. -/
theorem C71_noerase {n : Nat} {ls : List Label} (hl : ∀ l ∈ ls, l.tid = t ∧ l.plain = true)
    (he : ∀ l ∈ ls, ∀ u g tgt, l ≠ .call u (.sigDisconnect g tgt)) (hx : exec E (World.init n) ls = some w) :
    (∀ u, w.ub = some u → St.start.run E ls = .ub u) ∧
    (w.ub = none → userCtx (w.stacks t) = true → St.start.run E ls = .ok (w.view (w.stacks t))) :=
  C71_partial hl hx (Homely.start.tame he)

end Verif
