import Verif.Mach.Struct

/-!
# Who owns which vector: a vector that is being written has exactly one owner
-/

namespace Verif

/-- Signal whose vector the top frame is about to modify (past `detach`). -/
def topW : List Frame → Option SigId
  | .add g _ _ .write :: _ => some g
  | .erase g _ (.scan _ _) :: _ => some g
  | .disc _ _ (.crit g .write) :: _ => some g
  | _ => none

def topMov : List Frame → Option (SigId × SigId × MovPc)
  | .mov g' g pc :: _ => some (g', g, pc)
  | _ => none

/-- The pointer copied by an emission that still holds the mutex. -/
def topCopy : List Frame → Option (SigId × Option BlkId)
  | .emit m (.unlock b) :: _ => some (m.g, b)
  | _ => none

theorem topW_locks {st : List Frame} {g : SigId} (h : topW st = some g) : topLocks st = some g := by
  unfold topW at h
  split at h <;> simp at h <;> subst h <;> rfl

theorem topCopy_locks {st : List Frame} {g : SigId} {b} (h : topCopy st = some (g, b)) :
    topLocks st = some g := by
  unfold topCopy at h
  split at h <;> simp at h
  obtain ⟨rfl, rfl⟩ := h; rfl

theorem userCtx_tops {st : List Frame} (h : userCtx st = true) :
    topW st = none ∧ topMov st = none ∧ topCopy st = none := by
  unfold userCtx at h; split at h <;> first | exact ⟨rfl, rfl, rfl⟩ | cases h

theorem UserStk.tops {st : List Frame} (h : UserStk st) :
    topW st = none ∧ topMov st = none ∧ topCopy st = none := by
  cases h <;> exact ⟨rfl, rfl, rfl⟩

structure Inv2 (w : World) : Prop where
  uniq : ∀ g g' b, (w.sigs g).list = some b → (w.sigs g').list = some b → g = g'
  live : ∀ g t, (w.sigs g).mutex = some t → (w.sigs g).alive = true
  movx : ∀ t g' g pc, topMov (w.stacks t) = some (g', g, pc) →
    (w.sigs g').alive = false ∧ (pc ≠ .unlock → (w.sigs g').list = none)
  movu : ∀ t1 t2 g' g1 p1 g2 p2, topMov (w.stacks t1) = some (g', g1, p1) →
    topMov (w.stacks t2) = some (g', g2, p2) → t1 = t2
  excl : ∀ t g b, topW (w.stacks t) = some g → (w.sigs g).list = some b →
    ∀ t', ∀ f ∈ w.stacks t', f.blk? ≠ some b
  wlst : ∀ t g, topW (w.stacks t) = some g → (w.sigs g).list ≠ none
  cpy : ∀ t g b, topCopy (w.stacks t) = some (g, b) → (w.sigs g).list = b

theorem Inv2.init (n : Nat) : Inv2 (World.init n) where
  uniq := by simp [World.init]
  live := by simp [World.init]
  movx := by simp [World.init, topMov]
  movu := by simp [World.init, topMov]
  excl := by simp [World.init, topW]
  wlst := by simp [World.init, topW]
  cpy := by simp [World.init, topCopy]

/-- Steps that leave every `list` and `alive` alone. -/
theorem Inv2.same {w w' : World} {t : Tid} {st : List Frame} (I : Inv2 w)
    (hs : w'.stacks = upd w.stacks t st)
    (h1 : ∀ g, (w'.sigs g).list = (w.sigs g).list) (h2 : ∀ g, (w'.sigs g).alive = (w.sigs g).alive)
    (h3 : ∀ g t, (w'.sigs g).mutex = some t → (w.sigs g).alive = true)
    (hW : ∀ g, topW st = some g → topW (w.stacks t) = some g)
    (hM : ∀ g' g pc, topMov st = some (g', g, pc) → ∃ pc0, topMov (w.stacks t) = some (g', g, pc0) ∧
      (pc ≠ .unlock → pc0 ≠ .unlock))
    (hC : ∀ g b, topCopy st = some (g, b) → (w.sigs g).list = b)
    (hB : ∀ f ∈ st, ∀ b, f.blk? = some b → ∃ f' ∈ w.stacks t, f'.blk? = some b) : Inv2 w' where
  uniq g g' b a a' := by rw [h1] at a a'; exact I.uniq g g' b a a'
  live g t' a := by rw [h2]; exact h3 g t' a
  movx t' g' g pc a := by
    rw [hs, upd_apply] at a; rw [h1, h2]
    split at a
    · obtain ⟨pc0, e, k⟩ := hM g' g pc a
      exact ⟨(I.movx t g' g pc0 e).1, fun n => (I.movx t g' g pc0 e).2 (k n)⟩
    · exact I.movx t' g' g pc a
  movu t1 t2 g' g1 p1 g2 p2 a1 a2 := by
    have aux : ∀ t' g' g p, topMov (w'.stacks t') = some (g', g, p) →
        ∃ p, topMov (w.stacks t') = some (g', g, p) := by
      intro t' g' g p a
      rw [hs, upd_apply] at a
      split at a
      · rename_i e; subst e; obtain ⟨pc0, e, -⟩ := hM g' g p a; exact ⟨_, e⟩
      · exact ⟨_, a⟩
    obtain ⟨_, b1⟩ := aux _ _ _ _ a1
    obtain ⟨_, b2⟩ := aux _ _ _ _ a2
    exact I.movu _ _ _ _ _ _ _ b1 b2
  excl t' g b a hl t2 f hf hb := by
    rw [hs, upd_apply] at a; rw [h1] at hl
    have a' : ∃ t', topW (w.stacks t') = some g := by
      split at a
      · exact ⟨t, hW g a⟩
      · exact ⟨_, a⟩
    obtain ⟨t'', a'⟩ := a'
    rw [hs, upd_apply] at hf
    split at hf
    · obtain ⟨f', m, e⟩ := hB f hf b hb
      exact I.excl _ g b a' hl t f' m e
    · exact I.excl _ g b a' hl t2 f hf hb
  wlst t' g a := by
    rw [hs, upd_apply] at a; rw [h1]
    split at a
    · exact I.wlst t g (hW g a)
    · exact I.wlst t' g a
  cpy t' g b a := by
    rw [hs, upd_apply] at a; rw [h1]
    split at a
    · exact hC g b a
    · exact I.cpy t' g b a

/-- Steps that leave `sigs` alone and put a frame without interesting role on top. -/
theorem Inv2.quiet {w w' : World} {t : Tid} {st : List Frame} (I : Inv2 w)
    (hs : w'.stacks = upd w.stacks t st) (h1 : w'.sigs = w.sigs)
    (hW : topW st = none) (hM : topMov st = none) (hC : topCopy st = none)
    (hB : ∀ f ∈ st, ∀ b, f.blk? = some b → ∃ f' ∈ w.stacks t, f'.blk? = some b) : Inv2 w' :=
  I.same hs (by simp [h1]) (by simp [h1]) (fun g t a => I.live g t (by rw [h1] at a; exact a))
    (by simp [hW]) (by simp [hM]) (by simp [hC]) hB

/-- Unlocking. -/
theorem Inv2.unlock {w w' : World} {t : Tid} {st : List Frame} {g0 : SigId} (I : Inv2 w)
    (hs : w'.stacks = upd w.stacks t st)
    (h1 : w'.sigs = upd w.sigs g0 { w.sigs g0 with mutex := none })
    (hW : topW st = none) (hM : topMov st = none) (hC : topCopy st = none)
    (hB : ∀ f ∈ st, ∀ b, f.blk? = some b → ∃ f' ∈ w.stacks t, f'.blk? = some b) : Inv2 w' := by
  refine I.same hs ?_ ?_ ?_ (by simp [hW]) (by simp [hM]) (by simp [hC]) hB
  · intro g; rw [h1, upd_apply]; split
    · rename_i e; subst e; rfl
    · rfl
  · intro g; rw [h1, upd_apply]; split
    · rename_i e; subst e; rfl
    · rfl
  · intro g t' a; rw [h1, upd_apply] at a; split at a
    · cases a
    · exact I.live g t' a

theorem sub_tail {f : Frame} {rest : List Frame} {st : List Frame} (h : st = f :: rest) :
    ∀ x ∈ rest, ∀ b, x.blk? = some b → ∃ f' ∈ st, f'.blk? = some b := by
  subst h; exact fun x hx b hb => ⟨x, List.mem_cons_of_mem _ hx, hb⟩

theorem sub_cons {f f' : Frame} {rest : List Frame} {st : List Frame} (h : st = f :: rest)
    (hf : f'.blk? = none ∨ f'.blk? = f.blk?) :
    ∀ x ∈ f' :: rest, ∀ b, x.blk? = some b → ∃ f' ∈ st, f'.blk? = some b := by
  subst h
  intro x hx b hb
  rcases List.mem_cons.1 hx with rfl | hx
  · rcases hf with h | h
    · rw [h] at hb; cases hb
    · exact ⟨f, by simp, by rw [← h]; exact hb⟩
  · exact ⟨x, List.mem_cons_of_mem _ hx, hb⟩

theorem sub_push {f : Frame} {st : List Frame} (hf : f.blk? = none) :
    ∀ x ∈ f :: st, ∀ b, x.blk? = some b → ∃ f' ∈ st, f'.blk? = some b := by
  intro x hx b hb
  rcases List.mem_cons.1 hx with rfl | hx
  · rw [hf] at hb; cases hb
  · exact ⟨x, hx, hb⟩

theorem sub_call2 {s pc m p m' p' pc' s'} {rest st : List Frame} (h : st = .call s pc :: .emit m p :: rest)
    (hp : Frame.blk? (.emit m' p') = Frame.blk? (.emit m p)) :
    ∀ x ∈ Frame.call s' pc' :: .emit m' p' :: rest, ∀ b, x.blk? = some b → ∃ f' ∈ st, f'.blk? = some b := by
  subst h
  intro x hx b hb
  rcases List.mem_cons.1 hx with rfl | hx
  · cases hb
  · rcases List.mem_cons.1 hx with rfl | hx
    · exact ⟨.emit m p, by simp, by rw [← hp]; exact hb⟩
    · exact ⟨x, by simp [hx], hb⟩

theorem sub_call1 {s pc m p m' p'} {rest st : List Frame} (h : st = .call s pc :: .emit m p :: rest)
    (hp : Frame.blk? (.emit m' p') = Frame.blk? (.emit m p)) :
    ∀ x ∈ Frame.emit m' p' :: rest, ∀ b, x.blk? = some b → ∃ f' ∈ st, f'.blk? = some b := by
  subst h
  intro x hx b hb
  rcases List.mem_cons.1 hx with rfl | hx
  · exact ⟨.emit m p, by simp, by rw [← hp]; exact hb⟩
  · exact ⟨x, by simp [hx], hb⟩

theorem sub_call0 {s pc m p} {rest st : List Frame} (h : st = .call s pc :: .emit m p :: rest) :
    ∀ x ∈ rest, ∀ b, x.blk? = some b → ∃ f' ∈ st, f'.blk? = some b := by
  subst h
  exact fun x hx b hb => ⟨x, by simp [hx], hb⟩

theorem deliver_blk {m : Em} {c b pos acc r} : Frame.blk? (.emit m (deliver c b pos acc r)) = some b := by
  cases c <;> rfl

theorem not_shared {w : World} {g b} (I : Inv1 w) (h : w.shared g b = false) :
    (∀ t, ∀ f ∈ w.stacks t, f.blk? ≠ some b) ∧ ∀ g', g' ≠ g → (w.sigs g').list ≠ some b := by
  simp [World.shared, World.anyFrame] at h
  obtain ⟨h1, h2⟩ := h
  constructor
  · intro t f hf hb
    by_cases ht : t < w.nThr
    · exact h1 t ht f hf hb
    · rw [I.thr t (by omega)] at hf; cases hf
  · intro g' hg hl
    by_cases hn : g' < w.nSigs
    · exact h2 g' hn hg hl
    · rw [(I.out g' (by omega)).1] at hl; cases hl

theorem frame_blk_lt {w : World} (I : Inv1 w) {t f b} (hf : f ∈ w.stacks t) (hb : f.blk? = some b) :
    b < w.nBlks := by
  have := I.rng t f hf
  unfold Frame.blk? at hb
  split at hb
  · injection hb with hb; subst hb; exact this.2.2 _ rfl
  · subst hb; exact this.2.2 _ rfl
  · cases hb

theorem locks_unique {w : World} (I : Inv1 w) {t t' g} (h : topLocks (w.stacks t) = some g)
    (h' : topLocks (w.stacks t') = some g) : t = t' := by
  have a := (I.mtx g t).2 h
  have b := (I.mtx g t').2 h'
  rw [a] at b; injection b

theorem Inv2.step {E : Env} {w w' : World} {t : Tid} (I : Inv1 w) (J : Inv2 w)
    (h : StepR E w t w') : Inv2 w' := by
  have hself : w.stacks = upd w.stacks t (w.stacks t) := (upd_self _ _).symm
  have refl : ∀ f ∈ w.stacks t, ∀ b, f.blk? = some b → ∃ f' ∈ w.stacks t, f'.blk? = some b :=
    fun f hf b hb => ⟨f, hf, hb⟩
  have hok := I.stk t
  have hrng := I.rng t
  have usr : ∀ {w'' : World}, w''.stacks = w.stacks → w''.sigs = w.sigs → Inv2 w'' := by
    intro w'' h1 h2
    exact ⟨by rw [h2]; exact J.uniq, by rw [h2]; exact J.live, by rw [h1, h2]; exact J.movx,
      by rw [h1]; exact J.movu, by rw [h1, h2]; exact J.excl, by rw [h1, h2]; exact J.wlst,
      by rw [h1, h2]; exact J.cpy⟩
  cases h
  case ub u => exact usr rfl rfl
  case hand => exact usr rfl rfl
  case flag => exact usr rfl rfl
  case objs => exact usr rfl rfl
  case pins => exact usr rfl rfl
  case newSig v hu =>
    obtain ⟨o1, o2, o3⟩ := I.out w.nSigs (Nat.le_refl _)
    refine ⟨?_, ?_, ?_, J.movu, ?_, ?_, ?_⟩
    · intro g g' b a a'
      simp only [upd_apply] at a a'
      split at a <;> split at a'
      · omega
      · simp at a; subst a; have := I.lst _ _ a'; omega
      · simp at a'; subst a'; have := I.lst _ _ a; omega
      · exact J.uniq _ _ _ a a'
    · intro g t' a
      simp only [upd_apply] at a ⊢
      split at a
      · cases a
      · rename_i n; rw [if_neg n]; exact J.live _ _ a
    · intro t' g' g pc a
      have : g' < w.nSigs := by
        have r := I.rng t'
        cases hs : w.stacks t' with
        | nil => rw [hs] at a; cases a
        | cons f rest =>
          rw [hs] at a r
          unfold topMov at a
          split at a <;> simp at a
          rename_i e; injection e with e1 e2; subst e1
          have := r _ (List.mem_cons_self ..)
          simp [Frame.inRange] at this; omega
      simp only [upd_apply]; rw [if_neg (by omega)]
      exact J.movx t' g' g pc a
    · intro t' g b a hl t2 f hf hb
      have hlt := frame_blk_lt I hf hb
      simp only [upd_apply] at hl
      split at hl
      · simp at hl; omega
      · exact J.excl t' g b a hl t2 f hf hb
    · intro t' g a
      simp only [upd_apply]
      split
      · simp
      · exact J.wlst t' g a
    · intro t' g b a
      have := (I.mtx g t').2 (topCopy_locks a)
      simp only [upd_apply]
      split
      · rename_i e; subst e; rw [o3] at this; cases this
      · exact J.cpy t' g b a
  case destroy g hu hg ha hm =>
    have nl : ∀ t', topLocks (w.stacks t') ≠ some g := by
      intro t' a; have := (I.mtx g t').2 a; rw [hm] at this; cases this
    refine ⟨?_, ?_, ?_, J.movu, ?_, ?_, ?_⟩
    · intro g1 g2 b a a'
      simp only [World.emitEv, upd_apply] at a a'
      split at a <;> split at a'
      · omega
      · simp at a
      · simp at a'
      · exact J.uniq _ _ _ a a'
    · intro g1 t' a
      simp only [World.emitEv, upd_apply] at a ⊢
      split at a
      · simp at a; rw [hm] at a; cases a
      · rename_i n; rw [if_neg n]; exact J.live _ _ a
    · intro t' g' g1 pc a
      simp only [World.emitEv, upd_apply]
      split
      · exact ⟨rfl, fun _ => rfl⟩
      · exact J.movx t' g' g1 pc a
    · intro t' g1 b a hl t2 f hf hb
      simp only [World.emitEv, upd_apply] at hl
      split at hl
      · simp at hl
      · exact J.excl t' g1 b a hl t2 f hf hb
    · intro t' g1 a
      simp only [World.emitEv, upd_apply]
      split
      · rename_i e; subst e; exact absurd (topW_locks a) (nl t')
      · exact J.wlst t' g1 a
    · intro t' g1 b a
      simp only [World.emitEv, upd_apply]
      split
      · rename_i e; subst e; exact absurd (topCopy_locks a) (nl t')
      · exact J.cpy t' g1 b a
  case movStart g hu hg ha =>
    obtain ⟨o1, o2, o3⟩ := I.out w.nSigs (Nat.le_refl _)
    obtain ⟨u1, u2, u3⟩ := userCtx_tops hu
    have hmovlt : ∀ t' g' g pc, topMov (w.stacks t') = some (g', g, pc) → g' < w.nSigs := by
      intro t' g' g pc a
      have r := I.rng t'
      cases hs : w.stacks t' with
      | nil => rw [hs] at a; cases a
      | cons f rest =>
        rw [hs] at a r
        unfold topMov at a
        split at a <;> simp at a
        rename_i e; injection e with e1 e2; subst e1
        have := r _ (List.mem_cons_self ..)
        simp [Frame.inRange] at this; omega
    refine ⟨?_, ?_, ?_, ?_, ?_, ?_, ?_⟩
    · intro g1 g2 b a a'
      simp only [World.setStack, upd_apply] at a a'
      split at a <;> split at a'
      · omega
      · simp at a
      · simp at a'
      · exact J.uniq _ _ _ a a'
    · intro g1 t' a
      simp only [World.setStack, upd_apply] at a ⊢
      split at a
      · cases a
      · rename_i n; rw [if_neg n]; exact J.live _ _ a
    · intro t' g' g1 pc a
      simp only [World.setStack, upd_apply] at a ⊢
      split at a
      · simp [topMov] at a; obtain ⟨rfl, rfl, rfl⟩ := a; simp
      · have := hmovlt _ _ _ _ a
        rw [if_neg (by omega)]; exact J.movx t' g' g1 pc a
    · intro t1 t2 g' g1 p1 g2 p2 a1 a2
      simp only [World.setStack, upd_apply] at a1 a2
      split at a1 <;> split at a2
      · omega
      · simp [topMov] at a1; obtain ⟨rfl, rfl, rfl⟩ := a1
        have := hmovlt _ _ _ _ a2; omega
      · simp [topMov] at a2; obtain ⟨rfl, rfl, rfl⟩ := a2
        have := hmovlt _ _ _ _ a1; omega
      · exact J.movu _ _ _ _ _ _ _ a1 a2
    · intro t' g1 b a hl t2 f hf hb
      simp only [World.setStack, upd_apply] at a hl hf
      split at a
      · cases a
      · split at hl
        · cases hl
        · split at hf
          · obtain ⟨f', m, e⟩ := sub_push (st := w.stacks t) (f := .mov w.nSigs g .wait) rfl f hf b hb
            exact J.excl t' g1 b a hl t f' m e
          · exact J.excl t' g1 b a hl t2 f hf hb
    · intro t' g1 a
      simp only [World.setStack, upd_apply] at a ⊢
      split at a
      · cases a
      · split
        · rename_i e; subst e
          have := (I.mtx _ _).2 (topW_locks a); rw [o3] at this; cases this
        · exact J.wlst t' g1 a
    · intro t' g1 b a
      simp only [World.setStack, upd_apply] at a ⊢
      split at a
      · cases a
      · split
        · rename_i e; subst e
          have := (I.mtx _ _).2 (topCopy_locks a); rw [o3] at this; cases this
        · exact J.cpy t' g1 b a
  case connStart => exact J.quiet rfl rfl rfl rfl rfl (sub_push rfl)
  case emitStart => exact J.quiet rfl rfl rfl rfl rfl (sub_push rfl)
  case eraseStart => exact J.quiet rfl rfl rfl rfl rfl (sub_push rfl)
  case discPush => exact J.quiet rfl rfl rfl rfl rfl (sub_push rfl)
  case discFail => exact usr rfl rfl
  case acq f f' rest g hst hf ha hm =>
    have hb : f'.blk? = none ∧ topW (f' :: rest) = none ∧ topCopy (f' :: rest) = none := by
      unfold Frame.acq at hf
      split at hf <;> simp at hf <;> obtain ⟨rfl, rfl⟩ := hf <;> exact ⟨rfl, rfl, rfl⟩
    refine J.same rfl ?_ ?_ ?_ (by simp [hb.2.1]) ?_ (by simp [hb.2.2]) (sub_cons hst (.inl hb.1))
    · intro g'; simp only [World.setStack, World.setMutex, upd_apply]; split
      · rename_i e; subst e; rfl
      · rfl
    · intro g'; simp only [World.setStack, World.setMutex, upd_apply]; split
      · rename_i e; subst e; rfl
      · rfl
    · intro g' t' a; simp only [World.setStack, World.setMutex, upd_apply] at a; split at a
      · rename_i e; subst e; exact ha
      · exact J.live g' t' a
    · intro g' g1 pc a
      rw [hst]
      unfold Frame.acq at hf
      split at hf <;> simp at hf <;> obtain ⟨rfl, rfl⟩ := hf <;> simp [topMov] at a
      obtain ⟨rfl, rfl, rfl⟩ := a
      exact ⟨.wait, rfl, by simp⟩
  case tst f f' rest g b hst hf hl =>
    have hf' : f'.blk? = none ∧ topMov (f' :: rest) = none ∧ topCopy (f' :: rest) = none := by
      unfold Frame.tst at hf
      split at hf <;> simp at hf <;> obtain ⟨rfl, rfl⟩ := hf <;> exact ⟨rfl, rfl, rfl⟩
    have hW : ∀ g', topW (f' :: rest) = some g' → g = g' ∧ ∀ t, ∀ x ∈ w.stacks t, x.blk? ≠ some b := by
      intro g' a
      cases hsh : w.shared g b with
      | true =>
        rw [hsh] at hf
        unfold Frame.tst at hf
        split at hf <;> simp at hf <;> obtain ⟨rfl, rfl⟩ := hf <;> cases a
      | false =>
        rw [hsh] at hf
        refine ⟨?_, (not_shared I hsh).1⟩
        unfold Frame.tst at hf
        split at hf <;> simp at hf <;> obtain ⟨rfl, rfl⟩ := hf <;> cases a <;> rfl
    have hsub := sub_cons (f' := f') hst (.inl hf'.1)
    refine ⟨J.uniq, J.live, ?_, ?_, ?_, ?_, ?_⟩
    · intro t' g' g1 pc a
      simp only [World.setStack, upd_apply] at a ⊢
      split at a
      · rw [hf'.2.1] at a; cases a
      · exact J.movx _ _ _ _ a
    · intro t1 t2 g' g1 p1 g2 p2 a1 a2
      simp only [World.setStack, upd_apply] at a1 a2
      split at a1
      · rw [hf'.2.1] at a1; cases a1
      · split at a2
        · rw [hf'.2.1] at a2; cases a2
        · exact J.movu _ _ _ _ _ _ _ a1 a2
    · intro t' g1 b' a hl' t2 x hx hb
      simp only [World.setStack, upd_apply] at a hl' hx
      have hx' : ∃ t2, ∃ x ∈ w.stacks t2, x.blk? = some b' := by
        split at hx
        · obtain ⟨y, h1, h2⟩ := hsub x hx b' hb; exact ⟨t, y, h1, h2⟩
        · exact ⟨t2, x, hx, hb⟩
      obtain ⟨t3, y, hy, hyb⟩ := hx'
      split at a
      · obtain ⟨rfl, n1⟩ := hW g1 a
        rw [hl] at hl'; injection hl' with hl'; subst hl'
        exact n1 t3 y hy hyb
      · exact J.excl t' g1 b' a hl' t3 y hy hyb
    · intro t' g1 a
      simp only [World.setStack, upd_apply] at a ⊢
      split at a
      · obtain ⟨rfl, -⟩ := hW g1 a; rw [hl]; simp
      · exact J.wlst _ _ a
    · intro t' g1 b' a
      simp only [World.setStack, upd_apply] at a ⊢
      split at a
      · rw [hf'.2.2] at a; cases a
      · exact J.cpy _ _ _ a
  case det f f' rest g b hst hf hl =>
    obtain ⟨l1, l2, -, -⟩ := Frame.det_locks hf
    have hlk : topLocks (w.stacks t) = some g := by rw [hst]; exact l1
    have hf' : f'.blk? = none ∧ topMov (f' :: rest) = none ∧ topCopy (f' :: rest) = none := by
      unfold Frame.det at hf
      split at hf <;> simp at hf <;> obtain ⟨rfl, rfl⟩ := hf <;> exact ⟨rfl, rfl, rfl⟩
    have hW : topW (f' :: rest) = some g := by
      unfold Frame.det at hf
      split at hf <;> simp at hf <;> obtain ⟨rfl, rfl⟩ := hf <;> rfl
    have hsub := sub_cons (f' := f') hst (.inl hf'.1)
    simp only [cloneBlk]
    have hg' : ∀ t', t' ≠ t → topLocks (w.stacks t') ≠ some g := fun t' n a => n (locks_unique I a hlk)
    refine ⟨?_, ?_, ?_, ?_, ?_, ?_, ?_⟩
    · intro g1 g2 b' a a'
      simp only [World.setStack, World.setList, World.setBlk, upd_apply] at a a'
      split at a <;> split at a'
      · omega
      · simp at a; have := I.lst _ _ a'; omega
      · simp at a'; have := I.lst _ _ a; omega
      · exact J.uniq _ _ _ a a'
    · intro g1 t' a
      simp only [World.setStack, World.setList, World.setBlk, upd_apply] at a ⊢
      split at a
      · rename_i e; subst e; simp; exact J.live _ _ a
      · rename_i n; rw [if_neg n]; exact J.live _ _ a
    · intro t' g' g1 pc a
      simp only [World.setStack, World.setList, World.setBlk, upd_apply] at a ⊢
      split at a
      · rw [hf'.2.1] at a; cases a
      · obtain ⟨x1, x2⟩ := J.movx t' g' g1 pc a
        split
        · rename_i e; subst e
          have := J.live _ _ ((I.mtx _ _).2 hlk); rw [x1] at this; cases this
        · exact ⟨x1, x2⟩
    · intro t1 t2 g' g1 p1 g2 p2 a1 a2
      simp only [World.setStack, World.setList, World.setBlk, upd_apply] at a1 a2
      split at a1
      · rw [hf'.2.1] at a1; cases a1
      · split at a2
        · rw [hf'.2.1] at a2; cases a2
        · exact J.movu _ _ _ _ _ _ _ a1 a2
    · intro t' g1 b' a hl' t2 x hx hb
      simp only [World.setStack, World.setList, World.setBlk, upd_apply] at a hl' hx
      have hx' : ∃ t2, ∃ x ∈ w.stacks t2, x.blk? = some b' := by
        split at hx
        · obtain ⟨y, h1, h2⟩ := hsub x hx b' hb; exact ⟨t, y, h1, h2⟩
        · exact ⟨t2, x, hx, hb⟩
      obtain ⟨t3, y, hy, hyb⟩ := hx'
      have := frame_blk_lt I hy hyb
      split at hl'
      · simp at hl'; omega
      · rename_i n
        split at a
        · rw [hW] at a; injection a with a; exact n a.symm
        · exact J.excl t' g1 b' a hl' t3 y hy hyb
    · intro t' g1 a
      simp only [World.setStack, World.setList, World.setBlk, upd_apply] at a ⊢
      split
      · simp
      · rename_i n
        split at a
        · rw [hW] at a; injection a with a; exact absurd a.symm n
        · exact J.wlst _ _ a
    · intro t' g1 b' a
      simp only [World.setStack, World.setList, World.setBlk, upd_apply] at a ⊢
      split at a
      · rw [hf'.2.2] at a; cases a
      · rename_i n
        split
        · rename_i e; subst e; exact absurd (topCopy_locks a) (hg' _ n)
        · exact J.cpy _ _ _ a
  case emSupp m rest hst ha hb =>
    rw [hst] at hok
    obtain ⟨u1, u2, u3⟩ := (hok.tail rfl).tops
    exact J.quiet rfl rfl u1 u2 u3 (sub_tail hst)
  case emPass m rest hst ha hb => exact J.quiet rfl rfl rfl rfl rfl (sub_cons hst (.inl rfl))
  case emCopy m rest hst =>
    have hlk : topLocks (w.stacks t) = some m.g := by rw [hst]; rfl
    refine ⟨J.uniq, J.live, ?_, ?_, ?_, ?_, ?_⟩
    · intro t' g' g1 pc a
      simp only [World.setStack, upd_apply] at a ⊢
      split at a
      · cases a
      · exact J.movx _ _ _ _ a
    · intro t1 t2 g' g1 p1 g2 p2 a1 a2
      simp only [World.setStack, upd_apply] at a1 a2
      split at a1
      · cases a1
      · split at a2
        · cases a2
        · exact J.movu _ _ _ _ _ _ _ a1 a2
    · intro t' g1 b' a hl' t2 x hx hb
      simp only [World.setStack, upd_apply] at a hl' hx
      split at a
      · cases a
      · rename_i n
        split at hx
        · rcases List.mem_cons.1 hx with rfl | hx
          · simp [Frame.blk?] at hb
            have := J.uniq _ _ _ hl' hb
            subst this
            exact n (locks_unique I (topW_locks a) hlk)
          · exact J.excl t' g1 b' a hl' t x (by rw [hst]; exact List.mem_cons_of_mem _ hx) hb
        · exact J.excl t' g1 b' a hl' t2 x hx hb
    · intro t' g1 a
      simp only [World.setStack, upd_apply] at a ⊢
      split at a
      · cases a
      · exact J.wlst _ _ a
    · intro t' g1 b' a
      simp only [World.setStack, upd_apply] at a ⊢
      split at a
      · simp [topCopy] at a; obtain ⟨rfl, rfl⟩ := a; rfl
      · exact J.cpy _ _ _ a
  case emSnap m b rest hst => exact J.unlock (g0 := m.g) rfl rfl rfl rfl rfl (sub_cons hst (.inr rfl))
  case emCall m b pos pos' acc s rest hst hp hs =>
    refine J.quiet rfl rfl rfl rfl rfl ?_
    intro x hx b' hb
    rcases List.mem_cons.1 hx with rfl | hx
    · cases hb
    · exact sub_cons (f' := .emit m (.iter b pos' acc)) hst (.inr rfl) x hx b' hb
  case emDone m b pos acc r rest hst hp =>
    rw [hst] at hok
    obtain ⟨u1, u2, u3⟩ := (hok.tail rfl).tops
    exact J.quiet rfl rfl u1 u2 u3 (sub_tail hst)
  case combThrow m b pos acc rest hst hc =>
    rw [hst] at hok
    obtain ⟨u1, u2, u3⟩ := (hok.tail rfl).tops
    exact J.quiet rfl rfl u1 u2 u3 (sub_tail hst)
  case callUnblk s m b pos acc rest hst hb => exact J.quiet rfl rfl rfl rfl rfl (sub_call2 hst rfl)
  case callConn s m b pos acc rest hst hc ho => exact J.quiet rfl rfl rfl rfl rfl (sub_call2 hst rfl)
  case callConnT s m b pos acc rest o hst hc ho => exact J.quiet rfl rfl rfl rfl rfl (sub_call2 hst rfl)
  case callLock s m b pos acc rest o hst ho => exact J.quiet rfl rfl rfl rfl rfl (sub_call2 hst rfl)
  case callSkip s pc why m b pos acc rest hst hpc =>
    refine J.quiet rfl rfl ?_ ?_ ?_ (sub_call1 hst deliver_blk) <;> (unfold deliver; cases m.comb <;> rfl)
  case callExpired s o m b pos acc rest hst ho =>
    refine J.quiet rfl rfl ?_ ?_ ?_ (sub_call1 hst deliver_blk) <;> (unfold deliver; cases m.comb <;> rfl)
  case callEnter s pc o m b pos acc rest hst hpc => exact J.quiet rfl rfl rfl rfl rfl (sub_call2 hst rfl)
  case callRet s o v r m b pos acc rest hst hr =>
    refine J.quiet rfl rfl ?_ ?_ ?_ (sub_call1 hst deliver_blk) <;> (unfold deliver; cases m.comb <;> rfl)
  case callCatch s o m b pos acc rest hst hc => exact J.quiet rfl rfl rfl rfl rfl (sub_call1 hst rfl)
  case callThrow s o m b pos acc rest hst =>
    rw [hst] at hok
    obtain ⟨u1, u2, u3⟩ := hok.callTail.tops
    exact J.quiet rfl rfl u1 u2 u3 (sub_call0 hst)
  case addWrite g s dest rest b hst hl => exact J.quiet rfl rfl rfl rfl rfl (sub_cons hst (.inl rfl))
  case addUnlock g s dest rest cv sv bv hst hs =>
    rw [hst] at hok
    obtain ⟨u1, u2, u3⟩ := (hok.tail rfl).tops
    exact J.unlock (g0 := g) rfl rfl u1 u2 u3 (sub_tail hst)
  case eraseEnd g tgt i cnt rest b hst hl hi => exact J.quiet rfl rfl rfl rfl rfl (sub_cons hst (.inl rfl))
  case eraseThrow g tgt i cnt rest b s hst hl hi he => exact J.quiet rfl rfl rfl rfl rfl (sub_cons hst (.inl rfl))
  case eraseMiss g tgt i cnt rest b s hst hl hi he =>
    refine J.same rfl (fun _ => rfl) (fun _ => rfl) (J.live) ?_ (by simp [topMov]) (by simp [topCopy]) (sub_cons hst (.inl rfl))
    intro g' a; rw [hst]; exact a
  case eraseHit g tgt i cnt rest b s hst hl hi he =>
    obtain ⟨e1, e2, e3, e4, e5, e6, e7, -⟩ := removeAt_same w b i
    refine J.same (st := .erase g tgt (.scan i (cnt + 1)) :: rest) (t := t) ?_ ?_ ?_ ?_ ?_ (by simp [topMov]) (by simp [topCopy]) (sub_cons hst (.inl rfl))
    · simp only [World.emitEv, World.setStack, e7]
    · intro g'; simp only [World.emitEv, World.setStack, e1]
    · intro g'; simp only [World.emitEv, World.setStack, e1]
    · simp only [World.emitEv, World.setStack, e1]; exact J.live
    · intro g' a; rw [hst]; exact a
  case fail f rest g s hst hf =>
    rw [hst] at hok
    obtain ⟨u1, u2, u3⟩ := (hok.tail (Frame.allocs_isCall hf)).tops
    exact J.unlock (g0 := g) rfl rfl u1 u2 u3 (sub_tail hst)
  case eraseUnlock g tgt r rest hst =>
    rw [hst] at hok
    obtain ⟨u1, u2, u3⟩ := (hok.tail rfl).tops
    exact J.unlock (g0 := g) rfl rfl u1 u2 u3 (sub_tail hst)
  case exchTrue s k rest hst hc => exact J.quiet rfl rfl rfl rfl rfl (sub_cons hst (.inl rfl))
  case exchFalse s k rest cv sv bv hst hc hs =>
    rw [hst] at hok
    obtain ⟨u1, u2, u3⟩ := (hok.tail rfl).tops
    exact J.quiet rfl rfl u1 u2 u3 (sub_tail hst)
  case discWrite s v k rest g b hst hl hi =>
    obtain ⟨e1, e2, e3, e4, e5, e6, e7, -⟩ := removeAt_same w b (w.slots s).index
    refine J.quiet (st := .disc s k (.crit g .unlock) :: rest) (t := t) ?_ e1 rfl rfl rfl (sub_cons hst (.inl rfl))
    simp only [World.emitEv, World.setStack, e7]
  case discMiss s k rest g b hst hl hi => exact J.quiet rfl rfl rfl rfl rfl (sub_cons hst (.inl rfl))
  case discUnlock s k rest g hst => exact J.unlock (g0 := g) rfl rfl rfl rfl rfl (sub_cons hst (.inl rfl))
  case discDrop s k rest g cv sv bv hst hs =>
    rw [hst] at hok
    obtain ⟨u1, u2, u3⟩ := (hok.tail rfl).tops
    exact J.quiet rfl rfl u1 u2 u3 (sub_tail hst)
  case movWrite g' g rest hst =>
    have hlk : topLocks (w.stacks t) = some g := by rw [hst]; rfl
    obtain ⟨x1, x2⟩ := J.movx t g' g .write (by rw [hst]; rfl)
    have hne : g' ≠ g := by
      have := hrng (.mov g' g .write) (by rw [hst]; simp); exact this.2.2
    have hg' : ∀ t', topLocks (w.stacks t') ≠ some g' := by
      intro t' a; have := J.live _ _ ((I.mtx _ _).2 a); rw [x1] at this; cases this
    refine ⟨?_, ?_, ?_, ?_, ?_, ?_, ?_⟩
    · intro g1 g2 b a a'
      simp only [World.emitEv, World.setStack, World.setList, upd_apply, if_neg hne.symm] at a a'
      split at a
      · simp at a
      · split at a'
        · simp at a'
        · split at a <;> split at a'
          · omega
          · simp only at a; have := J.uniq _ _ _ a a'; omega
          · simp only at a'; have := J.uniq _ _ _ a a'; omega
          · exact J.uniq _ _ _ a a'
    · intro g1 t' a
      simp only [World.emitEv, World.setStack, World.setList, upd_apply, if_neg hne.symm] at a ⊢
      split at a
      · rename_i e; subst e; simp; exact J.live _ _ a
      · rename_i n; rw [if_neg n]; split at a
        · rename_i e; subst e; simp; exact J.live _ _ a
        · rename_i n; rw [if_neg n]; exact J.live _ _ a
    · intro t' g1 g2 pc a
      simp only [World.emitEv, World.setStack, World.setList, upd_apply, if_neg hne.symm] at a ⊢
      split at a
      · simp [topMov] at a; obtain ⟨rfl, rfl, rfl⟩ := a
        rw [if_neg hne]; simp [x1]
      · rename_i n
        obtain ⟨y1, y2⟩ := J.movx _ _ _ _ a
        have : g1 ≠ g' := by
          rintro rfl
          exact n (J.movu _ _ _ _ _ _ _ a (by rw [hst]; rfl))
        split
        · rename_i e; subst e; exact ⟨y1, fun _ => rfl⟩
        · exact ⟨y1, y2⟩
    · have aux : ∀ t' g1 g2 p, topMov (upd w.stacks t (.mov g' g .unlock :: rest) t') = some (g1, g2, p) →
          ∃ g p, topMov (w.stacks t') = some (g1, g, p) := by
        intro t' g1 g2 p a
        rw [upd_apply] at a
        split at a
        · rename_i e; subst e
          simp [topMov] at a; obtain ⟨rfl, rfl, rfl⟩ := a
          exact ⟨_, _, by rw [hst]; rfl⟩
        · exact ⟨_, _, a⟩
      intro t1 t2 g1 g2 p1 g3 p2 a1 a2
      obtain ⟨_, _, b1⟩ := aux _ _ _ _ a1
      obtain ⟨_, _, b2⟩ := aux _ _ _ _ a2
      exact J.movu _ _ _ _ _ _ _ b1 b2
    · intro t' g1 b a hl t2 x hx hb
      simp only [World.emitEv, World.setStack, World.setList, upd_apply, if_neg hne.symm] at a hl hx
      split at a
      · cases a
      · split at hl
        · cases hl
        · split at hl
          · rename_i e; subst e; exact hg' _ (topW_locks a)
          · split at hx
            · obtain ⟨y, h1, h2⟩ := sub_cons (f' := .mov g' g .unlock) hst (.inl rfl) x hx b hb
              exact J.excl _ _ _ a hl _ y h1 h2
            · exact J.excl _ _ _ a hl _ x hx hb
    · intro t' g1 a
      simp only [World.emitEv, World.setStack, World.setList, upd_apply, if_neg hne.symm] at a ⊢
      split at a
      · cases a
      · rename_i n
        split
        · rename_i e; subst e; exact absurd (locks_unique I (topW_locks a) hlk) n
        · split
          · rename_i e; subst e; exact absurd (topW_locks a) (hg' _)
          · exact J.wlst _ _ a
    · intro t' g1 b a
      simp only [World.emitEv, World.setStack, World.setList, upd_apply, if_neg hne.symm] at a ⊢
      split at a
      · cases a
      · rename_i n
        split
        · rename_i e; subst e; exact absurd (locks_unique I (topCopy_locks a) hlk) n
        · split
          · rename_i e; subst e; exact absurd (topCopy_locks a) (hg' _)
          · exact J.cpy _ _ _ a
  case movUnlock g' g rest hst =>
    rw [hst] at hok
    obtain ⟨u1, u2, u3⟩ := (hok.tail rfl).tops
    have hne : g' ≠ g := by
      have := hrng (.mov g' g .unlock) (by rw [hst]; simp); exact this.2.2
    refine ⟨?_, ?_, ?_, ?_, ?_, ?_, ?_⟩
    · intro g1 g2 b a a'
      refine J.uniq g1 g2 b ?_ ?_
      · simp only [upd_apply, if_neg hne] at a
        split at a
        · rename_i e; subst e; exact a
        · split at a
          · rename_i e; subst e; exact a
          · exact a
      · simp only [upd_apply, if_neg hne] at a'
        split at a'
        · rename_i e; subst e; exact a'
        · split at a'
          · rename_i e; subst e; exact a'
          · exact a'
    · intro g1 t' a
      simp only [upd_apply, if_neg hne] at a ⊢
      split at a
      · rename_i e; subst e; simp
      · rename_i n; rw [if_neg n]; split at a
        · cases a
        · rename_i n; rw [if_neg n]; exact J.live _ _ a
    · intro t' g1 g2 pc a
      simp only [upd_apply, if_neg hne] at a ⊢
      split at a
      · rw [u2] at a; cases a
      · rename_i n
        obtain ⟨y1, y2⟩ := J.movx _ _ _ _ a
        have : g1 ≠ g' := by
          rintro rfl
          exact n (J.movu _ _ _ _ _ _ _ a (by rw [hst]; rfl))
        rw [if_neg this]
        split
        · rename_i e; subst e; exact ⟨y1, y2⟩
        · exact ⟨y1, y2⟩
    · intro t1 t2 g1 g2 p1 g3 p2 a1 a2
      simp only [upd_apply] at a1 a2
      split at a1
      · rw [u2] at a1; cases a1
      · split at a2
        · rw [u2] at a2; cases a2
        · exact J.movu _ _ _ _ _ _ _ a1 a2
    · intro t' g1 b a hl t2 x hx hb
      simp only [upd_apply, if_neg hne] at a hl hx
      have hl' : (w.sigs g1).list = some b := by
        split at hl
        · rename_i e; subst e; exact hl
        · split at hl
          · rename_i e; subst e; exact hl
          · exact hl
      split at a
      · rw [u1] at a; cases a
      · split at hx
        · obtain ⟨y, h1, h2⟩ := sub_tail hst x hx b hb
          exact J.excl _ _ _ a hl' _ y h1 h2
        · exact J.excl _ _ _ a hl' _ x hx hb
    · intro t' g1 a
      simp only [upd_apply, if_neg hne] at a ⊢
      split at a
      · rw [u1] at a; cases a
      · have := J.wlst _ _ a
        split
        · rename_i e; subst e; exact this
        · split
          · rename_i e; subst e; exact this
          · exact this
    · intro t' g1 b a
      simp only [upd_apply, if_neg hne] at a ⊢
      split at a
      · rw [u3] at a; cases a
      · have := J.cpy _ _ _ a
        split
        · rename_i e; subst e; exact this
        · split
          · rename_i e; subst e; exact this
          · exact this

end Verif
