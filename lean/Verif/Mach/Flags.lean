import Verif.Mach.Inv

/-!
# The flags of every listener are what the history says
-/

namespace Verif

/-- Events that do not touch any flag. -/
def Event.noFlag : Event → Bool
  | .created _ _ _ _ => false
  | .blockSet _ _ => false
  | .exch _ _ => false
  | .skip _ _ .expired => false
  | _ => true

theorem blockedAfter_quiet {evs log : List Event} {s : SlotId} (h : ∀ ev ∈ evs, ev.noFlag = true) :
    blockedAfter (evs ++ log) s = blockedAfter log s := by
  induction evs with
  | nil => rfl
  | cons ev evs ih =>
    have ih := ih fun x hx => h x (List.mem_cons_of_mem _ hx)
    have hev := h ev (by simp)
    cases ev <;> simp [Event.noFlag] at hev <;> exact ih

theorem connectedAfter_quiet {evs log : List Event} {s : SlotId} (h : ∀ ev ∈ evs, ev.noFlag = true) :
    connectedAfter (evs ++ log) s = connectedAfter log s := by
  induction evs with
  | nil => rfl
  | cons ev evs ih =>
    have ih := ih fun x hx => h x (List.mem_cons_of_mem _ hx)
    have hev := h ev (by simp)
    cases ev <;> simp [Event.noFlag] at hev <;> try exact ih
    rename_i e s' why
    cases why <;> simp at hev <;> exact ih

structure Inv4 (w : World) : Prop where
  blk : ∀ s, s < w.nSlots → (w.slots s).blocked = blockedAfter w.log s
  con : ∀ s, s < w.nSlots → (w.slots s).connected = connectedAfter w.log s
  crt : ∀ g s c b, Event.created g s c b ∈ w.log → s < w.nSlots
  obj : ∀ s o, s < w.nSlots → (w.slots s).fn.obj? = some o → o < w.nObjs
  sig : ∀ g, (w.sigs g).sblocked = false

theorem Inv4.init (n : Nat) : Inv4 (World.init n) :=
  ⟨by simp [World.init], by simp [World.init], by simp [World.init], by simp [World.init], fun _ => rfl⟩

theorem Inv4.quiet {w w' : World} {evs : List Event} (K : Inv4 w) (F : Fixed w w') (hn : w'.nSlots = w.nSlots)
    (hb : ∀ s, (w'.slots s).blocked = (w.slots s).blocked)
    (hc : ∀ s, (w'.slots s).connected = (w.slots s).connected)
    (hl : w'.log = evs ++ w.log) (hq : ∀ ev ∈ evs, ev.noFlag = true) : Inv4 w' := by
  refine ⟨?_, ?_, ?_, ?_, F.sblocked K.sig⟩
  · intro s hs; rw [hb, hl, blockedAfter_quiet hq]; exact K.blk s (by omega)
  · intro s hs; rw [hc, hl, connectedAfter_quiet hq]; exact K.con s (by omega)
  · intro g s c b hm
    rw [hl] at hm
    rcases List.mem_append.1 hm with h | h
    · have := hq _ h; cases this
    · rw [hn]; exact K.crt g s c b h
  · intro s o hs ho
    rw [F.fn s (by omega)] at ho
    have := K.obj s o (by omega) ho
    have := F.nObjs; omega

theorem removeAt_flags (w : World) (b : BlkId) (i : Nat) (s : SlotId) :
    ((removeAt w b i).slots s).blocked = (w.slots s).blocked ∧
    ((removeAt w b i).slots s).connected = (w.slots s).connected := by
  unfold removeAt; split
  · simp only [World.setBlk, World.setIndex, upd_apply]; split
    · rename_i e; subst e; exact ⟨rfl, rfl⟩
    · exact ⟨rfl, rfl⟩
  · exact ⟨rfl, rfl⟩

theorem Inv4.step {E : Env} {w w' : World} {t : Tid} (I : Inv1 w) (K : Inv4 w) (h : StepR E w t w') :
    Inv4 w' := by
  have F := fixed h
  have hrng := I.rng t
  cases h
  case flag s c cv sv bv hu hs hh ha =>
    refine ⟨?_, ?_, ?_, ?_, F.sblocked K.sig⟩
    · intro x hx
      simp only [World.emitEv, World.setBlocked, World.setH, upd_apply, blockedAfter]
      by_cases e : x = s
      · subst e; simp
      · rw [if_neg e, if_neg (fun h => e h.symm)]; exact K.blk x hx
    · intro x hx
      simp only [World.emitEv, World.setBlocked, World.setH, upd_apply, connectedAfter]
      by_cases e : x = s
      · subst e; simp; exact K.con x hx
      · rw [if_neg e]; exact K.con x hx
    · intro g x c' b hm
      simp [World.emitEv, World.setBlocked, World.setH] at hm
      exact K.crt g x c' b hm
    · intro x o hx ho; rw [F.fn x hx] at ho; exact K.obj x o hx ho
  case connStart g fn consume conn blk dest hu hg ho =>
    refine ⟨?_, ?_, ?_, ?_, F.sblocked K.sig⟩
    · intro x hx
      simp only [World.emitEv, World.setStack] at hx
      simp only [World.emitEv, World.setStack, upd_apply, blockedAfter]
      by_cases e : x = w.nSlots
      · subst e; simp
      · rw [if_neg e, if_neg (fun h => e h.symm)]; exact K.blk x (by omega)
    · intro x hx
      simp only [World.emitEv, World.setStack] at hx
      simp only [World.emitEv, World.setStack, upd_apply, connectedAfter]
      by_cases e : x = w.nSlots
      · subst e; simp
      · rw [if_neg e, if_neg (fun h => e h.symm)]; exact K.con x (by omega)
    · intro g' x c' b hm
      simp [World.emitEv, World.setStack] at hm ⊢
      rcases hm with hm | hm
      · omega
      · have := K.crt g' x c' b hm; omega
    · intro x o hx h
      simp only [World.emitEv, World.setStack] at hx
      by_cases e : x = w.nSlots
      · subst e; simp [World.emitEv, World.setStack, upd_apply] at h; exact ho o h
      · rw [F.fn x (by omega)] at h; exact K.obj x o (by omega) h
  case callExpired s o m b pos acc rest hst ho =>
    have hs : s < w.nSlots := hrng (.call s (.lockObj o)) (by rw [hst]; simp)
    refine ⟨?_, ?_, ?_, ?_, F.sblocked K.sig⟩
    · intro x hx
      simp only [World.emitEv, World.setConnected, World.setStack, upd_apply, blockedAfter]
      by_cases e : x = s
      · subst e; simp; exact K.blk x hx
      · rw [if_neg e]; exact K.blk x hx
    · intro x hx
      simp only [World.emitEv, World.setConnected, World.setStack, upd_apply, connectedAfter]
      by_cases e : x = s
      · subst e; simp
      · rw [if_neg e, if_neg (fun h => e h.symm)]; exact K.con x hx
    · intro g x c' b hm
      simp [World.emitEv, World.setConnected, World.setStack] at hm
      exact K.crt g x c' b hm
    · intro x o hx ho; rw [F.fn x hx] at ho; exact K.obj x o hx ho
  case exchTrue s k rest hst hc =>
    have hs : s < w.nSlots := (hrng (.disc s k .exch) (by rw [hst]; simp)).1
    refine ⟨?_, ?_, ?_, ?_, F.sblocked K.sig⟩
    · intro x hx
      simp only [World.emitEv, World.setConnected, World.setStack, upd_apply, blockedAfter]
      by_cases e : x = s
      · subst e; simp; exact K.blk x hx
      · rw [if_neg e]; exact K.blk x hx
    · intro x hx
      simp only [World.emitEv, World.setConnected, World.setStack, upd_apply, connectedAfter]
      by_cases e : x = s
      · subst e; simp
      · rw [if_neg e, if_neg (fun h => e h.symm)]; exact K.con x hx
    · intro g x c' b hm
      simp [World.emitEv, World.setConnected, World.setStack] at hm
      exact K.crt g x c' b hm
    · intro x o hx ho; rw [F.fn x hx] at ho; exact K.obj x o hx ho
  case exchFalse s k rest cv sv bv hst hc hs =>
    refine ⟨?_, ?_, ?_, ?_, F.sblocked K.sig⟩
    · exact K.blk
    · intro x hx
      show (w.slots x).connected = connectedAfter (.discRet t (some s) false :: .exch s false :: w.log) x
      simp only [connectedAfter]
      by_cases e : x = s
      · subst e; simp; exact hc
      · rw [if_neg (fun h => e h.symm)]; exact K.con x hx
    · intro g x c' b hm
      simp [World.emitEv, World.setH, World.setStack] at hm
      exact K.crt g x c' b hm
    · intro x o hx ho; rw [F.fn x hx] at ho; exact K.obj x o hx ho
  case tst f f' rest g b hst hf hl =>
    refine K.quiet (evs := []) F ?_ ?_ ?_ ?_ (by simp)
    all_goals first | rfl | exact fun _ => rfl
  case det f f' rest g b hst hf hl =>
    refine K.quiet (evs := []) F ?_ ?_ ?_ ?_ (by simp)
    all_goals first | rfl | exact fun _ => rfl
  case addWrite g s dest rest b hst hl =>
    refine K.quiet (evs := [_]) F rfl ?_ ?_ rfl (by simp [Event.noFlag])
    all_goals
      intro x; simp only [World.emitEv, World.setBlk, World.setIndex, World.setStack, upd_apply]; split
      · rename_i e; subst e; rfl
      · rfl
  case eraseHit g tgt i cnt rest b s hst hl hi he =>
    refine K.quiet (evs := [.erased g s]) F ?_ (fun x => (removeAt_flags w b i x).1)
      (fun x => (removeAt_flags w b i x).2) ?_ (by simp [Event.noFlag])
    · exact (removeAt_same w b i).2.2.2.1
    · simp only [World.emitEv, World.setStack, (removeAt_same _ _ _).2.2.2.2.2.2.2.2.2.2.1]; rfl
  case discWrite s v k rest g b hst hl hi =>
    refine K.quiet (evs := [.removed g s v]) F ?_ (fun x => (removeAt_flags w b _ x).1)
      (fun x => (removeAt_flags w b _ x).2) ?_ (by simp [Event.noFlag])
    · exact (removeAt_same w b _).2.2.2.1
    · simp only [World.emitEv, World.setStack, (removeAt_same _ _ _).2.2.2.2.2.2.2.2.2.2.1]; rfl
  case callSkip s pc why m b pos acc rest hst hpc =>
    refine K.quiet (evs := [_]) F rfl (fun _ => rfl) (fun _ => rfl) rfl ?_
    rcases hpc with ⟨-, rfl, -⟩ | ⟨-, rfl, -⟩ | ⟨_, -, rfl, -⟩ <;> simp [Event.noFlag]
  all_goals first
    | exact K.quiet (evs := []) F rfl (fun _ => rfl) (fun _ => rfl) rfl (by simp)
    | exact K.quiet (evs := [_]) F rfl (fun _ => rfl) (fun _ => rfl) rfl (by simp [Event.noFlag])
    | exact K.quiet (evs := [_, _]) F rfl (fun _ => rfl) (fun _ => rfl) rfl (by simp [Event.noFlag])

end Verif
