import Verif.Mach.Disc

/-!
# What each event says about the history before it
-/

namespace Verif

/-- The conditions under which an event can happen after the history `rest`. -/
def EvOk (w : World) : Event → List Event → Prop
  | .created _ s _ _, rest => ∀ g' c' b', Event.created g' s c' b' ∉ rest
  | .added g s, rest => ∃ c b, Event.created g s c b ∈ rest
  | .connRet _ g s, rest => Event.added g s ∈ rest
  | .snap m items, rest => items = replay rest m.g ∧ ∀ s, s ∈ items ↔ home rest s = some m.g
  | .suppressed _, _ => False
  | .skip _ s .blocked, rest => blockedAfter rest s = true
  | .skip _ s .notConnected, rest =>
      connectedAfter rest s = false ∨
        (s < w.nSlots ∧ ∃ o, (w.slots s).fn.obj? = some o ∧ w.objAlive o = false)
  | .skip _ s .expired, rest =>
      (∃ g c b, Event.created g s c b ∈ rest) ∧
        (s < w.nSlots ∧ ∃ o, (w.slots s).fn.obj? = some o ∧ w.objAlive o = false)
  | .enter e s _, rest => (∃ pos, SeenConnected e pos s rest) ∧
      (s < w.nSlots ∧ ∀ o, (w.slots s).fn.obj? = some o → connectedAfter rest s = true)
  | .exch s b, rest => (∃ g c b, Event.created g s c b ∈ rest) ∧ connectedAfter rest s = b
  | .removed g req _, rest => Event.exch req true ∈ rest ∧ req < w.nSlots ∧ g = (w.slots req).owner
  | .discRet _ (some s) true, rest => Event.exch s true ∈ rest
  | _, _ => True

/-- Every event of the history was possible when it happened. -/
def HistOk (w : World) : List Event → Prop
  | [] => True
  | ev :: rest => EvOk w ev rest ∧ HistOk w rest

theorem HistOk.at {w : World} {log pre post : List Event} {ev : Event} (h : HistOk w log)
    (e : log = post ++ ev :: pre) : EvOk w ev pre := by
  subst e
  induction post with
  | nil => exact h.1
  | cons x post ih => exact ih h.2

theorem EvOk.mono {w w' : World} {ev : Event} {rest : List Event} (F : Fixed w w') (K : Inv4 w)
    (hd : ∀ o, o < w.nObjs → w.objAlive o = false → w'.objAlive o = false) (h : EvOk w ev rest) :
    EvOk w' ev rest := by
  have aux : ∀ s, (s < w.nSlots ∧ ∃ o, (w.slots s).fn.obj? = some o ∧ w.objAlive o = false) →
      (s < w'.nSlots ∧ ∃ o, (w'.slots s).fn.obj? = some o ∧ w'.objAlive o = false) := by
    rintro s ⟨hs, o, ho, ha⟩
    exact ⟨Nat.lt_of_lt_of_le hs F.nSlots, o, by rw [F.fn s hs]; exact ho, hd o (K.obj s o hs ho) ha⟩
  unfold EvOk at h ⊢
  split <;> simp only at h
  case h_7 => exact h.imp id (aux _)
  case h_8 => exact ⟨h.1, aux _ h.2⟩
  case h_9 =>
    exact ⟨h.1, Nat.lt_of_lt_of_le h.2.1 F.nSlots, fun o ho => h.2.2 o (by rw [← F.fn _ h.2.1]; exact ho)⟩
  case h_11 => exact ⟨h.1, Nat.lt_of_lt_of_le h.2.1 F.nSlots, by rw [F.owner _ h.2.1]; exact h.2.2⟩
  all_goals assumption

theorem HistOk.mono {w w' : World} (F : Fixed w w') (K : Inv4 w)
    (hd : ∀ o, o < w.nObjs → w.objAlive o = false → w'.objAlive o = false) :
    ∀ {log : List Event}, HistOk w log → HistOk w' log
  | [], _ => trivial
  | _ :: _, h => ⟨h.1.mono F K hd, HistOk.mono F K hd h.2⟩

/-- A connection that is intact has never been touched by `disconnect` nor found expired. -/
theorem HistOk.up {w : World} {s : SlotId} : ∀ {log : List Event}, HistOk w log → connectedAfter log s = true →
    (∀ b, Event.exch s b ∉ log) ∧ ∀ e, Event.skip e s .expired ∉ log
  | [], _, _ => by simp
  | ev :: log, h, hc => by
    have sub : ∀ {log : List Event}, HistOk w log →
        ((∃ b, Event.exch s b ∈ log) ∨ ∃ e, Event.skip e s .expired ∈ log) → ∃ g c b, Event.created g s c b ∈ log := by
      intro log h hx
      rcases hx with ⟨b, hx⟩ | ⟨e, hx⟩
      · obtain ⟨pre, post, rfl⟩ := List.append_of_mem hx
        obtain ⟨⟨g, c, b, hm⟩, -⟩ := h.at rfl
        exact ⟨g, c, b, by simp [hm]⟩
      · obtain ⟨pre, post, rfl⟩ := List.append_of_mem hx
        obtain ⟨⟨g, c, b, hm⟩, -⟩ := h.at rfl
        exact ⟨g, c, b, by simp [hm]⟩
    have ih := HistOk.up (log := log) (s := s) h.2
    cases ev
    case created g s' c b =>
      by_cases hs : s' = s
      · subst hs
        refine ⟨fun b' hm => ?_, fun e hm => ?_⟩
        · obtain ⟨g1, c1, b1, h1⟩ := sub h.2 (.inl ⟨b', by simpa using hm⟩)
          exact h.1 _ _ _ h1
        · obtain ⟨g1, c1, b1, h1⟩ := sub h.2 (.inr ⟨e, by simpa using hm⟩)
          exact h.1 _ _ _ h1
      · simp only [connectedAfter, hs, if_false] at hc
        simpa using ih hc
    case exch s' b =>
      simp only [connectedAfter] at hc
      split at hc
      · cases hc
      · rename_i n
        obtain ⟨h1, h2⟩ := ih hc
        refine ⟨fun b' hm => ?_, fun e hm => ?_⟩
        · rcases List.mem_cons.1 hm with hm | hm
          · injection hm with hm; exact n hm.symm
          · exact h1 _ hm
        · simp at hm; exact h2 _ hm
    case skip e' s' why =>
      cases why
      case expired =>
        simp only [connectedAfter] at hc
        split at hc
        · cases hc
        · rename_i n
          obtain ⟨h1, h2⟩ := ih hc
          refine ⟨fun b' hm => ?_, fun e hm => ?_⟩
          · simp at hm; exact h1 _ hm
          · rcases List.mem_cons.1 hm with hm | hm
            · injection hm with _ hm; exact n hm.symm
            · exact h2 _ hm
      all_goals (simp only [connectedAfter] at hc; simpa using ih hc)
    all_goals (simp only [connectedAfter] at hc; simpa using ih hc)

/-- All invariants. -/
structure Full (w : World) : Prop where
  i : Inv w
  k : Inv4 w
  t : TraceInv w
  d : Inv5 w
  c : ∀ s, s < w.nSlots → ∃ c b, Event.created (w.slots s).owner s c b ∈ w.log
  h : HistOk w w.log

theorem callAt_top {w : World} (T : TraceInv w) {t : Tid} {s : SlotId} {p : CallPc} {m : Em} {b : BlkId}
    {pos : Nat} {acc : Option Val} {rest : List Frame}
    (hst : w.stacks t = .call s p :: .emit m (.iter b pos acc) :: rest) : CallAt w m.e pos s p := by
  have hok := T.ok t ⟨some (s, p), m, .iter b pos acc⟩ (by rw [hst]; simp [acts])
  obtain ⟨m0, vs, a0, hok⟩ := hok
  exact (hok.cur s p rfl).2

theorem Full.hist {E : Env} {w w' : World} {t : Tid} (U : Full w) (hub : w.ub = none) (ht : t < w.nThr)
    (h : StepR E w t w') : HistOk w' w'.log := by
  have hd : ∀ o, o < w.nObjs → w.objAlive o = false → w'.objAlive o = false :=
    fun o ho hd => dead_stays U.i.i1 (U.i.i1.step ht h) h ho hd
  have F := fixed h
  have old : HistOk w' w.log := U.h.mono F U.k hd
  have hrng := U.i.i1.rng t
  have cre : ∀ s, s < w.nSlots → ∃ g c b, Event.created g s c b ∈ w.log :=
    fun s hs => let ⟨c, b, h⟩ := U.c s hs; ⟨_, c, b, h⟩
  have nc : ∀ s, s < w.nSlots → w.slotConnected s = false → connectedAfter w.log s = false ∨
        (s < w'.nSlots ∧ ∃ o, (w'.slots s).fn.obj? = some o ∧ w'.objAlive o = false) := by
    intro s hs hc
    unfold World.slotConnected at hc
    rw [Bool.and_eq_false_iff] at hc
    rcases hc with hc | hc
    · right
      split at hc
      · rename_i o ho
        exact ⟨Nat.lt_of_lt_of_le hs F.nSlots, o, by rw [F.fn s hs]; exact ho, hd o (U.k.obj s o hs ho) hc⟩
      · cases hc
    · left; rw [← U.k.con s hs]; exact hc
  cases h
  case flag => exact ⟨trivial, old⟩
  case destroy => exact ⟨trivial, old⟩
  case connStart g fn consume conn blk dest hu hg ho =>
    refine ⟨?_, old⟩
    intro g' c' b' hm
    have := U.k.crt _ _ _ _ hm
    omega
  case emitStart => exact ⟨trivial, old⟩
  case discFail h' cv sv bv hu hs =>
    refine ⟨?_, old⟩
    cases h' <;> trivial
  case tst f f' rest g b hst hf hl =>
    have : (w.setStack t (f' :: rest)).log = w.log := by
      rfl
    rw [this]; exact old
  case det f f' rest g b hst hf hl =>
    have : ((cloneBlk w g b).setStack t (f' :: rest)).log = w.log := by
      rfl
    rw [this]; exact old
  case emSupp m rest hst ha hb => rw [U.k.sig] at hb; cases hb
  case emSnap m b rest hst =>
    refine ⟨?_, old⟩
    have hc := U.i.i2.cpy t m.g (some b) (by rw [hst]; rfl)
    have hl : w.listOf m.g = w.blks b := by simp [World.listOf, hc]
    exact ⟨by rw [← hl]; exact U.i.i3.rep m.g, fun s => by rw [← hl]; exact U.i.i3.hom m.g s⟩
  case emCall => exact ⟨trivial, old⟩
  case emDone => exact ⟨trivial, old⟩
  case combThrow => exact ⟨trivial, old⟩
  case callSkip s pc why m b pos acc rest hst hpc =>
    have hlt : s < w.nSlots := hrng (.call s pc) (by rw [hst]; simp)
    refine ⟨?_, old⟩
    rcases hpc with ⟨-, rfl, hb⟩ | ⟨-, rfl, hc⟩ | ⟨_, -, rfl, hc⟩
    · show blockedAfter w.log s = true
      rw [← U.k.blk s hlt]; exact hb
    · exact nc s hlt hc
    · exact nc s hlt hc
  case callExpired s o m b pos acc rest hst ho =>
    have hlt : s < w.nSlots := hrng (.call s (.lockObj o)) (by rw [hst]; simp)
    refine ⟨?_, old⟩
    have hc := (callAt_top U.t hst).2
    exact ⟨cre s hlt, hlt, o, by rw [F.fn s hlt]; exact hc, hd o (U.k.obj s o hlt hc) ho⟩
  case callEnter s pc o m b pos acc rest hst hpc =>
    refine ⟨?_, old⟩
    have hc := callAt_top U.t hst
    have hlt : s < w.nSlots := hrng (.call s pc) (by rw [hst]; simp)
    refine ⟨⟨pos, ?_⟩, Nat.lt_of_lt_of_le hlt F.nSlots, fun o' ho' => ?_⟩
    · rcases hpc with ⟨rfl, -⟩ | ⟨x, rfl, -, -⟩
      · exact hc.1
      · exact hc.1
    · rw [F.fn s hlt] at ho'
      rcases hpc with ⟨rfl, -⟩ | ⟨x, rfl, -, h2⟩
      · have := hc.2; rw [ho'] at this; cases this
      · show connectedAfter w.log s = true
        rw [← U.k.con s hlt]
        unfold World.slotConnected at h2
        rw [Bool.and_eq_true] at h2
        exact h2.2
  case callRet => exact ⟨trivial, old⟩
  case callCatch => exact ⟨trivial, old⟩
  case callThrow => exact ⟨trivial, trivial, old⟩
  case addWrite g s dest rest b hst hl =>
    exact ⟨(U.d.fh t (.add g s dest .write) (by rw [hst]; exact List.mem_cons_self)).1, old⟩
  case addUnlock g s dest rest cv sv bv hst hs =>
    exact ⟨(U.d.fh t (.add g s dest .unlock) (by rw [hst]; exact List.mem_cons_self)).2 rfl, old⟩
  case eraseHit g tgt i cnt rest b s hst hl hi he =>
    have el : (((removeAt w b i).setStack t (.erase g tgt (.scan i (cnt + 1)) :: rest)).emitEv
        (.erased g s)).log = .erased g s :: w.log := by
      simp only [World.emitEv, World.setStack, (removeAt_same _ _ _).2.2.2.2.2.2.2.2.2.2.1]
    rw [el]
    exact ⟨trivial, old⟩
  case fail f rest g s hst hf => exact ⟨trivial, old⟩
  case eraseUnlock => exact ⟨trivial, old⟩
  case exchTrue s k rest hst hc =>
    have hlt : s < w.nSlots := (hrng (.disc s k .exch) (by rw [hst]; simp)).1
    exact ⟨⟨cre s hlt, (U.k.con s hlt).symm.trans hc⟩, old⟩
  case exchFalse s k rest cv sv bv hst hc hs =>
    have hlt : s < w.nSlots := (hrng (.disc s k .exch) (by rw [hst]; simp)).1
    exact ⟨trivial, ⟨cre s hlt, (U.k.con s hlt).symm.trans hc⟩, old⟩
  case discWrite s v k rest g b hst hl hi =>
    have hlt := (hrng (.disc s k (.crit g .write)) (by rw [hst]; exact List.mem_cons_self)).1
    have hh := U.d.fh t (.disc s k (.crit g .write)) (by rw [hst]; exact List.mem_cons_self)
    have el : (((removeAt w b (w.slots s).index).setStack t
                (.disc s k (.crit g .unlock) :: rest)).emitEv (.removed g s v)).log = .removed g s v :: w.log := by
      simp only [World.emitEv, World.setStack, (removeAt_same _ _ _).2.2.2.2.2.2.2.2.2.2.1]
    rw [el]
    exact ⟨⟨hh.1, Nat.lt_of_lt_of_le hlt F.nSlots, by rw [F.owner s hlt]; exact hh.2⟩, old⟩
  case discDrop s k rest g cv sv bv hst hs =>
    exact ⟨(U.d.fh t (.disc s k (.drop g)) (by rw [hst]; exact List.mem_cons_self)).1, old⟩
  case movWrite => exact ⟨trivial, old⟩
  all_goals exact old

theorem Full.cre {E : Env} {w w' : World} {t : Tid} (U : Full w) (h : StepR E w t w') :
    ∀ s, s < w'.nSlots → ∃ c b, Event.created (w'.slots s).owner s c b ∈ w'.log := by
  intro s hs
  have F := fixed h
  obtain ⟨evs, hl⟩ := log_grows h
  have old : s < w.nSlots → ∃ c b, Event.created (w'.slots s).owner s c b ∈ w'.log := by
    intro hs
    obtain ⟨c, b, hc⟩ := U.c s hs
    exact ⟨c, b, by rw [F.owner s hs, hl]; exact List.mem_append_right _ hc⟩
  rcases Nat.lt_or_ge s w.nSlots with h1 | h1
  · exact old h1
  · have hn : w'.nSlots ≠ w.nSlots := by omega
    cases h <;> first | exact absurd rfl hn | skip
    case connStart g fn consume conn blk dest hu hg ho =>
      have : s = w.nSlots := by simp only [World.emitEv, World.setStack] at hs; omega
      subst this
      refine ⟨conn, blk, ?_⟩
      simp [World.emitEv, World.setStack, upd_apply]
    case eraseHit => exact absurd (removeAt_same _ _ _).2.2.2.1 hn
    case discWrite => exact absurd (removeAt_same _ _ _).2.2.2.1 hn

theorem Full.init (n : Nat) : Full (World.init n) := ⟨.init n, .init n, .init n, .init n, by simp [World.init], trivial⟩

theorem Full.step {E : Env} {w w' : World} {t : Tid} (U : Full w) (hub : w.ub = none) (ht : t < w.nThr)
    (h : StepR E w t w') : Full w' :=
  ⟨U.i.step hub ht h, U.k.step U.i.i1 h, U.t.step U.i U.k h, U.d.step U.i.i1 U.k h, U.cre h, U.hist hub ht h⟩

theorem Full.reach {E : Env} {P : Label → Prop} {n : Nat} {w : World} (h : Steps E P (World.init n) w) :
    Full w :=
  h.induct (Full.init n) fun _ _ _ I _ hst =>
    let ⟨_, ht, hr⟩ := step_inv hst
    I.step (step_ub hst) ht hr

theorem Reachable.full {E : Env} {w : World} (h : Reachable E w) : Full w := let ⟨_, h⟩ := h; Full.reach h

end Verif
