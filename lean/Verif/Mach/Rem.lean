import Verif.Mach.Fresh

/-!
# Removals in the history
-/

namespace Verif

theorem created_unique {w : World} : ∀ {log : List Event}, HistOk w log → ∀ {s g c b g' c' b'},
    Event.created g s c b ∈ log → Event.created g' s c' b' ∈ log → g = g' ∧ c = c' ∧ b = b'
  | [], _, _, _, _, _, _, _, _, h, _ => by cases h
  | ev :: log, h, s, g, c, b, g', c', b', h1, h2 => by
    rcases List.mem_cons.1 h1 with e1 | h3 <;> rcases List.mem_cons.1 h2 with e2 | h4
    · subst e1; injection e2 with e1 e2 e3 e4; exact ⟨e1.symm, e3.symm, e4.symm⟩
    · subst e1; exact absurd h4 (h.1 _ _ _)
    · subst e2; exact absurd h3 (h.1 _ _ _)
    · exact created_unique h.2 h3 h4

/-- Something other than leaving `s` alone happened to the place of `s` in `g`'s list. -/
def Lost (g : SigId) (s : SlotId) (log : List Event) : Prop :=
  ∃ ev ∈ log, ev.takes s = true ∨ (∃ g', ev = .moved g g') ∨ ev = .destroyed g

theorem Lost.grow {g : SigId} {s : SlotId} {log evs : List Event} (h : Lost g s log) : Lost g s (evs ++ log) := by
  obtain ⟨ev, h1, h2⟩ := h
  exact ⟨ev, List.mem_append_right _ h1, h2⟩

/-- A listener that was added and not lost is at home. -/
theorem home_of {g : SigId} {s : SlotId} : ∀ {log : List Event}, Event.added g s ∈ log →
    log.countP (Event.adds s) ≤ 1 → ¬ Lost g s log → home log s = some g
  | [], h, _, _ => by cases h
  | ev :: log, h, hc, hl => by
    have hl' : ¬ Lost g s log := fun h => hl (h.grow (evs := [ev]))
    have ih : Event.added g s ∈ log → home log s = some g := fun hm =>
      home_of hm (by rw [List.countP_cons] at hc; omega) hl'
    have nt : ev.takes s ≠ true := fun e => hl ⟨ev, List.mem_cons_self, .inl e⟩
    have nm : ∀ g', ev ≠ .moved g g' := fun g' e => hl ⟨ev, List.mem_cons_self, .inr (.inl ⟨g', e⟩)⟩
    have nd : ev ≠ .destroyed g := fun e => hl ⟨ev, List.mem_cons_self, .inr (.inr e)⟩
    cases ev
    case added g1 s1 =>
      rcases List.mem_cons.1 h with h' | h'
      · injection h' with h1 h2; subst h1 h2; simp [home]
      · by_cases hs : s = s1
        · subst hs
          have : 0 < log.countP (Event.adds s) := List.countP_pos_iff.2 ⟨_, h', by simp [Event.adds]⟩
          rw [List.countP_cons, if_pos (by simp [Event.adds])] at hc
          omega
        · simp only [home, hs, if_false]; exact ih h'
    case removed g1 r v =>
      have hn : s ≠ v := by rintro rfl; simp [Event.takes] at nt
      simp only [home, hn, if_false]; exact ih (by simpa using h)
    case erased g1 v =>
      have hn : s ≠ v := by rintro rfl; simp [Event.takes] at nt
      simp only [home, hn, if_false]; exact ih (by simpa using h)
    case moved g1 g2 =>
      have h1 := ih (by simpa using h)
      have : g ≠ g1 := by rintro rfl; exact nm _ rfl
      simp [home, h1, this]
    case destroyed g1 =>
      have h1 := ih (by simpa using h)
      have : g ≠ g1 := by rintro rfl; exact nd rfl
      simp [home, h1, this]
    all_goals (simp only [home]; exact ih (by simpa using h))

/-- More conditions under which an event can happen after a history. -/
def EvOk2 : Event → List Event → Prop
  | .removed g req v, pre => Event.added g req ∈ pre ∧ (∀ g' v', Event.removed g' req v' ∉ pre) ∧
      (home pre req = some g → v = req) ∧ home pre v = some g
  | .erased g v, pre => home pre v = some g
  | .discRet _ (some s) true, pre => ∃ g, Event.added g s ∈ pre ∧ ((∃ v, Event.removed g s v ∈ pre) ∨ Lost g s pre)
  | .connRet _ g s, pre => (replay pre g).getLast? = some s ∧ ∀ ev ∈ pre, ev.flagEv s = false
  | .exch s _, pre => ∃ g, Event.added g s ∈ pre
  | _, _ => True

/-- The removal on top of a stack; it counts as being at its end until `disconnect()` has returned. -/
def topCrit : List Frame → Option (SlotId × SigId × CritPc)
  | .disc s _ (.crit g pc) :: _ => some (s, g, pc)
  | .disc s _ (.drop g) :: _ => some (s, g, .unlock)
  | _ => none

structure Inv8 (w : World) : Prop where
  exr : ∀ s, Event.exch s true ∈ w.log →
    (∃ t, Event.discRet t (some s) true ∈ w.log) ∨ ∃ t g pc, topCrit (w.stacks t) = some (s, g, pc)
  rem0 : ∀ t s g pc, topCrit (w.stacks t) = some (s, g, pc) → pc ≠ .unlock → ∀ g' v, Event.removed g' s v ∉ w.log
  unl : ∀ t s g, topCrit (w.stacks t) = some (s, g, .unlock) → (∃ v, Event.removed g s v ∈ w.log) ∨ Lost g s w.log
  hist : ∀ post ev pre, w.log = post ++ ev :: pre → EvOk2 ev pre

theorem Inv8.init (n : Nat) : Inv8 (World.init n) := by
  constructor <;> simp [World.init, topCrit]

/-- Events that matter here. -/
def Event.rem : Event → Bool
  | .removed _ _ _ => true
  | .erased _ _ => true
  | .discRet _ (some _) true => true
  | .connRet _ _ _ => true
  | .exch _ _ => true
  | _ => false

theorem EvOk2.quiet {ev : Event} {pre : List Event} (h : ev.rem = false) : EvOk2 ev pre := by
  unfold EvOk2; split <;> first | trivial | (simp [Event.rem] at h)

theorem hist_one {w : World} {ev0 : Event} (K : Inv8 w) (h : EvOk2 ev0 w.log) :
    ∀ post ev pre, ev0 :: w.log = post ++ ev :: pre → EvOk2 ev pre := by
  intro post ev pre e
  rcases log_one e with ⟨rfl, rfl⟩ | ⟨post, e⟩
  · exact h
  · exact K.hist _ _ _ e

/-- How the removal on top of the stepping thread may change without consequences. -/
def CritSame (a b : Option (SlotId × SigId × CritPc)) : Prop :=
  a = b ∨ ∃ s g pc pc', a = some (s, g, pc) ∧ b = some (s, g, pc') ∧ pc ≠ .unlock ∧ pc' ≠ .unlock

theorem Inv8.quiet {w w' : World} {t : Tid} (K : Inv8 w) (ev? : Option Event)
    (ho : ∀ t', t' ≠ t → w'.stacks t' = w.stacks t')
    (hc : CritSame (topCrit (w.stacks t)) (topCrit (w'.stacks t)))
    (hl : w'.log = ev?.toList ++ w.log) (hok : ∀ ev, ev? = some ev → EvOk2 ev w.log)
    (hne : ∀ s, ev? ≠ some (.exch s true)) (hnr : ∀ g s v, ev? ≠ some (.removed g s v)) : Inv8 w' := by
  have sup : ∀ ev, ev ∈ w.log → ev ∈ w'.log := fun ev h => by rw [hl]; exact List.mem_append_right _ h
  have inv : ∀ ev, ev ∈ w'.log → ev? = some ev ∨ ev ∈ w.log := by
    intro ev h
    rw [hl] at h
    rcases List.mem_append.1 h with h | h
    · left; simpa using h
    · exact .inr h
  have crit : ∀ t' s g pc, topCrit (w'.stacks t') = some (s, g, pc) →
      ∃ pc0, topCrit (w.stacks t') = some (s, g, pc0) ∧ (pc ≠ .unlock → pc0 ≠ .unlock) ∧ (pc = .unlock → pc0 = .unlock) := by
    intro t' s g pc h
    by_cases ht : t' = t
    · subst ht
      rcases hc with hc | ⟨s1, g1, p1, p2, h1, h2, h3, h4⟩
      · exact ⟨pc, hc ▸ h, id, id⟩
      · rw [h2] at h; injection h with h; injection h with h5 h6; injection h6 with h6 h7
        subst h5 h6 h7
        exact ⟨p1, h1, fun _ => h3, fun e => absurd e h4⟩
    · rw [ho t' ht] at h; exact ⟨pc, h, id, id⟩
  have crit' : ∀ t' s g pc, topCrit (w.stacks t') = some (s, g, pc) → ∃ pc', topCrit (w'.stacks t') = some (s, g, pc') := by
    intro t' s g pc h
    by_cases ht : t' = t
    · subst ht
      rcases hc with hc | ⟨s1, g1, p1, p2, h1, h2, h3, h4⟩
      · exact ⟨pc, hc ▸ h⟩
      · rw [h1] at h; injection h with h; injection h with h5 h6; injection h6 with h6 h7
        subst h5 h6 h7
        exact ⟨p2, h2⟩
    · exact ⟨pc, by rw [ho t' ht]; exact h⟩
  refine ⟨?_, ?_, ?_, ?_⟩
  · intro s hs
    rcases inv _ hs with h | h
    · exact absurd h (hne s)
    · rcases K.exr s h with ⟨t', h⟩ | ⟨t', g, pc, h⟩
      · exact .inl ⟨t', sup _ h⟩
      · obtain ⟨pc', h'⟩ := crit' t' s g pc h
        exact .inr ⟨t', g, pc', h'⟩
  · intro t' s g pc h hpc g' v hm
    obtain ⟨pc0, h1, h2, -⟩ := crit t' s g pc h
    rcases inv _ hm with hm | hm
    · exact absurd hm (hnr _ _ _)
    · exact K.rem0 t' s g pc0 h1 (h2 hpc) g' v hm
  · intro t' s g h
    obtain ⟨pc0, h1, -, h2⟩ := crit t' s g _ h
    rw [h2 rfl] at h1
    rcases K.unl t' s g h1 with ⟨v, hv⟩ | hv
    · exact .inl ⟨v, sup _ hv⟩
    · right; rw [hl]; exact hv.grow
  · intro post ev pre e
    rw [hl] at e
    cases ev? with
    | none => exact K.hist _ _ _ e
    | some ev0 => exact hist_one K (hok ev0 rfl) _ _ _ e

theorem topCrit_user {st : List Frame} (h : UserStk st) : topCrit st = none := by cases h <;> rfl
theorem topCrit_userCtx {st : List Frame} (h : userCtx st = true) : topCrit st = none := by
  unfold userCtx at h; split at h <;> first | rfl | cases h

theorem Inv8.step {E : Env} {w w' : World} {t : Tid} (U : Full w) (Q : Inv7 w) (K : Inv8 w)
    (h : StepR E w t w') : Inv8 w' := by
  have I := U.i
  have ho : ∀ t', t' ≠ t → w'.stacks t' = w.stacks t' := fun t' ht => stacks_other h ht
  have pop : ∀ {f : Frame} {rest : List Frame}, w.stacks t = f :: rest → f.isCall = false → UserStk rest :=
    fun hst hf => (hst ▸ I.i1.stk t).tail hf
  have pop2 : ∀ {s : SlotId} {pc : CallPc} {m : Em} {p : EmitPc} {rest : List Frame},
      w.stacks t = .call s pc :: .emit m p :: rest → UserStk rest :=
    fun hst => OkStk.callTail (hst ▸ I.i1.stk t)
  have popped : ∀ {f : Frame} {rest : List Frame} {x : World}, w.stacks t = f :: rest → topCrit [f] = none →
      UserStk rest → x.stacks t = rest → CritSame (topCrit (w.stacks t)) (topCrit (x.stacks t)) := by
    intro f rest x h1 h2 h3 h4
    rw [h1, h4, topCrit_user h3]; left
    unfold topCrit at h2 ⊢; split <;> simp_all
  have chg : ∀ {f f' : Frame} {rest rest' : List Frame} {x : World}, w.stacks t = f :: rest → topCrit [f] = none →
      topCrit [f'] = none → x.stacks t = f' :: rest' → CritSame (topCrit (w.stacks t)) (topCrit (x.stacks t)) := by
    intro f f' rest rest' x h1 h2 h3 h4
    rw [h1, h4]; left
    unfold topCrit at h2 h3 ⊢; split <;> split <;> simp_all
  have push : ∀ {f' : Frame} {rest' : List Frame} {x : World}, userCtx (w.stacks t) = true →
      topCrit [f'] = none → x.stacks t = f' :: rest' → CritSame (topCrit (w.stacks t)) (topCrit (x.stacks t)) := by
    intro f' rest' x h1 h3 h4
    rw [topCrit_userCtx h1, h4]; left
    unfold topCrit at h3 ⊢; split <;> simp_all
  have us := upd_same (α := List Frame) w.stacks t
  have addedOwner : ∀ s, Reach w t s → Event.added (w.slots s).owner s ∈ w.log := by
    intro s hs
    obtain ⟨g, hg⟩ := Q.tch s ⟨t, hs⟩
    obtain ⟨c, b, h1⟩ := U.c s (Touched.lt I.i1 ⟨t, hs⟩)
    obtain ⟨pre, post, e⟩ := List.append_of_mem hg
    obtain ⟨c', b', h2⟩ := U.h.at e
    have h2 : Event.created g s c' b' ∈ w.log := by rw [e]; simp [h2]
    obtain ⟨e1, -⟩ := created_unique U.h h1 h2
    rw [e1]; exact hg
  cases h
  case ub => exact K.quiet (t := t) none ho (.inl rfl) rfl (by simp) (by simp) (by simp)
  case hand => exact K.quiet (t := t) none ho (.inl rfl) rfl (by simp) (by simp) (by simp)
  case flag => exact K.quiet (t := t) (some _) ho (.inl rfl) rfl (by rintro _ ⟨⟩; trivial) (by simp) (by simp)
  case objs => exact K.quiet (t := t) none ho (.inl rfl) rfl (by simp) (by simp) (by simp)
  case pins => exact K.quiet (t := t) none ho (.inl rfl) rfl (by simp) (by simp) (by simp)
  case newSig => exact K.quiet (t := t) none ho (.inl rfl) rfl (by simp) (by simp) (by simp)
  case destroy => exact K.quiet (t := t) (some _) ho (.inl rfl) rfl (by rintro _ ⟨⟩; trivial) (by simp) (by simp)
  case discFail h' cv sv bv hu hs =>
    exact K.quiet (t := t) (some _) ho (.inl rfl) rfl (by rintro _ ⟨⟩; exact EvOk2.quiet (by cases h' <;> rfl)) (by simp) (by simp)
  case movStart g hu hg ha => exact K.quiet (t := t) none ho (push hu rfl (us _)) rfl (by simp) (by simp) (by simp)
  case connStart g fn consume conn blk dest hu hg ho' =>
    exact K.quiet (t := t) (some _) ho (push hu rfl (us _)) rfl (by rintro _ ⟨⟩; trivial) (by simp) (by simp)
  case emitStart g comb args hu hg =>
    exact K.quiet (t := t) (some _) ho (push hu rfl (us _)) rfl (by rintro _ ⟨⟩; trivial) (by simp) (by simp)
  case eraseStart g tgt hu hg => exact K.quiet (t := t) none ho (push hu rfl (us _)) rfl (by simp) (by simp) (by simp)
  case discPush s k cv sv bv hu hs hh ha =>
    exact K.quiet (t := t) none ho (push hu rfl (us _)) rfl (by simp) (by simp) (by simp)
  case acq f f' rest g hst hf ha hm =>
    refine K.quiet (t := t) none ho ?_ rfl (by simp) (by simp) (by simp)
    show CritSame _ (topCrit (upd w.stacks t (f' :: rest) t))
    rw [us, hst]
    unfold Frame.acq at hf; split at hf <;> simp at hf <;> obtain ⟨rfl, rfl⟩ := hf <;>
      first | exact .inl rfl | exact .inr ⟨_, _, _, _, rfl, rfl, by simp, by simp⟩
  case tst f f' rest g b hst hf hl =>
    have e1 : (w.setStack t (f' :: rest)).stacks t = f' :: rest := by
      exact upd_same _ _ _
    refine K.quiet (t := t) none ho ?_ (by rfl) (by simp) (by simp) (by simp)
    rw [e1, hst]
    unfold Frame.tst at hf; split at hf <;> simp at hf <;> obtain ⟨rfl, rfl⟩ := hf <;>
      first | exact .inl rfl | exact .inr ⟨_, _, _, _, rfl, rfl, by simp, by split <;> simp⟩
  case det f f' rest g b hst hf hl =>
    have e1 : ((cloneBlk w g b).setStack t (f' :: rest)).stacks t = f' :: rest := by
      exact upd_same _ _ _
    refine K.quiet (t := t) none ho ?_ (by rfl) (by simp) (by simp) (by simp)
    rw [e1, hst]
    unfold Frame.det at hf; split at hf <;> simp at hf <;> obtain ⟨rfl, rfl⟩ := hf <;>
      first | exact .inl rfl | exact .inr ⟨_, _, _, _, rfl, rfl, by simp, by simp⟩
  case emSupp m rest hst ha hb =>
    exact K.quiet (t := t) (some _) ho (popped hst rfl (pop hst rfl) (us _)) rfl (by rintro _ ⟨⟩; trivial) (by simp) (by simp)
  case emPass m rest hst ha hb =>
    exact K.quiet (t := t) none ho (chg hst rfl rfl (us _)) rfl (by simp) (by simp) (by simp)
  case emCopy m rest hst =>
    exact K.quiet (t := t) none ho (chg hst rfl rfl (us _)) rfl (by simp) (by simp) (by simp)
  case emSnap m b rest hst =>
    exact K.quiet (t := t) (some _) ho (chg hst rfl rfl (us _)) rfl (by rintro _ ⟨⟩; trivial) (by simp) (by simp)
  case emCall m b pos pos' acc s rest hst hp hs =>
    exact K.quiet (t := t) (some _) ho (chg hst rfl rfl (us _)) rfl (by rintro _ ⟨⟩; trivial) (by simp) (by simp)
  case emDone m b pos acc r rest hst hp =>
    exact K.quiet (t := t) (some _) ho (popped hst rfl (pop hst rfl) (us _)) rfl (by rintro _ ⟨⟩; trivial) (by simp) (by simp)
  case combThrow m b pos acc rest hst hc =>
    exact K.quiet (t := t) (some _) ho (popped hst rfl (pop hst rfl) (us _)) rfl (by rintro _ ⟨⟩; trivial) (by simp) (by simp)
  case callUnblk s m b pos acc rest hst hb =>
    exact K.quiet (t := t) none ho (chg hst rfl rfl (us _)) rfl (by simp) (by simp) (by simp)
  case callConn s m b pos acc rest hst hc ho' =>
    exact K.quiet (t := t) none ho (chg hst rfl rfl (us _)) rfl (by simp) (by simp) (by simp)
  case callConnT s m b pos acc rest o hst hc ho' =>
    exact K.quiet (t := t) none ho (chg hst rfl rfl (us _)) rfl (by simp) (by simp) (by simp)
  case callLock s m b pos acc rest o' hst ho' =>
    exact K.quiet (t := t) none ho (chg hst rfl rfl (us _)) rfl (by simp) (by simp) (by simp)
  case callSkip s pc why m b pos acc rest hst hpc =>
    exact K.quiet (t := t) (some _) ho (chg hst rfl rfl (us _)) rfl (by rintro _ ⟨⟩; trivial) (by simp) (by simp)
  case callExpired s o m b pos acc rest hst ho' =>
    exact K.quiet (t := t) (some _) ho (chg hst rfl rfl (us _)) rfl (by rintro _ ⟨⟩; trivial) (by simp) (by simp)
  case callEnter s pc o m b pos acc rest hst hpc =>
    exact K.quiet (t := t) (some _) ho (chg hst rfl rfl (us _)) rfl (by rintro _ ⟨⟩; trivial) (by simp) (by simp)
  case callRet s o v r m b pos acc rest hst hr =>
    exact K.quiet (t := t) (some _) ho (chg hst rfl rfl (us _)) rfl (by rintro _ ⟨⟩; trivial) (by simp) (by simp)
  case callCatch s o m b pos acc rest hst hc =>
    exact K.quiet (t := t) (some _) ho (chg hst rfl rfl (us _)) rfl (by rintro _ ⟨⟩; trivial) (by simp) (by simp)
  case callThrow s o m b pos acc rest hst =>
    have hcs : CritSame (topCrit (w.stacks t)) (topCrit (upd w.stacks t rest t)) := by
      rw [us, hst, topCrit_user (pop2 hst)]; exact .inl rfl
    have K1 : Inv8 ((w.setStack t rest).emitEv (.threw m.e s)) :=
      K.quiet (t := t) (some _) ho hcs rfl (by rintro _ ⟨⟩; trivial) (by simp) (by simp)
    exact K1.quiet (t := t) (some _) (fun _ _ => rfl) (.inl rfl) rfl (by rintro _ ⟨⟩; trivial) (by simp) (by simp)
  case addWrite g s dest rest b hst hl =>
    exact K.quiet (t := t) (some _) ho (chg hst rfl rfl (us _)) rfl (by rintro _ ⟨⟩; trivial) (by simp) (by simp)
  case addUnlock g s dest rest cv sv bv hst hs =>
    refine K.quiet (t := t) (some _) ho (popped hst rfl (pop hst rfl) (us _)) rfl ?_ (by simp) (by simp)
    rintro _ ⟨⟩
    have hA := Q.add t
    rw [hst] at hA
    exact ⟨by rw [← I.i3.rep]; exact hA.2.2 rfl, hA.2.1⟩
  case eraseEnd g tgt i cnt rest b hst hl hi =>
    exact K.quiet (t := t) none ho (chg hst rfl rfl (us _)) rfl (by simp) (by simp) (by simp)
  case eraseThrow g tgt i cnt rest b s hst hl hi he =>
    exact K.quiet (t := t) none ho (chg hst rfl rfl (us _)) rfl (by simp) (by simp) (by simp)
  case eraseMiss g tgt i cnt rest b s hst hl hi he =>
    exact K.quiet (t := t) none ho (chg hst rfl rfl (us _)) rfl (by simp) (by simp) (by simp)
  case eraseHit g tgt i cnt rest b s hst hl hi he =>
    have el : (((removeAt w b i).setStack t (.erase g tgt (.scan i (cnt + 1)) :: rest)).emitEv
        (.erased g s)).log = .erased g s :: w.log := by
      simp only [World.emitEv, World.setStack, (removeAt_same _ _ _).2.2.2.2.2.2.2.2.2.2.1]
    refine K.quiet (t := t) (some _) ho (chg hst rfl (f' := .erase g tgt (.scan i (cnt + 1))) (rest' := rest) rfl
      (upd_same _ _ _)) el ?_ (by simp) (by simp)
    rintro _ ⟨⟩
    show home w.log s = some g
    rw [← I.i3.hom, listOf_eq hl]; exact List.mem_of_getElem? hi
  case fail f rest g s hst hf =>
    exact K.quiet (t := t) (some _) ho (popped hst (by rcases Frame.allocs_inv hf with ⟨_, _, _, rfl, _⟩ | ⟨_, rfl, _⟩ <;> rfl) (pop hst (Frame.allocs_isCall hf)) (us _)) rfl (by rintro _ ⟨⟩; trivial) (by simp) (by simp)
  case eraseUnlock g tgt r rest hst =>
    exact K.quiet (t := t) (some _) ho (popped hst rfl (pop hst rfl) (us _)) rfl (by rintro _ ⟨⟩; trivial) (by simp) (by simp)
  case exchFalse s k rest cv sv bv hst hc hs =>
    have hR : Reach w t s := .inr ⟨_, by rw [hst]; exact List.mem_cons_self, .inl rfl⟩
    have K1 : Inv8 (((w.setStack t rest).setH cv sv bv).emitEv (.exch s false)) :=
      K.quiet (t := t) (some _) ho (popped hst rfl (pop hst rfl) (us _)) rfl
        (by rintro _ ⟨⟩; exact ⟨_, addedOwner s hR⟩) (by simp) (by simp)
    exact K1.quiet (t := t) (some _) (fun _ _ => rfl) (.inl rfl) rfl (by rintro _ ⟨⟩; trivial) (by simp) (by simp)
  case movWrite g' g rest hst =>
    exact K.quiet (t := t) (some _) ho (chg hst rfl rfl (us _)) rfl (by rintro _ ⟨⟩; trivial) (by simp) (by simp)
  case movUnlock g' g rest hst =>
    exact K.quiet (t := t) none ho (popped hst rfl (pop hst rfl) (us _)) rfl (by simp) (by simp) (by simp)
  case exchTrue s k rest hst hc =>
    have hlt := (I.i1.rng t (.disc s k .exch) (by rw [hst]; exact List.mem_cons_self)).1
    have hR : Reach w t s := .inr ⟨_, by rw [hst]; exact List.mem_cons_self, .inl rfl⟩
    have hup := (U.h.up (s := s) (by rw [← U.k.con s hlt]; exact hc)).1
    have hnr : ∀ g' v, Event.removed g' s v ∉ w.log := by
      intro g' v hm
      obtain ⟨pre, post, e⟩ := List.append_of_mem hm
      exact hup true (by rw [e]; simp [(U.h.at e).1])
    refine ⟨?_, ?_, ?_, ?_⟩
    · intro s' hs'
      rcases List.mem_cons.1 hs' with hs' | hs'
      · injection hs' with hs'; subst hs'
        exact .inr ⟨t, _, _, by show topCrit (upd w.stacks t _ t) = _; rw [us]; rfl⟩
      · rcases K.exr s' hs' with ⟨t', h⟩ | ⟨t', g, pc, h⟩
        · exact .inl ⟨t', List.mem_cons_of_mem _ h⟩
        · refine .inr ⟨t', g, pc, ?_⟩
          have : t' ≠ t := by rintro rfl; rw [hst] at h; cases h
          rw [ho t' this]; exact h
    · intro t' s' g pc h hpc g' v hm
      rcases List.mem_cons.1 hm with hm | hm
      · cases hm
      · by_cases ht : t' = t
        · subst ht
          change topCrit (upd w.stacks t' _ t') = _ at h
          rw [us] at h; injection h with h; injection h with h1 h2; subst h1
          exact hnr _ _ hm
        · rw [ho t' ht] at h; exact K.rem0 t' s' g pc h hpc g' v hm
    · intro t' s' g h
      by_cases ht : t' = t
      · subst ht
        change topCrit (upd w.stacks t' _ t') = _ at h
        rw [us] at h; simp [topCrit] at h
      · rw [ho t' ht] at h
        rcases K.unl t' s' g h with ⟨v, hv⟩ | hv
        · exact .inl ⟨v, List.mem_cons_of_mem _ hv⟩
        · exact .inr (hv.grow (evs := [_]))
    · exact hist_one (w := w) K ⟨_, addedOwner s hR⟩
  case discWrite s v k rest g b hst hl hi =>
    have el : (((removeAt w b (w.slots s).index).setStack t
                (.disc s k (.crit g .unlock) :: rest)).emitEv (.removed g s v)).log = .removed g s v :: w.log := by
      simp only [World.emitEv, World.setStack, (removeAt_same _ _ _).2.2.2.2.2.2.2.2.2.2.1]
    have es : (((removeAt w b (w.slots s).index).setStack t
                (.disc s k (.crit g .unlock) :: rest)).emitEv (.removed g s v)).stacks t =
                  .disc s k (.crit g .unlock) :: rest := upd_same _ _ _
    have hR : Reach w t s := .inr ⟨_, by rw [hst]; exact List.mem_cons_self, .inl rfl⟩
    have hfh := U.d.fh t (.disc s k (.crit g .write)) (by rw [hst]; exact List.mem_cons_self)
    have htu : ∀ t' s' g' pc', t' ≠ t → topCrit (w.stacks t') = some (s', g', pc') → s' ≠ s := by
      rintro t' s' g' pc' hne h rfl
      refine hne (U.d.tdu t' t s' ?_ (by rw [hst]; rfl))
      unfold topCrit at h; unfold topDisc
      split at h
      · rename_i e; rw [e]; injection h with h; injection h with h; rw [h]
      · rename_i e; rw [e]; injection h with h; injection h with h; rw [h]
      · cases h
    rw [show ∀ x : World, Inv8 x ↔ Inv8 x from fun _ => Iff.rfl]
    refine ⟨?_, ?_, ?_, ?_⟩
    · intro s' hs'
      rw [el] at hs' ⊢
      rcases List.mem_cons.1 hs' with hs' | hs'
      · cases hs'
      · rcases K.exr s' hs' with ⟨t', h⟩ | ⟨t', g', pc, h⟩
        · exact .inl ⟨t', List.mem_cons_of_mem _ h⟩
        · by_cases ht : t' = t
          · subst ht
            rw [hst] at h; injection h with h; injection h with h1 h2; subst h1
            exact .inr ⟨t', g, .unlock, by rw [es]; rfl⟩
          · exact .inr ⟨t', g', pc, by rw [ho t' ht]; exact h⟩
    · intro t' s' g' pc h hpc g2 v2 hm
      have ht : t' ≠ t := by
        rintro rfl; rw [es] at h; injection h with h; injection h with h1 h2; injection h2 with h2 h3
        exact hpc h3.symm
      rw [ho t' ht] at h
      rw [el] at hm
      rcases List.mem_cons.1 hm with hm | hm
      · injection hm with e1 e2 e3
        exact htu t' s' g' pc ht h e2
      · exact K.rem0 t' s' g' pc h hpc g2 v2 hm
    · intro t' s' g' h
      rw [el]
      by_cases ht : t' = t
      · subst ht
        rw [es] at h; injection h with h; injection h with h1 h2; injection h2 with h2 h3
        subst h1 h2
        exact .inl ⟨v, List.mem_cons_self⟩
      · rw [ho t' ht] at h
        rcases K.unl t' s' g' h with ⟨v, hv⟩ | hv
        · exact .inl ⟨v, List.mem_cons_of_mem _ hv⟩
        · exact .inr (hv.grow (evs := [_]))
    · rw [el]
      refine hist_one K ⟨?_, K.rem0 t s g .write (by rw [hst]; rfl) (by simp), ?_, ?_⟩
      · rw [hfh.2]; exact addedOwner s hR
      · intro hh
        rw [← I.i3.hom, listOf_eq hl] at hh
        obtain ⟨i, hi1, hi2⟩ := List.getElem_of_mem hh
        have hi3 : (w.blks b)[i]? = some s := by rw [List.getElem?_eq_getElem hi1, hi2]
        have := I.i3.idx g i s (by rw [listOf_eq hl]; exact hi3)
        rw [this, hi3] at hi
        injection hi with hi; exact hi.symm
      · rw [← I.i3.hom, listOf_eq hl]; exact List.mem_of_getElem? hi
  case discMiss s k rest g b hst hl hi =>
    have es : (w.setStack t (.disc s k (.crit g .unlock) :: rest)).stacks t = .disc s k (.crit g .unlock) :: rest :=
      upd_same _ _ _
    have hR : Reach w t s := .inr ⟨_, by rw [hst]; exact List.mem_cons_self, .inl rfl⟩
    have hfh := U.d.fh t (.disc s k (.crit g .write)) (by rw [hst]; exact List.mem_cons_self)
    have lost : Lost g s w.log := by
      refine Classical.byContradiction fun hn => ?_
      have hh := home_of (g := g) (s := s) (by rw [hfh.2]; exact addedOwner s hR) (I.i3.adds s) hn
      rw [← I.i3.hom, listOf_eq hl] at hh
      obtain ⟨i, hi1, hi2⟩ := List.getElem_of_mem hh
      have hi3 : (w.blks b)[i]? = some s := by rw [List.getElem?_eq_getElem hi1, hi2]
      have := I.i3.idx g i s (by rw [listOf_eq hl]; exact hi3)
      rw [this, hi3] at hi
      cases hi
    refine ⟨?_, ?_, ?_, K.hist⟩
    · intro s' hs'
      rcases K.exr s' hs' with ⟨t', h⟩ | ⟨t', g', pc, h⟩
      · exact .inl ⟨t', h⟩
      · by_cases ht : t' = t
        · subst ht
          rw [hst] at h; injection h with h; injection h with h1 h2; subst h1
          exact .inr ⟨t', g, .unlock, by rw [es]; rfl⟩
        · exact .inr ⟨t', g', pc, by rw [ho t' ht]; exact h⟩
    · intro t' s' g' pc h hpc g2 v2 hm
      have ht : t' ≠ t := by
        rintro rfl; rw [es] at h; injection h with h; injection h with h1 h2; injection h2 with h2 h3
        exact hpc h3.symm
      rw [ho t' ht] at h
      exact K.rem0 t' s' g' pc h hpc g2 v2 hm
    · intro t' s' g' h
      by_cases ht : t' = t
      · subst ht
        rw [es] at h; injection h with h; injection h with h1 h2; injection h2 with h2 h3
        subst h1 h2
        exact .inr lost
      · rw [ho t' ht] at h
        exact K.unl t' s' g' h
  case discUnlock s k rest g hst =>
    refine K.quiet (t := t) none ho ?_ rfl (by simp) (by simp) (by simp)
    show CritSame _ (topCrit (upd w.stacks t (.disc s k (.drop g) :: rest) t))
    rw [us, hst]; exact .inl rfl
  case discDrop s k rest g cv sv bv hst hs =>
    have es : (((w.setStack t rest).setH cv sv bv).emitEv
        (.discRet t (some s) true)).stacks t = rest := upd_same _ _ _
    have hR : Reach w t s := .inr ⟨_, by rw [hst]; exact List.mem_cons_self, .inl rfl⟩
    have hfh := U.d.fh t (.disc s k (.drop g)) (by rw [hst]; exact List.mem_cons_self)
    have hno : topCrit rest = none := topCrit_user (pop hst rfl)
    refine ⟨?_, ?_, ?_, ?_⟩
    · intro s' hs'
      rcases List.mem_cons.1 hs' with hs' | hs'
      · cases hs'
      · rcases K.exr s' hs' with ⟨t', h⟩ | ⟨t', g', pc, h⟩
        · exact .inl ⟨t', List.mem_cons_of_mem _ h⟩
        · by_cases ht : t' = t
          · subst ht
            rw [hst] at h; injection h with h; injection h with h1 h2; subst h1
            exact .inl ⟨t', List.mem_cons_self⟩
          · exact .inr ⟨t', g', pc, by rw [ho t' ht]; exact h⟩
    · intro t' s' g' pc h hpc g2 v2 hm
      have ht : t' ≠ t := by rintro rfl; rw [es, hno] at h; cases h
      rw [ho t' ht] at h
      rcases List.mem_cons.1 hm with hm | hm
      · cases hm
      · exact K.rem0 t' s' g' pc h hpc g2 v2 hm
    · intro t' s' g' h
      have ht : t' ≠ t := by rintro rfl; rw [es, hno] at h; cases h
      rw [ho t' ht] at h
      rcases K.unl t' s' g' h with ⟨v, hv⟩ | hv
      · exact .inl ⟨v, List.mem_cons_of_mem _ hv⟩
      · exact .inr (hv.grow (evs := [_]))
    · exact hist_one (w := w) K ⟨g, by rw [hfh.2]; exact addedOwner s hR, K.unl t s g (by rw [hst]; rfl)⟩

theorem Reachable.inv8 {E : Env} {w : World} (h : Reachable E w) : Inv8 w := by
  obtain ⟨n, h⟩ := h
  have : Full w ∧ Inv7 w ∧ Inv8 w := by
    refine h.induct (I := fun w => Full w ∧ Inv7 w ∧ Inv8 w) ⟨.init n, .init n, .init n⟩ ?_
    intro w1 w2 l ⟨U, Q, K⟩ _ hst
    obtain ⟨hub, ht, hr⟩ := step_inv hst
    have U' := U.step hub ht hr
    exact ⟨U', Q.step U U' hr, K.step U Q hr⟩
  exact this.2.2

/-- Whatever a handle, a disconnecting thread or an emission can reach has been added to the signal it was made for. -/
theorem added_owner {E : Env} {w : World} (h : Reachable E w) {s : SlotId} (hs : Touched w s) : Event.added (w.slots s).owner s ∈ w.log := by
  have U := h.full
  obtain ⟨g, hg⟩ := h.inv7.tch s hs
  obtain ⟨c, b, h1⟩ := U.c s (Touched.lt U.i.i1 hs)
  obtain ⟨pre, post, e⟩ := List.append_of_mem hg
  obtain ⟨c', b', h2⟩ := U.h.at e
  have h2 : Event.created g s c' b' ∈ w.log := by rw [e]; simp [h2]
  obtain ⟨e1, -⟩ := created_unique U.h h1 h2
  rw [e1]; exact hg

end Verif
