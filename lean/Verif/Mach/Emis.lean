import Verif.Mach.Trace
import Verif.Mach.Flags

/-!
# Every step's effect on the running emissions
-/

namespace Verif

theorem acts_cons {f : Frame} {rest : List Frame} (h1 : f.isCall = false)
    (h2 : ∀ m pc, f ≠ .emit m pc) : acts (f :: rest) = acts rest := by
  cases f <;> simp_all [acts, Frame.isCall]

/-- The conclusion about a finished emission. -/
def World.complete (w : World) (e : EmId) : Prop :=
  Complete (fun s => (w.slots s).consume) (fun g => (w.sigs g).isVoid) e (trace w.log e)

/-- Is this event the start of a dereference? -/
def Event.turns : Event → Bool
  | .visit _ _ _ => true
  | _ => false

/-- Steps an activation may still take before the next dereference starts. -/
def Act.owed : Act → Nat
  | ⟨none, _, .start⟩ => 4
  | ⟨none, _, .wait⟩ => 3
  | ⟨none, _, .copy⟩ => 2
  | ⟨none, _, .unlock _⟩ => 1
  | ⟨none, _, .iter _ _ _⟩ => 0
  | ⟨some (_, .chkBlocked), _, _⟩ => 5
  | ⟨some (_, .chkConnected), _, _⟩ => 4
  | ⟨some (_, .invoke), _, _⟩ => 3
  | ⟨some (_, .lockObj _), _, _⟩ => 3
  | ⟨some (_, .recheck _), _, _⟩ => 2
  | ⟨some (_, .body _), _, _⟩ => 1

theorem owed_deliver (m : Em) (b : BlkId) (pos : Nat) (acc r : Option Val) :
    Act.owed ⟨none, m, deliver m.comb b pos acc r⟩ = 0 := by
  cases h : m.comb <;> rfl

theorem owed_call (s : SlotId) (pc : CallPc) (m : Em) (p : EmitPc) : 1 ≤ Act.owed ⟨some (s, pc), m, p⟩ := by
  cases pc <;> simp [Act.owed]

inductive EmEff (w : World) (t : Tid) (w' : World) : Prop where
  | quiet (evs : List Event) (hs : ∀ t', acts (w'.stacks t') = acts (w.stacks t')) (hn : w'.nEm = w.nEm)
      (hl : w'.log = evs ++ w.log) (hq : ∀ ev ∈ evs, ev.em = none)
  | start (m : Em) (hs : ∀ t', acts (w'.stacks t') =
        if t' = t then ⟨none, m, .start⟩ :: acts (w.stacks t) else acts (w.stacks t'))
      (he : m.e = w.nEm) (hg : m.g < w.nSigs) (hn : w'.nEm = w.nEm + 1) (hl : w'.log = .began t m :: w.log)
  | adv (a a' : Act) (rest : List Act) (evs : List Event) (ha : acts (w.stacks t) = a :: rest)
      (hs : ∀ t', acts (w'.stacks t') = if t' = t then a' :: rest else acts (w.stacks t'))
      (he : a'.m.e = a.m.e) (hn : w'.nEm = w.nEm)
      (hl : w'.log = evs ++ w.log)
      (hq : ∀ ev ∈ evs, ev.em = some a.m.e ∧ (∀ t m, ev ≠ .began t m) ∧ ∀ i s, ev = .visit a.m.e i s → s < w.nSlots)
      (hw : a'.owed + 1 ≤ a.owed + 6 * evs.countP Event.turns)
      (ok : ActOk w t a → ActOk w' t a')
  | fin (a : Act) (rest : List Act) (evs : List Event) (ha : acts (w.stacks t) = a :: rest)
      (hs : ∀ t', acts (w'.stacks t') = if t' = t then rest else acts (w.stacks t'))
      (hn : w'.nEm = w.nEm) (hl : w'.log = evs ++ w.log)
      (hq : ∀ ev ∈ evs, ev.em = some a.m.e ∧ (∀ t m, ev ≠ .began t m) ∧ ∀ i s, ev ≠ .visit a.m.e i s)
      (ok : ActOk w t a → w'.complete a.m.e)

theorem upd_acts {w w' : World} {t : Tid} {st : List Frame} {x : List Act}
    (h : w'.stacks = upd w.stacks t st) (hx : acts st = x) (t' : Tid) :
    acts (w'.stacks t') = if t' = t then x else acts (w.stacks t') := by
  rw [h, upd_apply]; split
  · exact hx
  · rfl

theorem quiet_acts {w w' : World} {t : Tid} {st : List Frame}
    (h : w'.stacks = upd w.stacks t st) (hx : acts st = acts (w.stacks t)) (t' : Tid) :
    acts (w'.stacks t') = acts (w.stacks t') := by
  rw [h, upd_apply]; split
  · rename_i e; rw [hx, e]
  · rfl

/-- The end of a dereference. -/
theorem IterOk.extend {w w' : World} {t : Tid} {s : SlotId} {p : CallPc} {m : Em} {b : BlkId} {pos : Nat}
    {acc : Option Val} {m0 : Em} {vs : List Visit} {a0 : List Arg}
    (h : IterOk w t (some (s, p)) m b pos acc m0 vs a0) (out : Outcome) (r : Option Val) (ev : Event)
    (hev : ev.em = some m.e) (hl : w'.log = ev :: w.log)
    (hvs : (⟨pos, s, out⟩ : Visit).events m.e = current m.e pos (some (s, p)) a0 ++ [ev])
    (hr : (⟨pos, s, out⟩ : Visit).result = r)
    (hcalm : m.comb = .lastValue → (⟨pos, s, out⟩ : Visit).calm)
    (harg : ArgsThread (fun s => (w.slots s).consume) a0 [⟨pos, s, out⟩] m.args)
    (hres : ∀ a x, out = .returned a x → (x = none ↔ (w.sigs m.g).isVoid = true))
    (h1 : w'.blks = w.blks) (h2 : ∀ s, (w'.slots s).consume = (w.slots s).consume)
    (h3 : w'.sigs = w.sigs) : ActOk w' t ⟨none, m, deliver m.comb b pos acc r⟩ := by
  have hs := (h.cur s p rfl).1
  have em' : Emitted (fun s => (w.slots s).consume) (w.sigs m.g).isVoid m0 (w.blks b)
      (vs ++ [⟨pos, s, out⟩]) m.args := by
    refine ⟨?_, ?_, h.em.args.snoc harg, ?_⟩
    · intro v hv
      rcases List.mem_append.1 hv with hv | hv
      · exact h.em.here v hv
      · simp at hv; subst hv; exact hs
    · intro v hv a x ho
      rcases List.mem_append.1 hv with hv | hv
      · exact h.em.res v hv a x ho
      · simp at hv; subst hv; exact hres a x ho
    · intro hc
      have := (h.dflt (by rw [← h.comb]; exact hc)).1
      simp [h.em.order hc, List.range_succ, this]
  have tr' : trace w'.log m.e = .began t m0 :: .snap m0 (w'.blks b) ::
      ((vs ++ [(⟨pos, s, out⟩ : Visit)]).flatMap (·.events m.e) ++ current m.e pos none m.args) := by
    rw [hl, trace_cons hev, h.tr, h1]
    simp only [List.flatMap_append, List.flatMap_cons, List.flatMap_nil, hvs]
    simp [current]
  cases hc : m.comb with
  | lastValue =>
    obtain ⟨d1, d2, d3⟩ := h.dflt hc
    refine ⟨m0, vs ++ [⟨pos, s, out⟩], m.args, h.e, h.g, h.comb, tr', ?_, ?_, ?_, by simp, rfl⟩
    · rw [h1, h3]; exact em'.congr (fun v _ => h2 v.slot) rfl
    · intro _
      refine ⟨by simp [d1], ?_, ?_⟩
      · rw [List.map_append]; simp only [List.map_cons, List.map_nil]
        rw [lastEngaged_snoc, hr, d2]
      · intro v hv
        rcases List.mem_append.1 hv with hv | hv
        · exact d3 v hv
        · simp at hv; subst hv; exact hcalm hc
    · intro h; simp only at h; rw [hc] at h; cases h
  | custom =>
    refine ⟨m0, vs ++ [⟨pos, s, out⟩], m.args, h.e, h.g, h.comb, tr', ?_, ?_, ?_, by simp, rfl⟩
    · rw [h1, h3]; exact em'.congr (fun v _ => h2 v.slot) rfl
    · intro h; simp only at h; rw [hc] at h; cases h
    · intro _ _; simp [hr]

/-- A step inside a dereference, before the call of the callable. -/
theorem IterOk.inner {w w' : World} {t : Tid} {s : SlotId} {p p' : CallPc} {m : Em} {b : BlkId} {pos : Nat}
    {acc : Option Val} {m0 : Em} {vs : List Visit} {a0 : List Arg}
    (h : IterOk w t (some (s, p)) m b pos acc m0 vs a0) (hl : w'.log = w.log)
    (hp : ∀ o, p ≠ .body o) (hp' : ∀ o, p' ≠ .body o) (hc : CallAt w m.e pos s p → CallAt w' m.e pos s p')
    (h1 : w'.blks = w.blks) (h2 : w'.slots = w.slots)
    (h3 : w'.sigs = w.sigs) : ActOk w' t ⟨some (s, p'), m, .iter b pos acc⟩ := by
  have e1 : ∀ p : CallPc, (∀ o, p ≠ .body o) → ∀ a, current m.e pos (some (s, p)) a = [.visit m.e pos s] := by
    intro p hp a; cases p <;> simp_all [current]
  have e2 : ∀ p : CallPc, (∀ o, p ≠ .body o) → ∀ w : World, ∀ a, during w (some (s, p)) a = a := by
    intro p hp a; cases p <;> simp_all [during]
  refine ⟨m0, vs, a0, h.e, h.g, h.comb, ?_, ?_, h.dflt, by simp, ?_, ?_⟩
  · rw [hl, h1, e1 p' hp', ← e1 p hp a0]; exact h.tr
  · rw [h1, h2, h3]; exact h.em
  · intro s' q hq
    simp at hq; obtain ⟨rfl, rfl⟩ := hq
    rw [h1]
    exact ⟨(h.cur _ _ rfl).1, hc (h.cur _ _ rfl).2⟩
  · rw [e2 p' hp', ← e2 p hp w a0]; exact h.arg

theorem during_pre {w : World} {s : SlotId} {p : CallPc} (hp : ∀ o, p ≠ .body o) (a : List Arg) :
    during w (some (s, p)) a = a := by
  cases p <;> simp_all [during]

theorem current_pre {e : EmId} {pos : Nat} {s : SlotId} {p : CallPc} (hp : ∀ o, p ≠ .body o) (a : List Arg) :
    current e pos (some (s, p)) a = [.visit e pos s] := by
  cases p <;> simp_all [current]

theorem emEff {E : Env} {w w' : World} {t : Tid} (I : Inv w) (K : Inv4 w) (h : StepR E w t w') :
    EmEff w t w' := by
  have hrng := I.i1.rng t
  cases h
  case ub => exact .quiet [] (fun _ => rfl) rfl rfl (by simp)
  case hand => exact .quiet [] (fun _ => rfl) rfl rfl (by simp)
  case flag => exact .quiet [_] (fun _ => rfl) rfl rfl (by simp [Event.em])
  case objs => exact .quiet [] (fun _ => rfl) rfl rfl (by simp)
  case pins => exact .quiet [] (fun _ => rfl) rfl rfl (by simp)
  case newSig => exact .quiet [] (fun _ => rfl) rfl rfl (by simp)
  case destroy => exact .quiet [_] (fun _ => rfl) rfl rfl (by simp [Event.em])
  case movStart g hu hg ha =>
    exact .quiet [] (quiet_acts rfl (acts_cons rfl (by simp))) rfl rfl (by simp)
  case connStart g fn consume conn blk dest hu hg ho =>
    exact .quiet [_] (quiet_acts rfl (acts_cons rfl (by simp))) rfl rfl (by simp [Event.em])
  case emitStart g comb args hu hg =>
    refine .start _ (upd_acts rfl ?_) rfl hg rfl rfl
    rfl
  case eraseStart =>
    exact .quiet [] (quiet_acts rfl (acts_cons rfl (by simp))) rfl rfl (by simp)
  case discPush =>
    exact .quiet [] (quiet_acts rfl (acts_cons rfl (by simp))) rfl rfl (by simp)
  case discFail => exact .quiet [_] (fun _ => rfl) rfl rfl (by simp [Event.em])
  case acq f f' rest g hst hf ha hm =>
    unfold Frame.acq at hf
    split at hf <;> simp at hf <;> obtain ⟨rfl, rfl⟩ := hf
    · rename_i m
      refine .adv ⟨none, m, .wait⟩ ⟨none, m, .copy⟩ (acts rest) [] (by rw [hst]; rfl) (upd_acts rfl rfl) rfl rfl rfl
        (by simp) (by simp [Act.owed]) ?_
      exact fun h => h
    all_goals
      refine .quiet [] (quiet_acts rfl ?_) rfl rfl (by simp)
      rw [hst, acts_cons rfl (by simp), acts_cons rfl (by simp)]
  case tst f f' rest g b hst hf hl =>
    refine .quiet [] (quiet_acts (t := t) (st := f' :: rest) ?_ ?_) ?_ ?_ (by simp)
    · rfl
    · unfold Frame.tst at hf
      split at hf <;> simp at hf <;> obtain ⟨rfl, rfl⟩ := hf <;>
      rw [hst, acts_cons rfl (by simp), acts_cons rfl (by simp)]
    · rfl
    · rfl
  case det f f' rest g b hst hf hl =>
    refine .quiet [] (quiet_acts (t := t) (st := f' :: rest) ?_ ?_) ?_ ?_ (by simp)
    · rfl
    · unfold Frame.det at hf
      split at hf <;> simp at hf <;> obtain ⟨rfl, rfl⟩ := hf <;>
      rw [hst, acts_cons rfl (by simp), acts_cons rfl (by simp)]
    · rfl
    · rfl
  case emSupp m rest hst ha hb =>
    refine .fin ⟨none, m, .start⟩ (acts rest) [_] (by rw [hst]; rfl) (upd_acts rfl rfl) rfl rfl
      (by simp [Event.em]) ?_
    rintro ⟨-, h⟩
    unfold World.complete
    have : trace (Event.suppressed m.e :: w.log) m.e = [.began t m, .suppressed m.e] := by
      rw [trace_cons rfl, h]; rfl
    show Complete _ _ m.e (trace (Event.suppressed m.e :: w.log) m.e)
    rw [this]; exact .suppressed t m rfl
  case emPass m rest hst ha hb =>
    exact .adv ⟨none, m, .start⟩ ⟨none, m, .wait⟩ (acts rest) [] (by rw [hst]; rfl) (upd_acts rfl rfl) rfl rfl rfl
        (by simp) (by simp [Act.owed]) (fun h => h)
  case emCopy m rest hst =>
    exact .adv ⟨none, m, .copy⟩ ⟨none, m, .unlock _⟩ (acts rest) [] (by rw [hst]; rfl) (upd_acts rfl rfl) rfl rfl rfl
        (by simp) (by simp [Act.owed]) (fun h => h)
  case emSnap m b rest hst =>
    refine .adv ⟨none, m, .unlock (some b)⟩ ⟨none, m, .iter b 0 none⟩ (acts rest) [_] (by rw [hst]; rfl) (upd_acts rfl rfl) rfl rfl rfl
        (by simp [Event.em]) (by simp [Act.owed, Event.turns]) ?_
    rintro ⟨-, h⟩
    refine ⟨m, [], m.args, rfl, rfl, rfl, ?_, ?_, ?_, ?_, by simp, rfl⟩
    · show trace (Event.snap m (w.blks b) :: w.log) m.e = _
      rw [trace_cons rfl, h]; rfl
    · exact ⟨by simp, by simp, rfl, by simp⟩
    · exact fun _ => ⟨rfl, rfl, by simp⟩
    · exact fun _ _ => rfl
  case emCall m b pos pos' acc s rest hst hp hs =>
    have hlt : s < w.nSlots := I.i1.blk b s (List.mem_of_getElem? hs)
    refine .adv ⟨none, m, .iter b pos acc⟩ ⟨some (s, .chkBlocked), m, .iter b pos' acc⟩ (acts rest) [_]
      (by rw [hst]; rfl) (upd_acts rfl rfl) rfl rfl rfl ?_ (by simp [Act.owed, Event.turns]) ?_
    · simp [Event.em]; omega
    · rintro ⟨m0, vs, a0, h⟩
      refine ⟨m0, vs, a0, h.e, h.g, h.comb, ?_, h.em, ?_, ?_, ?_, h.arg⟩
      · show trace (Event.visit m.e pos' s :: w.log) m.e = _
        rw [trace_cons rfl, h.tr]; simp [current]; rfl
      · intro hc; rw [hp hc]; exact h.dflt hc
      · intro _ h; cases h
      · intro s' p hsp
        simp at hsp; obtain ⟨rfl, rfl⟩ := hsp
        exact ⟨hs, [], ⟨w.log, rfl⟩, by simp⟩
  case emDone m b pos acc r rest hst hp =>
    refine .fin ⟨none, m, .iter b pos acc⟩ (acts rest) [_] (by rw [hst]; rfl) (upd_acts rfl rfl) rfl rfl
      (by simp [Event.em]) ?_
    rintro ⟨m0, vs, a0, h⟩
    unfold World.complete
    have : trace (Event.done m.e r :: w.log) m.e = .began t m0 :: .snap m0 (w.blks b) ::
        (vs.flatMap (·.events m.e) ++ [.done m.e r]) := by
      rw [trace_cons rfl, h.tr]; simp [current]
    show Complete _ _ m.e (trace (Event.done m.e r :: w.log) m.e)
    rw [this]
    refine .done t m0 (w.blks b) vs a0 r h.e (by rw [h.g]; exact h.em) ?_
    intro hc
    rw [h.comb] at hc
    obtain ⟨d1, d2, d3⟩ := h.dflt hc
    obtain ⟨h1, rfl⟩ := hp hc
    refine ⟨?_, d2, d3⟩
    have : (w.blks b).length ≤ pos := by simpa using h1
    rcases Nat.lt_or_ge vs.length (w.blks b).length with hlt | hge
    · omega
    · rcases Nat.eq_or_lt_of_le hge with e | hgt
      · exact e.symm
      · exfalso
        have ho := h.em.order (by rw [h.comb]; exact hc)
        have hm : (w.blks b).length ∈ vs.map (·.pos) := by rw [ho]; simp; omega
        obtain ⟨v, hv, e⟩ := List.mem_map.1 hm
        have := h.em.here v hv
        rw [e] at this; simp at this
  case combThrow m b pos acc rest hst hc =>
    refine .fin ⟨none, m, .iter b pos acc⟩ (acts rest) [_] (by rw [hst]; rfl) (upd_acts rfl rfl) rfl rfl
      (by simp [Event.em]) ?_
    rintro ⟨m0, vs, a0, h⟩
    unfold World.complete
    have : trace (Event.aborted m.e :: w.log) m.e = .began t m0 :: .snap m0 (w.blks b) ::
        (vs.flatMap (·.events m.e) ++ [.aborted m.e]) := by
      rw [trace_cons rfl, h.tr]; simp [current]
    show Complete _ _ m.e (trace (Event.aborted m.e :: w.log) m.e)
    rw [this]
    refine .aborted t m0 (w.blks b) vs a0 h.e (by rw [h.g]; exact h.em) ?_
    intro hc'
    rw [h.comb, hc] at hc'; cases hc'
  case callUnblk s m b pos acc rest hst hb =>
    have hlt : s < w.nSlots := hrng (.call s .chkBlocked) (by rw [hst]; simp)
    refine .adv ⟨some (s, .chkBlocked), m, .iter b pos acc⟩ ⟨some (s, .chkConnected), m, .iter b pos acc⟩ (acts rest) []
      (by rw [hst]; rfl) (upd_acts rfl rfl) rfl rfl rfl (by simp) (by simp [Act.owed]) ?_
    rintro ⟨m0, vs, a0, h⟩
    refine h.inner rfl (by simp) (by simp) ?_ rfl rfl rfl
    rintro ⟨l, hl⟩
    exact ⟨[], l, w.log, rfl, hl, hl, by rw [← K.blk s hlt]; exact hb⟩
  case callConn s m b pos acc rest hst hc ho =>
    have hlt : s < w.nSlots := hrng (.call s .chkConnected) (by rw [hst]; simp)
    refine .adv ⟨some (s, .chkConnected), m, .iter b pos acc⟩ ⟨some (s, .invoke), m, .iter b pos acc⟩ (acts rest) []
      (by rw [hst]; rfl) (upd_acts rfl rfl) rfl rfl rfl (by simp) (by simp [Act.owed]) ?_
    rintro ⟨m0, vs, a0, h⟩
    refine h.inner rfl (by simp) (by simp) ?_ rfl rfl rfl
    intro hs
    refine ⟨⟨[], w.log, rfl, by simp, hs, ?_⟩, ho⟩
    rw [← K.con s hlt]
    simp [World.slotConnected] at hc; exact hc.2
  case callConnT s m b pos acc rest o hst hc ho =>
    have hlt : s < w.nSlots := hrng (.call s .chkConnected) (by rw [hst]; simp)
    refine .adv ⟨some (s, .chkConnected), m, .iter b pos acc⟩ ⟨some (s, .lockObj o), m, .iter b pos acc⟩ (acts rest) []
      (by rw [hst]; rfl) (upd_acts rfl rfl) rfl rfl rfl (by simp) (by simp [Act.owed]) ?_
    rintro ⟨m0, vs, a0, h⟩
    refine h.inner rfl (by simp) (by simp) ?_ rfl rfl rfl
    intro hs
    refine ⟨⟨[], w.log, rfl, by simp, hs, ?_⟩, ho⟩
    rw [← K.con s hlt]
    simp [World.slotConnected] at hc; exact hc.2
  case callLock s m b pos acc rest o hst ho =>
    refine .adv ⟨some (s, .lockObj o), m, .iter b pos acc⟩ ⟨some (s, .recheck o), m, .iter b pos acc⟩ (acts rest) []
      (by rw [hst]; rfl) (upd_acts rfl rfl) rfl rfl rfl (by simp) (by simp [Act.owed]) ?_
    rintro ⟨m0, vs, a0, h⟩
    exact h.inner rfl (by simp) (by simp) (fun h => h) rfl rfl rfl
  case callSkip s pc why m b pos acc rest hst hpc =>
    have hb : ∀ o, pc ≠ .body o := by
      rcases hpc with ⟨rfl, -⟩ | ⟨rfl, -⟩ | ⟨o, rfl, -⟩ <;> simp
    refine .adv ⟨some (s, pc), m, .iter b pos acc⟩ ⟨none, m, deliver m.comb b pos acc none⟩ (acts rest) [_]
      (by rw [hst]; rfl) (upd_acts rfl ?_) rfl rfl rfl (by simp [Event.em]) (by have := owed_call s pc m (.iter b pos acc); simp only [owed_deliver]; omega) ?_
    · rfl
    · rintro ⟨m0, vs, a0, h⟩
      refine h.extend (.skipped why) none _ rfl rfl ?_ rfl (fun _ => trivial) ?_ (by simp) rfl (fun _ => rfl) rfl
      · rw [current_pre hb]; rfl
      · have := h.arg
        rw [during_pre hb] at this; rw [this]; rfl
  case callExpired s o m b pos acc rest hst ho =>
    have hb : ∀ o', CallPc.lockObj o ≠ .body o' := by simp
    refine .adv ⟨some (s, .lockObj o), m, .iter b pos acc⟩ ⟨none, m, deliver m.comb b pos acc none⟩ (acts rest) [_]
      (by rw [hst]; rfl) (upd_acts rfl ?_) rfl rfl rfl (by simp [Event.em]) (by have := owed_call s (.lockObj o) m (.iter b pos acc); simp only [owed_deliver]; omega) ?_
    · rfl
    · rintro ⟨m0, vs, a0, h⟩
      refine h.extend (.skipped .expired) none _ rfl rfl ?_ rfl (fun _ => trivial) ?_ (by simp) rfl ?_ rfl
      · rw [current_pre hb]; rfl
      · have := h.arg
        rw [during_pre hb] at this; rw [this]; rfl
      · intro x; simp only [World.emitEv, World.setConnected, World.setStack, upd_apply]; split
        · rename_i e; subst e; rfl
        · rfl
  case callEnter s pc o m b pos acc rest hst hpc =>
    have hb : ∀ o, pc ≠ .body o := by
      rcases hpc with ⟨rfl, -⟩ | ⟨o, rfl, -⟩ <;> simp
    refine .adv ⟨some (s, pc), m, .iter b pos acc⟩
      ⟨some (s, .body o), { m with args := passArgs (w.slots s).consume m.args }, .iter b pos acc⟩ (acts rest) [_]
      (by rw [hst]; rfl) (upd_acts rfl rfl) rfl rfl rfl (by simp [Event.em]) (by rcases hpc with ⟨rfl, -⟩ | ⟨o, rfl, -⟩ <;> simp [Act.owed, Event.turns]) ?_
    rintro ⟨m0, vs, a0, h⟩
    have ha := h.arg
    simp only at ha
    rw [during_pre hb] at ha
    refine ⟨m0, vs, a0, h.e, h.g, h.comb, ?_, h.em, h.dflt, by simp, ?_, ?_⟩
    · show trace (Event.enter m.e s m.args :: w.log) m.e = _
      rw [trace_cons rfl, h.tr]
      simp [current, ha]; rfl
    · intro s' p hsp
      simp at hsp; obtain ⟨rfl, rfl⟩ := hsp
      obtain ⟨c1, c2⟩ := h.cur _ _ rfl
      refine ⟨c1, ?_⟩
      rcases hpc with ⟨rfl, rfl⟩ | ⟨x, rfl, rfl, -⟩
      · exact c2.2
      · exact c2.2
    · simp only [during, ← ha]; rfl
  case callRet s o v r m b pos acc rest hst hr =>
    refine .adv ⟨some (s, .body o), m, .iter b pos acc⟩ ⟨none, m, deliver m.comb b pos acc r⟩ (acts rest) [_]
      (by rw [hst]; rfl) (upd_acts rfl ?_) rfl rfl rfl (by simp [Event.em]) (by have := owed_call s (.body o) m (.iter b pos acc); simp only [owed_deliver]; omega) ?_
    · rfl
    · rintro ⟨m0, vs, a0, h⟩
      refine h.extend (.returned a0 r) r _ rfl rfl rfl rfl (fun _ => trivial) ?_ ?_ rfl (fun _ => rfl) rfl
      · have := h.arg
        exact ⟨rfl, this.symm⟩
      · intro a x hx
        simp at hx; obtain ⟨rfl, rfl⟩ := hx
        rw [hr]; split <;> simp_all
  case callCatch s o m b pos acc rest hst hc =>
    refine .adv ⟨some (s, .body o), m, .iter b pos acc⟩ ⟨none, m, .iter b pos none⟩ (acts rest) [_]
      (by rw [hst]; rfl) (upd_acts rfl ?_) rfl rfl rfl (by simp [Event.em]) (by simp [Act.owed, Event.turns]) ?_
    · rfl
    · rintro ⟨m0, vs, a0, h⟩
      have := h.extend (w' := (w.setStack t (.emit m (.iter b pos none) :: rest)).emitEv (.threw m.e s))
        (.threw a0) none _ rfl rfl rfl rfl (by simp [hc]) ?_ (by simp) rfl (fun _ => rfl) rfl
      · rw [hc] at this; exact this
      · have := h.arg
        exact ⟨rfl, this.symm⟩
  case callThrow s o m b pos acc rest hst =>
    refine .fin ⟨some (s, .body o), m, .iter b pos acc⟩ (acts rest) [_, _] (by rw [hst]; rfl) (upd_acts rfl rfl) rfl rfl
      (by simp [Event.em]) ?_
    rintro ⟨m0, vs, a0, h⟩
    unfold World.complete
    have : trace (Event.aborted m.e :: .threw m.e s :: w.log) m.e = .began t m0 :: .snap m0 (w.blks b) ::
        ((vs ++ [(⟨pos, s, .threw a0⟩ : Visit)]).flatMap (·.events m.e) ++ [.aborted m.e]) := by
      rw [trace_cons rfl, trace_cons rfl, h.tr]; simp [current, Visit.events]
    show Complete _ _ m.e (trace (Event.aborted m.e :: .threw m.e s :: w.log) m.e)
    rw [this]
    refine .aborted t m0 (w.blks b) _ m.args h.e ?_ ?_
    · rw [h.g]
      refine ⟨?_, ?_, h.em.args.snoc ⟨rfl, h.arg.symm⟩, ?_⟩
      · intro v hv
        rcases List.mem_append.1 hv with hv | hv
        · exact h.em.here v hv
        · simp at hv; subst hv; exact (h.cur _ _ rfl).1
      · intro v hv a x ho
        rcases List.mem_append.1 hv with hv | hv
        · exact h.em.res v hv a x ho
        · simp at hv; subst hv; cases ho
      · intro hc
        have := (h.dflt (by rw [← h.comb]; exact hc)).1
        simp [h.em.order hc, List.range_succ, this]
    · intro hc
      rw [h.comb] at hc
      exact ⟨vs, _, rfl, (h.dflt hc).2.2, fun h => h⟩
  case addWrite g s dest rest b hst hl =>
    refine .quiet [_] (quiet_acts rfl ?_) rfl rfl (by simp [Event.em])
    rw [hst, acts_cons rfl (by simp), acts_cons rfl (by simp)]
  case addUnlock g s dest rest cv sv bv hst hs =>
    refine .quiet [_] (quiet_acts rfl ?_) rfl rfl (by simp [Event.em])
    rw [hst, acts_cons rfl (by simp)]
  case eraseEnd g tgt i cnt rest b hst hl hi =>
    refine .quiet [] (quiet_acts rfl ?_) rfl rfl (by simp)
    rw [hst, acts_cons rfl (by simp), acts_cons rfl (by simp)]
  case eraseThrow g tgt i cnt rest b s hst hl hi he =>
    refine .quiet [] (quiet_acts rfl ?_) rfl rfl (by simp)
    rw [hst, acts_cons rfl (by simp), acts_cons rfl (by simp)]
  case eraseMiss g tgt i cnt rest b s hst hl hi he =>
    refine .quiet [] (quiet_acts rfl ?_) rfl rfl (by simp)
    rw [hst, acts_cons rfl (by simp), acts_cons rfl (by simp)]
  case eraseHit g tgt i cnt rest b s hst hl hi he =>
    obtain ⟨e1, e2, e3, e4, e5, e6, e7, e8, e9, e10, e11, -⟩ := removeAt_same w b i
    refine .quiet [.erased g s] (quiet_acts (t := t) (st := .erase g tgt (.scan i (cnt + 1)) :: rest) ?_ ?_) ?_ ?_ (by simp [Event.em])
    · simp only [World.emitEv, World.setStack, e7]
    · rw [hst, acts_cons rfl (by simp), acts_cons rfl (by simp)]
    · exact e5
    · simp only [World.emitEv, World.setStack, e11]; rfl
  case fail f rest g s hst hf =>
    refine .quiet [_] (quiet_acts rfl ?_) rfl rfl (by simp [Event.em])
    rcases Frame.allocs_inv hf with ⟨_, _, _, rfl, _⟩ | ⟨_, rfl, _⟩ <;> rw [hst, acts_cons rfl (by simp)]
  case eraseUnlock g tgt r rest hst =>
    refine .quiet [_] (quiet_acts rfl ?_) rfl rfl (by simp [Event.em])
    rw [hst, acts_cons rfl (by simp)]
  case exchTrue s k rest hst hc =>
    refine .quiet [_] (quiet_acts rfl ?_) rfl rfl (by simp [Event.em])
    rw [hst, acts_cons rfl (by simp), acts_cons rfl (by simp)]
  case exchFalse s k rest cv sv bv hst hc hs =>
    refine .quiet [_, _] (quiet_acts rfl ?_) rfl rfl (by simp [Event.em])
    rw [hst, acts_cons rfl (by simp)]
  case discWrite s v k rest g b hst hl hi =>
    obtain ⟨e1, e2, e3, e4, e5, e6, e7, e8, e9, e10, e11, -⟩ := removeAt_same w b (w.slots s).index
    refine .quiet [.removed g s v] (quiet_acts (t := t) (st := .disc s k (.crit g .unlock) :: rest) ?_ ?_) ?_ ?_ (by simp [Event.em])
    · simp only [World.emitEv, World.setStack, e7]
    · rw [hst, acts_cons rfl (by simp), acts_cons rfl (by simp)]
    · exact e5
    · simp only [World.emitEv, World.setStack, e11]; rfl
  case discMiss s k rest g b hst hl hi =>
    refine .quiet [] (quiet_acts rfl ?_) rfl rfl (by simp)
    rw [hst, acts_cons rfl (by simp), acts_cons rfl (by simp)]
  case discUnlock s k rest g hst =>
    refine .quiet [] (quiet_acts rfl ?_) rfl rfl (by simp)
    rw [hst, acts_cons rfl (by simp), acts_cons rfl (by simp)]
  case discDrop s k rest g cv sv bv hst hs =>
    refine .quiet [_] (quiet_acts rfl ?_) rfl rfl (by simp [Event.em])
    rw [hst, acts_cons rfl (by simp)]
  case movWrite g' g rest hst =>
    refine .quiet [_] (quiet_acts rfl ?_) rfl rfl (by simp [Event.em])
    rw [hst, acts_cons rfl (by simp), acts_cons rfl (by simp)]
  case movUnlock g' g rest hst =>
    refine .quiet [] (quiet_acts rfl ?_) rfl rfl (by simp)
    rw [hst, acts_cons rfl (by simp)]

structure TraceInv (w : World) : Prop where
  ok : ∀ t, ∀ a ∈ acts (w.stacks t), ActOk w t a
  nd : ∀ t, ((acts (w.stacks t)).map (·.m.e)).Nodup
  dj : ∀ t t' a a', a ∈ acts (w.stacks t) → a' ∈ acts (w.stacks t') → a.m.e = a'.m.e → t = t'
  old : ∀ e, w.nEm ≤ e → trace w.log e = []
  fin : ∀ e, e < w.nEm → (∃ t a, a ∈ acts (w.stacks t) ∧ a.m.e = e) ∨ w.complete e
  vlt : ∀ e i s, Event.visit e i s ∈ w.log → s < w.nSlots
  blt : ∀ t m, Event.began t m ∈ w.log → m.g < w.nSigs

theorem TraceInv.init (n : Nat) : TraceInv (World.init n) where
  ok := by simp [World.init, acts]
  nd := by simp [World.init, acts]
  dj := by simp [World.init, acts]
  old := by simp [World.init, trace]
  fin := by simp [World.init]
  vlt := by simp [World.init]
  blt := by simp [World.init]

theorem Inv1.act_lt {w : World} (I : Inv1 w) {t : Tid} {a : Act} (h : a ∈ acts (w.stacks t)) :
    a.m.e < w.nEm ∧ a.m.g < w.nSigs :=
  let h := I.rng t _ (acts_mem h)
  ⟨h.2.1, h.1⟩

theorem TraceInv.step {E : Env} {w w' : World} {t : Tid} (I : Inv w) (K : Inv4 w) (T : TraceInv w)
    (h : StepR E w t w') : TraceInv w' := by
  have F := fixed h
  -- activations that are not on top
  have other : ∀ {evs : List Event}, w'.log = evs ++ w.log → ∀ t' a, a ∈ acts (w.stacks t') →
      (∀ ev ∈ evs, ev.em ≠ some a.m.e) → ActOk w' t' a := by
    intro evs hl t' a ha hq
    refine (T.ok t' a ha).grow I.i1 F hl hq ?_ (I.i1.act_lt ha).2
    intro b hb
    refine owned_blk I h (acts_mem ha) ?_
    cases hp : a.pc <;> rw [hp] at hb <;> simp_all [EmitPc.blk?, Frame.blk?]
  -- finished emissions
  have done : ∀ {evs : List Event} {e : EmId}, w'.log = evs ++ w.log → (∀ ev ∈ evs, ev.em ≠ some e) →
      w.complete e → w'.complete e := by
    intro evs e hl hq hc
    unfold World.complete at hc ⊢
    rw [hl, trace_quiet hq]
    refine hc.congr ?_ ?_
    · intro i s hm; exact F.consume s (T.vlt e i s (mem_trace.1 hm).1)
    · intro t m hm; exact F.isVoid _ (T.blt t m (mem_trace.1 hm).1)
  cases emEff I K h with
  | quiet evs hs hn hl hq =>
    have hq' : ∀ e, ∀ ev ∈ evs, ev.em ≠ some e := by intro e ev hev; rw [hq ev hev]; simp
    refine ⟨?_, ?_, ?_, ?_, ?_, ?_, ?_⟩
    · intro t' a ha; rw [hs] at ha; exact other hl t' a ha (hq' _)
    · intro t'; rw [hs]; exact T.nd t'
    · intro t1 t2 a a'; rw [hs, hs]; exact T.dj t1 t2 a a'
    · intro e he; rw [hl, trace_quiet (hq' e)]; exact T.old e (by omega)
    · intro e he
      rcases T.fin e (by omega) with ⟨t', a, ha, e'⟩ | hc
      · exact .inl ⟨t', a, by rw [hs]; exact ha, e'⟩
      · exact .inr (done hl (hq' e) hc)
    · intro e i s hm
      rw [hl] at hm
      rcases List.mem_append.1 hm with hm | hm
      · have := hq _ hm; cases this
      · have := T.vlt e i s hm; have := F.nSlots; omega
    · intro t' m hm
      rw [hl] at hm
      rcases List.mem_append.1 hm with hm | hm
      · have := hq _ hm; cases this
      · have := T.blt t' m hm; have := F.nSigs; omega
  | start m hs he hg hn hl =>
    have hl' : w'.log = [Event.began t m] ++ w.log := hl
    have hq : ∀ e, e < w.nEm → ∀ ev ∈ [Event.began t m], ev.em ≠ some e := by
      intro e h ev hev; simp at hev; subst hev; simp [Event.em]; omega
    refine ⟨?_, ?_, ?_, ?_, ?_, ?_, ?_⟩
    · intro t' a ha; rw [hs] at ha
      split at ha
      · rename_i e; subst e
        rcases List.mem_cons.1 ha with rfl | ha
        · refine ⟨rfl, ?_⟩
          simp only
          rw [hl, trace_cons rfl, T.old m.e (by omega)]; rfl
        · exact other hl' t' a ha (hq _ (I.i1.act_lt ha).1)
      · exact other hl' t' a ha (hq _ (I.i1.act_lt ha).1)
    · intro t'; rw [hs]; split
      · simp only [List.map_cons, List.nodup_cons]
        refine ⟨?_, T.nd t⟩
        intro hm
        obtain ⟨a, ha, e⟩ := List.mem_map.1 hm
        have := (I.i1.act_lt ha).1; omega
      · exact T.nd t'
    · intro t1 t2 a a' h1 h2 e
      rw [hs] at h1 h2
      have aux : ∀ t' x, x ∈ (if t' = t then (⟨none, m, .start⟩ : Act) :: acts (w.stacks t) else acts (w.stacks t')) →
          (t' = t ∧ x.m.e = w.nEm) ∨ x ∈ acts (w.stacks t') := by
        intro t' x hx
        split at hx
        · rename_i e; subst e
          rcases List.mem_cons.1 hx with rfl | hx
          · exact .inl ⟨rfl, he⟩
          · exact .inr hx
        · exact .inr hx
      rcases aux _ _ h1 with ⟨rfl, e1⟩ | m1 <;> rcases aux _ _ h2 with ⟨rfl, e2⟩ | m2
      · rfl
      · have := (I.i1.act_lt m2).1; omega
      · have := (I.i1.act_lt m1).1; omega
      · exact T.dj _ _ _ _ m1 m2 e
    · intro e h
      rw [hl', trace_quiet, T.old e (by omega)]
      intro ev hev; simp at hev; subst hev; simp [Event.em]; omega
    · intro e h
      by_cases e' : e = w.nEm
      · subst e'; exact .inl ⟨t, _, by rw [hs, if_pos rfl]; exact List.mem_cons_self, he⟩
      · rcases T.fin e (by omega) with ⟨t', a, ha, e'⟩ | hc
        · refine .inl ⟨t', a, ?_, e'⟩
          rw [hs]; split
          · rename_i e; subst e; exact List.mem_cons_of_mem _ ha
          · exact ha
        · exact .inr (done hl' (hq e (by omega)) hc)
    · intro e i s hm
      rw [hl] at hm; simp at hm
      have := T.vlt e i s hm; have := F.nSlots; omega
    · intro t' m' hm
      rw [hl] at hm; simp at hm
      rcases hm with ⟨-, rfl⟩ | hm
      · have := F.nSigs; omega
      · have := T.blt t' m' hm; have := F.nSigs; omega
  | adv a a' rest evs ha hs he hn hl hq _ ok =>
    have hmem : ∀ {x}, x ∈ rest → x ∈ acts (w.stacks t) := fun h => by rw [ha]; exact List.mem_cons_of_mem _ h
    have hta : a ∈ acts (w.stacks t) := by rw [ha]; simp
    have hnd := T.nd t
    rw [ha, List.map_cons, List.nodup_cons] at hnd
    have hne : ∀ {e}, e ≠ a.m.e → ∀ ev ∈ evs, ev.em ≠ some e := by
      intro e n ev hev; rw [(hq ev hev).1]; simp; exact fun h => n h.symm
    have aux : ∀ t' x, x ∈ acts (w'.stacks t') →
        (t' = t ∧ x = a') ∨ (x ∈ acts (w.stacks t') ∧ x.m.e ≠ a.m.e) := by
      intro t' x hx
      rw [hs] at hx
      split at hx
      · rename_i e; subst e
        rcases List.mem_cons.1 hx with rfl | hx
        · exact .inl ⟨rfl, rfl⟩
        · refine .inr ⟨hmem hx, ?_⟩
          intro e; exact hnd.1 (List.mem_map.2 ⟨x, hx, e⟩)
      · rename_i n
        refine .inr ⟨hx, ?_⟩
        intro e; exact n (T.dj _ _ _ _ hx hta e)
    refine ⟨?_, ?_, ?_, ?_, ?_, ?_, ?_⟩
    · intro t' x hx
      rcases aux t' x hx with ⟨rfl, rfl⟩ | ⟨hx, n⟩
      · exact ok (T.ok _ _ hta)
      · exact other hl t' x hx (hne n)
    · intro t'; rw [hs]; split
      · rw [List.map_cons, List.nodup_cons, he]; exact hnd
      · exact T.nd t'
    · intro t1 t2 x y h1 h2 e
      rcases aux _ _ h1 with ⟨rfl, rfl⟩ | ⟨m1, n1⟩ <;> rcases aux _ _ h2 with ⟨rfl, rfl⟩ | ⟨m2, n2⟩
      · rfl
      · exact absurd (e.symm.trans he) n2
      · exact absurd (e.trans he) n1
      · exact T.dj _ _ _ _ m1 m2 e
    · intro e h
      have := (I.i1.act_lt hta).1
      rw [hl, trace_quiet (hne (by omega))]; exact T.old e (by omega)
    · intro e h
      by_cases e' : e = a.m.e
      · refine .inl ⟨t, a', ?_, he.trans e'.symm⟩
        rw [hs, if_pos rfl]; simp
      · rcases T.fin e (by omega) with ⟨t', x, hx, e''⟩ | hc
        · refine .inl ⟨t', x, ?_, e''⟩
          rw [hs]; split
          · rename_i q; subst q; rw [ha] at hx
            rcases List.mem_cons.1 hx with rfl | hx
            · exact absurd e''.symm e'
            · exact List.mem_cons_of_mem _ hx
          · exact hx
        · exact .inr (done hl (hne e') hc)
    · intro e i s hm
      have := F.nSlots
      rw [hl] at hm
      rcases List.mem_append.1 hm with hm | hm
      · obtain ⟨h1, -, h2⟩ := hq _ hm
        simp [Event.em] at h1; subst h1
        have := h2 i s rfl; omega
      · have := T.vlt e i s hm; omega
    · intro t' m hm
      rw [hl] at hm
      rcases List.mem_append.1 hm with hm | hm
      · exact absurd rfl ((hq _ hm).2.1 t' m)
      · have := T.blt t' m hm; have := F.nSigs; omega
  | fin a rest evs ha hs hn hl hq ok =>
    have hmem : ∀ {x}, x ∈ rest → x ∈ acts (w.stacks t) := fun h => by rw [ha]; exact List.mem_cons_of_mem _ h
    have hta : a ∈ acts (w.stacks t) := by rw [ha]; simp
    have hnd := T.nd t
    rw [ha, List.map_cons, List.nodup_cons] at hnd
    have hne : ∀ {e}, e ≠ a.m.e → ∀ ev ∈ evs, ev.em ≠ some e := by
      intro e n ev hev; rw [(hq ev hev).1]; simp; exact fun h => n h.symm
    have aux : ∀ t' x, x ∈ acts (w'.stacks t') → (x ∈ acts (w.stacks t') ∧ x.m.e ≠ a.m.e) := by
      intro t' x hx
      rw [hs] at hx
      split at hx
      · rename_i e; subst e
        refine ⟨hmem hx, ?_⟩
        intro e; exact hnd.1 (List.mem_map.2 ⟨x, hx, e⟩)
      · rename_i n
        refine ⟨hx, ?_⟩
        intro e; exact n (T.dj _ _ _ _ hx hta e)
    refine ⟨?_, ?_, ?_, ?_, ?_, ?_, ?_⟩
    · intro t' x hx
      obtain ⟨hx, n⟩ := aux t' x hx
      exact other hl t' x hx (hne n)
    · intro t'; rw [hs]; split
      · exact hnd.2
      · exact T.nd t'
    · intro t1 t2 x y h1 h2 e
      exact T.dj _ _ _ _ (aux _ _ h1).1 (aux _ _ h2).1 e
    · intro e h
      have := (I.i1.act_lt hta).1
      rw [hl, trace_quiet (hne (by omega))]; exact T.old e (by omega)
    · intro e h
      by_cases e' : e = a.m.e
      · subst e'; exact .inr (ok (T.ok _ _ hta))
      · rcases T.fin e (by omega) with ⟨t', x, hx, e''⟩ | hc
        · refine .inl ⟨t', x, ?_, e''⟩
          rw [hs]; split
          · rename_i q; subst q; rw [ha] at hx
            rcases List.mem_cons.1 hx with rfl | hx
            · exact absurd e''.symm e'
            · exact hx
          · exact hx
        · exact .inr (done hl (hne e') hc)
    · intro e i s hm
      have := F.nSlots
      rw [hl] at hm
      rcases List.mem_append.1 hm with hm | hm
      · obtain ⟨h1, -, h2⟩ := hq _ hm
        simp [Event.em] at h1; subst h1
        exact absurd rfl (h2 i s)
      · have := T.vlt e i s hm; omega
    · intro t' m hm
      rw [hl] at hm
      rcases List.mem_append.1 hm with hm | hm
      · exact absurd rfl ((hq _ hm).2.1 t' m)
      · have := T.blt t' m hm; have := F.nSigs; omega

end Verif
