import Verif.Props.Safety
import Verif.Props.Calls

/-!
# C70: when the state a listener uses may be destroyed

`disconnect()` does not wait: when it has returned, another thread may still be running the listener, and may even be about to start it. What a program can rely on
instead: once the emissions that had begun before have ended, the listener is not running, and never runs again.
-/

namespace Verif

variable {E : Env} {w w' : World}

/-! ### The specification -/

/-- After a history, some emission is running the callable of `s`: the last thing that it has done is to call it. -/
def Running (log : List Event) (s : SlotId) : Prop := ∃ e a, (trace log e).getLast? = some (.enter e s a)

/-- From `w` on the callable of `s` is not running, and nobody calls it. -/
def Quiesced (E : Env) (w : World) (s : SlotId) : Prop :=
  ∀ w', Steps E (fun _ => True) w w' → ¬ Running w'.log s ∧ ∀ evs, w'.log = evs ++ w.log → ∀ e a, Event.enter e s a ∉ evs

/-! ### Emissions that have ended -/

/-- The end of an emission. -/
def Event.isEnd : Event → Bool
  | .done _ _ => true
  | .aborted _ => true
  | _ => false

theorem visits_no_end {e : EmId} {vs : List Visit} {ev : Event} (h : ev ∈ vs.flatMap (·.events e)) : ev.isEnd = false := by
  obtain ⟨v, -, h⟩ := List.mem_flatMap.1 h
  rcases visit_events_em h with rfl | ⟨_, -, rfl⟩ | ⟨_, -, rfl⟩ | ⟨_, _, -, rfl⟩ | ⟨_, -, rfl⟩ <;> rfl

theorem ended_last (h : Reachable E w) {e : EmId} (he : ended w.log e) :
    ∃ x ev, trace w.log e = x ++ [ev] ∧ ev.isEnd = true ∧ ∀ y ∈ x, y.isEnd = false := by
  obtain ⟨ev, hm, hev⟩ : ∃ ev, ev ∈ trace w.log e ∧ ev.isEnd = true := by
    rcases he with ⟨r, he⟩ | he
    · exact ⟨_, mem_tr he rfl, rfl⟩
    · exact ⟨_, mem_tr he rfl, rfl⟩
  obtain ⟨m, items, hs⟩ := (h.full.shape e).has_snap hm (by rintro t m rfl; cases hev)
  obtain ⟨t, vs, args, tail, -, -, htl, e1⟩ := (h.full.shape e).of_snap hs
  rw [e1] at hm ⊢
  have fin : ∀ ev' : Event, tail = [ev'] → ev'.isEnd = true →
      ∃ x ev, Event.began t m :: .snap m items :: (vs.flatMap (·.events e) ++ tail) = x ++ [ev] ∧ ev.isEnd = true ∧ ∀ y ∈ x, y.isEnd = false := by
    rintro ev' rfl h1
    refine ⟨.began t m :: .snap m items :: vs.flatMap (·.events e), ev', by simp, h1, fun y hy => ?_⟩
    simp only [List.mem_cons] at hy
    rcases hy with rfl | rfl | hy
    · rfl
    · rfl
    · exact visits_no_end hy
  simp only [List.mem_cons, List.mem_append] at hm
  rcases hm with rfl | rfl | hm | hm
  · cases hev
  · cases hev
  · rw [visits_no_end hm] at hev; cases hev
  · cases htl with
    | idle => cases hm
    | visit => simp at hm; subst hm; cases hev
    | enter => simp at hm; rcases hm with rfl | rfl <;> cases hev
    | done r hd => exact fin _ rfl rfl
    | aborted hd => exact fin _ rfl rfl

theorem ended_not_running (h : Reachable E w) {e : EmId} (he : ended w.log e) {s : SlotId} {a : List Arg} :
    (trace w.log e).getLast? ≠ some (.enter e s a) := by
  obtain ⟨x, ev, h1, h2, -⟩ := ended_last h he
  rw [h1, List.getLast?_concat]
  rintro h; cases h; cases h2

theorem ended.mono {log log' evs : List Event} {e : EmId} (h : ended log e) (hl : log' = evs ++ log) : ended log' e := by
  subst hl
  rcases h with ⟨r, h⟩ | h
  · exact .inl ⟨r, List.mem_append_right _ h⟩
  · exact .inr (List.mem_append_right _ h)

/-- An emission that has ended does nothing more. -/
theorem ended_over (h : Reachable E w) (h' : Reachable E w') {evs : List Event} (hl : w'.log = evs ++ w.log) {e : EmId} (he : ended w.log e) :
    ∀ ev ∈ evs, ev.em ≠ some e := by
  obtain ⟨x, ev, h1, h2, -⟩ := ended_last h he
  obtain ⟨x', ev', h1', -, h3'⟩ := ended_last h' (he.mono hl)
  rw [hl, trace_append, h1] at h1'
  refine trace_nil_iff.1 (Decidable.byContradiction fun hn => ?_)
  obtain ⟨z, y, hz⟩ : ∃ z y, trace evs e = z ++ [y] := ⟨_, _, (List.dropLast_concat_getLast hn).symm⟩
  rw [hz, ← List.append_assoc] at h1'
  obtain ⟨rfl, -⟩ := List.append_inj' h1' rfl
  have := h3' ev (by simp)
  rw [h2] at this; cases this

/-- The first event of an emission is its beginning. -/
theorem began_in (h : Reachable E w) {post pre : List Event} (hl : w.log = post ++ pre) {ev : Event} {e : EmId} (hm : ev ∈ pre) (he : ev.em = some e) :
    ∃ u m, m.e = e ∧ Event.began u m ∈ pre := by
  have h1 : ev ∈ trace pre e := mem_trace.2 ⟨hm, he⟩
  have h2 := h.full.shape e
  rw [hl, trace_append] at h2
  cases hp : trace pre e with
  | nil => rw [hp] at h1; cases h1
  | cons x p =>
    have key : ∃ u m, m.e = e ∧ x = .began u m := by
      rw [hp] at h2
      generalize hq : x :: p ++ trace post e = q at h2
      cases h2 with
      | none => cases hq
      | began t m he => injection hq with hq; exact ⟨t, m, he, hq⟩
      | snap t m items vs args tail he hv htl => injection hq with hq; exact ⟨t, m, he, hq⟩
    obtain ⟨u, m, hme, rfl⟩ := key
    exact ⟨u, m, hme, (mem_trace.1 (by rw [hp]; simp : Event.began u m ∈ trace pre e)).1⟩

/-! ### C70 -/

/-- When every call of the listener, now or later, belongs to an emission that has begun in `pre`, and these have ended, then the listener is at rest. -/
theorem quiesced (h : Reachable E w) {s : SlotId} {pre : List Event} (hq : ∀ u m, Event.began u m ∈ pre → ended w.log m.e)
    (hc : ∀ w', Steps E (fun _ => True) w w' → ∀ e a, Event.enter e s a ∈ w'.log → ∃ u m, m.e = e ∧ Event.began u m ∈ pre) : Quiesced E w s := by
  intro w' hs
  have h' := h.steps hs
  refine ⟨?_, ?_⟩
  · rintro ⟨e, a, hr⟩
    obtain ⟨u, m, rfl, hb⟩ := hc w' hs e a (mem_trace.1 (List.mem_of_getLast? hr)).1
    obtain ⟨evs, hl⟩ := hs.log
    exact ended_not_running h' ((hq u m hb).mono hl) hr
  · intro evs hl e a hm
    obtain ⟨u, m, rfl, hb⟩ := hc w' hs e a (by rw [hl]; exact List.mem_append_left _ hm)
    exact ended_over h h' hl (hq u m hb) _ hm rfl

/-- C70: once a `disconnect()` has reached the listener, and the emissions that had begun before that have ended, the listener is not running and never runs
again. Later emissions need not be waited for, and they may be running. -/
theorem C70_flag_partial (h : Reachable E w) {post pre : List Event} {s : SlotId} {b : Bool} (hl : w.log = post ++ .exch s b :: pre)
    (hq : ∀ u m, Event.began u m ∈ pre → ended w.log m.e) : Quiesced E w s := by
  refine quiesced h hq ?_
  intro w' hs e a hm
  have h' := h.steps hs
  obtain ⟨evs, he⟩ := hs.log
  have hl' : w'.log = (evs ++ post) ++ .exch s b :: pre := by rw [he, hl, List.append_assoc]
  rw [hl'] at hm
  rcases List.mem_append.1 hm with hm | hm
  · refine Classical.byContradiction fun hn => C10 h' hl' (e := e) (fun pos hv => ?_) a hm
    exact hn (began_in h' (post := evs ++ post ++ [.exch s b]) (by rw [hl']; simp) hv rfl)
  · rcases List.mem_cons.1 hm with hm | hm
    · cases hm
    · exact began_in h' (post := evs ++ post ++ [.exch s b]) (by rw [hl']; simp) hm rfl

/-- C70, what is true of it: `disconnect()` has returned true, and the emissions that had begun before it returned have ended. -/
theorem C70_partial (h : Reachable E w) {post pre : List Event} {t : Tid} {s : SlotId} (hl : w.log = post ++ .discRet t (some s) true :: pre)
    (hq : ∀ u m, Event.began u m ∈ pre → ended w.log m.e) : Quiesced E w s := by
  have hx : Event.exch s true ∈ pre := h.full.h.at hl
  obtain ⟨p2, p1, rfl⟩ := List.append_of_mem hx
  exact C70_flag_partial h (post := post ++ .discRet t (some s) true :: p2) (b := true) (pre := p1) (by rw [hl]; simp) fun u m hb => hq u m (by simp [hb])

/-- Once out of the lists, never back. -/
theorem home_out {s : SlotId} : ∀ {evs pre : List Event}, 0 < pre.countP (Event.adds s) → (evs ++ pre).countP (Event.adds s) ≤ 1 → home pre s = none →
    home (evs ++ pre) s = none
  | [], _, _, _, h => h
  | ev :: evs, pre, h0, h1, hn => by
    rw [List.cons_append, List.countP_cons] at h1
    have ih := home_out (evs := evs) h0 (by omega) hn
    cases ev <;> simp only [List.cons_append, home, ih] <;> try rfl
    case added g s' =>
      split
      · rename_i e; subst e
        rw [List.countP_append, if_pos (by simp [Event.adds])] at h1
        omega
      · rfl
    all_goals simp

/-- C70 for listeners that are in no list any more, by whatever way they got out of it: `disconnect()`, `signal::disconnect(f)` or the end of the signal. -/
theorem C70_gone_partial (h : Reachable E w) {post pre : List Event} {g : SigId} {s : SlotId} (hl : w.log = post ++ pre) (ha : Event.added g s ∈ pre)
    (hh : home pre s = none) (hq : ∀ u m, Event.began u m ∈ pre → ended w.log m.e) : Quiesced E w s := by
  refine quiesced h hq ?_
  intro w' hs e a hm
  have h' := h.steps hs
  obtain ⟨evs, he⟩ := hs.log
  have hl' : w'.log = (evs ++ post) ++ pre := by rw [he, hl, List.append_assoc]
  obtain ⟨m, items, rfl, hsn, hmem⟩ := C07_only h' hm
  have hsn' := hsn
  rw [hl'] at hsn
  rcases List.mem_append.1 hsn with hsn | hsn
  · exfalso
    obtain ⟨p2, p1, hp⟩ := List.append_of_mem hsn
    have hl2 : w'.log = p2 ++ .snap m items :: (p1 ++ pre) := by rw [hl', hp]; simp
    have hho := ((h'.full.h.at hl2).2 s).1 hmem
    have hadd := h'.full.i.i3.adds s
    rw [home_out (List.countP_pos_iff.2 ⟨_, ha, by simp [Event.adds]⟩)
      (by rw [hl2, List.countP_append, List.countP_cons] at hadd; omega) hh] at hho
    cases hho
  · exact began_in h' hl' hsn rfl

/-! ### Who may still call it before that -/

theorem late_visit (h : Reachable E w) {post mid pre : List Event} {e : EmId} {s : SlotId} {b : Bool} {a : List Arg}
    (hl : w.log = post ++ (mid ++ .exch s b :: pre)) (hm : Event.enter e s a ∈ post) :
    ∃ pos, (trace (mid ++ .exch s b :: pre) e).getLast? = some (.visit e pos s) ∧ (trace pre e).getLast? = some (.visit e pos s) := by
  obtain ⟨p2, p1, rfl⟩ := List.append_of_mem hm
  have hl' : w.log = p2 ++ .enter e s a :: (p1 ++ (mid ++ .exch s b :: pre)) := by rw [hl]; simp
  have hh : HistOk w (.enter e s a :: (p1 ++ (mid ++ .exch s b :: pre))) := HistOk.drop (hl' ▸ h.full.h)
  obtain ⟨⟨pos, l1, old, e1, e2, ⟨m1, m0, old', f1, ⟨⟨q, f2⟩, f3⟩, -, -⟩, e4⟩, -⟩ := hh.1
  have hno := (HistOk.up (HistOk.drop (e1 ▸ hh.2)) e4).1 b
  obtain ⟨c, hc⟩ := suffix_of_not_mem (a := p1 ++ mid) (b := pre) (by rw [← e1]; simp) hno
  have h2 : p1 ++ (mid ++ .exch s b :: c) = l1 := List.append_cancel_right (bs := old) (by rw [← e1, hc]; simp)
  have fin : ∀ x : List Event, (∀ ev ∈ x, ev ∈ l1) → (trace (x ++ old) e).getLast? = some (.visit e pos s) := by
    intro x hx
    rw [f2, ← List.append_assoc, trace_quiet]
    · simp [trace, Event.em]
    · intro ev hev
      rcases List.mem_append.1 hev with h1 | h1
      · exact e2 ev (hx ev h1)
      · exact f3 ev h1
  refine ⟨pos, ?_, ?_⟩
  · have := fin (mid ++ .exch s b :: c) (fun ev hev => by rw [← h2]; exact List.mem_append_right _ hev)
    rw [hc]; simpa using this
  · rw [hc]; exact fin c (fun ev hev => by rw [← h2]; simp [hev])

/-- C70: a call that starts after a `disconnect()` has reached the listener is of an emission that was at that moment between the checks and the call, and the
callable tracks no object. -/
theorem C70_late (h : Reachable E w) {post pre : List Event} {e : EmId} {s : SlotId} {b : Bool} {a : List Arg} (hl : w.log = post ++ .exch s b :: pre)
    (hm : Event.enter e s a ∈ post) : (∃ pos, (trace pre e).getLast? = some (.visit e pos s)) ∧ (w.slots s).fn.obj? = none := by
  refine ⟨(late_visit h (mid := []) hl hm).imp fun _ h => h.2, ?_⟩
  cases ho : (w.slots s).fn.obj? with
  | none => rfl
  | some o =>
    obtain ⟨p2, p1, rfl⟩ := List.append_of_mem hm
    exact absurd (by simp) (C04_tracked h (e := e) (a := a) (post := p2) (pre := p1 ++ .exch s b :: pre) (by rw [hl]; simp) ho (b := b))

/-- Every event was recorded by a step. -/
theorem event_step (h : Reachable E w) {post pre : List Event} {ev : Event} (hl : w.log = post ++ ev :: pre) :
    ∃ w0 w1 t p2 p1, Reachable E w0 ∧ StepR E w0 t w1 ∧ w1.log = p2 ++ ev :: p1 ++ w0.log ∧ pre = p1 ++ w0.log := by
  obtain ⟨n, h⟩ := h
  generalize hw : World.init n = wi at h
  induction h generalizing post with
  | refl => subst hw; simp [World.init] at hl
  | @tail w1 w2 l h1 _ hs ih =>
    subst hw
    obtain ⟨-, -, R⟩ := step_inv hs
    obtain ⟨evs, he⟩ := log_grows R
    rw [he] at hl
    rcases List.append_eq_append_iff.1 hl with ⟨c, h1', h2⟩ | ⟨c, h1', h2⟩
    · exact ih h2
    · cases c with
      | nil => exact ih (post := []) h2.symm
      | cons y c =>
        injection h2 with h3 h4
        subst h3
        exact ⟨w1, w2, _, post, c, ⟨n, h1⟩, R, by rw [he, h1'], h4⟩

/-- Only the end of `disconnect()` is recorded as such. -/
theorem disc_top {t u : Tid} {s : SlotId} {p1 p2 : List Event} (R : StepR E w u w') (hl : w'.log = p2 ++ .discRet t (some s) true :: p1 ++ w.log) :
    u = t ∧ p1 = [] ∧ ∃ k g rest, w.stacks u = .disc s k (.drop g) :: rest := by
  have no : ∀ evs, w'.log = evs ++ w.log → Event.discRet t (some s) true ∈ evs := by
    intro evs he
    rw [he] at hl
    rw [List.append_cancel_right hl]; simp
  cases R
  case discDrop s' k rest g cv sv bv hst hs =>
    have := no [_] rfl
    simp at this
    obtain ⟨rfl, rfl⟩ := this
    have h3 := List.append_cancel_right (as := [Event.discRet t (some s) true]) hl
    cases p2 with
    | nil => simp at h3; exact ⟨rfl, h3, _, _, _, hst⟩
    | cons y p2 => simp at h3
  case eraseHit g tgt i cnt rest b s' hst hl' hi he =>
    have := no [.erased g s'] (by simp only [World.emitEv, World.setStack, (removeAt_same _ _ _).2.2.2.2.2.2.2.2.2.2.1]; rfl)
    simp at this
  case discWrite s' v k rest g b hst hl' hi =>
    have := no [.removed g s' v] (by simp only [World.emitEv, World.setStack, (removeAt_same _ _ _).2.2.2.2.2.2.2.2.2.2.1]; rfl)
    simp at this
  all_goals first
    | (have := no [] rfl; simp at this; done)
    | (have := no [_] rfl; simp at this; done)
    | (have := no [_, _] rfl; simp at this; done)

theorem call_top {st : List Frame} {s : SlotId} {p : CallPc} (h : OkStk st) (hf : .call s p ∈ st) (hp : ∀ o, p ≠ .body o) :
    ∃ rest, st = .call s p :: rest := by
  have user : ∀ {st : List Frame}, UserStk st → Frame.call s p ∉ st := by
    intro st h
    induction h with
    | nil => simp
    | body s o m b pos acc rest _ ih => simp [hp o, ih]
    | comb m b pos acc rest _ _ ih => simp [ih]
  cases h with
  | user _ h => exact absurd hf (user h)
  | call s' pc m b pos acc rest h =>
    simp [user h] at hf
    obtain ⟨rfl, rfl⟩ := hf
    exact ⟨_, rfl⟩
  | lib f rest hc h =>
    rcases List.mem_cons.1 hf with rfl | hf
    · cases hc
    · exact absurd hf (user h)

/-- The emission whose latest event is a dereference is on top of the stack of its thread. -/
theorem visit_top (h : Reachable E w) {e : EmId} {pos : Nat} {s : SlotId} (hl : (trace w.log e).getLast? = some (.visit e pos s)) :
    ∃ t m s' p rest, m.e = e ∧ Event.began t m ∈ w.log ∧ w.stacks t = .call s' p :: rest := by
  have T := h.full.t
  rcases Nat.lt_or_ge e w.nEm with hn | hn
  · rcases T.fin e hn with ⟨t, c, hc, rfl⟩ | hf
    · have ok := T.ok t c hc
      unfold ActOk at ok
      split at ok
      · rename_i b pos' acc hpc
        obtain ⟨m0, vs, a0, ok⟩ := ok
        have htr := ok.tr
        rw [htr] at hl
        match hcc : c.c with
        | none =>
          rw [hcc] at hl
          simp only [current, List.append_nil] at hl
          exfalso
          rcases List.eq_nil_or_concat vs with rfl | ⟨vs0, v, rfl⟩
          · simp at hl
          · rw [List.concat_eq_append, List.flatMap_append, List.flatMap_cons, List.flatMap_nil, List.append_nil, ← List.cons_append,
              ← List.cons_append, List.getLast?_append] at hl
            unfold Visit.events at hl
            cases hv : v.out <;> simp [hv] at hl
        | some (s', p) =>
          have hp : ∀ o, p ≠ .body o := by
            rintro o rfl
            rw [hcc, ← List.cons_append, ← List.cons_append, List.getLast?_append] at hl
            simp [current] at hl
          obtain ⟨rest, hr⟩ := call_top (h.full.i.i1.stk t) (acts_mem_call hc hcc) hp
          exact ⟨t, m0, s', p, rest, ok.e, (mem_trace.1 (by rw [htr]; simp : Event.began t m0 ∈ trace w.log c.m.e)).1, hr⟩
      · rw [ok.2] at hl; simp at hl
    · exfalso
      unfold World.complete at hf
      generalize trace w.log e = tr at hl hf
      cases hf with
      | suppressed => simp at hl
      | done => rw [← List.cons_append, ← List.cons_append, List.getLast?_append] at hl; simp at hl
      | aborted => rw [← List.cons_append, ← List.cons_append, List.getLast?_append] at hl; simp at hl
  · rw [T.old e hn] at hl; simp at hl

/-- C70: a call that starts after `disconnect()` has returned true is never made by the thread that has called `disconnect()`. -/
theorem C70_other (h : Reachable E w) {post pre : List Event} {t : Tid} {s : SlotId} {e : EmId} {a : List Arg}
    (hl : w.log = post ++ .discRet t (some s) true :: pre) (hm : Event.enter e s a ∈ post) {u : Tid} {m : Em} (hb : Event.began u m ∈ w.log)
    (he : m.e = e) : u ≠ t := by
  obtain ⟨w0, w1, t', p2, p1, hr0, R, hl1, rfl⟩ := event_step h hl
  obtain ⟨rfl, rfl, k, g, rest, hst⟩ := disc_top R hl1
  have hx : Event.exch s true ∈ [] ++ w0.log := h.full.h.at hl
  obtain ⟨q2, q1, hq⟩ := List.append_of_mem hx
  obtain ⟨pos, hv, -⟩ := late_visit h (mid := .discRet t' (some s) true :: q2) (b := true) (pre := q1) (by rw [hl, hq]; rfl) hm
  have hv' : (trace w0.log e).getLast? = some (.visit e pos s) := by
    rw [← hv]
    show _ = (trace ([Event.discRet t' (some s) true] ++ (q2 ++ .exch s true :: q1)) e).getLast?
    rw [trace_quiet (by simp [Event.em]), ← hq]; rfl
  obtain ⟨t1, m1, s', p, rest', hme, hb1, hst1⟩ := visit_top hr0 hv'
  rintro rfl
  have hw : Event.began t1 m1 ∈ w.log := by rw [hl]; simp [hb1]
  obtain ⟨rfl, -⟩ := (h.full.shape e).began_eq (mem_tr hb (by rw [← he]; rfl)) (mem_tr hw (by rw [← hme]; rfl))
  rw [hst] at hst1
  cases hst1

/-- C70 where one thread does everything: when the emissions that had not ended are of the thread that calls `disconnect()`, no call starts after it. -/
theorem C70_same_partial (h : Reachable E w) {post pre : List Event} {t : Tid} {s : SlotId} (hl : w.log = post ++ .discRet t (some s) true :: pre)
    (hq : ∀ u m, Event.began u m ∈ pre → u = t ∨ ended pre m.e) (e : EmId) (a : List Arg) : Event.enter e s a ∉ post := by
  intro hm
  have hx : Event.exch s true ∈ pre := h.full.h.at hl
  obtain ⟨q2, q1, rfl⟩ := List.append_of_mem hx
  obtain ⟨pos, -, hv⟩ := late_visit h (mid := .discRet t (some s) true :: q2) (b := true) (pre := q1) (by rw [hl]; rfl) hm
  have hvm := (mem_trace.1 (List.mem_of_getLast? hv)).1
  obtain ⟨u, m, rfl, hb⟩ := began_in h (post := post ++ .discRet t (some s) true :: (q2 ++ [.exch s true])) (by rw [hl]; simp) hvm rfl
  rcases hq u m (by simp [hb]) with hu | he
  · exact C70_other h hl hm (by rw [hl]; simp [hb]) rfl hu
  · obtain ⟨w0, w1, t', p2, p1, hr0, R, hl1, hp⟩ := event_step h hl
    obtain ⟨rfl, rfl, -⟩ := disc_top R hl1
    have hp : q2 ++ .exch s true :: q1 = w0.log := hp
    rw [hp] at he
    exact ended_over hr0 h (evs := post ++ [.discRet t' (some s) true]) (by rw [hl, hp]; simp) he _ (List.mem_append_left _ hm) rfl

/-! ### What is false -/

/-- What one would like to rely on before destroying what the callable uses: `disconnect()` has returned true, so the listener is not running and never runs
again. -/
def SafeTeardown (E : Env) (w : World) : Prop :=
  ∀ t s pre, w.log = .discRet t (some s) true :: pre → Quiesced E w s

namespace Demo
/-- Thread 0 is in the body of listener 0 when thread 1 disconnects it. -/
def still : List Label :=
  [.call 0 (.newSig false)] ++ connect 0 10 0 ++ [.call 0 (.emit 0 .lastValue [])] ++ go 0 8 ++ [.call 1 (.disconnect (.conn 0))] ++ go 1 7

/-- … the listener and the emission return; thread 0 starts another emission, which is running. -/
def rest : List Label := still ++ [.ret 0 5] ++ go 0 1 ++ [.call 0 (.emit 0 .lastValue [])] ++ go 0 2

/-- Listener 0 disconnects itself. -/
def stop : List Label :=
  [.call 0 (.newSig false)] ++ connect 0 10 0 ++ [.call 0 (.emit 0 .lastValue [])] ++ go 0 8 ++ [.call 0 (.disconnect (.conn 0))] ++ go 0 7

/-- As `late`, before the call. -/
def poised : List Label := late.take (late.length - 1)
end Demo

/-- C70 is false: `disconnect()` has returned true, and the listener is running on another thread. -/
theorem C70_false : ¬ ∀ (E : Env) (w : World), Reachable E w → SafeTeardown E w := by
  intro hx
  refine (hx _ _ (Demo.reach 2 Demo.still) 1 0 (Demo.world 2 Demo.still).log.tail (by decide +kernel) _ (.refl _)).1 ⟨0, [], ?_⟩
  decide +kernel

/-- C70 is false also where the listener is not running when `disconnect()` returns: another thread starts it afterwards. -/
theorem C70_false_later : ∃ w w' pre, Reachable Demo.E0 w ∧ w.log = .discRet 1 (some 0) true :: pre ∧ (∀ e a, Event.enter e 0 a ∉ w.log) ∧
    Steps Demo.E0 (fun _ => True) w w' ∧ w'.log = .enter 0 0 [] :: w.log := by
  refine ⟨Demo.world 2 Demo.poised, Demo.world 2 Demo.late, (Demo.world 2 Demo.poised).log.tail, Demo.reach 2 _, by decide +kernel, ?_, ?_, by decide +kernel⟩
  · have : ∀ ev ∈ (Demo.world 2 Demo.poised).log, (match ev with | .enter .. => true | _ => false) = false := by decide +kernel
    intro e a h
    simpa using this _ h
  · exact .tail (.run 0) (.refl _) trivial (by
      have := Demo.world_step 2 Demo.poised (.run 0) (by decide +kernel)
      exact this)

/-! ### Examples -/

namespace Demo
/-- The emission in `ghost` goes on to the end. -/
def ghostDone : List Label := ghost ++ [.ret 0 7] ++ go 0 4 ++ [.ret 0 9] ++ go 0 1

/-- What was recorded before `ev`. -/
def before (w : World) (ev : Event) : List Event := w.log.drop (w.log.idxOf ev + 1)
end Demo

theorem Demo.before_eq {w : World} {ev : Event} (h : ev ∈ w.log) : w.log = w.log.take (w.log.idxOf ev) ++ ev :: Demo.before w ev := by
  have hi := List.idxOf_lt_length_iff.2 h
  have : w.log[w.log.idxOf ev] = ev := List.getElem_idxOf hi
  conv => lhs; rw [← List.take_append_drop (w.log.idxOf ev) w.log, List.drop_eq_getElem_cons hi, this]
  rfl

/-- The emissions begun in `pre`. -/
def Demo.begun (pre : List Event) : List EmId := pre.filterMap fun ev => match ev with | .began _ m => some m.e | _ => none

theorem Demo.begun_ended {log pre : List Event} (h : ∀ e ∈ Demo.begun pre, log.any (fun ev => match ev with | .done e' _ => e' == e | _ => false) = true) :
    ∀ u m, Event.began u m ∈ pre → ended log m.e := by
  intro u m hb
  have := h m.e (List.mem_filterMap.2 ⟨_, hb, rfl⟩)
  obtain ⟨ev, h1, h2⟩ := List.any_eq_true.1 this
  split at h2
  · simp at h2; subst h2; exact .inl ⟨_, h1⟩
  · cases h2

-- C70_partial (and C70_flag_partial): the one emission that had begun has ended; a later one, begun after `disconnect()`, is running
example : Quiesced Demo.E0 (Demo.world 2 Demo.rest) 0 :=
  C70_partial (Demo.reach 2 _) (t := 1) (Demo.before_eq (by decide +kernel)) (Demo.begun_ended (by decide +kernel))
example : Demo.begun (Demo.before (Demo.world 2 Demo.rest) (.discRet 1 (some 0) true)) = [0] ∧ Event.began 0 ⟨1, 0, .lastValue, []⟩ ∈ (Demo.world 2 Demo.rest).log ∧
    Event.done 0 (some 5) ∈ (Demo.world 2 Demo.rest).log ∧ (∀ r, Event.done 1 r ∉ (Demo.world 2 Demo.rest).log) :=
  ⟨by decide +kernel, by decide +kernel, by decide +kernel, fun r h => by
    have : ∀ ev ∈ (Demo.world 2 Demo.rest).log, (match ev with | .done e _ => e == 1 | _ => false) = false := by decide +kernel
    simpa using this _ h⟩

-- C70_gone_partial: listener 1 was erased by `signal::disconnect(f)` while emission 0 ran, which has called it since, and has ended
example : Quiesced Demo.E0 (Demo.world 1 Demo.ghostDone) 1 :=
  C70_gone_partial (Demo.reach 1 _) (g := 0) (post := []) rfl (by decide +kernel) (by decide +kernel) (Demo.begun_ended (by decide +kernel))
example : Event.enter 0 1 [] ∈ (Demo.world 1 Demo.ghostDone).log ∧ Event.erased 0 1 ∈ (Demo.world 1 Demo.ghostDone).log ∧
    Demo.begun (Demo.world 1 Demo.ghostDone).log = [0] := by decide +kernel

-- C70_late, C70_other: thread 0 calls listener 0 after thread 1 has disconnected it
example : (∃ post pre, (Demo.world 2 Demo.late).log = post ++ .exch 0 true :: pre ∧ Event.enter 0 0 [] ∈ post) ∧
    (∃ post pre, (Demo.world 2 Demo.late).log = post ++ .discRet 1 (some 0) true :: pre ∧ Event.enter 0 0 [] ∈ post) ∧
    Event.began 0 ⟨0, 0, .lastValue, []⟩ ∈ (Demo.world 2 Demo.late).log :=
  ⟨⟨_, _, Demo.before_eq (by decide +kernel), by decide +kernel⟩, ⟨_, _, Demo.before_eq (by decide +kernel), by decide +kernel⟩, by decide +kernel⟩

-- C70_same_partial: a listener disconnects itself, and is still running
example (e : EmId) (a : List Arg) : Event.enter e 0 a ∉ (Demo.world 1 Demo.stop).log.take ((Demo.world 1 Demo.stop).log.idxOf (.discRet 0 (some 0) true)) :=
  C70_same_partial (Demo.reach 1 _) (t := 0) (Demo.before_eq (by decide +kernel)) (fun u m hb => .inl (by
    have : ∀ ev ∈ Demo.before (Demo.world 1 Demo.stop) (.discRet 0 (some 0) true), (match ev with | .began u _ => u == 0 | _ => true) = true := by decide +kernel
    simpa using this _ hb)) e a
example : Running (Demo.world 1 Demo.stop).log 0 ∧ Event.discRet 0 (some 0) true ∈ (Demo.world 1 Demo.stop).log := ⟨⟨0, [], by decide +kernel⟩, by decide +kernel⟩

end Verif
