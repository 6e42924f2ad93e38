import Verif.Props.Block
import Verif.Props.Teardown

/-!
# C73: what `block()` promises about calls that other threads make

`block()` does not wait either: an emission of another thread that has already found the listener unblocked calls it after `block()` has returned. These are the only
calls: at most one per thread, of emissions that were between coming to the listener and calling it.
-/

namespace Verif

variable {E : Env} {w w' : World}

/-! ### The specification -/

/-- `evs` calls the callable of `s` although nobody has unblocked it. -/
def CalledBlocked (evs : List Event) (s : SlotId) : Prop := ∃ e a, Event.enter e s a ∈ evs ∧ Event.blockSet s false ∉ evs

/-- Until somebody unblocks `s`, it is not running and nobody calls it. -/
def Silent (E : Env) (w : World) (s : SlotId) : Prop :=
  ∀ w', Steps E (fun _ => True) w w' → ∀ evs, w'.log = evs ++ w.log → Event.blockSet s false ∉ evs →
    ¬ Running w'.log s ∧ ∀ e a, Event.enter e s a ∉ evs

/-! ### Blocked until unblocked -/

/-- Only user code blocks and unblocks, and only listeners that exist. -/
theorem block_top {t : Tid} {s : SlotId} {c : Bool} {p1 p2 : List Event} (R : StepR E w t w') (hl : w'.log = p2 ++ .blockSet s c :: p1 ++ w.log) :
    p1 = [] ∧ p2 = [] ∧ userCtx (w.stacks t) = true ∧ w.slotAlive s = true := by
  have no : ∀ evs, w'.log = evs ++ w.log → Event.blockSet s c ∈ evs := by
    intro evs he
    rw [he] at hl
    rw [List.append_cancel_right hl]; simp
  cases R
  case flag s' c' cv sv bv hu hs hh ha =>
    have := no [_] rfl
    simp at this
    obtain ⟨rfl, rfl⟩ := this
    have h3 := List.append_cancel_right (as := [Event.blockSet s c]) hl
    cases p2 with
    | nil => simp at h3; exact ⟨h3, rfl, hu, ha⟩
    | cons y p2 => simp at h3
  case eraseHit g tgt i cnt rest b s' hst hl' hi he =>
    have := no [.erased g s'] (by simp only [World.emitEv, World.setStack, (removeAt_same _ _ _).2.2.2.2.2.2.2.2.2.2.1]; rfl)
    simp at this
  case discWrite s' v k rest g b hst hl' hi =>
    have := no [.removed g s' v] (by simp only [World.emitEv, World.setStack, (removeAt_same _ _ _).2.2.2.2.2.2.2.2.2.2.1]; rfl)
    simp at this
  all_goals first
    | (have := no [] rfl; simp at this; done)
    | (have := no [_] rfl; simp at this; done)
    | (have := no [_, _] rfl; simp at this; done)

theorem block_created (h : Reachable E w) {post pre : List Event} {s : SlotId} {c : Bool} (hl : w.log = post ++ .blockSet s c :: pre) :
    ∃ g c b, Event.created g s c b ∈ pre := by
  obtain ⟨w0, w1, t, p2, p1, hr0, R, hl1, rfl⟩ := event_step h hl
  obtain ⟨rfl, -, -, ha⟩ := block_top R hl1
  obtain ⟨c, b, hc⟩ := hr0.full.c s (slotAlive_lt hr0.full.i.i1 ha)
  exact ⟨_, c, b, hc⟩

theorem stays_blocked {s : SlotId} {base : List Event} (hb : blockedAfter base s = true) : ∀ {evs : List Event}, Event.blockSet s false ∉ evs →
    (∀ g c b, Event.created g s c b ∉ evs) → blockedAfter (evs ++ base) s = true
  | [], _, _ => hb
  | ev :: evs, h1, h2 => by
    have ih := stays_blocked hb (evs := evs) (fun h => h1 (List.mem_cons_of_mem _ h)) (fun g c b h => h2 g c b (List.mem_cons_of_mem _ h))
    cases ev <;> try exact ih
    case created g s' c b =>
      simp only [List.cons_append, blockedAfter]
      split
      · rename_i e; subst e; exact absurd List.mem_cons_self (h2 g c b)
      · exact ih
    case blockSet s' c =>
      simp only [List.cons_append, blockedAfter]
      split
      · rename_i e; subst e
        cases c with
        | true => rfl
        | false => exact absurd List.mem_cons_self h1
      · exact ih

theorem still_blocked (h : Reachable E w) {post pre : List Event} {s : SlotId} (hl : w.log = post ++ .blockSet s true :: pre)
    (hn : Event.blockSet s false ∉ post) {p2 p1 : List Event} (hp : post = p2 ++ p1) : blockedAfter (p1 ++ .blockSet s true :: pre) s = true := by
  refine stays_blocked (by simp [blockedAfter]) (fun h => hn (by simp [hp, h])) fun g c b hc => ?_
  obtain ⟨q2, q1, rfl⟩ := List.append_of_mem hc
  obtain ⟨g', c', b', hc'⟩ := block_created h hl
  exact h.full.h.at (post := p2 ++ q2) (pre := q1 ++ .blockSet s true :: pre) (ev := .created g s c b) (by rw [hl, hp]; simp) g' c' b' (by simp [hc'])

/-! ### C73 -/

theorem late_block (h : Reachable E w) {post pre : List Event} {e : EmId} {s : SlotId} {a : List Arg} (hl : w.log = post ++ .blockSet s true :: pre)
    (hn : Event.blockSet s false ∉ post) (hm : Event.enter e s a ∈ post) :
    ∃ p2 p1 pos, post = p2 ++ .enter e s a :: p1 ∧ (trace pre e).getLast? = some (.visit e pos s) ∧ ∀ ev ∈ p1, ev.em ≠ some e := by
  obtain ⟨p2, p1, rfl⟩ := List.append_of_mem hm
  obtain ⟨l1, l0, pos, old, e1, e2, e3⟩ := C12_call h (post := p2) (pre := p1 ++ .blockSet s true :: pre) (e := e) (s := s) (a := a) (by rw [hl]; simp)
  rcases List.append_eq_append_iff.1 e1 with ⟨c, h1, h2⟩ | ⟨c, h1, h2⟩
  · cases c with
    | nil =>
      simp at h1 h2
      have := still_blocked h hl hn (p2 := p2 ++ .enter e s a :: p1) (p1 := []) (by simp)
      rw [List.nil_append, h2, e3] at this; cases this
    | cons x c =>
      simp only [List.cons_append, List.cons.injEq] at h2
      obtain ⟨rfl, h2⟩ := h2
      refine ⟨p2, p1, pos, rfl, ?_, fun ev hev => e2 ev (by simp [h1, hev])⟩
      rw [h2, ← List.append_assoc, trace_quiet]
      · simp [trace, Event.em]
      · intro ev hev
        rcases List.mem_append.1 hev with h3 | h3
        · exact e2 ev (by simp [h1, h3])
        · exact e2 ev (by simp [h3])
  · have := still_blocked h hl hn (p2 := p2 ++ .enter e s a :: l1) (p1 := c) (by rw [h1]; simp)
    rw [← h2, e3] at this; cases this

/-- C73: a call that starts after `block()`, with no `unblock()` in between, is of an emission that at the time of `block()` had come to the listener and not yet called
it, and it is the next thing that this emission does. -/
theorem C73_late (h : Reachable E w) {post pre : List Event} {e : EmId} {s : SlotId} {a : List Arg} (hl : w.log = post ++ .blockSet s true :: pre)
    (hn : Event.blockSet s false ∉ post) (hm : Event.enter e s a ∈ post) : ∃ pos, (trace pre e).getLast? = some (.visit e pos s) :=
  let ⟨_, _, pos, _, h, _⟩ := late_block h hl hn hm
  ⟨pos, h⟩

/-- C73, what is true of it: if at the time of `block()` no emission is at the listener without having called or skipped it, nobody calls it until it is unblocked. -/
theorem C73_partial (h : Reachable E w) {post pre : List Event} {s : SlotId} (hl : w.log = post ++ .blockSet s true :: pre)
    (hq : ∀ e pos, (trace pre e).getLast? ≠ some (.visit e pos s)) : ¬ CalledBlocked post s := by
  rintro ⟨e, a, hm, hn⟩
  obtain ⟨pos, hv⟩ := C73_late h hl hn hm
  exact hq e pos hv

/-- C73: once the emissions that had begun before `block()` have ended, the listener is not running, and nobody calls it until it is unblocked. Later emissions need not be
waited for. -/
theorem C73_quiet_partial (h : Reachable E w) {post pre : List Event} {s : SlotId} (hl : w.log = post ++ .blockSet s true :: pre)
    (hn : Event.blockSet s false ∉ post) (hq : ∀ u m, Event.began u m ∈ pre → ended w.log m.e) : Silent E w s := by
  intro w' hs evs he hne
  have h' := h.steps hs
  have hl' : w'.log = (evs ++ post) ++ .blockSet s true :: pre := by rw [he, hl, List.append_assoc]
  have hn' : Event.blockSet s false ∉ evs ++ post := by simp [hn, hne]
  have key : ∀ e a, Event.enter e s a ∈ w'.log → ∃ u m, m.e = e ∧ Event.began u m ∈ pre := by
    intro e a hm
    have hb : ∀ {ev : Event}, ev ∈ pre → ev.em = some e → ∃ u m, m.e = e ∧ Event.began u m ∈ pre := fun hm he =>
      began_in h' (post := evs ++ post ++ [.blockSet s true]) (by rw [hl']; simp) hm he
    rw [hl'] at hm
    rcases List.mem_append.1 hm with hm | hm
    · obtain ⟨pos, hv⟩ := C73_late h' hl' hn' hm
      exact hb (mem_trace.1 (List.mem_of_getLast? hv)).1 rfl
    · rcases List.mem_cons.1 hm with hm | hm
      · cases hm
      · exact hb hm rfl
  refine ⟨?_, ?_⟩
  · rintro ⟨e, a, hr⟩
    obtain ⟨u, m, rfl, hb⟩ := key e a (mem_trace.1 (List.mem_of_getLast? hr)).1
    exact ended_not_running h' ((hq u m hb).mono he) hr
  · intro e a hm
    obtain ⟨u, m, rfl, hb⟩ := key e a (by rw [he]; exact List.mem_append_left _ hm)
    exact ended_over h h' he (hq u m hb) _ hm rfl

/-! ### Whose calls these are -/

theorem acts_head {s : SlotId} {p : CallPc} {st rest : List Frame} {c : Act} (hu : OkStk st) (hc : c ∈ acts st) (hcc : c.c = some (s, p)) (hp : ∀ o, p ≠ .body o)
    (hst : st = .call s p :: rest) : ∃ rest', st = .call s p :: .emit c.m c.pc :: rest' := by
  have user : ∀ {st : List Frame}, UserStk st → c ∉ acts st := by
    intro st h hm
    induction h with
    | nil => simp [acts] at hm
    | body s' o m b pos acc rest _ ih =>
      simp only [acts, List.mem_cons] at hm
      rcases hm with rfl | hm
      · simp at hcc; exact hp o hcc.2.symm
      · exact ih hm
    | comb m b pos acc rest _ _ ih =>
      simp only [acts, List.mem_cons] at hm
      rcases hm with rfl | hm
      · cases hcc
      · exact ih hm
  cases hu with
  | user _ h => exact absurd hc (user h)
  | call s' pc m b pos acc rest h =>
    simp only [acts, List.mem_cons] at hc
    rcases hc with rfl | hc
    · simp at hcc
      obtain ⟨rfl, rfl⟩ := hcc
      exact ⟨_, rfl⟩
    · exact absurd hc (user h)
  | lib f rest' hf h => injection hst with h1; subst h1; cases hf

/-- The emission whose latest event is a dereference is on top of the stack of its thread, in the call. -/
theorem visit_at (h : Reachable E w) {e : EmId} {pos : Nat} {s : SlotId} (hl : (trace w.log e).getLast? = some (.visit e pos s)) :
    ∃ t m m' s' p pc rest, m.e = e ∧ m'.e = e ∧ Event.began t m ∈ w.log ∧ w.stacks t = .call s' p :: .emit m' pc :: rest ∧ ∀ o, p ≠ .body o := by
  have T := h.full.t
  rcases Nat.lt_or_ge e w.nEm with hn | hn
  · rcases T.fin e hn with ⟨t, c, hc, rfl⟩ | hf
    · have ok := T.ok t c hc
      unfold ActOk at ok
      split at ok
      · rename_i b pos' acc hpc
        obtain ⟨m0, vs, a0, ok⟩ := ok
        have htr := ok.tr
        rw [htr] at hl
        match hcc : c.c with
        | none =>
          rw [hcc] at hl
          simp only [current, List.append_nil] at hl
          exfalso
          rcases List.eq_nil_or_concat vs with rfl | ⟨vs0, v, rfl⟩
          · simp at hl
          · rw [List.concat_eq_append, List.flatMap_append, List.flatMap_cons, List.flatMap_nil, List.append_nil, ← List.cons_append,
              ← List.cons_append, List.getLast?_append] at hl
            unfold Visit.events at hl
            cases hv : v.out <;> simp [hv] at hl
        | some (s', p) =>
          have hp : ∀ o, p ≠ .body o := by
            rintro o rfl
            rw [hcc, ← List.cons_append, ← List.cons_append, List.getLast?_append] at hl
            simp [current] at hl
          obtain ⟨rest, hr⟩ := call_top (h.full.i.i1.stk t) (acts_mem_call hc hcc) hp
          obtain ⟨rest', hr'⟩ := acts_head (h.full.i.i1.stk t) hc hcc hp hr
          exact ⟨t, m0, c.m, s', p, _, rest', ok.e, rfl, (mem_trace.1 (by rw [htr]; simp : Event.began t m0 ∈ trace w.log c.m.e)).1, hr', hp⟩
      · rw [ok.2] at hl; simp at hl
    · exfalso
      unfold World.complete at hf
      generalize trace w.log e = tr at hl hf
      cases hf with
      | suppressed => simp at hl
      | done => rw [← List.cons_append, ← List.cons_append, List.getLast?_append] at hl; simp at hl
      | aborted => rw [← List.cons_append, ← List.cons_append, List.getLast?_append] at hl; simp at hl
  · rw [T.old e hn] at hl; simp at hl

/-- The thread that a late call belongs to had the emission on top of its stack when `block()` was called. -/
theorem late_top (h : Reachable E w) (h' : Reachable E w') {s : SlotId} {evs pre : List Event} {e : EmId} {a : List Arg} {u : Tid} {m : Em}
    (hpre : pre = w.log) (hl : w'.log = evs ++ .blockSet s true :: pre) (hn : Event.blockSet s false ∉ evs) (hm : Event.enter e s a ∈ evs)
    (hb : Event.began u m ∈ w'.log) (he : m.e = e) :
    ∃ m' s' p pc rest, m'.e = e ∧ w.stacks u = .call s' p :: .emit m' pc :: rest ∧ ∀ o, p ≠ .body o := by
  subst hpre
  obtain ⟨pos, hv⟩ := C73_late h' hl hn hm
  obtain ⟨t1, m1, m', s', p, pc, rest, hme, hme', hb1, hst1, hp⟩ := visit_at h hv
  have hw : Event.began t1 m1 ∈ w'.log := by rw [hl]; simp [hb1]
  obtain ⟨rfl, -⟩ := (h'.full.shape e).began_eq (mem_tr hb (by rw [← he]; rfl)) (mem_tr hw (by rw [← hme]; rfl))
  exact ⟨m', s', p, pc, rest, hme', hst1, hp⟩

/-- C73: a call that starts after `block()`, with no `unblock()` in between, is not made by the thread that has called `block()`. (`l` is the call of `block()`, or the
construction of a `connection_blocker`.) -/
theorem C73_other (h : Reachable E w) {l : Label} {w1 : World} {s : SlotId} (hs : step E w l = some w1) (hl1 : w1.log = .blockSet s true :: w.log)
    (hs' : Steps E (fun _ => True) w1 w') {evs : List Event} (hl : w'.log = evs ++ w1.log) (hn : Event.blockSet s false ∉ evs) {e : EmId} {a : List Arg}
    (hm : Event.enter e s a ∈ evs) {u : Tid} {m : Em} (hb : Event.began u m ∈ w'.log) (he : m.e = e) : u ≠ l.tid := by
  obtain ⟨-, -, R⟩ := step_inv hs
  obtain ⟨-, -, hu, -⟩ := block_top (p1 := []) (p2 := []) R (by simpa using hl1)
  obtain ⟨m', s', p, pc, rest, -, hst, hp⟩ := late_top h ((h.step hs).steps hs') (evs := evs) rfl (by rw [hl, hl1]) hn hm hb he
  rintro rfl
  rw [hst] at hu
  cases p <;> simp [userCtx] at hu
  exact hp _ rfl

/-- C73: calls that start after `block()`, with no `unblock()` in between, and that belong to one thread, belong to one emission. As an emission comes to a listener only once
(C07), there is at most one such call per thread. -/
theorem C73_threads (h : Reachable E w) {post pre : List Event} {s : SlotId} (hl : w.log = post ++ .blockSet s true :: pre)
    (hn : Event.blockSet s false ∉ post) {u : Tid} {m m' : Em} {a a' : List Arg} (hm : Event.enter m.e s a ∈ post) (hm' : Event.enter m'.e s a' ∈ post)
    (hb : Event.began u m ∈ w.log) (hb' : Event.began u m' ∈ w.log) : m.e = m'.e := by
  obtain ⟨w0, w1, t, p2, p1, hr0, R, hl1, rfl⟩ := event_step h hl
  obtain ⟨rfl, -, hu, -⟩ := block_top R hl1
  obtain ⟨m1, s1, q1, pc1, rest1, e1, h1, -⟩ := late_top hr0 h (pre := w0.log) rfl (by simpa using hl) hn hm hb rfl
  obtain ⟨m2, s2, q2, pc2, rest2, e2, h2, -⟩ := late_top hr0 h (pre := w0.log) rfl (by simpa using hl) hn hm' hb' rfl
  rw [h1] at h2
  injection h2 with _ h2
  injection h2 with h2
  injection h2 with h2
  rw [← e1, ← e2, h2]

/-- C73 where one thread does everything: if the emissions that have not ended are of the thread that calls `block()`, for example because a listener blocks another one or
itself, nobody calls the listener until it is unblocked. -/
theorem C73_same_partial (h : Reachable E w) {l : Label} {w1 : World} {s : SlotId} (hs : step E w l = some w1) (hl1 : w1.log = .blockSet s true :: w.log)
    (hq : ∀ u m, Event.began u m ∈ w.log → u = l.tid ∨ ended w.log m.e) (hs' : Steps E (fun _ => True) w1 w') {evs : List Event}
    (hl : w'.log = evs ++ w1.log) : ¬ CalledBlocked evs s := by
  rintro ⟨e, a, hm, hn⟩
  have h' := (h.step hs).steps hs'
  have hl' : w'.log = evs ++ .blockSet s true :: w.log := by rw [hl, hl1]
  obtain ⟨pos, hv⟩ := C73_late h' hl' hn hm
  obtain ⟨u, m, rfl, hb⟩ := began_in h (post := []) rfl (mem_trace.1 (List.mem_of_getLast? hv)).1 rfl
  rcases hq u m hb with hu | he
  · exact C73_other h hs hl1 hs' hl hn hm (by rw [hl']; simp [hb]) rfl hu
  · exact ended_over h h' (evs := evs ++ [.blockSet s true]) (by rw [hl']; simp) he _ (List.mem_append_left _ hm) rfl

/-! ### What is false -/

namespace Demo
/-- Thread 0 has passed the checks on listener 0 when thread 1 blocks it; then it is called. -/
def deaf : List Label :=
  [.call 0 (.newSig false)] ++ connect 0 10 0 ++ [.call 0 (.emit 0 .lastValue [])] ++ go 0 7 ++ [.call 1 (.block (.conn 0))] ++ go 0 1

/-- … before that. -/
def deafBefore : List Label :=
  [.call 0 (.newSig false)] ++ connect 0 10 0 ++ [.call 0 (.emit 0 .lastValue [])] ++ go 0 7

/-- … the listener and the emission return; thread 0 starts another emission, which passes the listener over, and a third one, which is running. -/
def deafDone : List Label := deaf ++ [.ret 0 5] ++ go 0 1 ++ [.call 0 (.emit 0 .lastValue [])] ++ go 0 7 ++ [.call 0 (.emit 0 .lastValue [])] ++ go 0 2

/-- Listener 0 blocks listener 1 before the emission comes to it. -/
def hushBefore : List Label :=
  [.call 0 (.newSig false)] ++ connect 0 10 0 ++ connect 0 11 1 ++ [.call 0 (.emit 0 .lastValue [])] ++ go 0 8
def hush : List Label := hushBefore ++ [.call 0 (.block (.conn 1))]
def hushAfter : List Label := [.ret 0 5] ++ go 0 3
end Demo

/-- C73 is false: thread 1 has blocked the listener, `block()` has returned, nobody has unblocked it, and thread 0 calls it. -/
theorem C73_false : ¬ ∀ (E : Env) (w : World), Reachable E w → ∀ post pre s, w.log = post ++ .blockSet s true :: pre → ¬ CalledBlocked post s := by
  intro hx
  refine hx _ _ (Demo.reach 2 Demo.deaf) [.enter 0 0 []] (Demo.world 2 Demo.deaf).log.tail.tail 0 (by decide +kernel) ⟨0, [], by simp, by simp⟩

/-! ### Examples -/

-- C73_late, C73_threads: thread 0 calls the listener after thread 1 has blocked it
example : ∃ post pre, (Demo.world 2 Demo.deaf).log = post ++ .blockSet 0 true :: pre ∧ Event.enter 0 0 [] ∈ post ∧ Event.blockSet 0 false ∉ post ∧
    Event.began 0 ⟨0, 0, .lastValue, []⟩ ∈ (Demo.world 2 Demo.deaf).log :=
  ⟨_, _, Demo.before_eq (by decide +kernel), by decide +kernel, by decide +kernel, by decide +kernel⟩

-- C73_other
example : (∃ post, (Demo.world 2 Demo.deaf).log = post ++ .blockSet 0 true :: (Demo.world 2 Demo.deafBefore).log ∧ post = [.enter 0 0 []]) ∧
    (step Demo.E0 (Demo.world 2 Demo.deafBefore) (.call 1 (.block (.conn 0)))).map (·.log) = some (.blockSet 0 true :: (Demo.world 2 Demo.deafBefore).log) ∧
    ((step Demo.E0 (Demo.world 2 Demo.deafBefore) (.call 1 (.block (.conn 0)))).bind (step Demo.E0 · (.run 0))).map (·.log) = some (Demo.world 2 Demo.deaf).log :=
  ⟨⟨_, by decide +kernel, rfl⟩, by decide +kernel, by decide +kernel⟩

-- C73_quiet_partial: the one emission that had begun has ended; two more have begun after `block()`, and one of them is running
example : Silent Demo.E0 (Demo.world 2 Demo.deafDone) 0 :=
  C73_quiet_partial (Demo.reach 2 _) (Demo.before_eq (ev := .blockSet 0 true) (by decide +kernel)) (by decide +kernel) (Demo.begun_ended (by decide +kernel))
example : Demo.begun (Demo.before (Demo.world 2 Demo.deafDone) (.blockSet 0 true)) = [0] ∧ Event.enter 0 0 [] ∈ (Demo.world 2 Demo.deafDone).log ∧
    Event.skip 1 0 .blocked ∈ (Demo.world 2 Demo.deafDone).log ∧ Event.began 0 ⟨2, 0, .lastValue, []⟩ ∈ (Demo.world 2 Demo.deafDone).log := by decide +kernel

-- C73_partial: a listener blocks another one, where the emission has not come to listener 1 when it is blocked
example : ¬ CalledBlocked ((Demo.world 1 (Demo.hush ++ Demo.hushAfter)).log.take ((Demo.world 1 (Demo.hush ++ Demo.hushAfter)).log.idxOf (.blockSet 1 true))) 1 :=
  C73_partial (Demo.reach 1 (Demo.hush ++ Demo.hushAfter)) (Demo.before_eq (by decide +kernel)) fun e pos h => by
    have : ∀ ev ∈ Demo.before (Demo.world 1 (Demo.hush ++ Demo.hushAfter)) (.blockSet 1 true), (match ev with | .visit _ _ s => s == 1 | _ => false) = false := by
      decide +kernel
    simpa using this _ (mem_trace.1 (List.mem_of_getLast? h)).1

-- C73_same_partial: listener 0 blocks listener 1, which the emission then passes over
example : Event.skip 0 1 .blocked ∈ (Demo.world 1 (Demo.hush ++ Demo.hushAfter)).log ∧ Event.blockSet 1 true ∈ (Demo.world 1 (Demo.hush ++ Demo.hushAfter)).log := by
  decide +kernel
example {w'} (hs : Steps Demo.E0 (fun _ => True) (Demo.world 1 Demo.hush) w') {evs} (hl : w'.log = evs ++ (Demo.world 1 Demo.hush).log) : ¬ CalledBlocked evs 1 :=
  C73_same_partial (Demo.reach 1 Demo.hushBefore) (l := .call 0 (.block (.conn 1))) (Demo.world_step 1 Demo.hushBefore _ (by decide +kernel)) (by decide +kernel)
    (fun u m hb => .inl (by
      have : ∀ ev ∈ (Demo.world 1 Demo.hushBefore).log, (match ev with | .began u _ => u == 0 | _ => true) = true := by decide +kernel
      have := this _ hb
      simp at this; exact this)) hs hl

end Verif
