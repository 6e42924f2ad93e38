import Verif.Props.Emission
import Verif.Mach.StepL

/-!
# C26, C37, C39, C44: calls of listeners, exceptions, user combiners, nesting
-/

namespace Verif

variable {E : Env} {w w' : World} {l : Label}

theorem clearHandle_log {h : Handle} : (w.clearHandle h).log = w.log := by cases h <;> rfl

/-! ### Splitting histories -/

theorem trace_append (l1 l2 : List Event) (e : EmId) : trace (l1 ++ l2) e = trace l2 e ++ trace l1 e := by
  simp [trace]

theorem trace_nil_iff {l : List Event} {e : EmId} : trace l e = [] ↔ ∀ ev ∈ l, ev.em ≠ some e := by
  simp [trace]

/-- Two neighbours in the trace of an emission: between them the history has nothing of that emission. -/
theorem trace_split {log A B : List Event} {x y : Event} {e : EmId} (h : trace log e = A ++ x :: y :: B) :
    ∃ l3 l2 l1, log = l3 ++ y :: (l2 ++ x :: l1) ∧ (∀ ev ∈ l2, ev.em ≠ some e) ∧ trace l1 e = A ∧ trace l3 e = B := by
  have h1 : (log.filter fun ev => ev.em == some e) = B.reverse ++ y :: x :: A.reverse := by
    have := congrArg List.reverse h
    simpa [trace] using this
  obtain ⟨l3, r, rfl, h3, h4⟩ := List.filter_eq_append_iff.1 h1
  obtain ⟨a1, r1, rfl, h5, h6, h7⟩ := List.filter_eq_cons_iff.1 h4
  obtain ⟨a2, r2, rfl, h8, h9, h10⟩ := List.filter_eq_cons_iff.1 h7
  refine ⟨l3 ++ a1, a2, r2, by simp, by simpa using h8, ?_, ?_⟩
  · simp [trace, h10]
  · rw [trace_append, trace_nil_iff.2 (by simpa using h5), List.nil_append]
    simp [trace, h3]

/-- Nothing comes after `done`. -/
theorem done_last (h : Reachable E w) {e : EmId} {r : Option Val} {post pre : List Event}
    (hl : w.log = post ++ .done e r :: pre) : ∀ ev ∈ post, ev.em ≠ some e := by
  obtain ⟨t, m, items, vs, args, -, -, -, -, htr⟩ := done_shape h (by rw [hl]; simp : Event.done e r ∈ w.log)
  rw [hl, trace_append, trace_cons rfl] at htr
  rw [← trace_nil_iff]
  cases hp : trace post e with
  | nil => rfl
  | cons x xs =>
    have h1 : Event.done e r ∈ Event.began t m :: .snap m items :: vs.flatMap (·.events e) := by
      rw [hp] at htr
      have h2 := congrArg List.dropLast htr
      rw [List.dropLast_append_of_ne_nil (by simp)] at h2
      have h3 : (Event.began t m :: .snap m items :: (vs.flatMap (·.events e) ++ [.done e r])).dropLast =
          Event.began t m :: .snap m items :: vs.flatMap (·.events e) := by
        rw [← List.cons_append, ← List.cons_append, List.dropLast_concat]
      rw [← h3, ← h2]
      simp
    simp only [List.mem_cons, reduceCtorEq, false_or] at h1
    exact absurd h1 no_done_visits

theorem no_aborted_visits {e : EmId} {vs : List Visit} : Event.aborted e ∉ vs.flatMap (·.events e) := by
  intro h
  obtain ⟨v, -, h⟩ := List.mem_flatMap.1 h
  rcases visit_events_em h with h | ⟨_, -, h⟩ | ⟨_, -, h⟩ | ⟨_, _, -, h⟩ | ⟨_, -, h⟩ <;> cases h

/-- Nothing comes after `aborted`. -/
theorem aborted_last (h : Reachable E w) {e : EmId} {post pre : List Event}
    (hl : w.log = post ++ .aborted e :: pre) : ∀ ev ∈ post, ev.em ≠ some e := by
  have hm : Event.aborted e ∈ trace w.log e := mem_tr (by rw [hl]; simp) rfl
  obtain ⟨m, items, hs⟩ := (h.full.shape e).has_snap hm (by intro t m h; cases h)
  obtain ⟨t, vs, args, tail, he, hv, htl, htr⟩ := (h.full.shape e).of_snap hs
  have htail : tail = [.aborted e] := by
    rw [htr] at hm
    simp only [List.mem_cons, List.mem_append, reduceCtorEq, false_or] at hm
    rcases hm with hm | hm
    · exact absurd hm no_aborted_visits
    · cases htl <;> simp at hm
      rfl
  subst htail
  rw [hl, trace_append, trace_cons rfl] at htr
  rw [← trace_nil_iff]
  cases hp : trace post e with
  | nil => rfl
  | cons x xs =>
    have h1 : Event.aborted e ∈ Event.began t m :: .snap m items :: vs.flatMap (·.events e) := by
      rw [hp] at htr
      have h2 := congrArg List.dropLast htr
      rw [List.dropLast_append_of_ne_nil (by simp)] at h2
      have h3 : (Event.began t m :: .snap m items :: (vs.flatMap (·.events e) ++ [.aborted e])).dropLast =
          Event.began t m :: .snap m items :: vs.flatMap (·.events e) := by
        rw [← List.cons_append, ← List.cons_append, List.dropLast_concat]
      rw [← h3, ← h2]
      simp
    simp only [List.mem_cons, reduceCtorEq, false_or] at h1
    exact absurd h1 no_aborted_visits

/-! ### C44 -/

/-- A visit of listener `s`. -/
def Event.isVisit (s : SlotId) : Event → Bool
  | .visit _ _ s' => s' = s
  | _ => false

theorem takeOut_nodup {v : SlotId} {l : List SlotId} (h : l.Nodup) : (takeOut v l).Nodup := by
  have hne : ∀ i j, (hi : i < l.length) → (hj : j < l.length) → i ≠ j → l[i] ≠ l[j] := by
    intro i j hi hj hij he
    exact hij ((List.getElem_inj h).1 he)
  unfold takeOut
  rw [List.Nodup, List.pairwise_iff_getElem]
  intro i j hi hj hij
  simp only [List.length_dropLast, List.length_map] at hi hj
  have hlast : l.getLastD v = l[l.length - 1] := by
    rw [List.getLastD_eq_getLast?, List.getLast?_eq_getElem?, List.getElem?_eq_getElem (by omega)]; rfl
  simp only [List.getElem_dropLast, List.getElem_map, hlast]
  have h1 := hne i j (by omega) (by omega) (by omega)
  have h2 := hne i (l.length - 1) (by omega) (by omega) (by omega)
  have h3 := hne j (l.length - 1) (by omega) (by omega) (by omega)
  split <;> split
  · rename_i a b; exact absurd (a.trans b.symm) h1
  · exact h3.symm
  · exact h2
  · exact h1

theorem replay_nodup {log : List Event} (h : ∀ s, log.countP (Event.adds s) ≤ 1) (g : SigId) :
    (replay log g).Nodup := by
  induction log generalizing g with
  | nil => simp [replay]
  | cons ev log ih =>
    have hsub : ∀ s, log.countP (Event.adds s) ≤ 1 := fun s => by
      have := h s; rw [List.countP_cons] at this; omega
    have ih := fun g => ih hsub g
    cases ev <;> simp only [replay] <;> try exact ih g
    case added g' s' =>
      rw [upd_apply]; split
      · rw [List.nodup_append]
        refine ⟨ih g', by simp, ?_⟩
        intro a ha b hb
        simp at hb; subst hb
        rintro rfl
        have h1 := mem_replay ha
        have h2 := h a
        rw [List.countP_cons] at h2
        simp only [Event.adds, decide_true, if_true] at h2
        omega
      · exact ih g
    case removed g' r v =>
      rw [upd_apply]; split
      · exact takeOut_nodup (ih g')
      · exact ih g
    case erased g' v =>
      rw [upd_apply]; split
      · exact takeOut_nodup (ih g')
      · exact ih g
    case moved g1 g2 =>
      rw [upd_apply]; split
      · simp
      · rw [upd_apply]; split <;> exact ih _
    case destroyed g1 =>
      rw [upd_apply]; split
      · simp
      · exact ih g

/-- No listener occurs twice in a snapshot. -/
theorem C19_nodup (h : Reachable E w) {m : Em} {items : List SlotId} (hs : Event.snap m items ∈ w.log) :
    items.Nodup := by
  obtain ⟨post, pre, hl⟩ := List.append_of_mem hs
  rw [(h.full.h.at hl).1]
  refine replay_nodup (fun s => ?_) _
  have := h.full.i.i3.adds s
  rw [hl, List.countP_append, List.countP_cons] at this
  omega

/-- Why an emission that visits `s` does not call it. -/
theorem skip_why (h : Reachable E w) {e : EmId} {s : SlotId} {why : Why} {post pre : List Event}
    (hl : w.log = post ++ .skip e s why :: pre) :
    blockedAfter pre s = true ∨ connectedAfter pre s = false ∨
      ∃ o, (w.slots s).fn.obj? = some o ∧ w.objAlive o = false := by
  have := h.full.h.at hl
  cases why
  · exact .inl this
  · exact .inr (this.imp id fun h => h.2)
  · exact .inr (.inr this.2.2)

/-- C44: a listener in the snapshot of a completed emission that is unblocked and connected at every moment between
the emission turning to it and the emission's next action, and whose tracked object (if any) is alive, is called
exactly once. -/
theorem C44 (h : Reachable E w) {m : Em} {items : List SlotId} {r : Option Val} {s : SlotId}
    (hs : Event.snap m items ∈ w.log) (hd : Event.done m.e r ∈ w.log) (hc : m.comb = .lastValue) (hm : s ∈ items)
    (ha : ∀ o, (w.slots s).fn.obj? = some o → w.objAlive o = true)
    (hok : ∀ post mid i pre, w.log = post ++ (mid ++ .visit m.e i s :: pre) → (∀ ev ∈ mid, ev.em ≠ some m.e) →
      blockedAfter (mid ++ .visit m.e i s :: pre) s = false ∧ connectedAfter (mid ++ .visit m.e i s :: pre) s = true) :
    ((trace w.log m.e).filterMap Event.entered).count s = 1 := by
  obtain ⟨t, m', items', vs, args, he, hv, hdd, hs', htr⟩ := done_shape h hd
  obtain ⟨rfl, rfl⟩ := C19_one_snapshot h hs' hs he
  have hn : items'.Nodup := C19_nodup h hs
  have h1 := (C07_calls h hs hc).nodup hn
  have h2 : s ∈ (trace w.log m'.e).filterMap Event.entered := by
    obtain ⟨h3, -⟩ := hdd hc
    have h4 := (hv.dflt hc).2
    rw [h3, List.take_length] at h4
    rw [← h4] at hm
    obtain ⟨v, hvv, rfl⟩ := List.mem_map.1 hm
    obtain ⟨A, B, hAB⟩ := List.append_of_mem hvv
    cases ho : v.out with
    | skipped why =>
      exfalso
      have ht : trace w.log m'.e = (.began t m' :: .snap m' items' :: A.flatMap (·.events m'.e)) ++
          .visit m'.e v.pos v.slot :: .skip m'.e v.slot why :: (B.flatMap (·.events m'.e) ++ [.done m'.e r]) := by
        rw [htr, hAB]
        simp [Visit.events, ho]
      obtain ⟨l3, l2, l1, hl, hq, -, -⟩ := trace_split ht
      obtain ⟨k1, k2⟩ := hok (l3 ++ [.skip m'.e v.slot why]) l2 v.pos l1 (by simp [hl]) hq
      rcases skip_why h hl with k | k | ⟨o, k, k'⟩
      · rw [k] at k1; cases k1
      · rw [k] at k2; cases k2
      · rw [ha o k] at k'; cases k'
    | returned a x =>
      refine List.mem_filterMap.2 ⟨.enter m'.e v.slot a, ?_, rfl⟩
      rw [htr, hAB]
      simp [Visit.events, ho]
    | threw a =>
      refine List.mem_filterMap.2 ⟨.enter m'.e v.slot a, ?_, rfl⟩
      rw [htr, hAB]
      simp [Visit.events, ho]
  exact Nat.le_antisymm (List.nodup_iff_count.1 h1 s) (List.count_pos_iff.2 h2)

-- listener 3 of `Demo.busy` meets the hypotheses
example : ((trace (Demo.world 1 Demo.busy).log 0).filterMap Event.entered).count 3 = 1 := by
  refine C44 (Demo.reach 1 Demo.busy) (m := ⟨0, 0, .lastValue, []⟩) (items := [0, 1, 2, 3]) (r := some 8)
    (by decide +kernel) (by decide +kernel) rfl (by decide) (fun o ho => ?_) (fun post mid i pre hl _ => ?_)
  · have : ((Demo.world 1 Demo.busy).slots 3).fn.obj? = none := by decide +kernel
    rw [this] at ho; cases ho
  · have key : ∀ k, k ≤ (Demo.world 1 Demo.busy).log.length →
        (∃ ev ∈ (Demo.world 1 Demo.busy).log.drop k, ev.isVisit 3 = true) →
        blockedAfter ((Demo.world 1 Demo.busy).log.drop k) 3 = false ∧
          connectedAfter ((Demo.world 1 Demo.busy).log.drop k) 3 = true := by decide +kernel
    have hd : (Demo.world 1 Demo.busy).log.drop post.length = mid ++ .visit 0 i 3 :: pre := by rw [hl]; simp
    have := key post.length (by rw [hl]; simp) ⟨.visit 0 i 3, by rw [hd]; simp, rfl⟩
    rw [hd] at this
    exact this

-- listeners 0 and 3 of `Demo.busy` meet the conditions; 1 is blocked and 2 is disconnected before its turn
example : ((trace (Demo.world 1 Demo.busy).log 0).filterMap Event.entered).count 3 = 1 ∧
    ((trace (Demo.world 1 Demo.busy).log 0).filterMap Event.entered).count 1 = 0 ∧
    ((trace (Demo.world 1 Demo.busy).log 0).filterMap Event.entered).count 2 = 0 := by decide +kernel

/-! ### C37 -/

/-- A call of listener `s`. -/
def Event.isEnter (s : SlotId) : Event → Bool
  | .enter _ s' _ => s' = s
  | _ => false

/-- Listener `s` was passed over. -/
def Event.isSkip (s : SlotId) : Event → Bool
  | .skip _ s' _ => s' = s
  | _ => false

theorem visits_count {e : EmId} (s : SlotId) (vs : List Visit) :
    (vs.flatMap (·.events e)).countP (Event.isVisit s) =
      (vs.flatMap (·.events e)).countP (Event.isEnter s) + (vs.flatMap (·.events e)).countP (Event.isSkip s) := by
  induction vs with
  | nil => rfl
  | cons v vs ih =>
    rw [List.flatMap_cons, List.countP_append, List.countP_append, List.countP_append, ih]
    have : ((v.events e).countP (Event.isVisit s)) =
        (v.events e).countP (Event.isEnter s) + (v.events e).countP (Event.isSkip s) := by
      unfold Visit.events
      split <;> simp [List.countP_cons, Event.isVisit, Event.isEnter, Event.isSkip]
    omega

/-- C37: whatever the combiner, at any moment each dereference of the iterator at listener `s` has led to exactly one
call of its callable or to one skip; the dereference being executed right now is the only one for which this may
still be to come. -/
theorem C37_counts (h : Reachable E w) (e : EmId) (s : SlotId) :
    (trace w.log e).countP (Event.isVisit s) =
      (trace w.log e).countP (Event.isEnter s) + (trace w.log e).countP (Event.isSkip s) ∨
    ∃ i tr, trace w.log e = tr ++ [.visit e i s] ∧
      tr.countP (Event.isVisit s) = tr.countP (Event.isEnter s) + tr.countP (Event.isSkip s) := by
  generalize htr : trace w.log e = tr
  have hsh := h.full.shape e
  rw [htr] at hsh
  cases hsh with
  | none => exact .inl rfl
  | began t m he => exact .inl rfl
  | snap t m items vs args tail he hv htl =>
    have hc := visits_count (e := e) s vs
    cases htl with
    | visit i s' hi ho =>
      by_cases hs : s' = s
      · subst hs
        refine .inr ⟨i, .began t m :: .snap m items :: vs.flatMap (·.events e), by simp, ?_⟩
        simpa [List.countP_cons, Event.isVisit, Event.isEnter, Event.isSkip] using hc
      · refine .inl ?_
        simp only [List.countP_cons, List.countP_append, List.countP_nil, Event.isVisit, Event.isEnter, Event.isSkip, hs]
        simpa using hc
    | _ =>
      refine .inl ?_
      simp only [List.countP_cons, List.countP_append, List.countP_nil, Event.isVisit, Event.isEnter, Event.isSkip]
      simp only [decide_eq_true_eq, Bool.false_eq_true, if_false]
      omega

/-- C37: in a finished emission, each dereference led to exactly one call or one skip. -/
theorem C37_finished (h : Reachable E w) {e : EmId} (hf : (∃ r, Event.done e r ∈ w.log) ∨ Event.aborted e ∈ w.log)
    (s : SlotId) :
    (trace w.log e).countP (Event.isVisit s) =
      (trace w.log e).countP (Event.isEnter s) + (trace w.log e).countP (Event.isSkip s) := by
  rcases C37_counts h e s with h1 | ⟨i, tr, h1, -⟩
  · exact h1
  · exfalso
    have key : ∀ ev, ev.em = some e → ev ≠ .visit e i s → ev ∈ w.log →
        (∀ post pre, w.log = post ++ ev :: pre → ∀ x ∈ post, x.em ≠ some e) → False := by
      intro ev he hne hm hl
      obtain ⟨post, pre, h2⟩ := List.append_of_mem hm
      have h3 := trace_nil_iff.2 (hl post pre h2)
      rw [h2, trace_append, trace_cons he, h3, List.append_nil] at h1
      have h4 := congrArg List.getLast? h1
      simp at h4
      exact hne h4
    rcases hf with ⟨r, hf⟩ | hf
    · exact key _ rfl (by simp) hf fun post pre hl => done_last h hl
    · exact key _ rfl (by simp) hf fun post pre hl => aborted_last h hl

/-- C37: with a user combiner, a listener is turned to only when the combiner dereferences its iterator, and it is
the one at the position the combiner chose, in the snapshot of that emission. -/
theorem C37_only (h : Reachable E w) {l : Label} (hst : step E w l = some w') {e : EmId} {i : Nat} {s : SlotId}
    (hl : w'.log = .visit e i s :: w.log) {t : Tid} {m : Em} (hb : Event.began t m ∈ w.log) (he : m.e = e)
    (hc : m.comb = .custom) :
    l = .call t (.combDeref i) ∧ ∃ items, Event.snap m items ∈ w.log ∧ items[i]? = some s := by
  have h' : Reachable E w' := let ⟨n, h⟩ := h; ⟨n, h.tail l trivial hst⟩
  have h2 : Event.visit e i s ∈ trace w'.log e := mem_tr (by rw [hl]; simp) rfl
  obtain ⟨m1, items, hs⟩ := (h'.full.shape e).has_snap h2 (by intro t m h; cases h)
  obtain ⟨t1, vs, args, tail, he1, hv, htl, htr⟩ := (h'.full.shape e).of_snap hs
  obtain ⟨rfl, rfl⟩ := began_of h' (by rw [hl]; exact List.mem_cons_of_mem _ hb) he htr
  have hs' : Event.snap m1 items ∈ w.log := by
    have := (mem_trace.1 hs).1
    rw [hl] at this; simpa using this
  have hi : items[i]? = some s := by
    rw [htr] at h2
    simp only [List.mem_cons, List.mem_append, reduceCtorEq, false_or] at h2
    rcases h2 with h2 | h2
    · obtain ⟨v, hvv, hm⟩ := List.mem_flatMap.1 h2
      rcases visit_events_em hm with hm | ⟨_, -, hm⟩ | ⟨_, -, hm⟩ | ⟨_, _, -, hm⟩ | ⟨_, -, hm⟩ <;> cases hm
      exact hv.here v hvv
    · cases htl <;> simp at h2 <;> obtain ⟨rfl, rfl⟩ := h2 <;> assumption
  refine ⟨?_, items, hs', hi⟩
  have hne : ∀ ev : Event, ev :: w.log = .visit e i s :: w.log → ev = .visit e i s := fun ev h => by injection h
  have hno : w.log ≠ .visit e i s :: w.log := fun h => by simpa using congrArg List.length h
  obtain ⟨hub, htid, hR⟩ := step_inv hst
  have top : ∃ m b pos acc rest, w.stacks l.tid = .emit m (.iter b pos acc) :: rest ∧ m.e = e := by
    cases hR <;> simp only [World.setUB, World.setH, World.emitEv, World.setBlocked, World.setStack, World.setMutex,
      World.setConnected, World.setIndex, World.setBlk, World.setList] at hl
    case emCall m b pos pos' acc s rest hst' hp hs =>
      have := hne _ hl
      injection this with h1
      exact ⟨m, b, pos, acc, rest, hst', h1⟩
    case det f f' rest g b hst' hf hl' =>
      exact absurd hl hno
    all_goals first
      | exact absurd hl hno
      | (rw [(removeAt_same ..).2.2.2.2.2.2.2.2.2.2.1] at hl; cases hne _ hl)
      | cases hne _ hl
      | (have := congrArg List.length hl; simp at this)
  obtain ⟨m, b, pos, acc, rest, hst', hme⟩ := top
  obtain ⟨m0, vs', a0, hok⟩ := h.full.t.ok l.tid ⟨none, m, .iter b pos acc⟩ (by rw [hst']; simp [acts])
  have hme : m.e = e := hme
  have htr := hok.tr
  simp only at htr
  rw [hme] at htr
  obtain ⟨rfl, rfl⟩ := began_of h hb he htr
  have hcm : m.comb = .custom := by rw [← hc]; exact hok.comb.symm
  obtain ⟨em, gm, cm, am⟩ := m
  simp only at hcm hme
  subst hcm hme
  cases l with
  | run t =>
    obtain ⟨-, -, hst⟩ := step_run hst
    simp only [Label.tid] at hst'; simp [runTop, hst', runEmit] at hst
  | ret t v =>
    obtain ⟨-, -, _, _, _, _, _, _, _, h1, -⟩ := step_ret hst
    simp only [Label.tid] at hst'; rw [hst'] at h1; cases h1
  | throw t c =>
    obtain ⟨-, -, _, _, _, _, _, _, _, h1, -⟩ := step_throw hst
    simp only [Label.tid] at hst'; rw [hst'] at h1; cases h1
  | fail t =>
    obtain ⟨-, -, hst⟩ := step_fail hst
    simp only [Label.tid] at hst'; simp [allocFail, hst'] at hst
  | ctl t =>
    obtain ⟨-, -, rfl, -⟩ := step_ctl hst
    exact absurd hl hno
  | call t a =>
    simp only [Label.tid] at hst' ⊢
    obtain ⟨-, -, -, hst⟩ := step_call hst
    clear htr hok
    cases a
    case combDeref j =>
      simp only [userOp, hst'] at hst
      split at hst
      · injection hst with hst; subst hst
        have := hne _ hl
        injection this with h1 h2 h3
        rw [h2]
      · injection hst with hst; subst hst; exact absurd hl hno
    case connMove x hd =>
      exfalso
      simp only [userOp] at hst
      split at hst <;> injection hst with hst <;> subst hst
      · exact hno hl
      · exact hno (clearHandle_log.symm.trans hl)
    all_goals
      exfalso
      simp only [userOp, discStart, discReturn, World.connSetBlocked] at hst
      repeat' split at hst
      all_goals first
        | cases hst; done
        | (injection hst with hst; subst hst
           first
           | exact absurd hl hno
           | cases hne _ hl)

/-- C37: conversely, dereferencing the iterator at a position of the snapshot turns to the listener there. -/
theorem C37_deref (h : Reachable E w) {t : Tid} {i : Nat} (hst : step E w (.call t (.combDeref i)) = some w') :
    ∃ m items, Event.snap m items ∈ w.log ∧ m.comb = .custom ∧
      ((∃ s, items[i]? = some s ∧ w'.log = .visit m.e i s :: w.log) ∨ (items[i]? = none ∧ w'.ub = some .endDeref)) := by
  obtain ⟨-, -, -, hst⟩ := step_call hst
  simp only [userOp] at hst
  split at hst
  · rename_i e g args b pos acc rest hst'
    obtain ⟨m1, vs', a0, hok⟩ := h.full.t.ok t ⟨none, ⟨e, g, .custom, args⟩, .iter b pos acc⟩
      (by rw [hst']; simp [acts])
    have h1 : Event.snap m1 (w.blks b) ∈ w.log :=
      (mem_trace.1 (show Event.snap m1 (w.blks b) ∈ trace w.log e by rw [hok.tr]; simp)).1
    have h2 : m1.e = e := hok.e
    have h3 : m1.comb = .custom := hok.comb
    refine ⟨m1, _, h1, h3, ?_⟩
    rw [h2]
    split at hst
    · rename_i s hs
      injection hst with hst; subst hst
      exact .inl ⟨s, hs, rfl⟩
    · rename_i hs
      injection hst with hst; subst hst
      exact .inr ⟨hs, rfl⟩
  · cases hst

namespace Demo
/-- A user combiner dereferences position 1 twice and never position 0. -/
def pick : List Label :=
  [.call 0 (.newSig false)] ++ connect 0 10 0 ++ connect 0 11 1 ++ [.call 0 (.emit 0 .custom [])] ++ go 0 4 ++
  [.call 0 (.combDeref 1)] ++ go 0 3 ++ [.ret 0 5, .call 0 (.combDeref 1)] ++ go 0 3 ++
  [.throw 0 true, .call 0 (.combDone (some 9))]
end Demo

example : trace (Demo.world 1 Demo.pick).log 0 =
    [.began 0 ⟨0, 0, .custom, []⟩, .snap ⟨0, 0, .custom, []⟩ [0, 1],
     .visit 0 1 1, .enter 0 1 [], .exit 0 1 (some 5), .visit 0 1 1, .enter 0 1 [], .threw 0 1,
     .done 0 (some 9)] := by
  decide +kernel

/-! ### C39 -/

/-- C39: no two emissions share a number; so the trace of an emission has only its own events. -/
theorem C39_ids (h : Reachable E w) {t t' : Tid} {m m' : Em} (h1 : Event.began t m ∈ w.log)
    (h2 : Event.began t' m' ∈ w.log) (he : m.e = m'.e) : t = t' ∧ m = m' :=
  (h.full.shape m'.e).began_eq (mem_tr h1 (by rw [← he]; rfl)) (mem_tr h2 rfl)

/-- C39: every emission ever begun, at whatever depth, is still on the stack of the thread that began it or has a
complete history of its own: its own snapshot, positions, arguments and result. -/
theorem C39_complete (h : Reachable E w) {t : Tid} {m : Em} (h1 : Event.began t m ∈ w.log) :
    (∃ a, a ∈ acts (w.stacks t) ∧ a.m.e = m.e) ∨
      Complete (fun s => (w.slots s).consume) (fun g => (w.sigs g).isVoid) m.e (trace w.log m.e) := by
  have hm := mem_tr h1 (e := m.e) rfl
  have hlt : m.e < w.nEm := by
    rcases Nat.lt_or_ge m.e w.nEm with h2 | h2
    · exact h2
    · rw [h.full.t.old _ h2] at hm; cases hm
  rcases h.full.t.fin _ hlt with ⟨t', a, ha, he⟩ | h2
  · left
    have hb : ∃ m', Event.began t' m' ∈ w.log ∧ m'.e = m.e := by
      have := h.full.t.ok t' a ha
      unfold ActOk at this
      split at this
      · obtain ⟨m0, vs, a0, hok⟩ := this
        refine ⟨m0, (mem_trace.1 (show _ ∈ trace w.log a.m.e by rw [hok.tr]; simp)).1, ?_⟩
        rw [hok.e, he]
      · exact ⟨a.m, (mem_trace.1 (show _ ∈ trace w.log a.m.e by rw [this.2]; simp)).1, he⟩
    obtain ⟨m', hm', he'⟩ := hb
    obtain ⟨rfl, -⟩ := C39_ids h h1 hm' he'.symm
    exact ⟨a, ha, he⟩
  · exact .inr h2

/-- A step leaves all frames of the thread in place, or replaces its topmost activation. -/
inductive StackStep (w : World) (t : Tid) (w' : World) : Prop where
  | push (top : List Frame) (h : w'.stacks t = top ++ w.stacks t)
  | lib (f : Frame) (top rest : List Frame) (h : w.stacks t = f :: rest) (hf : f.isCall = false)
      (h' : w'.stacks t = top ++ rest)
  | call (s : SlotId) (pc : CallPc) (m : Em) (p : EmitPc) (top rest : List Frame)
      (h : w.stacks t = .call s pc :: .emit m p :: rest) (h' : w'.stacks t = top ++ rest)
      (hb : (∃ o, pc = .body o) → w'.log.head? = some (.threw m.e s) ∨ w'.log.head? = some (.aborted m.e) ∨
        ∃ r, w'.log.head? = some (.exit m.e s r))

theorem stack_step {t : Tid} (hr : StepR E w t w') : StackStep w t w' := by
  have me : ∀ {w' : World} {st : List Frame}, w'.stacks = upd w.stacks t st → w'.stacks t = st := by
    intro w' st h; rw [h, upd_apply, if_pos rfl]
  cases hr
  case ub => exact .push [] rfl
  case hand => exact .push [] rfl
  case flag => exact .push [] rfl
  case objs => exact .push [] rfl
  case pins => exact .push [] rfl
  case newSig => exact .push [] rfl
  case destroy => exact .push [] rfl
  case discFail => exact .push [] rfl
  case movStart => exact .push [_] (me rfl)
  case connStart => exact .push [_] (me rfl)
  case emitStart => exact .push [_] (me rfl)
  case eraseStart => exact .push [_] (me rfl)
  case discPush => exact .push [_] (me rfl)
  case acq f f' rest g hst hf ha hm =>
    refine .lib f [f'] rest hst ?_ (me rfl)
    unfold Frame.acq at hf; split at hf <;> first | rfl | cases hf
  case tst f f' rest g b hst hf hl =>
    refine .lib f [f'] rest hst ?_ (me rfl)
    unfold Frame.tst at hf; split at hf <;> first | rfl | cases hf
  case det f f' rest g b hst hf hl =>
    refine .lib f [f'] rest hst ?_ (me ?_)
    · unfold Frame.det at hf; split at hf <;> first | rfl | cases hf
    · rfl
  case callUnblk hst _ => exact .call _ _ _ _ [_, _] _ hst (me rfl) (by rintro ⟨o, h⟩; cases h)
  case callConn hst _ _ => exact .call _ _ _ _ [_, _] _ hst (me rfl) (by rintro ⟨o, h⟩; cases h)
  case callConnT hst _ _ => exact .call _ _ _ _ [_, _] _ hst (me rfl) (by rintro ⟨o, h⟩; cases h)
  case callLock hst _ => exact .call _ _ _ _ [_, _] _ hst (me rfl) (by rintro ⟨o, h⟩; cases h)
  case callSkip s pc why m b pos acc rest hst hpc =>
    refine .call _ _ _ _ [_] _ hst (me rfl) ?_
    rintro ⟨o, rfl⟩
    rcases hpc with ⟨h, -⟩ | ⟨h, -⟩ | ⟨o, h, -⟩ <;> cases h
  case callExpired hst _ => exact .call _ _ _ _ [_] _ hst (me rfl) (by rintro ⟨o, h⟩; cases h)
  case callEnter s pc o m b pos acc rest hst hpc =>
    refine .call _ _ _ _ [_, _] _ hst (me rfl) ?_
    rintro ⟨o, rfl⟩
    rcases hpc with ⟨h, -⟩ | ⟨o, h, -⟩ <;> cases h
  case callRet hst hr => exact .call _ _ _ _ [_] _ hst (me rfl) fun _ => .inr (.inr ⟨_, rfl⟩)
  case callCatch hst hc => exact .call _ _ _ _ [_] _ hst (me rfl) fun _ => .inl rfl
  case callThrow hst => exact .call _ _ _ _ [] _ hst (me rfl) fun _ => .inr (.inl rfl)
  case emSupp hst _ _ => exact .lib _ [] _ hst rfl (me rfl)
  case emPass hst _ _ => exact .lib _ [_] _ hst rfl (me rfl)
  case emCopy hst => exact .lib _ [_] _ hst rfl (me rfl)
  case emSnap hst => exact .lib _ [_] _ hst rfl (me rfl)
  case emCall hst _ _ => exact .lib _ [_, _] _ hst rfl (me rfl)
  case emDone hst _ => exact .lib _ [] _ hst rfl (me rfl)
  case combThrow hst _ => exact .lib _ [] _ hst rfl (me rfl)
  case addWrite hst _ => exact .lib _ [_] _ hst rfl (me rfl)
  case addUnlock hst _ => exact .lib _ [] _ hst rfl (me rfl)
  case eraseEnd hst _ _ => exact .lib _ [_] _ hst rfl (me rfl)
  case eraseThrow hst _ _ _ => exact .lib _ [_] _ hst rfl (me rfl)
  case eraseHit g tgt i cnt rest b s hst _ _ _ =>
    refine .lib _ [.erase g tgt (.scan i (cnt + 1))] _ hst rfl (me ?_)
    unfold removeAt; split <;> rfl
  case eraseMiss hst _ _ _ => exact .lib _ [_] _ hst rfl (me rfl)
  case fail hst hf => exact .lib _ [] _ hst (Frame.allocs_isCall hf) (me rfl)
  case eraseUnlock hst => exact .lib _ [] _ hst rfl (me rfl)
  case exchTrue hst _ => exact .lib _ [_] _ hst rfl (me rfl)
  case exchFalse hst _ _ => exact .lib _ [] _ hst rfl (me rfl)
  case discWrite s v k rest g b hst _ _ =>
    refine .lib _ [.disc s k (.crit g .unlock)] _ hst rfl (me ?_)
    unfold removeAt; split <;> rfl
  case discMiss hst _ _ => exact .lib _ [_] _ hst rfl (me rfl)
  case discUnlock hst => exact .lib _ [_] _ hst rfl (me rfl)
  case discDrop hst _ => exact .lib _ [] _ hst rfl (me rfl)
  case movWrite hst => exact .lib _ [_] _ hst rfl (me rfl)
  case movUnlock hst => exact .lib _ [] _ hst rfl (me rfl)

/-- C39: while a listener runs, nothing it does (in particular, emitting again) and nothing another thread does
touches the activation that called it nor anything below: the stack up to and including the listener's own
activation stays the same until the listener itself returns or throws. -/
theorem C39_outer (hst : step E w l = some w') {t : Tid} {s : SlotId} {o : Option ObjId} {m : Em} {p : EmitPc}
    {above rest : List Frame} (hf : w.stacks t = above ++ .call s (.body o) :: .emit m p :: rest) :
    (∃ above', w'.stacks t = above' ++ .call s (.body o) :: .emit m p :: rest) ∨
    (above = [] ∧ l.tid = t ∧ (w'.log.head? = some (.threw m.e s) ∨ w'.log.head? = some (.aborted m.e) ∨
        ∃ r, w'.log.head? = some (.exit m.e s r))) := by
  obtain ⟨-, -, hR⟩ := step_inv hst
  by_cases ht : l.tid = t
  · subst ht
    cases stack_step hR with
    | push top h => exact .inl ⟨top ++ above, by rw [h, hf]; simp⟩
    | lib f top rest' h hf' h' =>
      rw [hf] at h
      cases above with
      | nil => injection h with h1 h2; subst h1; simp [Frame.isCall] at hf'
      | cons x above =>
        injection h with h1 h2
        exact .inl ⟨top ++ above, by rw [h', ← h2]; simp⟩
    | call s' pc' m' p' top rest' h h' hb =>
      rw [hf] at h
      match above, h with
      | [], h =>
        injection h with h1 h2
        injection h1 with h3 h4
        injection h2 with h5 h6
        injection h5 with h7 h8
        subst h3 h4 h7
        exact .inr ⟨rfl, rfl, hb ⟨o, rfl⟩⟩
      | [x], h => injection h with h1 h2; injection h2 with h3 h4; cases h3
      | x :: y :: above, h =>
        injection h with h1 h2
        injection h2 with h3 h4
        exact .inl ⟨top ++ above, by rw [h', ← h4]; simp⟩
  · exact .inl ⟨above, by rw [stacks_other hR (fun h => ht h.symm), hf]⟩

namespace Demo
/-- A listener of signal 0 emits signal 0 again; the inner emission has finished, the outer one goes on. -/
def nest : List Label :=
  [.call 0 (.newSig false)] ++ connect 0 10 0 ++ connect 0 11 1 ++
  [.call 0 (.emit 0 .lastValue [⟨1, false, false⟩])] ++ go 0 8 ++
  [.call 0 (.emit 0 .lastValue [⟨2, false, false⟩])] ++ go 0 8 ++ [.ret 0 21] ++ go 0 4 ++ [.ret 0 22] ++ go 0 1 ++
  [.ret 0 11] ++ go 0 4 ++ [.ret 0 12] ++ go 0 1
end Demo

-- the stack in the middle of the inner emission, and the separate histories of the two
example : (Demo.world 1 (Demo.nest.take 29)).stacks 0 =
    [.call 0 (.body none), .emit ⟨1, 0, .lastValue, [⟨2, false, false⟩]⟩ (.iter 0 0 none),
     .call 0 (.body none), .emit ⟨0, 0, .lastValue, [⟨1, false, false⟩]⟩ (.iter 0 0 none)] ∧
    (trace (Demo.world 1 Demo.nest).log 0).filterMap Event.exitVal = [11, 12] ∧
    (trace (Demo.world 1 Demo.nest).log 1).filterMap Event.exitVal = [21, 22] ∧
    Event.done 0 (some 12) ∈ (Demo.world 1 Demo.nest).log ∧ Event.done 1 (some 22) ∈ (Demo.world 1 Demo.nest).log := by
  decide +kernel

/-! ### C26 -/

/-- C26: a listener that throws: the exception leaves the emission and reaches the user code that emitted (its stack
is that before the emission), the thread holds no mutex, no listener, list, flag or handle has changed, and neither
have the other threads. -/
theorem C26_throw (h : Reachable E w) {t : Tid} (hst : step E w (.throw t false) = some w') :
    ∃ s o m b pos acc rest, w.stacks t = .call s (.body o) :: .emit m (.iter b pos acc) :: rest ∧
      w'.stacks t = rest ∧ userCtx rest = true ∧
      w'.log = .aborted m.e :: .threw m.e s :: w.log ∧
      (∀ g, (w'.sigs g).mutex ≠ some t) ∧ w'.ub = none ∧
      w'.slots = w.slots ∧ w'.sigs = w.sigs ∧ (∀ g, w'.listOf g = w.listOf g) ∧
      w'.cv = w.cv ∧ w'.sv = w.sv ∧ w'.bv = w.bv ∧ w'.objs = w.objs ∧
      ∀ t', t' ≠ t → w'.stacks t' = w.stacks t' := by
  obtain ⟨h1, h2, s, o, m, b, pos, acc, rest, h3, h4⟩ := step_throw hst
  rcases h4 with ⟨-, h4⟩ | ⟨h4, -⟩
  · have hok := h.full.i.i1.stk t
    rw [h3] at hok
    have hus := hok.callTail
    have hI' := (h.step hst).full.i.i1
    subst h4
    have hs' : (((w.setStack t rest).emitEv (.threw m.e s)).emitEv (.aborted m.e)).stacks t = rest := by
      show upd w.stacks t rest t = rest
      rw [upd_apply, if_pos rfl]
    refine ⟨s, o, m, b, pos, acc, rest, h3, hs', ?_, rfl, ?_, h1, rfl, rfl, fun _ => rfl, rfl, rfl, rfl, rfl, ?_⟩
    · cases hus with
      | nil => rfl
      | body => rfl
      | comb m _ _ _ _ hc => obtain ⟨_, _, _, _⟩ := m; simp only at hc; subst hc; rfl
    · intro g hg
      rw [hI'.mtx] at hg
      rw [hs', hus.topLocks] at hg
      cases hg
    · intro t' ht'
      show upd w.stacks t rest t' = w.stacks t'
      rw [upd_apply, if_neg ht']
  · cases h4

/-- C26: once the exception has left an emission, nothing more is ever done by it: in particular no later listener
is called. -/
theorem C26_last (h : Reachable E w) {e : EmId} {post pre : List Event} (hl : w.log = post ++ .aborted e :: pre) :
    ∀ ev ∈ post, ev.em ≠ some e := aborted_last h hl

/-- C26: with the default combiner, the exception of a listener always leaves the emission. -/
theorem C26_leaves (h : Reachable E w) {t : Tid} {m : Em} {s : SlotId} (hb : Event.began t m ∈ w.log)
    (hc : m.comb = .lastValue) (hx : Event.threw m.e s ∈ w.log) : Event.aborted m.e ∈ w.log := by
  have hm := mem_tr hx (e := m.e) rfl
  obtain ⟨m', items, hs⟩ := (h.full.shape m.e).has_snap hm (by intro t m h; cases h)
  obtain ⟨t', vs, args, tail, he, hv, htl, htr⟩ := (h.full.shape m.e).of_snap hs
  obtain ⟨-, rfl⟩ := began_of h hb rfl htr
  rw [htr] at hm
  simp only [List.mem_cons, List.mem_append, reduceCtorEq, false_or] at hm
  have key : (∀ v ∈ vs, v.calm) → Event.threw m'.e s ∉ vs.flatMap (·.events m'.e) := by
    intro hk hm
    obtain ⟨v, hvv, hm⟩ := List.mem_flatMap.1 hm
    rcases visit_events_em hm with hm | ⟨_, -, hm⟩ | ⟨_, -, hm⟩ | ⟨_, _, -, hm⟩ | ⟨_, ho, hm⟩ <;> cases hm
    have := hk v hvv
    simp [Visit.calm, ho] at this
  have fin : Event.aborted m'.e ∈ trace w.log m'.e := by
    rw [htr]
    rcases hm with hm | hm
    · cases htl with
      | idle hk => exact absurd hm (key (hk hc))
      | visit _ _ _ _ hk => exact absurd hm (key (hk hc))
      | enter _ _ _ _ hk => exact absurd hm (key (hk hc))
      | done _ hd => exact absurd hm (key (hd hc).2.2)
      | aborted hd => simp
    · cases htl <;> simp at hm
  exact (mem_trace.1 fin).1

namespace Demo
/-- The first of two listeners throws; the signal is then emitted again. -/
def throwing : List Label :=
  [.call 0 (.newSig false)] ++ connect 0 10 0 ++ connect 0 11 1 ++
  [.call 0 (.emit 0 .lastValue [])] ++ go 0 8 ++ [.throw 0 false] ++
  [.call 0 (.emit 0 .lastValue [])] ++ go 0 8 ++ [.ret 0 1] ++ go 0 4 ++ [.ret 0 2] ++ go 0 1
end Demo

example : trace (Demo.world 1 Demo.throwing).log 0 =
      [.began 0 ⟨0, 0, .lastValue, []⟩, .snap ⟨0, 0, .lastValue, []⟩ [0, 1], .visit 0 0 0, .enter 0 0 [], .threw 0 0,
        .aborted 0] ∧
    (Demo.world 1 Demo.throwing).log.head? = some (.done 1 (some 2)) ∧
    (trace (Demo.world 1 Demo.throwing).log 1).filterMap Event.entered = [0, 1] := by decide +kernel

end Verif
