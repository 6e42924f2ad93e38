import Verif.Props.Lists

/-!
# C07, C08, C09, C27, C38: what an emission does
-/

namespace Verif

variable {E : Env} {w w' : World}

/-! ### Observations on traces -/

/-- The positions and listeners dereferenced. -/
def Event.visited : Event → Option (Nat × SlotId)
  | .visit _ i s => some (i, s)
  | _ => none

/-- The listener whose callable is called. -/
def Event.entered : Event → Option SlotId
  | .enter _ s _ => some s
  | _ => none

/-- The value with which a callable returned. -/
def Event.exitVal : Event → Option Val
  | .exit _ _ r => r
  | _ => none

theorem visits_visited {e : EmId} (vs : List Visit) :
    (vs.flatMap (·.events e)).filterMap Event.visited = vs.map fun v => (v.pos, v.slot) := by
  induction vs with
  | nil => rfl
  | cons v vs ih =>
    rw [List.flatMap_cons, List.filterMap_append, ih]
    unfold Visit.events
    split <;> rfl

theorem visits_exitVal {e : EmId} (vs : List Visit) :
    (vs.flatMap (·.events e)).filterMap Event.exitVal = (vs.map (·.result)).filterMap id := by
  induction vs with
  | nil => rfl
  | cons v vs ih =>
    rw [List.flatMap_cons, List.filterMap_append, ih, List.map_cons]
    unfold Visit.events Visit.result
    split <;> rename_i h <;> simp only [h, List.filterMap_cons, Event.exitVal, List.filterMap_nil, id]
    · rfl
    · split <;> simp
    · rfl

theorem visits_entered {e : EmId} (vs : List Visit) :
    ((vs.flatMap (·.events e)).filterMap Event.entered).Sublist (vs.map (·.slot)) := by
  induction vs with
  | nil => simp
  | cons v vs ih =>
    rw [List.flatMap_cons, List.filterMap_append, List.map_cons]
    unfold Visit.events
    split
    · exact ih.cons _
    · exact ih.cons₂ _
    · exact ih.cons₂ _

/-- The visits of the default combiner. -/
theorem Emitted.dflt {c : SlotId → List Bool} {b : Bool} {m : Em} {items : List SlotId} {vs : List Visit} {args : List Arg}
    (h : Emitted c b m items vs args) (hc : m.comb = .lastValue) :
    vs.map (·.pos) = List.range vs.length ∧ vs.map (·.slot) = items.take vs.length := by
  have ho := h.order hc
  refine ⟨ho, ?_⟩
  have hpos : ∀ (i : Nat) (v : Visit), vs[i]? = some v → v.pos = i := by
    intro i v hv
    have h1 : (vs.map (·.pos))[i]? = some v.pos := by simp [hv]
    rw [ho] at h1
    have hlt : i < vs.length := (List.getElem?_eq_some_iff.1 hv).1
    simp [hlt] at h1
    exact h1.symm
  apply List.ext_getElem?
  intro i
  by_cases hi : i < vs.length
  · rw [List.getElem?_take_of_lt hi, List.getElem?_map, List.getElem?_eq_getElem hi]
    have h1 := hpos i vs[i] (List.getElem?_eq_getElem hi)
    have h2 := h.here vs[i] (List.getElem_mem hi)
    rw [h1] at h2
    simp [h2]
  · rw [List.getElem?_eq_none (by simpa using hi), List.getElem?_eq_none (by simp; omega)]

theorem mem_tr {log : List Event} {ev : Event} {e : EmId} (h : ev ∈ log) (he : ev.em = some e) :
    ev ∈ trace log e := mem_trace.2 ⟨h, he⟩

theorem no_done_visits {e : EmId} {vs : List Visit} {r : Option Val} : Event.done e r ∉ vs.flatMap (·.events e) := by
  intro h
  obtain ⟨v, -, h⟩ := List.mem_flatMap.1 h
  rcases visit_events_em h with h | ⟨_, -, h⟩ | ⟨_, -, h⟩ | ⟨_, _, -, h⟩ | ⟨_, -, h⟩ <;> cases h

/-- The history of an emission that has returned. -/
theorem done_shape (h : Reachable E w) {e : EmId} {r : Option Val} (hd : Event.done e r ∈ w.log) :
    ∃ t m items vs args, m.e = e ∧
      Emitted (fun s => (w.slots s).consume) (w.sigs m.g).isVoid m items vs args ∧
      (m.comb = .lastValue →
        vs.length = items.length ∧ r = lastEngaged (vs.map (·.result)) ∧ ∀ v ∈ vs, v.calm) ∧
      Event.snap m items ∈ w.log ∧
      trace w.log e = .began t m :: .snap m items :: (vs.flatMap (·.events e) ++ [.done e r]) := by
  have hm := mem_tr hd (e := e) rfl
  obtain ⟨m, items, hs⟩ := (h.full.shape e).has_snap hm (by intro t m h; cases h)
  obtain ⟨t, vs, args, tail, he, hv, htl, e1⟩ := (h.full.shape e).of_snap hs
  refine ⟨t, m, items, vs, args, he, hv, ?_, (mem_trace.1 hs).1, ?_⟩ <;> rw [e1] at hm <;>
    simp only [List.mem_cons, List.mem_append, reduceCtorEq, false_or] at hm <;>
    rcases hm with hm | hm
  · exact absurd hm no_done_visits
  · cases htl <;> simp at hm
    rename_i r' hd; subst hm; exact hd
  · exact absurd hm no_done_visits
  · cases htl <;> simp at hm
    rename_i r' hd; subst hm; exact e1

theorem began_of {e : EmId} {t : Tid} {m : Em} (h : Reachable E w) (hb : Event.began t m ∈ w.log) (he : m.e = e)
    {t' : Tid} {m' : Em} {tr : List Event} (htr : trace w.log e = .began t' m' :: tr) : t' = t ∧ m' = m := by
  have m1 := mem_tr hb (e := e) (by subst he; rfl)
  exact (h.full.shape e).began_eq (by rw [htr]; simp) m1

/-! ### C07 -/

/-- C07: an emission with the default combiner that has returned took a snapshot, which was the signal's list at that
moment of the history, and visited exactly the listeners in it, in order, each once. -/
theorem C07 (h : Reachable E w) {t : Tid} {m : Em} {r : Option Val} (hb : Event.began t m ∈ w.log)
    (hd : Event.done m.e r ∈ w.log) (hc : m.comb = .lastValue) :
    ∃ post pre items, w.log = post ++ .snap m items :: pre ∧ items = replay pre m.g ∧
      (trace w.log m.e).filterMap Event.visited = (List.range items.length).zip items := by
  obtain ⟨t', m', items, vs, args, he, hv, hdd, hs, htr⟩ := done_shape h hd
  obtain ⟨-, rfl⟩ := began_of h hb rfl htr
  obtain ⟨post, pre, hl⟩ := List.append_of_mem hs
  refine ⟨post, pre, items, hl, (h.full.h.at hl).1, ?_⟩
  obtain ⟨h1, h2⟩ := hv.dflt hc
  obtain ⟨h3, -⟩ := hdd hc
  rw [htr]
  simp only [List.filterMap_cons, Event.visited, List.filterMap_append, visits_visited, List.filterMap_nil, List.append_nil]
  rw [h3, List.take_length] at h2
  rw [← h3, ← h1, ← h2, List.zip_map']

/-- The snapshot is the list the signal has at the very step that takes it. -/
theorem C07_snapshot_now (h : Reachable E w) {l : Label} (hst : step E w l = some w') {m : Em}
    {items : List SlotId} (hl : w'.log = .snap m items :: w.log) : items = w.listOf m.g := by
  have h' : Reachable E w' := let ⟨n, h⟩ := h; ⟨n, h.tail l trivial hst⟩
  rw [C20_serial h]
  exact (h'.full.h.at (post := []) hl).1

/-- At every moment, finished or not, the callables an emission with the default combiner has called belong to
listeners of its snapshot, in that order, each at most once. -/
theorem C07_calls (h : Reachable E w) {m : Em} {items : List SlotId} (hs : Event.snap m items ∈ w.log)
    (hc : m.comb = .lastValue) :
    ((trace w.log m.e).filterMap Event.entered).Sublist items := by
  obtain ⟨t, vs, args, tail, -, hv, htl, e1⟩ := (h.full.shape m.e).of_snap (mem_tr hs rfl)
  rw [e1]
  simp only [List.filterMap_cons, Event.entered, List.filterMap_append]
  obtain ⟨-, h2⟩ := hv.dflt hc
  have h3 : ((vs.flatMap (·.events m.e)).filterMap Event.entered).Sublist (items.take vs.length) :=
    h2 ▸ visits_entered vs
  have fin : tail.filterMap Event.entered = [] →
      ((vs.flatMap (·.events m.e)).filterMap Event.entered ++ tail.filterMap Event.entered).Sublist items := by
    intro e; rw [e, List.append_nil]; exact h3.trans (List.take_sublist _ _)
  cases htl with
  | enter i s hi ho =>
    have := ho hc
    subst this
    have h4 : items.take (vs.length + 1) = items.take vs.length ++ [s] := by
      rw [List.take_add_one, hi]; rfl
    refine List.Sublist.trans ?_ (List.take_sublist (vs.length + 1) items)
    rw [h4]
    exact h3.append (List.Sublist.refl [s])
  | idle => exact fin rfl
  | visit => exact fin rfl
  | done => exact fin rfl
  | aborted => exact fin rfl

/-- Whatever the combiner, an emission calls only listeners of its snapshot. -/
theorem C07_only (h : Reachable E w) {e : EmId} {s : SlotId} {a : List Arg} (hm : Event.enter e s a ∈ w.log) :
    ∃ m items, m.e = e ∧ Event.snap m items ∈ w.log ∧ s ∈ items := by
  have hm := mem_tr hm (e := e) rfl
  obtain ⟨m, items, hs⟩ := (h.full.shape e).has_snap hm (by intro t m h; cases h)
  obtain ⟨t, vs, args, tail, he, hv, htl, e1⟩ := (h.full.shape e).of_snap hs
  refine ⟨m, items, he, (mem_trace.1 hs).1, ?_⟩
  rw [e1] at hm
  simp only [List.mem_cons, List.mem_append, reduceCtorEq, false_or] at hm
  rcases hm with hm | hm
  · obtain ⟨v, hvv, hm⟩ := List.mem_flatMap.1 hm
    have := hv.here v hvv
    rcases visit_events_em hm with hm | ⟨_, -, hm⟩ | ⟨_, -, hm⟩ | ⟨_, _, -, hm⟩ | ⟨_, -, hm⟩ <;> cases hm
    exact List.mem_of_getElem? this
  · cases htl <;> simp at hm
    obtain ⟨rfl, -⟩ := hm
    exact List.mem_of_getElem? (by assumption)

namespace Demo
/-- Three listeners; 1 is blocked; during the call of 0, listener 3 is connected and listener 2 disconnected. -/
def busy : List Label :=
  [.call 0 (.newSig false)] ++ connect 0 10 0 ++ connect 0 11 1 ++ connect 0 12 2 ++ connect 0 14 4 ++
  [.call 0 (.block (.conn 1)), .call 0 (.emit 0 .lastValue [])] ++ go 0 8 ++
  connect 0 13 3 ++ go 0 1 ++ [.call 0 (.disconnect (.conn 2))] ++ go 0 6 ++ [.ret 0 7] ++ go 0 9 ++ [.ret 0 8] ++ go 0 1
end Demo

example : (trace (Demo.world 1 Demo.busy).log 0).filterMap Event.visited = [(0, 0), (1, 1), (2, 2), (3, 3)] ∧
    (trace (Demo.world 1 Demo.busy).log 0).filterMap Event.entered = [0, 3] ∧
    (trace (Demo.world 1 Demo.busy).log 0).filterMap Event.exitVal = [7, 8] ∧
    Event.began 0 ⟨0, 0, .lastValue, []⟩ ∈ (Demo.world 1 Demo.busy).log ∧
    Event.snap ⟨0, 0, .lastValue, []⟩ [0, 1, 2, 3] ∈ (Demo.world 1 Demo.busy).log ∧
    Event.done 0 (some 8) ∈ (Demo.world 1 Demo.busy).log ∧ (Demo.world 1 Demo.busy).listOf 0 = [0, 1, 4, 3] := by
  decide +kernel

/-! ### C08 -/

/-- C08: a completed emission with the default combiner returns the result of the last listener that returned one. -/
theorem C08 (h : Reachable E w) {t : Tid} {m : Em} {r : Option Val} (hb : Event.began t m ∈ w.log)
    (hd : Event.done m.e r ∈ w.log) (hc : m.comb = .lastValue) :
    r = ((trace w.log m.e).filterMap Event.exitVal).getLast? := by
  obtain ⟨t', m', items, vs, args, he, hv, hdd, hs, htr⟩ := done_shape h hd
  obtain ⟨-, rfl⟩ := began_of h hb rfl htr
  obtain ⟨-, h4, -⟩ := hdd hc
  rw [htr]
  simp only [List.filterMap_cons, Event.exitVal, List.filterMap_append, visits_exitVal, List.filterMap_nil, List.append_nil]
  exact h4

/-- The result of a call is engaged, unless the signal returns `void`. -/
theorem C08_engaged (h : Reachable E w) {t : Tid} {m : Em} {s : SlotId} {x : Option Val}
    (hb : Event.began t m ∈ w.log) (hx : Event.exit m.e s x ∈ w.log) :
    x = none ↔ (w.sigs m.g).isVoid = true := by
  have hm := mem_tr hx (e := m.e) rfl
  obtain ⟨m', items, hs⟩ := (h.full.shape m.e).has_snap hm (by intro t m h; cases h)
  obtain ⟨t', vs, args, tail, he, hv, htl, e1⟩ := (h.full.shape m.e).of_snap hs
  obtain ⟨-, rfl⟩ := began_of h hb rfl e1
  rw [e1] at hm
  simp only [List.mem_cons, List.mem_append, reduceCtorEq, false_or] at hm
  rcases hm with hm | hm
  · obtain ⟨v, hvv, hm⟩ := List.mem_flatMap.1 hm
    rcases visit_events_em hm with hm | ⟨_, -, hm⟩ | ⟨_, -, hm⟩ | ⟨a, r, ho, hm⟩ | ⟨_, -, hm⟩ <;> cases hm
    exact hv.res v hvv a _ ho
  · cases htl <;> simp at hm

/-- C08: the emission returns a disengaged optional iff no listener ran to its end, or the signal returns `void`. -/
theorem C08_none (h : Reachable E w) {t : Tid} {m : Em} {r : Option Val} (hb : Event.began t m ∈ w.log)
    (hd : Event.done m.e r ∈ w.log) (hc : m.comb = .lastValue) :
    r = none ↔ (w.sigs m.g).isVoid = true ∨ ∀ s x, Event.exit m.e s x ∉ w.log := by
  have h1 := C08 h hb hd hc
  rw [h1, List.getLast?_eq_none_iff, List.filterMap_eq_nil_iff]
  constructor
  · intro ha
    by_cases hv : (w.sigs m.g).isVoid = true
    · exact .inl hv
    · refine .inr fun s x hx => ?_
      have := ha _ (mem_tr hx rfl)
      simp only [Event.exitVal] at this
      exact hv ((C08_engaged h hb hx).1 this)
  · intro ha ev hev
    obtain ⟨h2, h3⟩ := mem_trace.1 hev
    cases ev <;> simp only [Event.exitVal]
    rename_i e s x
    simp [Event.em] at h3; subst h3
    rcases ha with ha | ha
    · exact (C08_engaged h hb h2).2 ha
    · exact absurd h2 (ha s x)

namespace Demo
/-- All listeners are blocked. -/
def mute : List Label :=
  [.call 0 (.newSig false)] ++ connect 0 10 0 ++ connect 0 11 1 ++ [.call 0 (.block (.conn 1)), .call 0 (.block (.conn 0)),
    .call 0 (.emit 0 .lastValue [])] ++ go 0 9
end Demo

example : Event.done 0 none ∈ (Demo.world 1 Demo.mute).log ∧ (trace (Demo.world 1 Demo.mute).log 0).length = 7 := by
  decide +kernel

/-! ### C09 -/

theorem mem_replay {log : List Event} {g : SigId} {s : SlotId} (h : s ∈ replay log g) :
    0 < log.countP (Event.adds s) := by
  have tk : ∀ v (l : List SlotId), s ∈ takeOut v l → s ∈ l := by
    intro v l h
    unfold takeOut at h
    have h := List.dropLast_subset _ h
    obtain ⟨x, hx, e⟩ := List.mem_map.1 h
    split at e
    · subst e
      rw [List.getLastD_eq_getLast?]
      cases hl : l.getLast? with
      | none => rw [List.getLast?_eq_none_iff] at hl; subst hl; cases hx
      | some y => exact List.mem_of_getLast? hl
    · subst e; exact hx
  induction log generalizing g with
  | nil => cases h
  | cons ev log ih =>
    rw [List.countP_cons]
    have key : ∀ g, s ∈ replay log g → 0 < log.countP (Event.adds s) + if Event.adds s ev = true then 1 else 0 :=
      fun g h => Nat.lt_of_lt_of_le (ih h) (Nat.le_add_right _ _)
    cases ev <;> simp only [replay] at h <;> try exact key g h
    case added g' s' =>
      rw [upd_apply] at h
      split at h
      · rcases List.mem_append.1 h with h | h
        · exact key _ h
        · simp at h; simp [Event.adds, h]
      · exact key _ h
    case removed g' r v =>
      rw [upd_apply] at h
      split at h
      · exact key _ (tk _ _ h)
      · exact key _ h
    case erased g' v =>
      rw [upd_apply] at h
      split at h
      · exact key _ (tk _ _ h)
      · exact key _ h
    case moved g1 g2 =>
      rw [upd_apply] at h
      split at h
      · cases h
      · rw [upd_apply] at h
        split at h <;> exact key _ h
    case destroyed g1 =>
      rw [upd_apply] at h
      split at h
      · cases h
      · exact key _ h

/-- C09: a listener whose `connect` takes effect after the snapshot of an emission is never visited, let
alone called, by that emission. -/
theorem C09_late (h : Reachable E w) {m : Em} {items : List SlotId} {post pre : List Event}
    (hl : w.log = post ++ .snap m items :: pre) {g : SigId} {s : SlotId} (ha : Event.added g s ∈ post) :
    s ∉ items ∧ (∀ i, Event.visit m.e i s ∉ w.log) ∧ ∀ a, Event.enter m.e s a ∉ w.log := by
  have hs : s ∉ items := by
    rw [(h.full.h.at hl).1]
    intro hm
    have h1 := mem_replay hm
    have h2 : 0 < post.countP (Event.adds s) := List.countP_pos_iff.2 ⟨_, ha, by simp [Event.adds]⟩
    have h3 := h.full.i.i3.adds s
    rw [hl, List.countP_append, List.countP_cons] at h3
    omega
  refine ⟨hs, ?_, ?_⟩
  · intro i hv
    obtain ⟨t, vs, args, tail, he, hv', htl, e1⟩ := (h.full.shape m.e).of_snap
      (mem_tr (by rw [hl]; simp) rfl : Event.snap m items ∈ trace w.log m.e)
    have hm := mem_tr hv (e := m.e) rfl
    rw [e1] at hm
    simp only [List.mem_cons, List.mem_append, reduceCtorEq, false_or] at hm
    rcases hm with hm | hm
    · obtain ⟨v, hvv, hm⟩ := List.mem_flatMap.1 hm
      have := hv'.here v hvv
      rcases visit_events_em hm with hm | ⟨_, -, hm⟩ | ⟨_, -, hm⟩ | ⟨_, _, -, hm⟩ | ⟨_, -, hm⟩ <;> cases hm
      exact hs (List.mem_of_getElem? this)
    · cases htl <;> simp at hm <;> obtain ⟨rfl, rfl⟩ := hm <;> exact hs (List.mem_of_getElem? (by assumption))
  · intro a hm
    obtain ⟨m', items', he, hs', hmem⟩ := C07_only h hm
    obtain ⟨rfl, rfl⟩ := C19_one_snapshot h hs' (by rw [hl]; simp : Event.snap m items ∈ w.log) he
    exact hs hmem

/-- C09: the snapshot has exactly the listeners whose `connect` took effect before it and which were not removed
before it. -/
theorem C09_early (h : Reachable E w) {m : Em} {items : List SlotId} {post pre : List Event}
    (hl : w.log = post ++ .snap m items :: pre) (s : SlotId) : s ∈ items ↔ home pre s = some m.g :=
  (h.full.h.at hl).2 s

-- listener 4 is connected during the emission over [0, 1, 2, 3] by the callable of 0
example : ∃ post pre, (Demo.world 1 Demo.busy).log = post ++ .snap ⟨0, 0, .lastValue, []⟩ [0, 1, 2, 3] :: pre ∧
    Event.added 0 4 ∈ post :=
  ⟨(Demo.world 1 Demo.busy).log.takeWhile (· ≠ .snap ⟨0, 0, .lastValue, []⟩ [0, 1, 2, 3]),
    (Demo.world 1 Demo.busy).log.drop ((Demo.world 1 Demo.busy).log.idxOf (.snap ⟨0, 0, .lastValue, []⟩ [0, 1, 2, 3]) + 1),
    by decide +kernel, by decide +kernel⟩

/-! ### C38 -/

/-- C38: no emission is ever suppressed at signal level. -/
theorem C38 (h : Reachable E w) (e : EmId) : Event.suppressed e ∉ w.log := h.full.h.unsup e

/-- No API call sets the flag that would suppress emissions. -/
theorem C38_flag (h : Reachable E w) (g : SigId) : (w.sigs g).sblocked = false := h.full.k.sig g

-- in the model the flag would suppress the emission
example : (step Demo.E0 { Demo.world 1 (Demo.busy.take 23) with
      sigs := fun _ => ⟨some 0, none, true, true, false⟩ } (.run 0)).map (·.log.head?) =
    some (some (.suppressed 0)) := by decide +kernel

/-! ### C27 -/

/-- Only the parameters the callable takes over matter. -/
theorem passArgs_same : ∀ {c : List Bool} {a : List Arg},
    (∀ (j : Nat) (x : Arg), a[j]? = some x → c[j]? = some true → x.movable = false) → passArgs c a = a
  | [], a, _ => by simp [passArgs]
  | _ :: _, [], _ => by simp [passArgs]
  | c :: cs, x :: xs, h => by
    have h1 := h 0 x rfl
    have h2 := passArgs_same (c := cs) (a := xs) fun j y hy hc => h (j + 1) y (by simpa using hy) (by simpa using hc)
    simp only [passArgs, h2]
    cases c
    · simp
    · have := h1 rfl
      simp only [this, Bool.and_false, Bool.or_false]
      rw [← this]

/-- If nothing any visited listener does changes the tuple, all see the same tuple. -/
theorem argsThread_fixed {c : SlotId → List Bool} {a : List Arg} :
    ∀ {vs : List Visit} {a' : List Arg}, (∀ v ∈ vs, passArgs (c v.slot) a = a) → ArgsThread c a vs a' →
      a' = a ∧ ∀ v ∈ vs, ∀ x, ((∃ r, v.out = .returned x r) ∨ v.out = .threw x) → x = a
  | [], a', _, h => ⟨h.symm, by simp⟩
  | v :: vs, a', hp, h => by
    have hv := hp v (by simp)
    have hp' : ∀ v ∈ vs, passArgs (c v.slot) a = a := fun u hu => hp u (by simp [hu])
    simp only [ArgsThread] at h
    split at h
    · rename_i why ho
      obtain ⟨h1, h2⟩ := argsThread_fixed hp' h
      refine ⟨h1, ?_⟩
      intro u hu x hx
      rcases List.mem_cons.1 hu with rfl | hu
      · rw [ho] at hx; simp at hx
      · exact h2 u hu x hx
    · rename_i y r ho
      rw [hv] at h
      obtain ⟨h1, h2⟩ := argsThread_fixed hp' h.2
      refine ⟨h1, ?_⟩
      intro u hu x hx
      rcases List.mem_cons.1 hu with rfl | hu
      · rw [ho] at hx; simp at hx; rw [← hx, h.1]
      · exact h2 u hu x hx
    · rename_i y ho
      rw [hv] at h
      obtain ⟨h1, h2⟩ := argsThread_fixed hp' h.2
      refine ⟨h1, ?_⟩
      intro u hu x hx
      rcases List.mem_cons.1 hu with rfl | hu
      · rw [ho] at hx; simp at hx; rw [← hx, h.1]
      · exact h2 u hu x hx

/-- C27 (partial): every listener called by an emission receives the arguments passed to the signal, provided that
for each listener `s` it visits, the parameters taken over by the callable of `s` (`consume`) are of a type whose
move leaves the source unchanged. The unrestricted claim is false, see `C27_false`. -/
theorem C27_partial (h : Reachable E w) {t : Tid} {m : Em} (hb : Event.began t m ∈ w.log)
    (hc : ∀ i s, Event.visit m.e i s ∈ w.log →
      ∀ (j : Nat) (x : Arg), m.args[j]? = some x → (w.slots s).consume[j]? = some true → x.movable = false)
    {s : SlotId} {a : List Arg} (hm : Event.enter m.e s a ∈ w.log) : a = m.args := by
  have hm := mem_tr hm (e := m.e) rfl
  obtain ⟨m', items, hs⟩ := (h.full.shape m.e).has_snap hm (by intro t m h; cases h)
  obtain ⟨t', vs, args, tail, he, hv, htl, e1⟩ := (h.full.shape m.e).of_snap hs
  obtain ⟨-, rfl⟩ := began_of h hb rfl e1
  have hp : ∀ v ∈ vs, passArgs (w.slots v.slot).consume m'.args = m'.args := by
    intro v hvv
    refine passArgs_same (hc v.pos v.slot ?_)
    have : Event.visit m'.e v.pos v.slot ∈ trace w.log m'.e := by
      rw [e1]
      refine List.mem_cons_of_mem _ (List.mem_cons_of_mem _ (List.mem_append_left _ (List.mem_flatMap.2 ⟨v, hvv, ?_⟩)))
      unfold Visit.events
      split <;> exact List.mem_cons_self
    exact (mem_trace.1 this).1
  obtain ⟨h1, h2⟩ := argsThread_fixed (c := fun s => (w.slots s).consume) hp hv.args
  rw [e1] at hm
  simp only [List.mem_cons, List.mem_append, reduceCtorEq, false_or] at hm
  rcases hm with hm | hm
  · obtain ⟨v, hvv, hm⟩ := List.mem_flatMap.1 hm
    rcases visit_events_em hm with hm | ⟨_, -, hm⟩ | ⟨x, ho, hm⟩ | ⟨_, _, -, hm⟩ | ⟨_, -, hm⟩ <;> cases hm
    exact h2 v hvv _ ho
  · cases htl <;> simp at hm
    rw [hm.2, h1]

/-- C27 for signals all of whose parameters are references or types that moving does not change. -/
theorem C27_plain_partial (h : Reachable E w) {t : Tid} {m : Em} (hb : Event.began t m ∈ w.log)
    (hc : ∀ x ∈ m.args, x.movable = false)
    {s : SlotId} {a : List Arg} (hm : Event.enter m.e s a ∈ w.log) : a = m.args :=
  C27_partial h hb (fun _ _ _ _ x hx _ => hc x (List.mem_of_getElem? hx)) hm

/-- C27 whatever the listeners take over: the values themselves never change, only whether they are still there. -/
theorem C27_values_partial (h : Reachable E w) {t : Tid} {m : Em} (hb : Event.began t m ∈ w.log)
    {s : SlotId} {a : List Arg} (hm : Event.enter m.e s a ∈ w.log) :
    a.map (·.val) = m.args.map (·.val) ∧ ∀ x ∈ a, x.moved = true → x.movable = true ∨ x ∈ m.args := by
  have pv : ∀ (c : List Bool) (a : List Arg), (passArgs c a).map (·.val) = a.map (·.val) := by
    intro c
    induction c with
    | nil => intros; rfl
    | cons c cs ih =>
      intro a
      cases a with
      | nil => rfl
      | cons x xs => simp [passArgs, ih]
  have pm : ∀ (c : List Bool) (a : List Arg), ∀ x ∈ passArgs c a, x.moved = true → x.movable = true ∨ x ∈ a := by
    intro c
    induction c with
    | nil => intro a x hx _; exact .inr hx
    | cons c cs ih =>
      intro a x hx hmv
      cases a with
      | nil => cases hx
      | cons y ys =>
        simp only [passArgs, List.mem_cons] at hx
        rcases hx with rfl | hx
        · simp only [Bool.or_eq_true, Bool.and_eq_true] at hmv
          rcases hmv with hmv | hmv
          · by_cases hy : y.movable = true
            · exact .inl hy
            · refine .inr ?_
              simp only [Bool.not_eq_true] at hy
              simp [hy]
              rw [← hy]; exact .inl rfl
          · exact .inl hmv.2
        · rcases ih ys x hx hmv with h | h
          · exact .inl h
          · exact .inr (List.mem_cons_of_mem _ h)
  let Q (a0 a : List Arg) := a.map (·.val) = a0.map (·.val) ∧ ∀ x ∈ a, x.moved = true → x.movable = true ∨ x ∈ a0
  have key : ∀ {c : SlotId → List Bool} {a0 : List Arg} {vs : List Visit} {a a' : List Arg},
      Q a0 a → ArgsThread c a vs a' → Q a0 a' ∧
        ∀ v ∈ vs, ∀ x, ((∃ r, v.out = .returned x r) ∨ v.out = .threw x) → Q a0 x := by
    intro c a0 vs
    have nxt : ∀ s a, Q a0 a → Q a0 (passArgs (c s) a) := by
      intro s a hq
      refine ⟨(pv _ _).trans hq.1, fun x hx hmv => ?_⟩
      rcases pm _ _ x hx hmv with h | h
      · exact .inl h
      · exact hq.2 x h hmv
    induction vs with
    | nil => intro a a' hq h; simp only [ArgsThread] at h; subst h; exact ⟨hq, by simp⟩
    | cons v vs ih =>
      intro a a' hq h
      simp only [ArgsThread] at h
      split at h
      · rename_i why ho
        obtain ⟨h1, h2⟩ := ih hq h
        refine ⟨h1, fun u hu x hx => ?_⟩
        rcases List.mem_cons.1 hu with rfl | hu
        · rw [ho] at hx; simp at hx
        · exact h2 u hu x hx
      · rename_i y r ho
        obtain ⟨h1, h2⟩ := ih (nxt _ _ hq) h.2
        refine ⟨h1, fun u hu x hx => ?_⟩
        rcases List.mem_cons.1 hu with rfl | hu
        · rw [ho] at hx; simp at hx; rw [← hx, h.1]; exact hq
        · exact h2 u hu x hx
      · rename_i y ho
        obtain ⟨h1, h2⟩ := ih (nxt _ _ hq) h.2
        refine ⟨h1, fun u hu x hx => ?_⟩
        rcases List.mem_cons.1 hu with rfl | hu
        · rw [ho] at hx; simp at hx; rw [← hx, h.1]; exact hq
        · exact h2 u hu x hx
  have hm := mem_tr hm (e := m.e) rfl
  obtain ⟨m', items, hs⟩ := (h.full.shape m.e).has_snap hm (by intro t m h; cases h)
  obtain ⟨t', vs, args, tail, he, hv, htl, e1⟩ := (h.full.shape m.e).of_snap hs
  obtain ⟨-, rfl⟩ := began_of h hb rfl e1
  obtain ⟨h1, h2⟩ := key (a0 := m'.args) ⟨rfl, fun x hx _ => .inr hx⟩ hv.args
  rw [e1] at hm
  simp only [List.mem_cons, List.mem_append, reduceCtorEq, false_or] at hm
  rcases hm with hm | hm
  · obtain ⟨v, hvv, hm⟩ := List.mem_flatMap.1 hm
    rcases visit_events_em hm with hm | ⟨_, -, hm⟩ | ⟨x, ho, hm⟩ | ⟨_, _, -, hm⟩ | ⟨_, -, hm⟩ <;> cases hm
    exact h2 v hvv _ ho
  · cases htl <;> simp at hm
    rw [hm.2]; exact h1

namespace Demo
/-- `signal<int(std::string)>` with two listeners taking their parameter by value. -/
def strings : List Label :=
  [.call 0 (.newSig false)] ++ (.call 0 (.connect 0 (fn 10) [true] true false (.conn 0)) :: go 0 4) ++
  (.call 0 (.connect 0 (fn 11) [true] true false (.conn 1)) :: go 0 4) ++
  [.call 0 (.emit 0 .lastValue [⟨5, true, false⟩])] ++ go 0 8 ++ [.ret 0 1] ++ go 0 4
end Demo

/-- C27 is false: two listeners with a by-value `std::string` parameter; the second gets a moved-from string. -/
theorem C27_false : ∃ w m s a, Reachable Demo.E0 w ∧ Event.began 0 m ∈ w.log ∧ Event.enter m.e s a ∈ w.log ∧
    m.args = [⟨5, true, false⟩] ∧ a = [⟨5, true, true⟩] :=
  ⟨Demo.world 1 Demo.strings, ⟨0, 0, .lastValue, [⟨5, true, false⟩]⟩, 1, _, Demo.reach _ _, by decide +kernel,
    by decide +kernel, rfl, rfl⟩

-- the hypotheses of the partial theorems: two listeners and an `int` argument
example : ∃ w m, Reachable Demo.E0 w ∧ Event.began 0 m ∈ w.log ∧ (∀ x ∈ m.args, x.movable = false) ∧
    Event.enter m.e 0 [⟨5, false, false⟩] ∈ w.log ∧ Event.enter m.e 1 [⟨5, false, false⟩] ∈ w.log :=
  ⟨Demo.world 1 (Demo.strings.map fun l => match l with
      | .call 0 (.emit 0 .lastValue _) => .call 0 (.emit 0 .lastValue [⟨5, false, false⟩])
      | l => l), ⟨0, 0, .lastValue, [⟨5, false, false⟩]⟩, Demo.reach _ _, by decide +kernel, by decide +kernel,
    by decide +kernel, by decide +kernel⟩

end Verif
