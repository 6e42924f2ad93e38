import Verif.Mach.Shape
import Verif.Demo
import Verif.Props.ListOps

/-!
# C46, C43, C20, C40, C19: the invocation lists

Examples use thread 0 (and 1) running on one signal with a few listeners.
-/

namespace Verif

variable {E : Env} {w w' : World}

/-! ### Example executions -/

namespace Demo

/-- Four listeners; the connection of listener 1 is disconnected. -/
def four : List Label :=
  [.call 0 (.newSig false)] ++ connect 0 10 0 ++ connect 0 11 1 ++ connect 0 12 2 ++ connect 0 13 3 ++
  [.call 0 (.disconnect (.conn 1))] ++ go 0 6

/-- Thread 0 is inside the critical section of `connect`, thread 1 is waiting for the mutex to disconnect listener 0. -/
def contend : List Label :=
  [.call 0 (.newSig false)] ++ connect 0 10 0 ++
  [.call 0 (.connect 0 (fn 11) [] true false (.conn 1)), .run 0, .call 1 (.disconnect (.conn 0)), .run 1]

/-- Thread 0 emits; its first listener is running; thread 1 has disconnected listener 0 and connected listener 2. -/
def during : List Label :=
  [.call 0 (.newSig false)] ++ connect 0 10 0 ++ connect 0 11 1 ++
  [.call 0 (.emit 0 .lastValue [])] ++ go 0 8 ++
  [.call 1 (.disconnect (.conn 0))] ++ go 1 7 ++ connect 1 12 2

end Demo

/-! ### C46 -/

/-- C46: the position stored in a listed listener is its position in the list. -/
theorem C46 (h : Reachable E w) (g : SigId) (i : Nat) (s : SlotId) (hi : (w.listOf g)[i]? = some s) :
    (w.slots s).index = i :=
  h.full.i.i3.idx g i s hi

example : ((Demo.world 1 Demo.four).listOf 0) = [0, 3, 2] := by decide +kernel
example : (((Demo.world 1 Demo.four).slots 3).index) = 1 :=
  C46 (Demo.reach _ _) 0 1 3 (by decide +kernel)

/-! ### C43 -/

/-- C43: a listener is in `g`'s list iff the history says so: its `connect` took effect (on `g`, or on a
signal moved to `g`), and nothing has taken it out since. -/
theorem C43_listed (h : Reachable E w) (g : SigId) (s : SlotId) : s ∈ w.listOf g ↔ home w.log s = some g :=
  h.full.i.i3.hom g s

/-- No listener is in a list twice. -/
theorem C43_nodup (h : Reachable E w) (g : SigId) : (w.listOf g).Nodup := h.full.i.i3.nodup g

/-- No listener is in two lists. -/
theorem C43_one_signal (h : Reachable E w) {g g' : SigId} {s : SlotId} (h1 : s ∈ w.listOf g)
    (h2 : s ∈ w.listOf g') : g = g' := h.full.i.i3.disj h1 h2

/-- A listener is added at most once and taken out at most as often. -/
theorem C43_once (h : Reachable E w) (s : SlotId) :
    w.log.countP (Event.takes s) ≤ w.log.countP (Event.adds s) ∧ w.log.countP (Event.adds s) ≤ 1 :=
  ⟨h.full.i.i3.takes s, h.full.i.i3.adds s⟩

/-- A listed listener was added once and never taken out. -/
theorem C43_counts (h : Reachable E w) {g : SigId} {s : SlotId} (hs : s ∈ w.listOf g) :
    w.log.countP (Event.adds s) = 1 ∧ w.log.countP (Event.takes s) = 0 :=
  h.full.i.i3.listed g s hs

example : home (Demo.world 1 Demo.four).log 1 = none ∧ home (Demo.world 1 Demo.four).log 3 = some 0 := by
  decide +kernel
example : 3 ∈ (Demo.world 1 Demo.four).listOf 0 := (C43_listed (Demo.reach _ _) 0 3).2 (by decide +kernel)
example : (Demo.world 1 Demo.four).log.countP (Event.takes 1) = 1 := by decide +kernel

/-! ### C20 -/

theorem stacks_other {t t' : Tid} (h : StepR E w t w') (ht : t' ≠ t) : w'.stacks t' = w.stacks t' := by
  have aux : ∀ st, upd w.stacks t st t' = w.stacks t' := fun st => by rw [upd_apply, if_neg ht]
  cases h
  case det f f' rest g b hst hf hl =>
    have : (cloneBlk w g b).stacks = w.stacks := by rfl
    simp only [World.setStack, this]; exact aux _
  case eraseHit g tgt i cnt rest b s hst hl hi he =>
    simp only [World.emitEv, World.setStack, (removeAt_same w b i).2.2.2.2.2.2.1]; exact aux _
  case discWrite s v k rest g b hst hl hi =>
    simp only [World.emitEv, World.setStack, (removeAt_same w b _).2.2.2.2.2.2.1]; exact aux _
  all_goals first | rfl | exact aux _

/-- C20: at every moment every signal's list is what the completed updates give when applied one after the other, in
the order in which they happened. -/
theorem C20_serial (h : Reachable E w) (g : SigId) : w.listOf g = replay w.log g := h.full.i.i3.rep g

/-- While a thread holds the mutex of a signal no step of another thread changes the list or takes the mutex. -/
theorem C20_exclusive (h : Reachable E w) {l : Label} (hst : step E w l = some w') {g : SigId} {t : Tid}
    (hm : (w.sigs g).mutex = some t) (ht : l.tid ≠ t) :
    w'.listOf g = w.listOf g ∧ (w'.sigs g).mutex = some t := by
  obtain ⟨hub, hlt, hr⟩ := step_inv hst
  have I := h.full.i
  constructor
  · have ne : ∀ g', topLocks (w.stacks l.tid) = some g' → g ≠ g' := by
      rintro g' hl rfl
      rw [(I.i1.mtx g l.tid).2 hl] at hm
      injection hm with hm; exact ht hm
    cases listEff I.i1 I.i2 hr with
    | same hl => exact hl g
    | add g' s b dest rest hst hb hl => rw [hl, if_neg (ne g' (by rw [hst]; rfl))]
    | rem g' i v ev hst hv hl => rw [hl, if_neg (ne g' hst)]
    | move g1 g2 hne hst h0 hd hl =>
      rw [hl, if_neg (ne g1 hst)]
      split
      · rename_i e
        subst e
        -- the target of a move is not yet alive, so nobody holds its mutex
        rw [I.i2.live g t hm] at hd; cases hd
      · rfl
    | destroy g' hm' hl =>
      rw [hl]; split
      · rename_i e; subst e; rw [hm'] at hm; cases hm
      · rfl
  · have I' := I.i1.step hlt hr
    rw [I'.mtx, stacks_other hr (Ne.symm ht), ← I.i1.mtx]; exact hm

/-- A list changes only at the hands of the thread that holds the mutex of that signal, or of the thread that
constructs (moves into) or destroys it. -/
theorem C20_holder (h : Reachable E w) {l : Label} (hst : step E w l = some w') {g : SigId}
    (hc : w'.listOf g ≠ w.listOf g) :
    (w.sigs g).mutex = some l.tid ∨ (∃ g0, w'.log = .moved g0 g :: w.log ∧ (w.sigs g).alive = false) ∨
      w'.log = .destroyed g :: w.log := by
  obtain ⟨hub, hlt, hr⟩ := step_inv hst
  have I := h.full.i
  cases listEff I.i1 I.i2 hr with
  | same hl => exact absurd (hl g) hc
  | add g' s b dest rest hst hb hl =>
    rw [hl] at hc; split at hc
    · rename_i e; subst e; exact .inl ((I.i1.mtx _ _).2 (by rw [hst]; rfl))
    · exact absurd rfl hc
  | rem g' i v ev hst hv hl =>
    rw [hl] at hc; split at hc
    · rename_i e; subst e; exact .inl ((I.i1.mtx _ _).2 hst)
    · exact absurd rfl hc
  | move g1 g2 hne hst h0 hd hl hi hlog =>
    rw [hl] at hc; split at hc
    · rename_i e; subst e; exact .inl ((I.i1.mtx _ _).2 hst)
    · split at hc
      · rename_i e; subst e; exact .inr (.inl ⟨g1, hlog, hd⟩)
      · exact absurd rfl hc
  | destroy g' hm' hl hi hlog =>
    rw [hl] at hc; split at hc
    · rename_i e; subst e; exact .inr (.inr hlog)
    · exact absurd rfl hc

example : ((Demo.world 2 Demo.contend).sigs 0).mutex = some 0 := by decide +kernel
-- thread 1 cannot go on
example : (step Demo.E0 (Demo.world 2 Demo.contend) (.run 1)).isNone := by decide +kernel
-- until thread 0 has left the critical section; both updates take effect
example : (exec Demo.E0 (Demo.world 2 Demo.contend) (Demo.go 0 3 ++ Demo.go 1 4)).map
    (fun w => (w.listOf 0, replay w.log 0)) = some ([1], [1]) := by decide +kernel

/-! ### C40 -/

/-- C40: taking listener `v` out of the list `front ++ v :: mid ++ [z]` moves the last listener `z` to
its place and changes nothing else; other signals' lists do not change. -/
theorem C40_machine (h : Reachable E w) {l : Label} (hst : step E w l = some w') {g : SigId} {v : SlotId}
    (hev : w'.log = .erased g v :: w.log ∨ ∃ req, w'.log = .removed g req v :: w.log) :
    v ∈ w.listOf g ∧ (∀ g', g' ≠ g → w'.listOf g' = w.listOf g') ∧
    (∀ front mid z, w.listOf g = front ++ v :: (mid ++ [z]) → w'.listOf g = front ++ z :: mid) ∧
    (∀ front, w.listOf g = front ++ [v] → w'.listOf g = front) := by
  obtain ⟨hub, hlt, hr⟩ := step_inv hst
  have I := h.full.i
  have key : ∀ {evs : List Event} {ev : Event}, w'.log = evs ++ w.log → w'.log = ev :: w.log → evs = [ev] := by
    intro evs ev h1 h2
    rw [h1] at h2
    have : evs ++ w.log = [ev] ++ w.log := h2
    exact List.append_cancel_right this
  cases listEff I.i1 I.i2 hr with
  | same hl hi hlog =>
    obtain ⟨evs, h1, h2⟩ := hlog
    rcases hev with hev | ⟨req, hev⟩ <;> · have := h2 _ (by rw [key h1 hev]; exact List.mem_singleton_self _); cases this
  | add g' s b dest rest hst hb hl hi hlog =>
    rw [hlog] at hev; rcases hev with hev | ⟨req, hev⟩ <;> (injection hev with hev; cases hev)
  | rem g' i x ev hst hv hl hi hev' hlog =>
    have : g' = g ∧ x = v := by
      rw [hlog] at hev
      rcases hev with hev | ⟨req, hev⟩ <;> injection hev with hev <;> subst hev <;>
        rcases hev' with hev' | ⟨req', hev'⟩ <;> cases hev' <;> exact ⟨rfl, rfl⟩
    obtain ⟨rfl, rfl⟩ := this
    refine ⟨List.mem_of_getElem? hv, fun g'' hne => by rw [hl, if_neg hne], ?_, ?_⟩
    · intro front mid z hf
      rw [hl, if_pos rfl]
      have hn := I.i3.nodup g'
      have hi : i = front.length := by
        have h2 : (w.listOf g')[front.length]? = some x := by rw [hf]; simp
        have := I.i3.idx g' i x hv
        have := I.i3.idx g' _ x h2
        omega
      rw [hf, hi]; exact C40_swap_with_last front x mid z
    · intro front hf
      rw [hl, if_pos rfl]
      have hi : i = front.length := by
        have h2 : (w.listOf g')[front.length]? = some x := by rw [hf]; simp
        have := I.i3.idx g' i x hv
        have := I.i3.idx g' _ x h2
        omega
      rw [hf, hi]; exact C40_remove_last front x
  | move g1 g2 hne hst h0 hd hl hi hlog =>
    rw [hlog] at hev; rcases hev with hev | ⟨req, hev⟩ <;> (injection hev with hev; cases hev)
  | destroy g' hm' hl hi hlog =>
    rw [hlog] at hev; rcases hev with hev | ⟨req, hev⟩ <;> (injection hev with hev; cases hev)

-- [0, 1, 2, 3] becomes [0, 3, 2] when listener 1 is disconnected
example : (exec Demo.E0 (World.init 1) (Demo.four.take 25)).map (fun w => (w.listOf 0, w.log.head?)) =
    some ([0, 1, 2, 3], some (.exch 1 true)) := by decide +kernel
example : (exec Demo.E0 (World.init 1) (Demo.four.take 26)).map (fun w => (w.listOf 0, w.log.head?)) =
    some ([0, 3, 2], some (.removed 0 1 1)) := by decide +kernel

/-! ### C19 -/

/-- C19: the vector over which an emission iterates is the one recorded when it took its snapshot. -/
theorem C19_snapshot (h : Reachable E w) {t : Tid} {m : Em} {b : BlkId} {pos : Nat} {acc : Option Val}
    (hf : .emit m (.iter b pos acc) ∈ w.stacks t) : ∃ m0, m0.e = m.e ∧ Event.snap m0 (w.blks b) ∈ w.log := by
  have U := h.full
  obtain ⟨c, ha⟩ : ∃ c, (⟨c, m, .iter b pos acc⟩ : Act) ∈ acts (w.stacks t) := by
    generalize w.stacks t = st at hf
    fun_induction acts st with
    | case1 s p m' pc rest ih =>
      rcases List.mem_cons.1 hf with hf | hf
      · cases hf
      · rcases List.mem_cons.1 hf with hf | hf
        · injection hf with h1 h2; subst h1; subst h2; exact ⟨_, List.mem_cons_self⟩
        · obtain ⟨c, h⟩ := ih hf; exact ⟨c, List.mem_cons_of_mem _ h⟩
    | case2 m' pc rest ih =>
      rcases List.mem_cons.1 hf with hf | hf
      · injection hf with h1 h2; subst h1; subst h2; exact ⟨_, List.mem_cons_self⟩
      · obtain ⟨c, h⟩ := ih hf; exact ⟨c, List.mem_cons_of_mem _ h⟩
    | case3 f rest _ n ih =>
      rcases List.mem_cons.1 hf with hf | hf
      · exact absurd hf.symm (n m (.iter b pos acc))
      · exact ih hf
    | case4 => cases hf
  obtain ⟨m0, vs, a0, hok⟩ := U.t.ok t _ ha
  refine ⟨m0, hok.e, ?_⟩
  have : Event.snap m0 (w.blks b) ∈ trace w.log m.e := by rw [hok.tr]; simp
  exact (mem_trace.1 this).1

/-- An emission takes one snapshot. -/
theorem C19_one_snapshot (h : Reachable E w) {m m' : Em} {l l' : List SlotId} (h1 : Event.snap m l ∈ w.log)
    (h2 : Event.snap m' l' ∈ w.log) (he : m.e = m'.e) : m = m' ∧ l = l' := by
  have m1 := mem_trace.2 ⟨h1, rfl⟩
  have m2 := mem_trace.2 ⟨h2, (by rw [he]; rfl : (Event.snap m' l').em = some m.e)⟩
  obtain ⟨t, vs, args, tail, -, -, -, e1⟩ := (h.full.shape m.e).of_snap m1
  obtain ⟨t', vs', args', tail', -, -, -, e2⟩ := (h.full.shape m.e).of_snap m2
  rw [e1] at e2
  injection e2 with _ e2; injection e2 with e2; injection e2 with h1 h2; exact ⟨h1, h2⟩

theorem Steps.log_mono {P : Label → Prop} (h : Steps E P w w') : ∃ evs, w'.log = evs ++ w.log :=
  h.induct (I := fun w' => ∃ evs, w'.log = evs ++ w.log) ⟨[], rfl⟩ fun _ _ _ ⟨evs, e⟩ _ hst =>
    let ⟨evs', e'⟩ := log_grows (step_inv hst).2.2
    ⟨evs' ++ evs, by rw [e', e, List.append_assoc]⟩

/-- C19: whatever happens between two moments of one emission, it iterates over the same listeners at both. -/
theorem C19_unchanged (h : Reachable E w) (hs : Steps E (fun _ => True) w w') {t t' : Tid} {m m' : Em}
    {b b' : BlkId} {pos pos' : Nat} {acc acc' : Option Val} (hf : .emit m (.iter b pos acc) ∈ w.stacks t)
    (hf' : .emit m' (.iter b' pos' acc') ∈ w'.stacks t') (he : m.e = m'.e) : w'.blks b' = w.blks b := by
  have h' : Reachable E w' := by
    obtain ⟨n, h⟩ := h
    exact ⟨n, hs.induct (I := fun w => Steps E _ _ w) h fun _ _ l h _ hst => h.tail l trivial hst⟩
  obtain ⟨m0, e0, h0⟩ := C19_snapshot h hf
  obtain ⟨m1, e1, h1⟩ := C19_snapshot h' hf'
  obtain ⟨evs, el⟩ := hs.log_mono
  have := C19_one_snapshot h' (by rw [el]; exact List.mem_append_right _ h0) h1 (by omega)
  exact this.2.symm

-- after a concurrent disconnect and connect the running emission still iterates over [0, 1], the signal has [1, 2]
example : (((Demo.world 2 Demo.during).stacks 0).filterMap Frame.blk?).map (Demo.world 2 Demo.during).blks = [[0, 1]] ∧
    (Demo.world 2 Demo.during).listOf 0 = [1, 2] := by decide +kernel

end Verif
