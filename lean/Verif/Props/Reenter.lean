import Verif.Mach.Reenter
import Verif.Props.Safety
import Verif.Props.Disconnect
import Verif.Props.Emission

/-!
# C60: comparisons and destructors that use the library

`signal::disconnect(f)` runs the user's `operator==` and the destructors of the callables it removes while it holds the mutex of the signal. What if
these use the library? They can do no harm to any object (`C60_sim` and its consequences), but they can block for ever (`C60_false`,
`C60_order_false`), unless mutexes are locked in a fixed order (`C60_order_partial`).
-/

namespace Verif

variable {E : Env} {w w' : World} {t : Tid} {cb : List Frame → Bool}

/-! ### Safety -/

/-- The two worlds have the same objects, handles and history, and the same library functions are running in them. They may differ in which thread runs
what. -/
def SameUpToThreads (w v : World) : Prop := w.anon = v.anon ∧ ∀ f, (∃ t, f ∈ w.stacks t) ↔ ∃ t, f ∈ v.stacks t

/-- C60: whatever user code does from inside the library, at whatever places `cb`: what comes of it also comes of a program that runs the same calls, returns and
throws as ordinary user code on more threads. `P` may restrict what the program does, but not on which thread. -/
theorem C60_sim {P : Label → Prop} (hP : ∀ l l' : Label, l'.anon = l.anon → P l → P l') {n : Nat} (h : StepsC cb E P (World.init n) w) :
    ∃ N v, Steps E P (World.init N) v ∧ SameUpToThreads w v := by
  obtain ⟨N, k, σ, v, hv, S⟩ := h.sim hP
  refine ⟨N, v, hv, S.anon, fun f => ⟨?_, ?_⟩⟩
  · rintro ⟨t, hf⟩
    rw [S.stk] at hf
    obtain ⟨u, -, hf⟩ := List.mem_flatMap.1 hf
    exact ⟨u, hf⟩
  · rintro ⟨u, hf⟩
    rcases Classical.em (∀ t, u ∉ σ t) with h | h
    · rw [S.idle u h] at hf; cases hf
    · simp only [Classical.not_forall, Classical.not_not] at h
      obtain ⟨t, ht⟩ := h
      exact ⟨t, by rw [S.stk]; exact List.mem_flatMap.2 ⟨u, ht, hf⟩⟩

theorem ReachableC.same (h : ReachableC cb E w) : ∃ v, Reachable E v ∧ SameUpToThreads w v := by
  obtain ⟨n, h⟩ := h
  obtain ⟨N, v, hv, S⟩ := C60_sim (fun _ _ _ _ => trivial) h
  exact ⟨v, ⟨N, hv⟩, S⟩

theorem replay_anon : ∀ log : List Event, replay (log.map Event.anon) = replay log
  | [] => rfl
  | ev :: log => by
    have ih := replay_anon log
    cases ev <;> simp only [List.map_cons, Event.anon, replay, ih]

theorem em_anon (ev : Event) : ev.anon.em = ev.em := by cases ev <;> rfl

theorem trace_anon (log : List Event) (e : EmId) : trace (log.map Event.anon) e = (trace log e).map Event.anon := by
  unfold trace
  rw [List.filter_map, List.map_reverse]
  congr 3
  funext ev
  exact congrArg (· == some e) (em_anon ev)

namespace SameUpToThreads
variable {v : World} (S : SameUpToThreads w v)
include S

theorem log : w.log.map Event.anon = v.log.map Event.anon := (anon_iff.1 S.1).2.2.2.2.2.2.2.2.2.2.2.2.2.2

theorem listOf (g : SigId) : w.listOf g = v.listOf g := by
  have h := anon_iff.1 S.1
  unfold World.listOf
  have hl := congrArg SigRec.list (h.2.2.2.2.1 g)
  simp only [SigRec.anon] at hl
  rw [hl, h.2.2.1]

/-- An event that names no thread. -/
theorem mem {ev : Event} (h : ev ∈ w.log) (he : ∀ x : Event, x.anon = ev.anon → x = ev) : ev ∈ v.log := by
  have := List.mem_map_of_mem (f := Event.anon) h
  rw [S.log, List.mem_map] at this
  obtain ⟨x, hx, e⟩ := this
  rw [he x e] at hx; exact hx

end SameUpToThreads

/-- C60: the lists are still what the completed updates, one after the other, make of them; no listener is in one twice; and each knows its position. -/
theorem C60_lists (h : ReachableC cb E w) (g : SigId) :
    w.listOf g = replay w.log g ∧ (w.listOf g).Nodup ∧ ∀ i s, (w.listOf g)[i]? = some s → (w.slots s).index = i := by
  obtain ⟨v, hv, S⟩ := h.same
  rw [S.listOf, ← replay_anon, S.log, replay_anon, (anon_iff.1 S.1).1]
  exact ⟨C20_serial hv g, C43_nodup hv g, fun i s => C46 hv g i s⟩

/-- C60: at most one `disconnect()` per listener reports success. -/
theorem C60_once (h : ReachableC cb E w) (s : SlotId) : w.log.countP (Event.discTrue s) ≤ 1 := by
  obtain ⟨v, hv, S⟩ := h.same
  have aux : ∀ log : List Event, (log.map Event.anon).countP (Event.discTrue s) = log.countP (Event.discTrue s) := by
    intro log
    rw [List.countP_map]
    congr 1
    funext ev
    cases ev with
    | discRet t o b => cases o <;> cases b <;> rfl
    | _ => rfl
  rw [← aux, S.log, aux]
  exact C03_once hv s

/-- C60: a listener disconnected before an emission comes to it is not called by it. -/
theorem C60_disconnect (h : ReachableC cb E w) {post pre : List Event} {e : EmId} {s : SlotId} {b : Bool}
    (hl : w.log = post ++ .exch s b :: pre) (hv : ∀ pos, Event.visit e pos s ∉ pre) (a : List Arg) : Event.enter e s a ∉ post := by
  obtain ⟨v, hr, S⟩ := h.same
  have hlog := S.log
  rw [hl, List.map_append, List.map_cons] at hlog
  obtain ⟨post', rest, h1, h2, h3⟩ := List.map_eq_append_iff.1 hlog.symm
  obtain ⟨ev, pre', rfl, h4, h5⟩ := List.map_eq_cons_iff.1 h3
  have : ev = .exch s b := by cases ev <;> simp [Event.anon] at h4 ⊢ <;> exact h4
  subst this
  intro hm
  refine C10 (e := e) hr h1 (fun pos hp => hv pos ?_) a ?_
  · have := List.mem_map_of_mem (f := Event.anon) hp
    rw [h5, List.mem_map] at this
    obtain ⟨x, hx, e⟩ := this
    cases x <;> simp [Event.anon] at e
    obtain ⟨rfl, rfl, rfl⟩ := e; exact hx
  · have := List.mem_map_of_mem (f := Event.anon) hm
    rw [← h2, List.mem_map] at this
    obtain ⟨x, hx, e⟩ := this
    cases x <;> simp [Event.anon] at e
    obtain ⟨rfl, rfl, rfl⟩ := e; exact hx

/-- C60: an emission with the default combiner visits the listeners of its snapshot in order, and returns the last result of them. -/
theorem C60_emission (h : ReachableC cb E w) {t : Tid} {m : Em} {r : Option Val} (hb : Event.began t m ∈ w.log)
    (hd : Event.done m.e r ∈ w.log) (hc : m.comb = .lastValue) :
    (∃ items, Event.snap m items ∈ w.log ∧ (trace w.log m.e).filterMap Event.visited = (List.range items.length).zip items) ∧
      r = ((trace w.log m.e).filterMap Event.exitVal).getLast? := by
  obtain ⟨v, hr, S⟩ := h.same
  have hb' : ∃ t', Event.began t' m ∈ v.log := by
    have := List.mem_map_of_mem (f := Event.anon) hb
    rw [S.log, List.mem_map] at this
    obtain ⟨x, hx, e⟩ := this
    cases x <;> simp [Event.anon] at e
    subst e; exact ⟨_, hx⟩
  obtain ⟨t', hb'⟩ := hb'
  have hd' : Event.done m.e r ∈ v.log := S.mem hd (by intro x e; cases x <;> simp [Event.anon] at e ⊢ <;> exact e)
  have fm : ∀ {β : Type} (f : Event → Option β), (∀ ev : Event, f ev.anon = f ev) →
      (trace w.log m.e).filterMap f = (trace v.log m.e).filterMap f := by
    intro β f hf
    have key : ∀ log, (trace log m.e).filterMap f = (trace (log.map Event.anon) m.e).filterMap f := by
      intro log
      rw [trace_anon, List.filterMap_map]
      congr 1
      funext ev; exact (hf ev).symm
    rw [key, S.log, ← key]
  rw [fm _ (by intro ev; cases ev <;> rfl), fm _ (by intro ev; cases ev <;> rfl)]
  obtain ⟨post, pre, items, h1, -, h2⟩ := C07 hr hb' hd' hc
  refine ⟨⟨items, ?_, h2⟩, C08 hr hb' hd' hc⟩
  have : Event.snap m items ∈ v.log := by rw [h1]; simp
  have := List.mem_map_of_mem (f := Event.anon) this
  rw [← S.log, List.mem_map] at this
  obtain ⟨x, hx, e⟩ := this
  cases x <;> simp [Event.anon] at e
  obtain ⟨rfl, rfl⟩ := e; exact hx

/-- C60: a program that neither moves nor destroys signals, nor lets a combiner run past the end, and does not run out of memory, does not run into undefined
behaviour through callbacks either (waiting for a mutex of one's own is a state of its own here, see `C60_false`). -/
theorem C60_no_ub {n : Nat}
    (h : StepsC cb E (fun l => StayPut l ∧ (∀ t i, l ≠ .call t (.combDeref i)) ∧ ∀ t, l ≠ .fail t ∧ l ≠ .ctl t) (World.init n) w) : w.ub = none := by
  obtain ⟨N, v, hv, S⟩ := C60_sim (by
    intro l l' e ⟨h1, h2, h3⟩
    refine ⟨?_, ?_, ?_⟩
    · cases l <;> cases l' <;> simp [Label.anon] at e <;> first | trivial | (subst e; cases ‹Api› <;> exact h1)
    · rintro t i rfl
      cases l <;> simp [Label.anon] at e
      subst e; exact h2 _ i rfl
    · refine fun t => ⟨?_, ?_⟩ <;> rintro rfl <;> cases l <;> simp [Label.anon] at e
      · exact (h3 _).1 rfl
      · exact (h3 _).2 rfl) h
  rw [(anon_iff.1 S.1).2.2.2.2.2.2.2.2.2.2.2.2.2.1]
  exact C22_memory hv

/-! ### Waiting -/

/-- Thread `t` is about to lock a mutex that thread `t'` holds, maybe under a callback. -/
def BlockedBy (w : World) (t t' : Tid) : Prop := ∃ g, Waits w t g ∧ ∃ f ∈ w.stacks t', f.locks = some g

/-- Thread `t` waits for one that waits for one ... that waits for `t'`. -/
inductive Chain (w : World) : Tid → Tid → Prop where
  | refl (t : Tid) : Chain w t t
  | step {t t' t'' : Tid} : BlockedBy w t t' → Chain w t' t'' → Chain w t t''

/-- Mutexes are locked in the order `rank`: whoever is about to lock one holds only mutexes of a smaller rank. -/
def Ordered (rank : SigId → Nat) (w : World) : Prop :=
  ∀ t g, Waits w t g → ∀ f ∈ w.stacks t, ∀ g', f.locks = some g' → rank g' < rank g

/-- A thread is in user code, can go on, or waits for a mutex that some thread holds, maybe itself. -/
theorem C60_waits (h : ReachableC cb E w) (hub : w.ub = none) (ht : t < w.nThr) :
    userCtx (w.stacks t) = true ∨ (∃ w', stepC cb E w (.run t) = some w') ∨
      ∃ g t', g < w.nSigs ∧ Waits w t g ∧ t' < w.nThr ∧ ∃ f ∈ w.stacks t', f.locks = some g := by
  obtain ⟨n, k, σ, v, hv, S⟩ := h.sim
  have I := hv.full.i.i1
  obtain ⟨u, us, hσ⟩ : ∃ u us, σ t = u :: us := by
    cases h : σ t with
    | nil => exact absurd h (S.ne _ (S.nThr ▸ ht))
    | cons u us => exact ⟨u, us, rfl⟩
  have hstk : w.stacks t = v.stacks u ++ us.flatMap v.stacks := by rw [S.stk, hσ]; rfl
  cases hs : v.stacks u with
  | nil =>
    have := S.busy t u (by rw [hσ]; simp) hs
    rw [hσ] at this
    injection this with _ h2
    rw [hs, h2] at hstk
    rw [hstk]; exact .inl rfl
  | cons f r =>
    have hne : v.stacks u ≠ [] := by rw [hs]; simp
    cases hu : userCtx (v.stacks u) with
    | true =>
      left
      rw [hs] at hu
      rw [hstk, hs, List.cons_append]
      revert hu
      unfold userCtx
      split <;> simp_all
    | false =>
      right
      rcases run_or_wait (E := E) I hu with ⟨v', hr⟩ | ⟨g, u', ⟨f1, f2, r', h1, h2⟩, hm⟩
      · left
        have M := (S.agree hstk).runTop (E := E) hne (I.stk u)
        rw [hr] at M
        cases hw : runTop E w t with
        | none => rw [hw] at M; exact M.elim
        | some w' => exact ⟨w', by simp [stepC, step, hub, Label.tid, ht, hw]⟩
      · right
        have hl := (I.mtx g u').1 hm
        have ⟨f', r'', hst', hf'⟩ : ∃ f' r'', v.stacks u' = f' :: r'' ∧ f'.locks = some g := by
          cases h : v.stacks u' with
          | nil => rw [h] at hl; cases hl
          | cons x y => rw [h] at hl; exact ⟨x, y, rfl, hl⟩
        have hex : ∃ t', u' ∈ σ t' := by
          refine Classical.byContradiction fun hn => ?_
          have := S.idle u' (fun t' ht' => hn ⟨t', ht'⟩)
          rw [this] at hst'; cases hst'
        obtain ⟨t', ht'⟩ := hex
        refine ⟨g, t', ?_, ⟨f1, f2, r' ++ us.flatMap v.stacks, by rw [hstk, h1]; rfl, h2⟩, ?_, f', ?_, hf'⟩
        · rw [(anon_iff.1 S.anon).2.2.2.2.2.1]
          refine Nat.lt_of_not_le fun hle => ?_
          rw [(I.out g hle).2.2] at hm; cases hm
        · rw [S.nThr]
          refine Nat.lt_of_not_le fun hle => ?_
          rw [S.out t' hle] at ht'; cases ht'
        · rw [S.stk]
          exact List.mem_flatMap.2 ⟨u', ht', by rw [hst']; simp⟩

/-- C60 (partial: what is missing is that this holds without the order, which is false, see `C60_false` and `C60_order_false`). As long as mutexes are locked in some
order, no thread is stuck: if one waits, then for another one, in the end for one that is in user code or can go on. -/
theorem C60_order_partial (h : ReachableC cb E w) (hub : w.ub = none) {rank : SigId → Nat} (ho : Ordered rank w) (ht : t < w.nThr) :
    ∃ t', t' < w.nThr ∧ Chain w t t' ∧ (userCtx (w.stacks t') = true ∨ ∃ w', stepC cb E w (.run t') = some w') := by
  obtain ⟨M, hM⟩ : ∃ M, ∀ g, g < w.nSigs → rank g ≤ M := by
    generalize w.nSigs = n
    induction n with
    | zero => exact ⟨0, fun g hg => absurd hg (Nat.not_lt_zero g)⟩
    | succ n ih =>
      obtain ⟨M, hM⟩ := ih
      refine ⟨max M (rank n), fun g hg => ?_⟩
      rcases Nat.lt_succ_iff_lt_or_eq.1 hg with hg | rfl
      · exact Nat.le_trans (hM g hg) (Nat.le_max_left _ _)
      · exact Nat.le_max_right _ _
  have main : ∀ k t, t < w.nThr → (∀ g, Waits w t g → M < rank g + k) →
      ∃ t', t' < w.nThr ∧ Chain w t t' ∧ (userCtx (w.stacks t') = true ∨ ∃ w', stepC cb E w (.run t') = some w') := by
    intro k
    induction k with
    | zero =>
      intro t ht hk
      rcases C60_waits h hub ht with hu | hr | ⟨g, t', hg, hw, -⟩
      · exact ⟨t, ht, .refl _, .inl hu⟩
      · exact ⟨t, ht, .refl _, .inr hr⟩
      · have := hk g hw
        have := hM g hg
        omega
    | succ k ih =>
      intro t ht hk
      rcases C60_waits h hub ht with hu | hr | ⟨g, t', hg, hw, ht', f, hf, hl⟩
      · exact ⟨t, ht, .refl _, .inl hu⟩
      · exact ⟨t, ht, .refl _, .inr hr⟩
      · obtain ⟨t'', h1, h2, h3⟩ := ih t' ht' (fun g' hw' => by
          have := hk g hw
          have := ho t' g' hw' f hf g hl
          omega)
        exact ⟨t'', h1, .step ⟨g, hw, f, hf, hl⟩ h2, h3⟩
  exact main (M + 1) t ht (fun g _ => by omega)

/-! ### Concrete executions -/

namespace Demo

/-- Run a whole schedule of the larger machine. -/
def execC (w : World) : List Label → Option World
  | [] => some w
  | l :: ls => match stepC inErase E0 w l with
    | some w' => execC w' ls
    | none => none

theorem execC_steps {P : Label → Prop} {w0 w w' : World} {ls : List Label} (h0 : StepsC inErase E0 P w0 w) (hp : ∀ l ∈ ls, P l)
    (h : execC w ls = some w') : StepsC inErase E0 P w0 w' := by
  induction ls generalizing w with
  | nil => simp [execC] at h; subst h; exact h0
  | cons l ls ih =>
    simp only [execC] at h
    split at h
    · rename_i w1 h1
      exact ih (h0.tail l (hp l (by simp)) h1) (fun x hx => hp x (List.mem_cons_of_mem _ hx)) h
    · cases h

/-- The world after a schedule for `n` threads. -/
def worldC (n : Nat) (ls : List Label) : World := (execC (World.init n) ls).getD (World.init n)

theorem worldC_steps {P : Label → Prop} (n : Nat) (ls : List Label) (hp : ∀ l ∈ ls, P l) :
    StepsC inErase E0 P (World.init n) (worldC n ls) := by
  unfold worldC
  cases h : execC (World.init n) ls with
  | none => exact .refl _
  | some w => exact execC_steps (.refl _) hp h

theorem reachC (n : Nat) (ls : List Label) : ReachableC inErase E0 (worldC n ls) := ⟨n, worldC_steps n ls fun _ _ => trivial⟩

/-- Thread 0 compares with the only listener of signal 0, holding its mutex. -/
def comparing : List Label := [.call 0 (.newSig false)] ++ connect 0 10 0 ++ [.call 0 (.sigDisconnect 0 (some (fn 10)))] ++ go 0 2

/-- ... and the comparison connects another listener to signal 0. -/
def selfLock : List Label := comparing ++ [.call 0 (.connect 0 (fn 11) [] true false (.conn 1))]

/-- `connect(fn k)` on signal `g` by thread `t`. -/
def connectTo (t : Tid) (g : SigId) (k : Nat) (x : Var) : List Label := .call t (.connect g (fn k) [] true false (.conn x)) :: go t 4

/-- Two signals with a listener each. -/
def two : List Label := [.call 0 (.newSig false), .call 0 (.newSig false)] ++ connectTo 0 0 10 0 ++ connectTo 0 1 11 1

/-- Two threads disconnect from different signals, and each comparison connects to the other signal. -/
def crossLock : List Label := two ++
  [.call 0 (.sigDisconnect 0 (some (fn 10)))] ++ go 0 2 ++ [.call 1 (.sigDisconnect 1 (some (fn 11)))] ++ go 1 2 ++
  [.call 0 (.connect 1 (fn 12) [] true false (.conn 2)), .call 1 (.connect 0 (fn 13) [] true false (.conn 3))]

/-- The comparison in a `disconnect` from signal 0 emits signal 1, and the listener of that runs. -/
def nested : List Label := two ++ [.call 0 (.sigDisconnect 0 (some (fn 10)))] ++ go 0 2 ++ [.call 0 (.emit 1 .lastValue [])] ++ go 0 8

/-- The listener and the emission return, and then the comparison and the `disconnect`. -/
def nestedDone : List Label := nested ++ [.ret 0 5] ++ go 0 4

/-- Thread 1 emits signal 1; before it comes to the listener, the comparison in a `disconnect` from signal 0 disconnects that. -/
def cutBack : List Label := two ++ [.call 1 (.emit 1 .lastValue [])] ++ go 1 4 ++ [.call 0 (.sigDisconnect 0 (some (fn 10)))] ++ go 0 2 ++
  [.call 0 (.disconnect (.conn 1)), .run 0]

/-- Thread 1 waits for thread 0, which has the mutex of signal 0 and waits for thread 2, which is connecting to signal 1. -/
def queue : List Label := two ++ [.call 0 (.sigDisconnect 0 (some (fn 10)))] ++ go 0 2 ++
  [.call 2 (.connect 1 (fn 12) [] true false (.conn 2)), .run 2, .call 0 (.connect 1 (fn 13) [] true false (.conn 3)),
    .call 1 (.connect 0 (fn 14) [] true false (.conn 4))]

end Demo

/-- A thread that waits for a taken mutex cannot do anything. -/
theorem stuck {f f' : Frame} {rest : List Frame} {g : SigId} (hs : w.stacks t = f :: rest) (hf : f.acq = some (g, f'))
    (ha : (w.sigs g).alive = true) (hm : (w.sigs g).mutex.isSome = true) {l : Label} (hl : l.tid = t) :
    stepC inErase E w l = none := by
  obtain ⟨x, hm⟩ := Option.isSome_iff_exists.1 hm
  have ha' : ∀ next, acquire w t g next = none := fun next => by simp [acquire, ha, hm]
  have h1 : runTop E w t = none ∧ userCtx (w.stacks t) = false ∧ inErase (w.stacks t) = false ∧ (∀ v, userRet w t v = none) ∧
      (∀ c, userThrow w t c = none) ∧ allocFail w t = none ∧ ctlFail w t = none := by
    unfold Frame.acq at hf
    split at hf <;> cases hf <;>
      simp [runTop, runEmit, runAdd, runErase, runDisc, runMov, userRet, userThrow, allocFail, ctlFail, userCtx, inErase, hs, ha']
  obtain ⟨h1, h2, h3, h4, h5, h6, h7⟩ := h1
  subst hl
  cases l <;> simp only [Label.tid] at h1 h2 h3 h4 h5 h6 h7 <;> simp [stepC, step, h1, h2, h3, h4, h5, h6, h7]

/-- C60 is false without an order: a program with a single thread stands still for ever. The comparison made by `signal::disconnect(f)` connects to the same signal,
whose mutex its own thread holds. (For `std::mutex` the standard makes even the attempt undefined.) -/
theorem C60_false : ∃ w, ReachableC inErase Demo.E0 w ∧ w.ub = none ∧ w.nThr = 1 ∧ w.stacks 0 ≠ [] ∧ ∀ l, stepC inErase Demo.E0 w l = none := by
  refine ⟨_, Demo.reachC 1 Demo.selfLock, by decide +kernel, by decide +kernel, by decide +kernel, fun l => ?_⟩
  have hs : (Demo.worldC 1 Demo.selfLock).stacks 0 =
      [.add 0 1 (.conn 1) .wait, .erase 0 (some (Demo.fn 10)) (.scan 0 0)] := by decide +kernel
  by_cases hl : l.tid = 0
  · exact stuck hs rfl (by decide +kernel) (by decide +kernel) hl
  · have hn : (Demo.worldC 1 Demo.selfLock).nThr = 1 := by decide +kernel
    cases l <;> simp only [Label.tid] at hl <;> simp [stepC, step, hn, Label.tid, hl]

/-- C60 is false for two threads although neither comparison touches the signal it is called for: each connects to the other one's. -/
theorem C60_order_false : ∃ w, ReachableC inErase Demo.E0 w ∧ w.ub = none ∧ w.nThr = 2 ∧ w.stacks 0 ≠ [] ∧ w.stacks 1 ≠ [] ∧
    (∀ t g, Waits w t g → ∀ f ∈ w.stacks t, f.locks ≠ some g) ∧ ∀ l, stepC inErase Demo.E0 w l = none := by
  have hs0 : (Demo.worldC 2 Demo.crossLock).stacks 0 =
      [.add 1 2 (.conn 2) .wait, .erase 0 (some (Demo.fn 10)) (.scan 0 0)] := by decide +kernel
  have hs1 : (Demo.worldC 2 Demo.crossLock).stacks 1 =
      [.add 0 3 (.conn 3) .wait, .erase 1 (some (Demo.fn 11)) (.scan 0 0)] := by decide +kernel
  have hn : (Demo.worldC 2 Demo.crossLock).nThr = 2 := by decide +kernel
  refine ⟨_, Demo.reachC 2 Demo.crossLock, by decide +kernel, hn, by rw [hs0]; simp, by rw [hs1]; simp, ?_, fun l => ?_⟩
  · rintro t g ⟨f, f', rest, hst, hf⟩ x hx
    by_cases h0 : t = 0
    · subst h0
      rw [hs0] at hst hx
      injection hst with e1 e2; subst e1
      cases hf
      simp at hx
      rcases hx with rfl | rfl <;> simp [Frame.locks]
    · by_cases h1 : t = 1
      · subst h1
        rw [hs1] at hst hx
        injection hst with e1 e2; subst e1
        cases hf
        simp at hx
        rcases hx with rfl | rfl <;> simp [Frame.locks]
      · obtain ⟨n, k, σ, v, hv, S⟩ := (Demo.reachC 2 Demo.crossLock).sim
        have : σ t = [] := S.out t (by rw [← S.nThr, hn]; omega)
        rw [S.stk, this] at hst; cases hst
  · by_cases h0 : l.tid = 0
    · exact stuck hs0 rfl (by decide +kernel) (by decide +kernel) h0
    · by_cases h1 : l.tid = 1
      · exact stuck hs1 rfl (by decide +kernel) (by decide +kernel) h1
      · have h2 : ¬ l.tid < 2 := by omega
        cases l <;> simp only [Label.tid] at h2 <;> simp [stepC, step, hn, Label.tid, h2]

/-- With such callbacks a listener may run while its thread holds a mutex: the one of signal 0, whose `disconnect` compares, while the comparison emits signal 1. Without
callbacks it cannot (`C21_listener`). -/
theorem C60_listener_false : ∃ w s o rest, ReachableC inErase Demo.E0 w ∧ w.stacks 0 = .call s (.body o) :: rest ∧
    (w.sigs 0).mutex = some 0 :=
  ⟨_, _, _, _, Demo.reachC 1 Demo.nested, (by decide +kernel : _ = Frame.call 1 (.body none) :: [.emit ⟨0, 1, .lastValue, []⟩ (.iter 1 0 none),
    .erase 0 (some (Demo.fn 10)) (.scan 0 0)]), by decide +kernel⟩

-- the comparison emits signal 1 and all goes well: `C60_sim`, `C60_lists`, `C60_emission`
example : (Demo.execC (World.init 1) Demo.nestedDone).isSome = true ∧ (Demo.worldC 1 Demo.nestedDone).stacks 0 = [] ∧
    (Demo.worldC 1 Demo.nestedDone).listOf 0 = [] ∧ (Demo.worldC 1 Demo.nestedDone).listOf 1 = [1] ∧
    Event.began 0 ⟨0, 1, .lastValue, []⟩ ∈ (Demo.worldC 1 Demo.nestedDone).log ∧
    Event.done 0 (some 5) ∈ (Demo.worldC 1 Demo.nestedDone).log := by decide +kernel

-- the comparison disconnects the listener of signal 1 while that is being emitted by thread 1, which has not come to it: `C60_disconnect`, `C60_once`
example : ∃ pre, (Demo.worldC 2 Demo.cutBack).log = .exch 1 true :: pre ∧ (∀ pos, Event.visit 0 pos 1 ∉ pre) ∧
    Event.snap ⟨0, 1, .lastValue, []⟩ [1] ∈ pre := by
  refine ⟨(Demo.worldC 2 Demo.cutBack).log.tail, by decide +kernel, fun pos h => ?_, by decide +kernel⟩
  have : ∀ ev ∈ (Demo.worldC 2 Demo.cutBack).log.tail, (match ev with | .visit _ _ _ => false | _ => true) = true := by decide +kernel
  have := this _ h
  cases this

-- the hypotheses of `C60_no_ub`
example : StepsC inErase Demo.E0 (fun l => StayPut l ∧ (∀ t i, l ≠ .call t (.combDeref i)) ∧ ∀ t, l ≠ .fail t ∧ l ≠ .ctl t) (World.init 1)
    (Demo.worldC 1 Demo.nestedDone) :=
  Demo.worldC_steps 1 _ (by
    intro l hl
    have : ∀ l ∈ Demo.nestedDone, (match l with
      | .call _ (.destroySig _) | .call _ (.moveSig _) | .call _ (.moveAssignSig _ _) | .call _ (.combDeref _) | .fail _ | .ctl _ => false
      | _ => true) = true := by decide +kernel
    have := this l hl
    refine ⟨?_, ?_, ?_⟩
    · unfold StayPut; split <;> simp_all
    · rintro t i rfl; simp at this
    · exact fun t => ⟨by rintro rfl; simp at this, by rintro rfl; simp at this⟩)

-- thread 1 waits for thread 0, which waits for thread 2: `C60_order_partial` with the order of the signals' numbers
example : Ordered (fun g => g) (Demo.worldC 3 Demo.queue) ∧ (Demo.execC (World.init 3) Demo.queue).isSome = true ∧
    (stepC inErase Demo.E0 (Demo.worldC 3 Demo.queue) (.run 0)).isNone = true ∧
    (stepC inErase Demo.E0 (Demo.worldC 3 Demo.queue) (.run 1)).isNone = true := by
  refine ⟨?_, by decide +kernel, by decide +kernel, by decide +kernel⟩
  have hs0 : (Demo.worldC 3 Demo.queue).stacks 0 = [.add 1 3 (.conn 3) .wait, .erase 0 (some (Demo.fn 10)) (.scan 0 0)] := by decide +kernel
  have hs1 : (Demo.worldC 3 Demo.queue).stacks 1 = [.add 0 4 (.conn 4) .wait] := by decide +kernel
  have hs2 : (Demo.worldC 3 Demo.queue).stacks 2 = [.add 1 2 (.conn 2) .detach] := by decide +kernel
  rintro t g ⟨f, f', rest, hst, hf⟩ x hx g' hl
  by_cases h0 : t = 0
  · subst h0
    rw [hs0] at hst hx
    injection hst with e1 e2; subst e1
    cases hf
    simp at hx
    rcases hx with rfl | rfl <;> simp [Frame.locks] at hl
    subst hl; exact Nat.zero_lt_one
  · by_cases h1 : t = 1
    · subst h1
      rw [hs1] at hst hx
      simp at hx
      subst hx; cases hl
    · by_cases h2 : t = 2
      · subst h2
        rw [hs2] at hst
        injection hst with e1 e2; subst e1
        cases hf
      · obtain ⟨n, k, σ, v, hv, S⟩ := (Demo.reachC 3 Demo.queue).sim
        have : σ t = [] := S.out t (by rw [← S.nThr, show (Demo.worldC 3 Demo.queue).nThr = 3 by decide +kernel]; omega)
        rw [S.stk, this] at hst; cases hst

end Verif
