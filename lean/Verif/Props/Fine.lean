import Verif.Mach.FineSim
import Verif.Props.Safety
import Verif.Props.Emission
import Verif.Props.Terminate
import Verif.Props.Disconnect

/-!
# C61: updates are atomic although they consist of several statements

`Verif/Machine.lean` performs the update of a list in one step. `Verif/Fine.lean` performs it statement by statement and lets other threads run in between.
Here: the second machine has the same executions as the first, as far as anybody can tell. So everything proved about the first machine holds of the second.
-/

namespace Verif

variable {E : Env} {w w' : World} {f f' : FWorld}

/-- No thread that does not hold a mutex can tell these worlds apart. The same has happened, every thread is in the same place, and all flags, callables, handles
and objects are the same; the same listeners exist. The same mutexes are held. A signal whose mutex is free has the same list, with the same positions
stored, and so has every running emission. -/
structure Looks (v w : World) : Prop where
  log : v.log = w.log
  ub : v.ub = w.ub
  stacks : v.stacks = w.stacks
  vars : v.cv = w.cv ∧ v.sv = w.sv ∧ v.bv = w.bv
  objs : v.objs = w.objs ∧ v.nObjs = w.nObjs
  sizes : v.nSlots = w.nSlots ∧ v.nSigs = w.nSigs ∧ v.nThr = w.nThr ∧ v.nEm = w.nEm
  slot : ∀ s, (v.slots s).fn = (w.slots s).fn ∧ (v.slots s).consume = (w.slots s).consume ∧ (v.slots s).connected = (w.slots s).connected ∧
    (v.slots s).blocked = (w.slots s).blocked ∧ (v.slots s).owner = (w.slots s).owner
  alive : ∀ s, v.slotAlive s = w.slotAlive s
  sig : ∀ g, (v.sigs g).mutex = (w.sigs g).mutex ∧ (v.sigs g).alive = (w.sigs g).alive ∧ (v.sigs g).sblocked = (w.sigs g).sblocked ∧
    (v.sigs g).isVoid = (w.sigs g).isVoid
  free : ∀ g, (w.sigs g).mutex = none → (v.sigs g).list = (w.sigs g).list ∧ v.listOf g = w.listOf g ∧
    ∀ s ∈ w.listOf g, (v.slots s).index = (w.slots s).index
  runs : ∀ t, ∀ fr ∈ w.stacks t, ∀ b, fr.blk? = some b → v.blks b = w.blks b

theorem SimF.looks {d : Patch} (S : SimF E f w d) : Looks f.w w := by
  have I := S.reach.full.i.i1
  have fr : ∀ {l}, (∀ t, ¬ priv w t l) → (∀ s, l = .idx s → ¬ Orphan w s) → d.spares l := by
    intro l h1 h2
    rcases S.clean l with h | ⟨t, h⟩ | ⟨s, h, ho⟩
    · exact h
    · exact absurd (Dirty.priv S.reach (S.half t) h) (h1 t)
    · exact absurd ho (h2 s h)
  have hx : ∀ g, (w.sigs g).mutex = none → (f.w.sigs g).list = (w.sigs g).list ∧ f.w.listOf g = w.listOf g ∧
      ∀ s ∈ w.listOf g, (f.w.slots s).index = (w.slots s).index := by
    intro g hm
    have hp : d.spares (.ptr g) := fr (fun t h => by simp only [priv] at h; rw [hm] at h; cases h) (fun s h => by cases h)
    have e := S.sig_eq hp
    refine ⟨by rw [e], ?_, fun s hs => ?_⟩
    · simp only [World.listOf, e]
      cases hl : (w.sigs g).list with
      | none => rfl
      | some b =>
        refine S.blk_eq (fr (fun t h => ?_) (fun s h => by cases h))
        obtain ⟨g', h1, h2⟩ := h
        cases S.reach.full.i.i2.uniq _ _ _ h2 hl
        rw [topW_mutex S.reach h1] at hm; cases hm
    · have K := S.reach.full.i.i3
      have hl : Event.added g s ∈ w.log ∨ ∃ g', Event.added g' s ∈ w.log := by
        have h := (K.listed g s hs).1
        have : 0 < w.log.countP (Event.adds s) := by omega
        obtain ⟨ev, h1, h2⟩ := List.countP_pos_iff.1 this
        cases ev <;> simp [Event.adds] at h2
        subst h2; exact .inr ⟨_, h1⟩
      have : d.spares (.idx s) := by
        rcases S.clean (.idx s) with h | ⟨t, h⟩ | ⟨s', h, ho⟩
        · exact h
        · have H := S.half t
          generalize f.half t = hf at H h
          cases H with
          | idle | lcl | ref | matched => exact h.elim
          | made => obtain ⟨_, -, h⟩ := h; cases h
          | swapped => cases h
          | stored =>
            obtain ⟨g', s', h, e⟩ := h
            cases e
            have h0 := K.pend _ _ _ h
            rw [(K.listed g s hs).1] at h0; cases h0
          | indexed g' b i s' hw hl' ht hd hsw hi =>
            rcases h with h | ⟨s'', h, e⟩
            · cases h
            · cases e
              have : s ∈ w.listOf g' := by simp only [World.listOf, hl']; exact swap_mem.1 (List.mem_of_getElem? h)
              cases K.disj hs this
              rw [topW_mutex S.reach hw] at hm; cases hm
        · cases h
          rcases hl with h | ⟨g', h⟩ <;> exact absurd h (ho.2.2 _)
      rw [S.eq]; simp only [Patch.spares] at this; simp [Patch.on, this]
  refine ⟨by rw [S.eq]; rfl, S.ub_eq, by rw [S.eq]; rfl, by rw [S.eq]; exact ⟨rfl, rfl, rfl⟩, by rw [S.eq]; exact ⟨rfl, rfl⟩,
    by rw [S.eq]; exact ⟨rfl, rfl, rfl, rfl⟩, by rw [S.eq]; exact fun s => ⟨rfl, rfl, rfl, rfl, rfl⟩, by rw [S.eq]; exact S.counts.slots,
    by rw [S.eq]; exact fun g => ⟨rfl, rfl, rfl, rfl⟩, hx, fun t fr' hf b hb => ?_⟩
  refine S.blk_eq (fr (fun t' h => ?_) (fun s h => by cases h))
  obtain ⟨g', h1, h2⟩ := h
  exact S.reach.full.i.i2.excl t' g' b h1 h2 t fr' hf hb

/-- C61: whatever happens when the updates are done statement by statement also happens when they are done at once, in a program that makes the same calls
and is scheduled in the same order. -/
theorem C61 {n : Nat} {ls : List Label} (h : execFine E (.init n) ls = some f) :
    ∃ ls' w, ls'.Sublist ls ∧ ls'.filter (!·.isRun) = ls.filter (!·.isRun) ∧ exec E (.init n) ls' = some w ∧ Looks f.w w := by
  obtain ⟨ls', w, d, h1, h2, h3, S⟩ := (SimF.init n).exec h
  exact ⟨ls', w, h1, h2, h3, S.looks⟩

/-- C61: and the other way round. -/
theorem C61_exact {n : Nat} {ls : List Label} (h : exec E (.init n) ls = some w) :
    ∃ ls' f, ls.Sublist ls' ∧ ls.filter (!·.isRun) = ls'.filter (!·.isRun) ∧ execFine E (.init n) ls' = some f ∧ Looks f.w w := by
  obtain ⟨ls', f, d, h1, h2, h3, S⟩ := (SimF.init n).fine h
  exact ⟨ls', f, h1, h2, h3, S.looks⟩

theorem ReachableF.looks (h : ReachableF E f) : ∃ w, Reachable E w ∧ Looks f.w w := by
  obtain ⟨w, d, S⟩ := h.sim
  exact ⟨w, S.reach, S.looks⟩

/-- C61: every signal whose mutex is free has the list that the completed updates give when applied one after the other; no listener is in it twice, and
every listener in it knows its position. -/
theorem C61_lists (h : ReachableF E f) {g : SigId} (hm : (f.w.sigs g).mutex = none) :
    f.w.listOf g = replay f.w.log g ∧ (f.w.listOf g).Nodup ∧ ∀ i s, (f.w.listOf g)[i]? = some s → (f.w.slots s).index = i := by
  obtain ⟨w, hw, L⟩ := h.looks
  rw [(L.sig g).1] at hm
  obtain ⟨-, e, hi⟩ := L.free g hm
  rw [e, L.log]
  exact ⟨C20_serial hw g, C43_nodup hw g, fun i s hs => by rw [hi s (List.mem_of_getElem? hs)]; exact C46 hw g i s hs⟩

/-- C61: no emission sees a list half updated: its snapshot is what the updates completed before it give. -/
theorem C61_snapshot (h : ReachableF E f) {m : Em} {items : List SlotId} {post pre : List Event} (hl : f.w.log = post ++ .snap m items :: pre) :
    items = replay pre m.g := by
  obtain ⟨w, hw, L⟩ := h.looks
  rw [L.log] at hl
  exact (hw.full.h.at hl).1

/-- C61: an emission with the default combiner that is done has visited this list, in order, each listener once. -/
theorem C61_visits (h : ReachableF E f) {t : Tid} {m : Em} {r : Option Val} (hb : Event.began t m ∈ f.w.log) (hd : Event.done m.e r ∈ f.w.log)
    (hc : m.comb = .lastValue) : ∃ post pre items, f.w.log = post ++ .snap m items :: pre ∧ items = replay pre m.g ∧
      (trace f.w.log m.e).filterMap Event.visited = (List.range items.length).zip items := by
  obtain ⟨w, hw, L⟩ := h.looks
  rw [L.log] at *
  exact C07 hw hb hd hc

theorem steps_exec {P : Label → Prop} (h : Steps E P w w') : ∃ ls, exec E w ls = some w' := by
  induction h with
  | refl => exact ⟨[], rfl⟩
  | @tail w1 w2 l _ _ hs ih =>
    obtain ⟨ls, h⟩ := ih
    exact ⟨ls ++ [l], by rw [Demo.exec_append, h]; simp [exec, hs]⟩

/-- C61: the same histories are possible. -/
theorem C61_histories (l : List Event) : (∃ f, ReachableF E f ∧ f.w.log = l) ↔ ∃ w, Reachable E w ∧ w.log = l := by
  constructor
  · rintro ⟨f, h, rfl⟩
    obtain ⟨w, hw, L⟩ := h.looks
    exact ⟨w, hw, L.log.symm⟩
  · rintro ⟨w, ⟨n, hw⟩, rfl⟩
    obtain ⟨ls, h⟩ := steps_exec hw
    obtain ⟨ls', f, -, -, h', L⟩ := C61_exact h
    exact ⟨f, ⟨n, ls', h'⟩, L.log⟩

/-- C61: if `pop_back()` in `remove_slot` drops another listener than the one that was disconnected then somebody else had taken that one out of the list before, or
the signal was moved or destroyed. -/
theorem C61_removes (h : ReachableF E f) {post pre : List Event} {g : SigId} {s v : SlotId} (hl : f.w.log = post ++ .removed g s v :: pre) (hv : v ≠ s) :
    Lost g s pre := by
  obtain ⟨w, hw, L⟩ := h.looks
  rw [L.log] at hl
  exact C02_sharp_partial hw hl hv

/-- The mutex that a thread within an update holds. -/
theorem HalfOk.locks {d : Patch} {h : Half} {st : List Frame} (H : HalfOk E w d st h) (hi : h ≠ .idle) : ∃ g, topLocks st = some g := by
  cases H with
  | idle => exact absurd rfl hi
  | lcl f f' rest g b hst hf => subst hst; exact ⟨g, det_locks hf⟩
  | stored g s dest rest b hst => subst hst; exact ⟨g, rfl⟩
  | made g b b0 hw => exact ⟨g, topW_locks hw⟩
  | ref g b hw => exact ⟨g, topW_locks hw⟩
  | matched g b i hw => exact ⟨g, topW_locks hw⟩
  | swapped g b i hw => exact ⟨g, topW_locks hw⟩
  | indexed g b i s hw => exact ⟨g, topW_locks hw⟩

/-- C61: a thread that is within an update holds the mutex of a signal. -/
theorem C61_locked (h : ReachableF E f) {t : Tid} (ht : f.half t ≠ .idle) : ∃ g, (f.w.sigs g).mutex = some t := by
  obtain ⟨w, d, S⟩ := h.sim
  obtain ⟨g, hg⟩ := (S.half t).locks ht
  exact ⟨g, by rw [S.eq]; exact (S.reach.full.i.i1.mtx g t).2 hg⟩

/-- C61: an update that has begun can always go on, whatever the other threads have done since. -/
theorem C61_progress (h : ReachableF E f) {t : Tid} (hu : f.w.ub = none) (ht : f.half t ≠ .idle) : ∃ f', stepFine E f (.run t) = some f' := by
  obtain ⟨w, d, S⟩ := h.sim
  obtain ⟨g, hg⟩ := (S.half t).locks ht
  refine S.runs (by rw [← S.ub_eq]; exact hu) ?_ (.inl ht)
  refine Nat.lt_of_not_le fun hn => ?_
  rw [S.reach.full.i.i1.thr t hn] at hg
  cases hg

/-- C61: with the default combiner there is no undefined behaviour between the statements either. -/
theorem C61_safe {n : Nat} {ls : List Label} (h : execFine E (.init n) ls = some f)
    (hp : ∀ l ∈ ls, StayPut l ∧ (∀ t i, l ≠ .call t (.combDeref i)) ∧ ∀ t, l ≠ .fail t ∧ l ≠ .ctl t) : f.w.ub = none := by
  obtain ⟨ls', w, h1, -, h3, L⟩ := C61 h
  rw [L.ub]
  exact C22_memory (exec_steps (.refl _) (fun l hl => hp l (h1.subset hl)) h3)

/-! ### Examples -/

namespace Demo

/-- The state after a schedule for `n` threads. -/
def fine (n : Nat) (ls : List Label) : FWorld := (execFine E0 (.init n) ls).getD (.init n)

theorem fine_reach (n : Nat) (ls : List Label) : ReachableF E0 (fine n ls) := by
  unfold fine
  cases h : execFine E0 (.init n) ls with
  | none => exact ⟨n, [], rfl⟩
  | some f => exact ⟨n, ls, h⟩

theorem fine_exec (n : Nat) (ls : List Label) (h : (execFine E0 (.init n) ls).isSome = true) : execFine E0 (.init n) ls = some (fine n ls) := by
  obtain ⟨f, h⟩ := Option.isSome_iff_exists.1 h
  unfold fine; rw [h]; rfl

/-- Thread `t` connects callable `k` to signal `g`, statement by statement. -/
def connectF (t : Tid) (g : SigId) (k : Nat) (x : Var) : List Label := .call t (.connect g (fn k) [] true false (.conn x)) :: go t 5

/-- Two signals. Thread 0 is removing the first of three listeners of signal 0: it has swapped it with the last one. Thread 1 is connecting a listener to signal 1: it
has stored the position. Thread 2 is emitting signal 0 (it was, before thread 0 began), and has called the first listener. -/
def midway : List Label :=
  [.call 0 (.newSig false), .call 0 (.newSig false)] ++ connectF 0 0 10 0 ++ connectF 0 0 11 1 ++ connectF 0 0 12 2 ++
  [.call 2 (.emit 0 .lastValue [])] ++ go 2 8 ++ [.call 0 (.disconnect (.conn 0)), .call 1 (.connect 1 (fn 13) [] true false (.conn 3))] ++
  [.run 0, .run 1, .run 0, .run 1, .run 0, .run 1] ++ go 0 3

end Demo

example : (execFine Demo.E0 (.init 3) Demo.midway).isSome = true := by decide +kernel
example : ((Demo.fine 3 Demo.midway).half 0, (Demo.fine 3 Demo.midway).half 1) = (.swapped 2 0, .stored 1) := by decide +kernel

-- what `C61` says of it
example : ∃ ls' w, ls'.Sublist Demo.midway ∧ ls'.filter (!·.isRun) = Demo.midway.filter (!·.isRun) ∧ exec Demo.E0 (.init 3) ls' = some w ∧
    Looks (Demo.fine 3 Demo.midway).w w := C61 (Demo.fine_exec 3 _ (by decide +kernel))

/-- Between the statements a list is indeed in no state that the history knows of: here the first listener is still in it, the last one is in its place and does not
know its position. -/
theorem C61_midway : ∃ f, ReachableF Demo.E0 f ∧ f.w.ub = none ∧ f.w.listOf 0 = [2, 1, 0] ∧ replay f.w.log 0 = [0, 1, 2] ∧ (f.w.slots 2).index = 2 :=
  ⟨_, Demo.fine_reach 3 Demo.midway, by decide +kernel, by decide +kernel, by decide +kernel, by decide +kernel⟩

-- `C61_locked`, `C61_progress`: both threads hold a mutex, and can go on
example : ∃ g, ((Demo.fine 3 Demo.midway).w.sigs g).mutex = some 0 := C61_locked (Demo.fine_reach _ _) (by decide +kernel)
example : ∃ f', stepFine Demo.E0 (Demo.fine 3 Demo.midway) (.run 1) = some f' :=
  C61_progress (Demo.fine_reach _ _) (by decide +kernel) (by decide +kernel)

namespace Demo

/-- Then everybody finishes. -/
def midwayEnd : List Label := midway ++ [.run 1, .run 0, .run 1, .run 0] ++ go 0 2 ++ [.ret 2 6] ++ go 2 4 ++ [.ret 2 7] ++ go 2 4 ++ [.ret 2 8] ++ go 2 1

end Demo

example : (execFine Demo.E0 (.init 3) Demo.midwayEnd).isSome = true := by decide +kernel

-- `C61_lists`
example : ((Demo.fine 3 Demo.midwayEnd).w.listOf 0, (Demo.fine 3 Demo.midwayEnd).w.listOf 1) = ([2, 1], [3]) := by decide +kernel
example : ((Demo.fine 3 Demo.midwayEnd).w.slots 2).index = 0 :=
  (C61_lists (Demo.fine_reach _ _) (g := 0) (by decide +kernel)).2.2 0 2 (by decide +kernel)

namespace Demo

/-- During an emission `signal::disconnect` takes the first of three listeners out; then its connection is disconnected. -/
def staleF : List Label :=
  [.call 0 (.newSig false)] ++ connectF 0 0 10 0 ++ connectF 0 0 11 1 ++ connectF 0 0 12 2 ++ [.call 1 (.emit 0 .lastValue [])] ++ go 1 8 ++
  [.call 0 (.sigDisconnect 0 (some (fn 10)))] ++ go 0 12 ++ [.call 0 (.disconnect (.conn 0))] ++ go 0 6

end Demo

-- `C61_removes`
example : ∃ post pre, (Demo.fine 2 Demo.staleF).w.log = post ++ .removed 0 0 2 :: pre ∧ Lost 0 0 pre := by
  obtain ⟨post, pre, e⟩ := List.append_of_mem (show Event.removed 0 0 2 ∈ (Demo.fine 2 Demo.staleF).w.log by decide +kernel)
  exact ⟨post, pre, e, C61_removes (Demo.fine_reach _ _) e (by decide)⟩

-- `C61_visits`, `C61_snapshot`
example : ∃ post pre items, (Demo.fine 3 Demo.midwayEnd).w.log = post ++ .snap ⟨0, 0, .lastValue, []⟩ items :: pre ∧ items = replay pre 0 ∧
    (trace (Demo.fine 3 Demo.midwayEnd).w.log 0).filterMap Event.visited = (List.range items.length).zip items :=
  C61_visits (Demo.fine_reach _ _) (t := 2) (m := ⟨0, 0, .lastValue, []⟩) (r := some 8) (by decide +kernel) (by decide +kernel) rfl
example : (trace (Demo.fine 3 Demo.midwayEnd).w.log 0).filterMap Event.visited = [(0, 0), (1, 1), (2, 2)] := by decide +kernel

-- `C61_safe`
example : (Demo.fine 3 Demo.midwayEnd).w.ub = none :=
  C61_safe (Demo.fine_exec 3 _ (by decide +kernel)) (by
    intro l hl
    have : ∀ l ∈ Demo.midwayEnd, (match l with
      | .call _ (.destroySig _) | .call _ (.moveSig _) | .call _ (.moveAssignSig _ _) | .call _ (.combDeref _) | .fail _ | .ctl _ => false
      | _ => true) = true := by decide +kernel
    have := this l hl
    refine ⟨?_, ?_, ?_⟩
    · unfold StayPut; split <;> simp_all
    · rintro t i rfl; simp at this
    · exact fun t => ⟨by rintro rfl; simp at this, by rintro rfl; simp at this⟩)

-- `C61_exact`
example : ∃ ls' f, Demo.during.Sublist ls' ∧ Demo.during.filter (!·.isRun) = ls'.filter (!·.isRun) ∧ execFine Demo.E0 (.init 2) ls' = some f ∧
    Looks f.w (Demo.world 2 Demo.during) :=
  C61_exact (Demo.world_from 2 [] Demo.during (by decide +kernel))

end Verif
