import Verif.Mach.Reads
import Verif.Demo

/-!
# C54: data races

The specification is `Race` of `Verif/Memory.lean`: happens-before on the trace of memory operations of an execution.
-/

namespace Verif

variable {E : Env} {w w' : World} {tr : List Op} {c : Sync} {i j : Nat} {l : Loc} {k k' : Site}

/-- C54, as far as it is true: two accesses to a list pointer, a vector of listeners or a listener's stored position race only if the first is
an emission reading its snapshot, the second an in-place modification of that vector, and `use_count()` is not an acquire operation. Even
then the emission has given up the vector before the second access. Missing: the absence of this race, see `C54_false`. -/
theorem C54_partial (h : Traced E w tr) (hr : Race c tr i j l k k') :
    c.count = false ∧ ∃ b, l = .vec b ∧ k = .walk ∧ k' = .update ∧
      ∃ m t d, m < j ∧ tr[m]? = some (t, .drop b d) ∧ Before c tr i m := by
  obtain ⟨t, t', hm⟩ := race_iff.1 hr
  exact h.races hm

/-- With an acquiring `use_count()` there is no data race. -/
theorem C54_fixed (h : Traced E w tr) (hc : c.count = true) : ¬ Race c tr i j l k k' := fun hr => by
  rw [(C54_partial h hr).1] at hc; cases hc

/-- The list pointers and the stored positions never race, whatever `use_count()` does. -/
theorem C54_other (h : Traced E w tr) (hl : ∀ b, l ≠ .vec b) : ¬ Race c tr i j l k k' := fun hr => by
  obtain ⟨-, b, e, -⟩ := C54_partial h hr; exact hl b e

/-- Nor do two modifications of one vector, or a modification and a later read. -/
theorem C54_writes (h : Traced E w tr) (hk : k.writes = true) : ¬ Race c tr i j l k k' := fun hr => by
  obtain ⟨-, b, -, e, -⟩ := C54_partial h hr; rw [e] at hk; cases hk

/-- A vector is never freed while an access to it is not known to be over. -/
theorem C54_destroy (h : Traced E w tr) : ¬ Race c tr i j l k .destroy := fun hr => by
  obtain ⟨-, b, -, -, e, -⟩ := C54_partial h hr; cases e

/-! The traces record what the machine does. -/

/-- A step that changes the list pointer of a signal, the contents of a vector or a stored position has the write in its footprint; so has the step
after which a vector has no owner. -/
theorem C54_recorded {lb : Label} (h : Reachable E w) (hs : step E w lb = some w') :
    (∀ g, g < w.nSigs → (w'.sigs g).list ≠ (w.sigs g).list → writesTo (foot E w w' lb) (.ptr g)) ∧
    (∀ b, b < w.nBlks → w'.blks b ≠ w.blks b → writesTo (foot E w w' lb) (.vec b)) ∧
    (∀ s, (w'.slots s).index ≠ (w.slots s).index → writesTo (foot E w w' lb) (.idx s)) ∧
    (∀ b, w.ownedB b = true → w'.ownedB b = false → .acc (.vec b) .destroy ∈ foot E w w' lb) := by
  have F := step_foot h.full.i.i1 hs
  have R := (step_inv hs).2.2
  exact ⟨fun g hg hc => cover_ptr F hg hc, fun b hb hc => cover_vec F hb hc, fun s hc => cover_idx F R hc,
    fun b h1 h2 => cover_free h.full.i.i1 (h.step hs).full.i.i1 h.full.i.i2 F R h1 h2⟩

/-- A step that changes the mutex of a signal has the lock or unlock in its footprint; a recorded lock is one of a free mutex, a recorded unlock
of a live signal one by the holder. -/
theorem C54_mutex {lb : Label} (h : Reachable E w) (hs : step E w lb = some w') {g : SigId} (hg : g < w.nSigs) :
    ((w'.sigs g).mutex ≠ (w.sigs g).mutex →
      ((w.sigs g).mutex = none ∧ (w'.sigs g).mutex = some lb.tid ∧ .lock g ∈ foot E w w' lb) ∨
      ((w'.sigs g).mutex = none ∧ .unlock g ∈ foot E w w' lb)) ∧
    (.lock g ∈ foot E w w' lb → (w.sigs g).mutex = none) ∧
    (.unlock g ∈ foot E w w' lb → (w.sigs g).alive = true → (w.sigs g).mutex = some lb.tid) := by
  have F := step_foot h.full.i.i1 hs
  exact ⟨fun hc => cover_mutex F hg hc, mutex_cover h.full.i.i1 h.full.i.i2 F⟩

/-- Footprints contain every read: change the contents of any locations that the footprint of a step does not mention (and which the thread has not
read earlier in its critical section), leaving the reference counts as they are. Then the step is still possible, has the same effect on everything
else, and leaves the new contents alone. -/
theorem C54_reads {lb : Label} {x : Patch} (hs : step E w lb = some w') (hu : w'.ub = none) (hm : x.fits w)
    (hC : SameCounts w (x.on w)) (hk : ∀ y ∈ cached w lb.tid, x.spares y) (hf : x.apart (foot E w w' lb)) :
    step E (x.on w) lb = some (x.on w') := patch_step hs hu hC hm hk hf

/-- What a thread has read earlier in its critical section is in the footprint of that earlier step. -/
theorem C54_kept {lb : Label} {y : Loc} (h : Reachable E w) (hs : step E w lb = some w') (hu : w'.ub = none)
    (hy : y ∈ cached w' lb.tid) : y ∈ cached w lb.tid ∨ .acc y .read ∈ foot E w w' lb := kept_step h.full.i.i1 hs hu hy

theorem execT_traced {w0 : World} {tr0 : List Op} {ls : List Label} (h0 : Traced E w0 tr0) (h : execT E w0 tr0 ls = some (w, tr)) :
    Traced E w tr := by
  induction ls generalizing w0 tr0 with
  | nil => simp [execT] at h; obtain ⟨rfl, rfl⟩ := h; exact h0
  | cons l ls ih =>
    simp only [execT] at h
    split at h
    · rename_i w1 h1; exact ih (h0.step l h1) h
    · cases h

namespace Demo

/-- The trace of a schedule for `n` threads. -/
def ops (n : Nat) (ls : List Label) : List Op := ((execT E0 (World.init n) [] ls).map (·.2)).getD []

theorem ops_traced (n : Nat) (ls : List Label) : ∃ w, Traced E0 w (ops n ls) := by
  unfold ops
  cases h : execT E0 (World.init n) [] ls with
  | none => exact ⟨_, .init n⟩
  | some x => exact ⟨x.1, execT_traced (.init n) h⟩

/-- Thread 0 connects a listener; thread 1 emits, from beginning to end; thread 0 connects another listener. -/
def relaxed : List Label :=
  [.call 0 (.newSig false)] ++ connect 0 10 0 ++ [.call 1 (.emit 0 .lastValue [])] ++ go 1 8 ++ [.ret 1 0] ++ go 1 1 ++ connect 0 11 1

/-- The same, but both threads work at the same time: thread 1 walks over its snapshot while thread 0 connects and disconnects. -/
def overlap : List Label :=
  [.call 0 (.newSig false)] ++ connect 0 10 0 ++ [.call 1 (.emit 0 .lastValue [])] ++ go 1 7 ++ connect 0 11 1 ++ go 0 1 ++
  [.call 0 (.disconnect (.conn 0))] ++ go 0 6 ++ go 1 1 ++ [.ret 1 0] ++ go 1 1 ++
  [.call 1 (.disconnect (.conn 1))] ++ go 1 6 ++ [.call 0 (.destroySig 0)]

/-- Thread 0 disconnects the listener while thread 1 emits; the emission ends after thread 0 found the vector shared and before it clones it. -/
def lastOwner : List Label :=
  [.call 0 (.newSig false)] ++ connect 0 10 0 ++ [.call 1 (.emit 0 .lastValue [])] ++ go 1 8 ++ [.call 0 (.disconnect (.conn 0))] ++ go 0 3 ++
  [.ret 1 0] ++ go 1 1 ++ go 0 4

end Demo

/-- The traces are those of complete schedules. `overlap` has an unordered-looking pair on each kind of location: thread 1 walks over a vector that
thread 0 filled and reads a pointer that it wrote, it frees the vector after thread 0 has copied it, and it reads a position that thread 0 wrote. -/
example : (execT Demo.E0 (World.init 2) [] Demo.relaxed).isSome = true ∧ (execT Demo.E0 (World.init 2) [] Demo.overlap).isSome = true ∧
    (Demo.ops 2 Demo.overlap)[8]? = some (0, .acc (.vec 0) .update) ∧ (Demo.ops 2 Demo.overlap)[13]? = some (1, .acc (.vec 0) .walk) ∧
    (Demo.ops 2 Demo.overlap)[22]? = some (0, .acc (.vec 0) .read) ∧ (Demo.ops 2 Demo.overlap)[41]? = some (1, .acc (.vec 0) .destroy) ∧
    (Demo.ops 2 Demo.overlap)[11]? = some (1, .acc (.ptr 0) .read) ∧ (Demo.ops 2 Demo.overlap)[24]? = some (0, .acc (.ptr 0) .update) ∧
    (Demo.ops 2 Demo.overlap)[35]? = some (0, .acc (.idx 1) .update) ∧ (Demo.ops 2 Demo.overlap)[44]? = some (1, .acc (.idx 1) .read) := by
  decide +kernel

/-- None of these pairs is a race, even with the relaxed `use_count()` and no synchronisation through the flags. -/
example : ¬ Race ⟨false, false⟩ (Demo.ops 2 Demo.overlap) i j l k k' := fun h => by
  obtain ⟨t, t', hm⟩ := race_iff.1 h
  have : (HB.of ⟨false, false⟩ (Demo.ops 2 Demo.overlap)).races = [] := by decide +kernel
  rw [this] at hm; cases hm

/-- In `lastOwner` it is thread 0 that frees the vector: it clones a vector that by then has no other owner. That is no race either. -/
example : (execT Demo.E0 (World.init 2) [] Demo.lastOwner).isSome = true ∧
    (Demo.ops 2 Demo.lastOwner)[22]? = some (0, .count 0) ∧ (Demo.ops 2 Demo.lastOwner)[23]? = some (1, .acc (.vec 0) .walk) ∧
    (Demo.ops 2 Demo.lastOwner)[24]? = some (1, .drop 0 false) ∧ (Demo.ops 2 Demo.lastOwner)[26]? = some (0, .acc (.vec 0) .read) ∧
    (Demo.ops 2 Demo.lastOwner)[29]? = some (0, .drop 0 true) ∧ (Demo.ops 2 Demo.lastOwner)[30]? = some (0, .acc (.vec 0) .destroy) ∧
    (HB.of ⟨false, false⟩ (Demo.ops 2 Demo.lastOwner)).races = [] := by decide +kernel

/-- Without the locks thread 1's first access would be a race with what thread 0 wrote: the specification is not vacuous. -/
example : ∃ i j, Race ⟨true, true⟩ ((Demo.ops 2 Demo.overlap).filter fun o => match o.2 with | .lock _ => false | _ => true)
    i j (.vec 0) .update .walk := by
  have : ∃ p ∈ (HB.of ⟨true, true⟩ ((Demo.ops 2 Demo.overlap).filter fun o => match o.2 with | .lock _ => false | _ => true)).races,
      p.1.loc = .vec 0 ∧ p.2.loc = .vec 0 ∧ p.1.site = .update ∧ p.2.site = .walk := by decide +kernel
  obtain ⟨⟨⟨i, t, l, k⟩, ⟨j, t', l', k'⟩⟩, hp, h1, h2, h3, h4⟩ := this
  simp only at h1 h2 h3 h4
  subst h1 h2 h3 h4
  exact ⟨i, j, race_iff.2 ⟨t, t', hp⟩⟩

/-- The steps of `connect` during an emission: `lock` changes the mutex, `detach` the list pointer, the write a vector and a position; the end of
the emission frees the old vector. -/
example :
    let w (n : Nat) := Demo.world 2 (Demo.overlap.take n)
    ((w 15).sigs 0).mutex = none ∧ ((w 16).sigs 0).mutex = some 0 ∧
    ((w 17).sigs 0).list = some 0 ∧ ((w 18).sigs 0).list = some 1 ∧
    (w 18).blks 1 = [0] ∧ (w 19).blks 1 = [0, 1] ∧ ((w 18).slots 1).index = 0 ∧ ((w 19).slots 1).index = 1 ∧
    (w 29).ownedB 0 = true ∧ (w 30).ownedB 0 = false := by
  decide +kernel

namespace Demo

/-- Other contents for the vector that the emission of `overlap` walks over and for another listener's position. -/
def elsewhere : Patch where
  vec := upd (fun _ => none) 0 (some [0, 0, 0])
  idx := upd (fun _ => none) 0 (some 7)

/-- Other contents for the vector that `connect` is modifying. -/
def inTheWay : Patch where
  vec := upd (fun _ => none) 1 (some [0, 0, 0])

end Demo

/-- The step of `connect` that modifies its vector does not depend on the vector that the emission walks over, nor on another listener's position, but on
its own vector. -/
example :
    let w := Demo.world 2 (Demo.overlap.take 18)
    let w' := Demo.world 2 (Demo.overlap.take 19)
    step Demo.E0 w (.run 0) = some w' ∧ w'.ub = none ∧ cached w 0 = [.ptr 0] ∧
    foot Demo.E0 w w' (.run 0) = [.acc (.idx 1) .update, .acc (.vec 1) .update] ∧
    step Demo.E0 (Demo.elsewhere.on w) (.run 0) = some (Demo.elsewhere.on w') ∧
    ∀ v, step Demo.E0 (Demo.inTheWay.on w) (.run 0) = some v → (v.slots 1).index ≠ (w'.slots 1).index := by
  have hs : step Demo.E0 (Demo.world 2 (Demo.overlap.take 18)) (.run 0) = some (Demo.world 2 (Demo.overlap.take 19)) := by
    exact Demo.world_step 2 (Demo.overlap.take 18) (.run 0) (by decide +kernel)
  have hu : (Demo.world 2 (Demo.overlap.take 19)).ub = none := by decide +kernel
  have hk : cached (Demo.world 2 (Demo.overlap.take 18)) 0 = [.ptr 0] := by decide +kernel
  have hf : foot Demo.E0 (Demo.world 2 (Demo.overlap.take 18)) (Demo.world 2 (Demo.overlap.take 19)) (.run 0) =
      [.acc (.idx 1) .update, .acc (.vec 1) .update] := by decide +kernel
  refine ⟨hs, hu, hk, hf, ?_, ?_⟩
  · refine C54_reads hs hu (fun l => ?_) (SameCounts.vecs_idx (fun _ => rfl) fun b l hb s => ?_) ?_ ?_
    · cases l with
      | ptr g => exact .inl rfl
      | vec b =>
        by_cases hb : b = 0
        · subst hb; exact .inr (show 0 < (Demo.world 2 (Demo.overlap.take 18)).nBlks by decide +kernel)
        · exact .inl (by simp [Patch.spares, Demo.elsewhere, upd_apply, hb])
      | idx s =>
        by_cases hb : s = 0
        · subst hb; exact .inr (show 0 < (Demo.world 2 (Demo.overlap.take 18)).nSlots by decide +kernel)
        · exact .inl (by simp [Patch.spares, Demo.elsewhere, upd_apply, hb])
    · simp only [Demo.elsewhere, upd_apply] at hb
      split at hb
      · rename_i e; subst e; cases hb
        rw [show (Demo.world 2 (Demo.overlap.take 18)).blks 0 = [0] by decide +kernel]; simp
      · cases hb
    · rw [show Label.tid (.run 0) = 0 from rfl, hk]; simp [Patch.spares, Demo.elsewhere]
    · rw [hf]; intro l k h; simp at h; rcases h with h | h <;> obtain ⟨rfl, -⟩ := h <;> simp [Patch.spares, Demo.elsewhere, upd_apply]
  · intro v hv
    have : (step Demo.E0 (Demo.inTheWay.on (Demo.world 2 (Demo.overlap.take 18))) (.run 0)).map (fun v => (v.slots 1).index) =
      some 3 := by decide +kernel
    rw [hv] at this
    have h2 : ((Demo.world 2 (Demo.overlap.take 19)).slots 1).index = 1 := by decide +kernel
    simp at this
    omega

/-- C54 is false: `use_count()` is a relaxed load, so the second `connect` modifies the vector in place without the walk of
the finished emission happening before. Operations on the atomic flags are taken to synchronise. -/
theorem C54_false : ∃ w tr i j b, Traced Demo.E0 w tr ∧ Race ⟨false, true⟩ tr i j (.vec b) .walk .update := by
  obtain ⟨w, h⟩ := Demo.ops_traced 2 Demo.relaxed
  have : ∃ p ∈ (HB.of ⟨false, true⟩ (Demo.ops 2 Demo.relaxed)).races,
      p.1.loc = .vec 0 ∧ p.2.loc = .vec 0 ∧ p.1.site = .walk ∧ p.2.site = .update := by decide +kernel
  obtain ⟨⟨⟨i, t, l, k⟩, ⟨j, t', l', k'⟩⟩, hp, h1, h2, h3, h4⟩ := this
  simp only at h1 h2 h3 h4
  subst h1 h2 h3 h4
  exact ⟨w, _, i, j, 0, h, race_iff.2 ⟨t, t', hp⟩⟩

end Verif
