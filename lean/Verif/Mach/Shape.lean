import Verif.Mach.Hist

/-!
# The shape of the trace of an emission, running or finished
-/

namespace Verif

/-- The last events of an emission with a snapshot: between two dereferences, inside one, or finished. -/
inductive Tail (e : EmId) (m : Em) (items : List SlotId) (vs : List Visit) (args : List Arg) : List Event → Prop where
  | idle (hk : m.comb = .lastValue → ∀ v ∈ vs, v.calm) : Tail e m items vs args []
  | visit (i : Nat) (s : SlotId) (hi : items[i]? = some s) (ho : m.comb = .lastValue → i = vs.length)
      (hk : m.comb = .lastValue → ∀ v ∈ vs, v.calm) :
      Tail e m items vs args [.visit e i s]
  | enter (i : Nat) (s : SlotId) (hi : items[i]? = some s) (ho : m.comb = .lastValue → i = vs.length)
      (hk : m.comb = .lastValue → ∀ v ∈ vs, v.calm) :
      Tail e m items vs args [.visit e i s, .enter e s args]
  | done (r : Option Val) (hd : m.comb = .lastValue →
        vs.length = items.length ∧ r = lastEngaged (vs.map (·.result)) ∧ ∀ v ∈ vs, v.calm) :
      Tail e m items vs args [.done e r]
  | aborted (hd : m.comb = .lastValue → ∃ vs0 v, vs = vs0 ++ [v] ∧ (∀ v ∈ vs0, v.calm) ∧ ¬ v.calm) :
      Tail e m items vs args [.aborted e]

/-- All possible traces. -/
inductive Shape (w : World) (e : EmId) : List Event → Prop where
  | none : Shape w e []
  | began (t : Tid) (m : Em) (he : m.e = e) : Shape w e [.began t m]
  | snap (t : Tid) (m : Em) (items : List SlotId) (vs : List Visit) (args : List Arg) (tail : List Event)
      (he : m.e = e)
      (hv : Emitted (fun s => (w.slots s).consume) (w.sigs m.g).isVoid m items vs args)
      (htl : Tail e m items vs args tail) :
      Shape w e (.began t m :: .snap m items :: (vs.flatMap (·.events e) ++ tail))

theorem TraceInv.shape {w : World} (T : TraceInv w) (hs : ∀ e, Event.suppressed e ∉ w.log) (e : EmId) :
    Shape w e (trace w.log e) := by
  rcases Nat.lt_or_ge e w.nEm with h | h
  · rcases T.fin e h with ⟨t, a, ha, rfl⟩ | h
    · have := T.ok t a ha
      unfold ActOk at this
      split at this
      · obtain ⟨m0, vs, a0, h⟩ := this
        rename_i b pos acc hpc
        rw [h.tr]
        refine .snap t m0 _ vs a0 _ h.e (h.g ▸ h.em) ?_
        have hpos : m0.comb = .lastValue → pos = vs.length := fun hc =>
          (h.dflt (by rw [← h.comb]; exact hc)).1.symm
        have hk : m0.comb = .lastValue → ∀ v ∈ vs, v.calm := fun hc =>
          (h.dflt (by rw [← h.comb]; exact hc)).2.2
        match hc : a.c with
        | none => exact .idle hk
        | some (s, p) =>
          have h1 := (h.cur s p hc).1
          match p with
          | .body o => exact .enter pos s h1 hpos hk
          | .chkBlocked => exact .visit pos s h1 hpos hk
          | .chkConnected => exact .visit pos s h1 hpos hk
          | .invoke => exact .visit pos s h1 hpos hk
          | .lockObj o => exact .visit pos s h1 hpos hk
          | .recheck o => exact .visit pos s h1 hpos hk
      · rw [this.2]; exact .began t _ rfl
    · unfold World.complete at h
      revert h
      generalize htr : trace w.log e = tr
      intro h
      cases h with
      | suppressed t m he =>
        refine absurd ?_ (hs e)
        have : Event.suppressed e ∈ trace w.log e := by rw [htr]; simp
        exact (mem_trace.1 this).1
      | done t m items vs args r he hv hd => exact .snap t m items vs args _ he hv (.done r hd)
      | aborted t m items vs args he hv hd => exact .snap t m items vs args _ he hv (.aborted hd)
  · rw [T.old e h]; exact .none

theorem HistOk.unsup {w : World} {log : List Event} (h : HistOk w log) (e : EmId) : Event.suppressed e ∉ log := by
  intro hm
  obtain ⟨post, pre, rfl⟩ := List.append_of_mem hm
  exact h.at rfl

theorem Full.shape {w : World} (U : Full w) (e : EmId) : Shape w e (trace w.log e) :=
  U.t.shape U.h.unsup e

section
variable {w : World} {e : EmId}

theorem visit_events_em {e : EmId} {v : Visit} {ev : Event} (h : ev ∈ v.events e) :
    ev = .visit e v.pos v.slot ∨ (∃ why, v.out = .skipped why ∧ ev = .skip e v.slot why) ∨
    (∃ a, ((∃ r, v.out = .returned a r) ∨ v.out = .threw a) ∧ ev = .enter e v.slot a) ∨
    (∃ a r, v.out = .returned a r ∧ ev = .exit e v.slot r) ∨ (∃ a, v.out = .threw a ∧ ev = .threw e v.slot) := by
  unfold Visit.events at h
  split at h
  · rename_i why ho
    simp at h
    rcases h with h | h
    · exact .inl h
    · exact .inr (.inl ⟨why, ho, h⟩)
  · rename_i a r ho
    simp at h
    rcases h with h | h | h
    · exact .inl h
    · exact .inr (.inr (.inl ⟨a, .inl ⟨r, ho⟩, h⟩))
    · exact .inr (.inr (.inr (.inl ⟨a, r, ho, h⟩)))
  · rename_i a ho
    simp at h
    rcases h with h | h | h
    · exact .inl h
    · exact .inr (.inr (.inl ⟨a, .inr ho, h⟩))
    · exact .inr (.inr (.inr (.inr ⟨a, ho, h⟩)))

theorem no_snap_visits {vs : List Visit} {m : Em} {l : List SlotId} : Event.snap m l ∉ vs.flatMap (·.events e) := by
  intro h
  obtain ⟨v, -, h⟩ := List.mem_flatMap.1 h
  rcases visit_events_em h with h | ⟨_, -, h⟩ | ⟨_, -, h⟩ | ⟨_, _, -, h⟩ | ⟨_, -, h⟩ <;> cases h

theorem no_began_visits {vs : List Visit} {t : Tid} {m : Em} : Event.began t m ∉ vs.flatMap (·.events e) := by
  intro h
  obtain ⟨v, -, h⟩ := List.mem_flatMap.1 h
  rcases visit_events_em h with h | ⟨_, -, h⟩ | ⟨_, -, h⟩ | ⟨_, _, -, h⟩ | ⟨_, -, h⟩ <;> cases h

/-- With a snapshot in the trace, the shape is the third one. -/
theorem Shape.of_snap {tr : List Event} {m : Em} {items : List SlotId} (h : Shape w e tr)
    (hs : Event.snap m items ∈ tr) :
    ∃ t vs args tail, m.e = e ∧
      Emitted (fun s => (w.slots s).consume) (w.sigs m.g).isVoid m items vs args ∧
      Tail e m items vs args tail ∧ tr = .began t m :: .snap m items :: (vs.flatMap (·.events e) ++ tail) := by
  cases h with
  | none => cases hs
  | began => simp at hs
  | snap t m' items' vs args tail he hv htl =>
    have : m = m' ∧ items = items' := by
      simp only [List.mem_cons, List.mem_append] at hs
      rcases hs with hs | hs | hs | hs
      · cases hs
      · injection hs with h1 h2; exact ⟨h1, h2⟩
      · exact absurd hs no_snap_visits
      · cases htl <;> simp at hs
    obtain ⟨rfl, rfl⟩ := this
    exact ⟨t, vs, args, tail, he, hv, htl, rfl⟩

/-- Any other event than `began` implies that there is a snapshot. -/
theorem Shape.has_snap {tr : List Event} {ev : Event} (h : Shape w e tr) (hm : ev ∈ tr)
    (hb : ∀ t m, ev ≠ .began t m) : ∃ m items, Event.snap m items ∈ tr := by
  cases h with
  | none => cases hm
  | began t m he => simp at hm; exact absurd hm (hb t m)
  | snap t m' items' vs args tail he hv htl => exact ⟨m', items', by simp⟩

theorem Shape.began_eq {tr : List Event} {t t' : Tid} {m m' : Em} (h : Shape w e tr) (h1 : Event.began t m ∈ tr)
    (h2 : Event.began t' m' ∈ tr) : t = t' ∧ m = m' := by
  have aux : ∀ t m, Event.began t m ∈ tr → tr.head? = some (.began t m) := by
    intro t m h1
    cases h with
    | none => cases h1
    | began t' m' he => simp at h1; simp [h1]
    | snap t' m' items' vs args tail he hv htl =>
      simp only [List.mem_cons, List.mem_append] at h1
      rcases h1 with h1 | h1 | h1 | h1
      · simp [h1]
      · cases h1
      · exact absurd h1 no_began_visits
      · cases htl <;> simp at h1
  have a1 := aux t m h1
  have a2 := aux t' m' h2
  rw [a1] at a2
  injection a2 with a2; injection a2 with x y; exact ⟨x, y⟩
end

end Verif
