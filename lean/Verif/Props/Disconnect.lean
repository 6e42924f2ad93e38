import Verif.Mach.Rem
import Verif.Mach.StepL
import Verif.Props.Calls

/-!
# C02, C03, C04, C10, C11, C17: disconnecting
-/

namespace Verif

variable {E : Env} {w w' : World}

/-! ### Example executions -/

namespace Demo

/-- Three listeners; thread 0 emits and is inside the body of listener 0. -/
def inBody : List Label :=
  [.call 0 (.newSig false)] ++ connect 0 10 0 ++ connect 0 11 1 ++ connect 0 12 2 ++
  [.call 0 (.emit 0 .lastValue [])] ++ go 0 8

/-- From there the body calls `sig.disconnect(fn 10)`, which removes its own listener 0. -/
def erased : List Label := inBody ++ [.call 0 (.sigDisconnect 0 (some (fn 10)))] ++ go 0 8

/-- … and then `disconnect()` on its own connection. -/
def stale : List Label := erased ++ [.call 0 (.disconnect (.conn 0))] ++ go 0 6

/-- From `inBody`, thread 1 disconnects listener 1, and the emission goes on to the end. -/
def cut : List Label :=
  inBody ++ [.call 1 (.disconnect (.conn 1))] ++ go 1 7 ++
  [.ret 0 7] ++ go 0 3 ++ go 0 4 ++ [.ret 0 9] ++ go 0 1

/-- From `inBody`, the body erases listener 1, and the emission calls it all the same. -/
def ghost : List Label :=
  inBody ++ [.call 0 (.sigDisconnect 0 (some (fn 11)))] ++ go 0 8 ++ [.ret 0 7] ++ go 0 4

/-- A listener tracking object 0, whose owner then drops it. -/
def orphan : List Label :=
  [.call 0 (.newSig false), .call 0 .objNew,
   .call 0 (.connect 0 (.tracked ⟨0, true, .rvalue⟩ ⟨1, true, .rvalue⟩ 5 0) [] true false (.conn 0))] ++ go 0 4 ++
  [.call 0 (.objDrop 0)]

end Demo

/-! ### C02 -/

/-- In this history nobody called `disconnect(f)` on `g` with effect, moved from `g` or destroyed `g`. -/
def Undisturbed (g : SigId) (log : List Event) : Prop :=
  ∀ ev ∈ log, (∀ v, ev ≠ .erased g v) ∧ (∀ g', ev ≠ .moved g g') ∧ ev ≠ .destroyed g

theorem not_home {g : SigId} : ∀ {log : List Event}, (∀ post ev pre, log = post ++ ev :: pre → EvOk2 ev pre) →
    (∀ s, log.countP (Event.adds s) ≤ 1) → Undisturbed g log → ∀ s, Event.added g s ∈ log →
    home log s ≠ some g → Event.removed g s s ∈ log
  | [], _, _, _, _, h, _ => by cases h
  | ev :: log, hh, hc, hu, s, ha, hn => by
    have ih := not_home (g := g) (log := log) (fun post ev' pre e => hh (ev :: post) ev' pre (by rw [e]; rfl))
      (fun s => by have := hc s; rw [List.countP_cons] at this; omega)
      (fun ev' h => hu ev' (List.mem_cons_of_mem _ h))
    have hev := hh [] ev log rfl
    obtain ⟨u1, u2, u3⟩ := hu ev List.mem_cons_self
    rcases List.mem_cons.1 ha with ha | ha
    · subst ha; simp [home] at hn
    · by_cases hs : home log s = some g
      · cases ev
        case added g1 s1 =>
          exfalso
          by_cases e : s = s1
          · subst e
            have h1 : 0 < log.countP (Event.adds s) := List.countP_pos_iff.2 ⟨_, ‹Event.added g s ∈ log›, by simp [Event.adds]⟩
            have h2 := hc s
            rw [List.countP_cons, if_pos (by simp [Event.adds])] at h2
            omega
          · simp [home, e, hs] at hn
        case removed g1 r v =>
          by_cases e : s = v
          · subst e
            obtain ⟨h1, h2, h3, h4⟩ := hev
            rw [hs] at h4; injection h4 with h4; subst h4
            by_cases hr : home log r = some g
            · rw [h3 hr]; exact List.mem_cons_self
            · exact absurd (ih r h1 hr) (h2 _ _)
          · simp [home, e, hs] at hn
        case erased g1 v =>
          exfalso
          by_cases e : s = v
          · subst e
            have h4 : home log s = some g1 := hev
            rw [hs] at h4; injection h4 with h4; subst h4
            exact u1 _ rfl
          · simp [home, e, hs] at hn
        case moved g1 g2 =>
          exfalso
          have : g ≠ g1 := by rintro rfl; exact u2 _ rfl
          simp [home, hs, this] at hn
        case destroyed g1 =>
          exfalso
          have : g ≠ g1 := by rintro rfl; exact u3 rfl
          simp [home, hs, this] at hn
        all_goals exact absurd (by simpa [home] using hs) hn
      · exact List.mem_cons_of_mem _ (ih s ha hs)

theorem adds_suffix {log post pre : List Event} (e : log = post ++ pre) {s : SlotId}
    (h : log.countP (Event.adds s) ≤ 1) : pre.countP (Event.adds s) ≤ 1 := by
  subst e; rw [List.countP_append] at h; omega

theorem home_adds {s : SlotId} : ∀ {log : List Event} {g : SigId}, home log s = some g →
    0 < log.countP (Event.adds s)
  | [], _, h => by simp [home] at h
  | ev :: log, g, h => by
    rw [List.countP_cons]
    cases ev
    case added g1 s1 =>
      by_cases e : s = s1
      · subst e; simp [Event.adds]
      · have := home_adds (log := log) (g := g) (by simpa [home, e] using h)
        omega
    all_goals
      rcases hh : home log s with _ | g2
      · simp [home, hh] at h
      · have := home_adds hh; omega

/-- What has been taken out is in no list. -/
theorem home_taken {s : SlotId} {ev : Event} : ∀ {log : List Event},
    (∀ post ev pre, log = post ++ ev :: pre → EvOk2 ev pre) → log.countP (Event.adds s) ≤ 1 →
    ev ∈ log → ev.takes s = true → home log s = none
  | [], _, _, h, _ => by cases h
  | ev0 :: log, hh, hc, h, ht => by
    rcases List.mem_cons.1 h with h1 | h1
    · subst h1
      cases ev <;> simp [Event.takes] at ht <;> simp [home, ht]
    · have ih := home_taken (log := log) (fun post ev' pre e => hh (ev0 :: post) ev' pre (by rw [e]; rfl))
        (by rw [List.countP_cons] at hc; omega) h1 ht
      cases ev0
      case added g1 s1 =>
        by_cases e : s = s1
        · exfalso
          subst e
          rw [List.countP_cons, if_pos (by simp [Event.adds])] at hc
          obtain ⟨p2, p1, e'⟩ := List.append_of_mem h1
          have h2 := hh (.added g1 s :: p2) ev p1 (by rw [e']; rfl)
          have : 0 < p1.countP (Event.adds s) := by
            cases ev <;> simp [Event.takes] at ht
            · subst ht; exact home_adds h2.2.2.2
            · subst ht; exact home_adds h2
          rw [e', List.countP_append, List.countP_cons] at hc
          omega
        · simp [home, e, ih]
      all_goals simp [home, ih]

/-- C02 (partial: signals on which `signal::disconnect(f)` has removed something, or which were moved from or
destroyed, are excluded; see `C02_false`). The removal made by `connection::disconnect()` for listener `req` takes
`req` itself out of the list, and no other listener. -/
theorem C02_partial (h : Reachable E w) {post pre : List Event} {g : SigId} {req v : SlotId}
    (e : w.log = post ++ .removed g req v :: pre) (hu : Undisturbed g pre) : v = req := by
  have K := h.inv8
  obtain ⟨h1, h2, h3, h4⟩ := K.hist _ _ _ e
  by_cases hr : home pre req = some g
  · exact h3 hr
  · have := not_home (fun post' ev' pre' e' => K.hist (post ++ .removed g req v :: post') ev' pre'
      (by rw [e, e']; simp)) (fun s => adds_suffix (post := post ++ [.removed g req v]) (by rw [e]; simp)
        (h.full.i.i3.adds s)) hu req h1 hr
    exact absurd this (h2 _ _)

/-- C02 (partial, sharper): the removal for `req` hits another listener only if `req` itself had already been taken
out of the list by someone else, or the signal was moved or destroyed. -/
theorem C02_sharp_partial (h : Reachable E w) {post pre : List Event} {g : SigId} {req v : SlotId}
    (e : w.log = post ++ .removed g req v :: pre) (hv : v ≠ req) : Lost g req pre := by
  obtain ⟨h1, h2, h3, h4⟩ := h.inv8.hist _ _ _ e
  refine Classical.byContradiction fun hn => ?_
  exact hv (h3 (home_of h1 (adds_suffix (post := post ++ [.removed g req v]) (by rw [e]; simp)
    (h.full.i.i3.adds req)) hn))

/-- C02 (partial, as above): when `connection::disconnect()` has returned `true`, the listener has been taken out of
its signal's list, once and for all. -/
theorem C02_gone_partial (h : Reachable E w) {post pre : List Event} {t : Tid} {s : SlotId}
    (e : w.log = post ++ .discRet t (some s) true :: pre) :
    ∃ g, Event.added g s ∈ pre ∧ (Undisturbed g pre → Event.removed g s s ∈ pre ∧ ∀ g', s ∉ w.listOf g') := by
  have K := h.inv8
  obtain ⟨g, h1, h2⟩ := K.hist _ _ _ e
  refine ⟨g, h1, fun hu => ?_⟩
  have hin : Event.removed g s s ∈ pre := by
    have hist : ∀ post' ev' pre', pre = post' ++ ev' :: pre' → EvOk2 ev' pre' := fun post' ev' pre' e' =>
      K.hist (post ++ .discRet t (some s) true :: post') ev' pre' (by rw [e, e']; simp)
    have adds : ∀ s', pre.countP (Event.adds s') ≤ 1 := fun s' =>
      adds_suffix (post := post ++ [.discRet t (some s) true]) (by rw [e]; simp) (h.full.i.i3.adds s')
    rcases h2 with ⟨v, hv⟩ | ⟨ev, he, ht | ⟨g', hm⟩ | hd⟩
    · obtain ⟨p2, p1, e'⟩ := List.append_of_mem hv
      have : v = s := by
        subst e'
        exact C02_partial h (post := post ++ .discRet t (some s) true :: p2) (pre := p1) (by rw [e]; simp)
          fun ev hev => hu ev (by simp [hev])
      subst this; exact hv
    · refine not_home hist adds hu s h1 ?_
      rw [home_taken hist (adds s) he ht]; simp
    · exact absurd hm ((hu ev he).2.1 _)
    · exact absurd hd (hu ev he).2.2
  refine ⟨hin, fun g' hg' => ?_⟩
  have := (h.full.i.i3.listed g' s hg').2
  have h0 : 0 < w.log.countP (Event.takes s) :=
    List.countP_pos_iff.2 ⟨.removed g s s, by rw [e]; simp [hin], by simp [Event.takes]⟩
  omega

/-- Two listeners; disconnecting listener 0 by its connection takes out 0. -/
example : ∃ w pre post, Reachable Demo.E0 w ∧ w.log = post ++ .removed 0 0 0 :: pre ∧ Undisturbed 0 pre ∧
    w.listOf 0 = [1] := by
  let ls : List Label := [.call 0 (.newSig false)] ++ Demo.connect 0 10 0 ++ Demo.connect 0 11 1 ++
    [.call 0 (.disconnect (.conn 0))] ++ Demo.go 0 6
  let w := Demo.world 1 ls
  refine ⟨w, w.log.drop 2, w.log.take 1, Demo.reach 1 ls, by decide +kernel, ?_, by decide +kernel⟩
  have : w.log.drop 2 = [.exch 0 true, .connRet 0 0 1, .added 0 1, .created 0 1 true false,
    .connRet 0 0 0, .added 0 0, .created 0 0 true false] := by decide +kernel
  rw [this]
  simp [Undisturbed]

/-- … and it has returned `true`. -/
example : ∃ w pre post, Reachable Demo.E0 w ∧ w.log = post ++ .discRet 0 (some 0) true :: pre := by
  let ls : List Label := [.call 0 (.newSig false)] ++ Demo.connect 0 10 0 ++ Demo.connect 0 11 1 ++
    [.call 0 (.disconnect (.conn 0))] ++ Demo.go 0 6
  let w := Demo.world 1 ls
  exact ⟨w, w.log.drop 1, [], Demo.reach 1 ls, by decide +kernel⟩

/-- C02 is false: a listener erases itself with `sig.disconnect(f)` while it runs, and then disconnects its own
connection, which is still valid. That removes listener 2, which nobody asked to remove, and returns `true`. -/
theorem C02_false : ∃ w, Reachable Demo.E0 w ∧ Event.removed 0 0 2 ∈ w.log ∧
    Event.discRet 0 (some 0) true ∈ w.log ∧ w.listOf 0 = [1] ∧ (∀ e, Event.erased 0 2 ≠ e ∨ e ∉ w.log) :=
  ⟨Demo.world 1 Demo.stale, Demo.reach 1 _, by decide +kernel, by decide +kernel, by decide +kernel,
    fun e => by
      by_cases h : Event.erased 0 2 = e
      · subst h; exact .inr (by decide +kernel)
      · exact .inl h⟩

/-! ### C03 -/

/-- C03: whatever the number of connection objects and threads, at most one `disconnect()` call for a listener
returns `true`. -/
theorem C03_once (h : Reachable E w) (s : SlotId) : w.log.countP (Event.discTrue s) ≤ 1 :=
  Nat.le_trans (h.full.d.dr s) (h.full.d.ex1 s)

theorem first_flag {s : SlotId} {g : SigId} {c b : Bool} : ∀ {log : List Event}, HistOk w log →
    Event.created g s c b ∈ log → (∀ b, Event.exch s b ∉ log) → (∀ e, Event.skip e s .expired ∉ log) →
    connectedAfter log s = c
  | [], _, h, _, _ => by cases h
  | ev :: log, hh, hc, hx, hsk => by
    have ih := first_flag (s := s) (g := g) (c := c) (b := b) (log := log) hh.2
    have hx' : ∀ b, Event.exch s b ∉ log := fun b h => hx b (List.mem_cons_of_mem _ h)
    have hsk' : ∀ e, Event.skip e s .expired ∉ log := fun e h => hsk e (List.mem_cons_of_mem _ h)
    rcases List.mem_cons.1 hc with e | hm
    · subst e; simp [connectedAfter]
    · cases ev
      case created g1 s1 c1 b1 =>
        by_cases e : s1 = s
        · subst e; exact absurd hm (hh.1 _ _ _)
        · simp only [connectedAfter, e, if_false]; exact ih hm hx' hsk'
      case exch s1 b1 =>
        by_cases e : s1 = s
        · subst e; exact absurd List.mem_cons_self (hx b1)
        · simp only [connectedAfter, e, if_false]; exact ih hm hx' hsk'
      case skip e1 s1 why =>
        cases why
        case expired =>
          by_cases e : s1 = s
          · subst e; exact absurd List.mem_cons_self (hsk e1)
          · simp only [connectedAfter, e, if_false]; exact ih hm hx' hsk'
        all_goals (simp only [connectedAfter]; exact ih hm hx' hsk')
      all_goals (simp only [connectedAfter]; exact ih hm hx' hsk')

theorem HistOk.drop : ∀ {post pre : List Event}, HistOk w (post ++ pre) → HistOk w pre
  | [], _, h => h
  | _ :: _, _, h => HistOk.drop h.2

/-- C03: the first `disconnect()` to reach the listener finds the flag the listener was created with (unless an emission
has found the tracked object gone); every other one finds `false`. -/
theorem C03_first (h : Reachable E w) {post pre : List Event} {s : SlotId} {r : Bool}
    (e : w.log = post ++ .exch s r :: pre) :
    (∀ g c b, Event.created g s c b ∈ pre → (∀ b, Event.exch s b ∉ pre) → (∀ e, Event.skip e s .expired ∉ pre) →
      r = c) ∧
    (∀ b, Event.exch s b ∈ pre → r = false) := by
  have hh : HistOk w (.exch s r :: pre) := HistOk.drop (e ▸ h.full.h)
  refine ⟨fun g c b h1 h2 h3 => ?_, fun b hb => ?_⟩
  · rw [← hh.1.2]; exact first_flag hh.2 h1 h2 h3
  · have h2 := hh.1.2
    cases r
    · rfl
    · exact absurd hb ((HistOk.up hh.2 h2).1 b)

/-- C03: the call that found `true` is the one that returns `true`: it has returned so, or is still running and will (it is
inside `remove_slot` or has just left it). -/
theorem C03_winner (h : Reachable E w) {s : SlotId} (hx : Event.exch s true ∈ w.log) :
    (∃ t, Event.discRet t (some s) true ∈ w.log) ∨
    ∃ t k pc rest, w.stacks t = .disc s k pc :: rest ∧ pc ≠ .exch := by
  rcases h.inv8.exr s hx with h1 | ⟨t, g, pc, h1⟩
  · exact .inl h1
  · refine .inr ⟨t, ?_⟩
    unfold topCrit at h1
    split at h1
    · rename_i s' k g' pc' rest hst
      simp only [Option.some.injEq, Prod.mk.injEq] at h1
      obtain ⟨rfl, rfl, rfl⟩ := h1
      exact ⟨k, _, rest, hst, by simp⟩
    · rename_i s' k g' rest hst
      simp only [Option.some.injEq, Prod.mk.injEq] at h1
      obtain ⟨rfl, rfl, rfl⟩ := h1
      exact ⟨k, _, rest, hst, by simp⟩
    · cases h1

namespace Demo

/-- Two threads disconnect listener 0 at the same time, through two connection objects. -/
def race : List Label :=
  [.call 0 (.newSig false)] ++ connect 0 10 0 ++ [.call 0 (.connCopy 1 (.conn 0)),
   .call 0 (.disconnect (.conn 0)), .call 1 (.disconnect (.conn 1)), .run 1, .run 0] ++ go 1 5

end Demo

example : ∃ w, Reachable Demo.E0 w ∧ w.log.countP (Event.discTrue 0) = 1 ∧ Event.exch 0 true ∈ w.log ∧
    Event.exch 0 false ∈ w.log ∧ Event.discRet 0 (some 0) false ∈ w.log ∧ Event.discRet 1 (some 0) true ∈ w.log :=
  ⟨Demo.world 2 Demo.race, Demo.reach 2 _, by decide +kernel, by decide +kernel, by decide +kernel,
    by decide +kernel, by decide +kernel⟩

/-! ### C04, C10 -/

/-- History is only added to. -/
theorem Steps.log {P : Label → Prop} (h : Steps E P w w') : ∃ evs, w'.log = evs ++ w.log := by
  induction h with
  | refl => exact ⟨[], rfl⟩
  | tail l _ _ h ih =>
    obtain ⟨e1, h1⟩ := ih
    obtain ⟨e2, h2⟩ := log_grows (step_inv h).2.2
    exact ⟨e2 ++ e1, by rw [h2, h1, List.append_assoc]⟩

/-- C04: after any `disconnect()` has reached the listener, no connection ever reports it connected again. -/
theorem C04_flag (h : Reachable E w) {s : SlotId} {b : Bool} (hx : Event.exch s b ∈ w.log)
    {P : Label → Prop} (hs : Steps E P w w') : w'.connConnected (some s) = false := by
  have h' := h.steps hs
  have hx' : Event.exch s b ∈ w'.log := by
    obtain ⟨evs, he⟩ := hs.log
    rw [he]; exact List.mem_append_right _ hx
  have hlt := h'.full.d.exlt s b hx'
  have : connectedAfter w'.log s = false := by
    rw [← Bool.not_eq_true]
    exact fun hc => h'.full.d.up s b hc hx'
  simp [World.connConnected, World.slotConnected, h'.full.k.con s hlt, this]

theorem suffix_of_not_mem {α : Type} {a b l old : List α} {x : α} (e : a ++ x :: b = l ++ old) (h : x ∉ old) :
    ∃ c, b = c ++ old := by
  rcases List.append_eq_append_iff.1 e with ⟨c, h1, h2⟩ | ⟨c, h1, h2⟩
  · cases c with
    | nil => simp at h2; subst h2; exact absurd List.mem_cons_self h
    | cons y c => simp at h2; exact ⟨c, h2.2⟩
  · subst h2; exact absurd (by simp) h

/-- C04, C10: a call that starts after a `disconnect()` has reached the listener is of an emission that was, at that
moment, already inside the dereference of that listener (past its checks). So the listener is not called by later
emissions, nor later in the same emission. -/
theorem C04_call (h : Reachable E w) {post pre : List Event} {e : EmId} {s : SlotId} {b : Bool} {a : List Arg}
    (hl : w.log = post ++ .enter e s a :: pre) (hx : Event.exch s b ∈ pre) :
    ∃ l pos old, pre = l ++ .visit e pos s :: old ∧ (∀ ev ∈ l, ev.em ≠ some e) ∧ Event.exch s b ∈ l := by
  have hh : HistOk w (.enter e s a :: pre) := HistOk.drop (hl ▸ h.full.h)
  obtain ⟨⟨pos, l1, old, e1, e2, ⟨m1, m0, old', f1, ⟨⟨q, f2⟩, f3⟩, -, -⟩, e4⟩, -⟩ := hh.1
  subst e1
  have hno := (HistOk.up (HistOk.drop hh.2) e4).1 b
  refine ⟨l1 ++ (m1 ++ m0), pos, q, by rw [f2]; simp, fun ev hev => ?_, ?_⟩
  · rcases List.mem_append.1 hev with h1 | h1
    · exact e2 ev h1
    · exact f3 ev h1
  · rcases List.mem_append.1 hx with h1 | h1
    · exact List.mem_append_left _ h1
    · exact absurd h1 hno

/-- C04: a listener with a tracked object is not called at all after a `disconnect()` has reached it. -/
theorem C04_tracked (h : Reachable E w) {post pre : List Event} {e : EmId} {s : SlotId} {b : Bool} {a : List Arg}
    {o : ObjId} (hl : w.log = post ++ .enter e s a :: pre) (ho : (w.slots s).fn.obj? = some o) :
    Event.exch s b ∉ pre := by
  have hh : HistOk w (.enter e s a :: pre) := HistOk.drop (hl ▸ h.full.h)
  exact (HistOk.up hh.2 (hh.1.2.2 o ho)).1 b

/-- C10: if `disconnect()` reaches a listener before a running emission has come to it, that emission does not call
it. -/
theorem C10 (h : Reachable E w) {post pre : List Event} {e : EmId} {s : SlotId} {b : Bool}
    (hl : w.log = post ++ .exch s b :: pre) (hv : ∀ pos, Event.visit e pos s ∉ pre) (a : List Arg) :
    Event.enter e s a ∉ post := by
  intro hm
  obtain ⟨p2, p1, rfl⟩ := List.append_of_mem hm
  have hl' : w.log = p2 ++ .enter e s a :: (p1 ++ .exch s b :: pre) := by rw [hl]; simp
  have hh : HistOk w (.enter e s a :: (p1 ++ .exch s b :: pre)) := HistOk.drop (hl' ▸ h.full.h)
  obtain ⟨⟨pos, l1, old, e1, e2, ⟨m1, m0, old', f1, ⟨⟨q, f2⟩, f3⟩, -, -⟩, e4⟩, -⟩ := hh.1
  have hno := (HistOk.up (HistOk.drop (e1 ▸ hh.2)) e4).1 b
  obtain ⟨c, hc⟩ := suffix_of_not_mem e1 hno
  exact hv pos (by rw [hc, f2]; simp)

/-- The example for the four theorems: thread 0 is in the body of listener 0 when thread 1 disconnects listener 1. -/
example : ∃ w pre post, Reachable Demo.E0 w ∧ w.log = post ++ .exch 1 true :: pre ∧
    (∀ pos, Event.visit 0 pos 1 ∉ pre) ∧ Event.snap ⟨0, 0, .lastValue, []⟩ [0, 1, 2] ∈ pre ∧
    Event.skip 0 1 .notConnected ∈ post := by
  let w := Demo.world 2 Demo.cut
  refine ⟨w, w.log.drop (w.log.idxOf (.exch 1 true) + 1), w.log.takeWhile (· ≠ .exch 1 true),
    Demo.reach 2 _, by decide +kernel, fun pos => ?_, by decide +kernel, by decide +kernel⟩
  have : ∀ ev ∈ w.log.drop (w.log.idxOf (.exch 1 true) + 1),
      (match ev with | .visit _ _ s => s == 1 | _ => false) = false := by decide +kernel
  intro h
  simpa using this _ h

namespace Demo

/-- Thread 0 has passed the checks on listener 0 when thread 1 disconnects it; then it is called. -/
def late : List Label :=
  [.call 0 (.newSig false)] ++ connect 0 10 0 ++ [.call 0 (.emit 0 .lastValue [])] ++ go 0 7 ++
  [.call 1 (.disconnect (.conn 0))] ++ go 1 7 ++ go 0 1

/-- A listener with a tracked object is called and then disconnected. -/
def tracked : List Label :=
  [.call 0 (.newSig false), .call 0 .objNew,
   .call 0 (.connect 0 (.tracked ⟨0, true, .rvalue⟩ ⟨1, true, .rvalue⟩ 5 0) [] true false (.conn 0))] ++ go 0 4 ++
  [.call 0 (.emit 0 .lastValue [])] ++ go 0 9 ++ [.call 0 (.disconnect (.conn 0))] ++ go 0 7

end Demo

/-- The exceptional case of `C04_call` occurs. -/
example : ∃ w pre, Reachable Demo.E0 w ∧ w.log = .enter 0 0 [] :: pre ∧ Event.exch 0 true ∈ pre ∧
    Event.discRet 1 (some 0) true ∈ pre :=
  ⟨Demo.world 2 Demo.late, (Demo.world 2 Demo.late).log.tail, Demo.reach 2 _, by decide +kernel, by decide +kernel,
    by decide +kernel⟩

example : ∃ w pre post, Reachable Demo.E0 w ∧ w.log = post ++ .enter 0 0 [] :: pre ∧
    (w.slots 0).fn.obj? = some 0 ∧ Event.exch 0 true ∈ post :=
  ⟨Demo.world 1 Demo.tracked,
    (Demo.world 1 Demo.tracked).log.drop ((Demo.world 1 Demo.tracked).log.idxOf (.enter 0 0 []) + 1), (Demo.world 1 Demo.tracked).log.takeWhile (· ≠ .enter 0 0 []), Demo.reach 1 _,
    by decide +kernel, by decide +kernel, by decide +kernel⟩

/-! ### C11 -/

/-- C11 is false: `sig.disconnect(f)` removes listener 1 while an emission runs listener 0; the call has returned
(with the count 1), the connection still says connected, and the emission then calls listener 1. -/
theorem C11_false : ∃ w pre, Reachable Demo.E0 w ∧ w.log = .enter 0 1 [] :: pre ∧
    Event.eraseRet 0 0 (some (Demo.fn 11)) (some 1) ∈ pre ∧ Event.erased 0 1 ∈ pre ∧
    (∃ w', Reachable Demo.E0 w' ∧ Event.eraseRet 0 0 (some (Demo.fn 11)) (some 1) ∈ w'.log ∧
      Event.erased 0 1 ∈ w'.log ∧ w'.connConnected (w'.cv 1) = true) :=
  ⟨Demo.world 1 Demo.ghost, (Demo.world 1 Demo.ghost).log.tail, Demo.reach 1 _, by decide +kernel, by decide +kernel,
    by decide +kernel,
    ⟨Demo.world 1 (Demo.ghost.take 34), Demo.reach 1 _, by decide +kernel, by decide +kernel, by decide +kernel⟩⟩

/-- C11 (partial: emissions that had already taken their snapshot are not covered; see `C11_false`). An emission that
takes its snapshot after a listener has been removed, by whatever means, does not visit that listener. -/
theorem C11_partial (h : Reachable E w) {post pre : List Event} {m : Em} {items : List SlotId} {s : SlotId}
    {ev : Event} (hl : w.log = post ++ .snap m items :: pre) (hev : ev ∈ pre) (ht : ev.takes s = true) (pos : Nat) :
    s ∉ items ∧ Event.visit m.e pos s ∉ w.log := by
  have hs : s ∉ items := by
    have := h.full.h.at hl
    rw [this.2 s, home_taken (fun post' ev' pre' e' => h.inv8.hist (post ++ .snap m items :: post') ev' pre'
      (by rw [hl, e']; simp)) (adds_suffix (post := post ++ [.snap m items]) (by rw [hl]; simp)
        (h.full.i.i3.adds s)) hev ht]
    simp
  refine ⟨hs, fun hv => ?_⟩
  have hsn : Event.snap m items ∈ w.log := by rw [hl]; simp
  obtain ⟨t, vs, args, tail, he, hv', htl, htr⟩ := (h.full.shape m.e).of_snap (mem_tr hsn rfl)
  have := mem_tr hv (e := m.e) rfl
  rw [htr] at this
  simp only [List.mem_cons, List.mem_append, reduceCtorEq, false_or] at this
  rcases this with h1 | h1
  · obtain ⟨v, hvm, h1⟩ := List.mem_flatMap.1 h1
    rcases visit_events_em h1 with h1 | ⟨_, -, h1⟩ | ⟨_, -, h1⟩ | ⟨_, _, -, h1⟩ | ⟨_, -, h1⟩
    · injection h1 with _ h2 h3
      subst h3
      exact hs (List.mem_of_getElem? (hv'.here v hvm))
    all_goals cases h1
  · cases htl <;> simp at h1
    all_goals
      obtain ⟨rfl, rfl⟩ := h1
      exact hs (List.mem_of_getElem? ‹_›)

namespace Demo

/-- Listener 0 is disconnected by `disconnect(f)`; then the signal is emitted. -/
def after : List Label :=
  [.call 0 (.newSig false)] ++ connect 0 10 0 ++ connect 0 11 1 ++
  [.call 0 (.sigDisconnect 0 (some (fn 10)))] ++ go 0 6 ++ [.call 0 (.emit 0 .lastValue [])] ++ go 0 8

end Demo

example : ∃ w pre post, Reachable Demo.E0 w ∧
    w.log = post ++ .snap ⟨0, 0, .lastValue, []⟩ [1] :: pre ∧ Event.erased 0 0 ∈ pre :=
  ⟨Demo.world 1 Demo.after,
    (Demo.world 1 Demo.after).log.drop ((Demo.world 1 Demo.after).log.idxOf (.snap ⟨0, 0, .lastValue, []⟩ [1]) + 1),
    (Demo.world 1 Demo.after).log.takeWhile (· ≠ .snap ⟨0, 0, .lastValue, []⟩ [1]), Demo.reach 1 _,
    by decide +kernel, by decide +kernel⟩

/-! ### C17 -/

/-- C17 is false: the tracked object is gone, so the connection reports not connected; still `disconnect()` through it
returns `true`. -/
theorem C17_false : ∃ w w', Reachable Demo.E0 w ∧ w.connValid (w.cv 0) = true ∧ w.connConnected (w.cv 0) = false ∧
    Event.discRet 0 (some 0) true ∉ w.log ∧
    exec Demo.E0 w (.call 0 (.disconnect (.conn 0)) :: Demo.go 0 6) = some w' ∧
    Event.discRet 0 (some 0) true ∈ w'.log := by
  refine ⟨Demo.world 1 Demo.orphan,
    (exec Demo.E0 (Demo.world 1 Demo.orphan) (.call 0 (.disconnect (.conn 0)) :: Demo.go 0 6)).getD (World.init 0),
    Demo.reach 1 _, by decide +kernel, by decide +kernel, by decide +kernel, ?_, by decide +kernel⟩
  have : (exec Demo.E0 (Demo.world 1 Demo.orphan) (.call 0 (.disconnect (.conn 0)) :: Demo.go 0 6)).isSome = true := by
    decide +kernel
  obtain ⟨x, hx⟩ := Option.isSome_iff_exists.1 this
  rw [hx]; rfl

/-- C17 (partial: listeners whose tracked object has expired are excluded; see `C17_false`). At the moment at which a
`disconnect()` that returns `true` takes effect, the listener is reported connected through every connection to it,
provided its tracked object, if it has one, is alive. (By `C03_winner` the calls that return `true` are those whose
exchange found `true`.) -/
theorem C17_partial (h : Reachable E w) {l : Label} (hs : step E w l = some w') {s : SlotId}
    (hl : w'.log = .exch s true :: w.log) (ho : ∀ o, (w.slots s).fn.obj? = some o → w.objAlive o = true) :
    w.connConnected (some s) = true ∧ w'.connConnected (some s) = false := by
  have hx : Event.exch s true ∈ w'.log := by rw [hl]; simp
  refine ⟨?_, C04_flag (h.step hs) hx (P := fun _ => True) (.refl _)⟩
  have hd : ∃ k rest, w.stacks l.tid = .disc s k .exch :: rest ∧ (w.slots s).connected = true := by
    obtain ⟨-, -, R⟩ := step_inv hs
    cases R <;> try (simp [World.setUB, World.setH, World.setStack, World.emitEv, World.setBlocked,
      World.setMutex, World.setIndex, World.setBlk, World.setConnected, World.setList] at hl; done)
    case det f f' rest g b hst hf hlst =>
      have : ((cloneBlk w g b).setStack l.tid (f' :: rest)).log = w.log := by
        simp only [World.setStack]; rfl
      rw [this] at hl; simp at hl
    case exchTrue s' k rest hst hc =>
      simp [World.setStack, World.emitEv, World.setConnected] at hl
      subst hl
      exact ⟨k, rest, hst, hc⟩
  obtain ⟨k, rest, hst, hc⟩ := hd
  have ha : w.slotAlive s = true :=
    (slotAlive_iff h.full.i.i1).2 (.inr (.inl ⟨l.tid, .disc s k .exch, by rw [hst]; simp, .inl rfl⟩))
  have hsc : w.slotConnected s = true := by
    unfold World.slotConnected
    rw [hc]
    split
    · rename_i o e; simp [ho o e]
    · rfl
  simp [World.connConnected, ha, hsc]

/-- C17 (partial: concerns listeners an emission has found expired). Once an emission has found the tracked object gone, the
flag is down as well: no `disconnect()` that reaches the listener after that returns `true`. -/
theorem C17_seen_partial (h : Reachable E w) {post pre : List Event} {e : EmId} {s : SlotId}
    (hl : w.log = post ++ .skip e s .expired :: pre) : Event.exch s true ∉ post := by
  intro hx
  obtain ⟨p1, p2, rfl⟩ := List.append_of_mem hx
  have hh : HistOk w (.exch s true :: (p2 ++ .skip e s .expired :: pre)) :=
    HistOk.drop (post := p1) (by have := h.full.h; rw [hl] at this; simpa using this)
  exact (HistOk.up hh.2 hh.1.2).2 e (by simp)

/-- The owner drops the object between the check and the call; `disconnect()` then finds `false`. -/
example : ∃ w, Reachable Demo.E0 w ∧ Event.skip 0 0 .expired ∈ w.log ∧ Event.discRet 0 (some 0) false ∈ w.log :=
  ⟨Demo.world 2 (Demo.orphan.dropLast ++ [.call 0 (.emit 0 .lastValue [])] ++ Demo.go 0 7 ++
      [.call 1 (.objDrop 0)] ++ Demo.go 0 2 ++ [.call 0 (.disconnect (.conn 0)), .run 0]),
    Demo.reach 2 _, by decide +kernel, by decide +kernel⟩

/-- In `race`, thread 1's step is such a step. -/
example : ∃ w w', Reachable Demo.E0 w ∧ step Demo.E0 w (.run 1) = some w' ∧ w'.log = .exch 0 true :: w.log ∧
    w.connConnected (some 0) = true := by
  have : (step Demo.E0 (Demo.world 2 (Demo.race.take 9)) (.run 1)).isSome = true := by decide +kernel
  obtain ⟨x, hx⟩ := Option.isSome_iff_exists.1 this
  refine ⟨_, x, Demo.reach 2 (Demo.race.take 9), hx, ?_, by decide +kernel⟩
  have e : x = (step Demo.E0 (Demo.world 2 (Demo.race.take 9)) (.run 1)).getD (World.init 0) := by rw [hx]; rfl
  rw [e]
  decide +kernel

end Verif
