import Verif.Mach.Inv

/-!
# What each emission has done so far
-/

namespace Verif

/-! ### Lists of visits -/

theorem lastEngaged_snoc (rs : List (Option Val)) (r : Option Val) :
    lastEngaged (rs ++ [r]) = if r.isSome then r else lastEngaged rs := by
  unfold lastEngaged
  cases r <;> simp

theorem ArgsThread.snoc {c : SlotId → List Bool} {v : Visit} {a' a'' : List Arg} :
    ∀ {vs : List Visit} {a : List Arg}, ArgsThread c a vs a' → ArgsThread c a' [v] a'' →
      ArgsThread c a (vs ++ [v]) a''
  | [], a, h, k => by simp only [ArgsThread] at h; subst h; exact k
  | u :: vs, a, h, k => by
    simp only [List.cons_append, ArgsThread] at h ⊢
    split at h
    · rename_i e; exact ArgsThread.snoc h k
    · exact ⟨h.1, ArgsThread.snoc h.2 k⟩
    · exact ⟨h.1, ArgsThread.snoc h.2 k⟩

theorem ArgsThread.congr {c c' : SlotId → List Bool} {a' : List Arg} :
    ∀ {vs : List Visit} {a : List Arg}, (∀ v ∈ vs, c' v.slot = c v.slot) → ArgsThread c a vs a' → ArgsThread c' a vs a'
  | [], a, _, h => h
  | u :: vs, a, hc, h => by
    have hu := hc u (by simp)
    have ih := fun a => ArgsThread.congr (a := a) (a' := a') (fun v hv => hc v (List.mem_cons_of_mem u hv))
    simp only [ArgsThread] at h ⊢
    split at h
    · exact ih _ h
    · rw [hu]; exact ⟨h.1, ih _ h.2⟩
    · rw [hu]; exact ⟨h.1, ih _ h.2⟩

theorem Emitted.congr {c c' : SlotId → List Bool} {i i' : Bool} {m : Em} {items : List SlotId} {vs : List Visit}
    {args : List Arg} (hc : ∀ v ∈ vs, c' v.slot = c v.slot) (hi : i' = i) (h : Emitted c i m items vs args) :
    Emitted c' i' m items vs args := by
  subst hi
  exact ⟨h.here, h.res, h.args.congr hc, h.order⟩

theorem visit_mem {e : EmId} {v : Visit} {vs : List Visit} (h : v ∈ vs) :
    Event.visit e v.pos v.slot ∈ vs.flatMap (·.events e) := by
  rw [List.mem_flatMap]
  refine ⟨v, h, ?_⟩
  unfold Visit.events
  split <;> simp

theorem Complete.congr {c c' : SlotId → List Bool} {i i' : SigId → Bool} {e : EmId} {tr : List Event}
    (h : Complete c i e tr) (hc : ∀ p s, Event.visit e p s ∈ tr → c' s = c s)
    (hi : ∀ t m, Event.began t m ∈ tr → i' m.g = i m.g) : Complete c' i' e tr := by
  cases h with
  | suppressed t m he => exact .suppressed t m he
  | done t m items vs args r he hv hd =>
    refine .done t m items vs args r he (hv.congr (fun v m => hc v.pos v.slot ?_) (hi t m (by simp))) hd
    simp [visit_mem m]
  | aborted t m items vs args he hv hd =>
    refine .aborted t m items vs args he (hv.congr (fun v m => hc v.pos v.slot ?_) (hi t m (by simp))) hd
    simp [visit_mem m]

/-! ### Traces -/

theorem trace_quiet {evs log : List Event} {e : EmId} (h : ∀ ev ∈ evs, ev.em ≠ some e) :
    trace (evs ++ log) e = trace log e := by
  unfold trace
  rw [List.filter_append, (List.filter_eq_nil_iff (l := evs)).2 (by intro a ha; simpa using h a ha)]
  rfl

theorem trace_cons {ev : Event} {log : List Event} {e : EmId} (h : ev.em = some e) :
    trace (ev :: log) e = trace log e ++ [ev] := by
  unfold trace; simp [h]

theorem mem_trace {log : List Event} {e : EmId} {ev : Event} : ev ∈ trace log e ↔ ev ∈ log ∧ ev.em = some e := by
  simp [trace]

/-! ### Activations -/

/-- An activation of `signal::operator()`, with the call of a listener that it is waiting for, if any. -/
structure Act where
  c : Option (SlotId × CallPc)
  m : Em
  pc : EmitPc

/-- The emissions in progress on a call stack, innermost first. -/
def acts : List Frame → List Act
  | .call s p :: .emit m pc :: rest => ⟨some (s, p), m, pc⟩ :: acts rest
  | .emit m pc :: rest => ⟨none, m, pc⟩ :: acts rest
  | _ :: rest => acts rest
  | [] => []

theorem acts_mem {st : List Frame} {a : Act} (h : a ∈ acts st) : Frame.emit a.m a.pc ∈ st := by
  fun_induction acts st with
  | case1 s p m pc rest ih =>
    rcases List.mem_cons.1 h with rfl | h
    · simp
    · simp [ih h]
  | case2 m pc rest ih =>
    rcases List.mem_cons.1 h with rfl | h
    · simp
    · simp [ih h]
  | case3 f rest _ _ ih => exact List.mem_cons_of_mem _ (ih h)
  | case4 => cases h

theorem acts_mem_call {st : List Frame} {a : Act} {s : SlotId} {p : CallPc} (h : a ∈ acts st)
    (hc : a.c = some (s, p)) : Frame.call s p ∈ st := by
  fun_induction acts st with
  | case1 s p m pc rest ih =>
    rcases List.mem_cons.1 h with rfl | h
    · simp at hc; simp [hc]
    · simp [ih h]
  | case2 m pc rest ih =>
    rcases List.mem_cons.1 h with rfl | h
    · simp at hc
    · simp [ih h]
  | case3 f rest _ _ ih => exact List.mem_cons_of_mem _ (ih h)
  | case4 => cases h

/-- Events of the dereference under way. -/
def current (e : EmId) (pos : Nat) : Option (SlotId × CallPc) → List Arg → List Event
  | none, _ => []
  | some (s, .body _), a => [.visit e pos s, .enter e s a]
  | some (s, _), _ => [.visit e pos s]

/-- What an activation of `slot::operator()` has seen. -/
def CallAt (w : World) (e : EmId) (pos : Nat) (s : SlotId) : CallPc → Prop
  | .chkBlocked => ∃ l, Since e pos s l w.log
  | .chkConnected => SeenUnblocked e pos s w.log
  | .lockObj o => SeenConnected e pos s w.log ∧ (w.slots s).fn.obj? = some o
  | .recheck o => SeenConnected e pos s w.log ∧ (w.slots s).fn.obj? = some o
  | .invoke => SeenConnected e pos s w.log ∧ (w.slots s).fn.obj? = none
  | .body o => (w.slots s).fn.obj? = o

theorem Since.grow {e : EmId} {pos : Nat} {s : SlotId} {l log evs : List Event} (h : Since e pos s l log)
    (hq : ∀ ev ∈ evs, ev.em ≠ some e) : Since e pos s (evs ++ l) (evs ++ log) := by
  obtain ⟨⟨pre, h1⟩, h2⟩ := h
  refine ⟨⟨pre, by simp [h1]⟩, ?_⟩
  intro ev hev
  rcases List.mem_append.1 hev with h | h
  · exact hq ev h
  · exact h2 ev h

theorem SeenUnblocked.grow {e : EmId} {pos : Nat} {s : SlotId} {log evs : List Event}
    (h : SeenUnblocked e pos s log) (hq : ∀ ev ∈ evs, ev.em ≠ some e) : SeenUnblocked e pos s (evs ++ log) := by
  obtain ⟨l1, l0, old, h1, h2, h3, h4⟩ := h
  refine ⟨evs ++ l1, l0, old, by simp [h1], ?_, h3, h4⟩
  rw [List.append_assoc]; exact h2.grow hq

theorem SeenConnected.grow {e : EmId} {pos : Nat} {s : SlotId} {log evs : List Event}
    (h : SeenConnected e pos s log) (hq : ∀ ev ∈ evs, ev.em ≠ some e) : SeenConnected e pos s (evs ++ log) := by
  obtain ⟨l1, old, h1, h2, h3, h4⟩ := h
  refine ⟨evs ++ l1, old, by simp [h1], ?_, h3, h4⟩
  intro ev hev
  rcases List.mem_append.1 hev with h | h
  · exact hq ev h
  · exact h2 ev h

theorem CallAt.grow {w w' : World} {e : EmId} {pos : Nat} {s : SlotId} {p : CallPc} {evs : List Event}
    (h : CallAt w e pos s p) (hl : w'.log = evs ++ w.log) (hq : ∀ ev ∈ evs, ev.em ≠ some e)
    (hf : (w'.slots s).fn = (w.slots s).fn) : CallAt w' e pos s p := by
  cases p <;> simp only [CallAt, hl, hf] at h ⊢
  · obtain ⟨l, h⟩ := h; exact ⟨_, h.grow hq⟩
  · exact h.grow hq
  · exact ⟨h.1.grow hq, h.2⟩
  · exact ⟨h.1.grow hq, h.2⟩
  · exact ⟨h.1.grow hq, h.2⟩
  · exact h

/-- The argument tuple during a dereference, if it was `a` before. -/
def during (w : World) : Option (SlotId × CallPc) → List Arg → List Arg
  | some (s, .body _), a => passArgs (w.slots s).consume a
  | _, a => a

/-- An emission that has its snapshot. -/
structure IterOk (w : World) (t : Tid) (c : Option (SlotId × CallPc)) (m : Em) (b : BlkId) (pos : Nat)
    (acc : Option Val) (m0 : Em) (vs : List Visit) (a0 : List Arg) : Prop where
  e : m0.e = m.e
  g : m0.g = m.g
  comb : m0.comb = m.comb
  tr : trace w.log m.e = .began t m0 :: .snap m0 (w.blks b) ::
    (vs.flatMap (·.events m.e) ++ current m.e pos c a0)
  em : Emitted (fun s => (w.slots s).consume) (w.sigs m.g).isVoid m0 (w.blks b) vs a0
  dflt : m.comb = .lastValue → vs.length = pos ∧ acc = lastEngaged (vs.map (·.result)) ∧ ∀ v ∈ vs, v.calm
  cust : m.comb = .custom → c = none → acc = vs.getLast?.bind (·.result)
  cur : ∀ s p, c = some (s, p) → (w.blks b)[pos]? = some s ∧ CallAt w m.e pos s p
  arg : m.args = during w c a0

/-- What the history says about an emission in progress. -/
def ActOk (w : World) (t : Tid) (a : Act) : Prop :=
  match a.pc with
  | .iter b pos acc => ∃ m0 vs a0, IterOk w t a.c a.m b pos acc m0 vs a0
  | _ => a.c = none ∧ trace w.log a.m.e = [.began t a.m]

theorem ActOk.grow {w w' : World} {t : Tid} {a : Act} {evs : List Event} (I : Inv1 w) (F : Fixed w w')
    (h : ActOk w t a) (hl : w'.log = evs ++ w.log) (hq : ∀ ev ∈ evs, ev.em ≠ some a.m.e)
    (hb : ∀ b, a.pc.blk? = some b → w'.blks b = w.blks b) (hg : a.m.g < w.nSigs) : ActOk w' t a := by
  unfold ActOk at h ⊢
  split
  · rename_i b pos acc hpc
    rw [hpc] at h; simp only at h
    obtain ⟨m0, vs, a0, h⟩ := h
    have hb : w'.blks b = w.blks b := hb b (by rw [hpc]; rfl)
    refine ⟨m0, vs, a0, h.e, h.g, h.comb, ?_, ?_, h.dflt, h.cust, ?_, ?_⟩
    · rw [hl, trace_quiet hq, hb]; exact h.tr
    · rw [hb]
      refine h.em.congr (fun v hv => F.consume _ (I.blk b _ ?_)) (F.isVoid _ hg)
      exact List.mem_of_getElem? (h.em.here v hv)
    · intro s p hc
      obtain ⟨h1, h2⟩ := h.cur s p hc
      rw [hb]
      exact ⟨h1, h2.grow hl hq (F.fn s (I.blk b _ (List.mem_of_getElem? h1)))⟩
    · have := h.arg
      unfold during at this ⊢
      split
      · rename_i _ s o hc
        rw [hc] at this; simp only at this
        rw [F.consume s (I.blk b _ (List.mem_of_getElem? (h.cur s _ hc).1))]
        exact this
      · rename_i n
        split at this
        · rename_i _ s o hc; exact absurd hc (n s o)
        · exact this
  · rename_i n
    split at h
    · rename_i hpc; exact absurd hpc (n _ _ _)
    · rw [hl, trace_quiet hq]; exact h

end Verif
