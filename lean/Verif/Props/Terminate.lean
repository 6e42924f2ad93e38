import Verif.Props.Calls
import Verif.Props.Safety
import Verif.Props.Progress

/-!
# C56: an emission ends
-/

namespace Verif

variable {E : Env} {w w' : World} {t : Tid} {e : EmId}

/-- Thread `t` is inside emission `e` itself: in `signal::operator()`, in the combiner, or in `slot::operator()` down to the
callable; not in a library call that a callable or a combiner has made. -/
def World.within (w : World) (t : Tid) (e : EmId) : Bool :=
  match w.stacks t with
  | .emit m _ :: _ => m.e == e
  | .call _ _ :: .emit m _ :: _ => m.e == e
  | _ => false

/-- A step of the library, or the return (normal or by an exception) of a callable to it. -/
def Label.lib : Label → Bool
  | .run _ | .ret _ _ | .throw _ _ => true
  | _ => false

/-- How many steps thread `t` takes for emission `e` in the execution of `ls` from `w`. -/
def work (E : Env) (t : Tid) (e : EmId) (w : World) : List Label → Nat
  | [] => 0
  | l :: ls =>
      match step E w l with
      | some w' => (if l.tid = t ∧ l.lib ∧ w.within t e then 1 else 0) + work E t e w' ls
      | none => 0

/-- The number of listeners emission `e` has turned to. -/
def turned (w : World) (e : EmId) : Nat := (trace w.log e).countP Event.turns

/-- Bound on the steps emission `e` can still take on thread `t` before it turns to another listener, and one to end. -/
def pot (w : World) (t : Tid) (e : EmId) : Nat :=
  match (acts (w.stacks t)).find? (·.m.e == e) with
  | some a => a.owed + 1
  | none => 0

theorem turned_mono {evs : List Event} (hl : w'.log = evs ++ w.log) : turned w e ≤ turned w' e := by
  unfold turned; rw [hl, trace_append, List.countP_append]; omega

theorem turned_own {evs : List Event} (hl : w'.log = evs ++ w.log) (he : ∀ ev ∈ evs, ev.em = some e) :
    turned w' e = turned w e + evs.countP Event.turns := by
  unfold turned
  rw [hl, trace_append, List.countP_append]
  congr 1
  unfold trace
  rw [List.filter_eq_self.2 (by intro ev hev; simp [he ev hev]), List.countP_reverse]

/-- A thread inside an emission that takes a step for it changes or ends that activation. -/
theorem own_moves (hl : l.lib = true) (hs : step E w l = some w') (hw : w.within l.tid e = true) (hub : w'.ub = none) :
    acts (w'.stacks l.tid) ≠ acts (w.stacks l.tid) ∧ (acts (w'.stacks l.tid)).length ≤ (acts (w.stacks l.tid)).length := by
  have len : ∀ {a : Act} {l : List Act}, l ≠ a :: l := fun {a l} h => by
    have := congrArg List.length h
    simp at this
  cases l with
  | run t =>
    simp only [Label.tid] at hw ⊢
    obtain ⟨-, -, hr⟩ := step_run hs
    unfold World.within at hw
    unfold runTop at hr
    split at hr
    · rename_i m pc rest hst
      rw [hst]
      cases pc with
      | start =>
        simp only [runEmit] at hr
        split at hr
        · cases hr; cases hub
        · split at hr <;> cases hr <;> simp [World.setStack, World.emitEv, upd_apply, acts, len]
      | wait =>
        simp only [runEmit, acquire] at hr
        split at hr
        · cases hr; cases hub
        · split at hr <;> cases hr
          simp [World.setStack, World.setMutex, upd_apply, acts]
      | copy => simp only [runEmit] at hr; cases hr; simp [World.setStack, upd_apply, acts]
      | unlock b =>
        cases b with
        | none => simp only [runEmit] at hr; cases hr; cases hub
        | some b => simp only [runEmit] at hr; cases hr; simp [World.setStack, World.emitEv, upd_apply, acts]
      | iter b pos acc =>
        simp only [runEmit] at hr
        split at hr
        · cases hr
        · split at hr <;> cases hr <;> simp [World.setStack, World.emitEv, upd_apply, acts, len]
    · rename_i s pc m b pos acc rest hst
      rw [hst]
      cases pc <;> simp only [runCall] at hr
      case invoke => cases hr; simp [World.setStack, World.emitEv, upd_apply, acts]
      case body => cases hr
      all_goals
        repeat' split at hr
        all_goals
          cases hr
          simp [World.setStack, World.emitEv, World.setConnected, upd_apply, acts]
    all_goals first
      | cases hr; done
      | (rename_i hst; rw [hst] at hw; cases hw)
  | ret t v =>
    simp only [Label.tid]
    obtain ⟨-, -, s, o, m, b, pos, acc, rest, hst, rfl⟩ := step_ret hs
    rw [hst]; simp [World.setStack, World.emitEv, upd_apply, acts]
  | throw t c =>
    simp only [Label.tid]
    obtain ⟨-, -, s, o, m, b, pos, acc, rest, hst, ⟨-, rfl⟩ | ⟨-, -, rfl⟩⟩ := step_throw hs <;>
      rw [hst] <;> simp [World.setStack, World.emitEv, upd_apply, acts, len]
  | call t a => cases hl
  | fail t => cases hl
  | ctl t => cases hl

/-- If the thread is inside emission `e`, that is its newest activation. -/
theorem within_top (hw : w.within t e = true) : ∃ a rest, acts (w.stacks t) = a :: rest ∧ a.m.e = e := by
  unfold World.within at hw
  split at hw
  · rename_i h; rw [h]; exact ⟨_, _, rfl, by simpa using hw⟩
  · rename_i h; rw [h]; exact ⟨_, _, rfl, by simpa using hw⟩
  · cases hw

theorem pot_step (h : Reachable E w) {l : Label} (hs : step E w l = some w') (he : e < w.nEm) (hub : w'.ub = none) :
    pot w' t e + (if l.tid = t ∧ l.lib ∧ w.within t e then 1 else 0) + 6 * turned w e ≤ pot w t e + 6 * turned w' e := by
  obtain ⟨-, -, R⟩ := step_inv hs
  have other : ∀ {evs : List Event}, w'.log = evs ++ w.log → acts (w'.stacks t) = acts (w.stacks t) →
      ¬ (l.tid = t ∧ l.lib ∧ w.within t e) →
      pot w' t e + (if l.tid = t ∧ l.lib ∧ w.within t e then 1 else 0) + 6 * turned w e ≤ pot w t e + 6 * turned w' e := by
    intro evs hl ha hn
    have := turned_mono (e := e) hl
    rw [if_neg hn]; unfold pot; rw [ha]; omega
  by_cases ht : l.tid = t
  rotate_left
  · have ha : acts (w'.stacks t) = acts (w.stacks t) := by rw [stacks_other R (Ne.symm ht)]
    obtain ⟨evs, hl⟩ := log_grows R
    exact other hl ha fun hh => ht hh.1
  subst ht
  have moves : l.tid = l.tid ∧ l.lib ∧ w.within l.tid e → acts (w'.stacks l.tid) ≠ acts (w.stacks l.tid) ∧
      (acts (w'.stacks l.tid)).length ≤ (acts (w.stacks l.tid)).length ∧
      ∃ a rest, acts (w.stacks l.tid) = a :: rest ∧ a.m.e = e :=
    fun hh => let hm := own_moves hh.2.1 hs hh.2.2 hub; ⟨hm.1, hm.2, within_top hh.2.2⟩
  cases emEff h.full.i h.full.k R with
  | quiet evs ha hn hl hq => exact other hl (ha _) fun hh => (moves hh).1 (ha _)
  | start m ha hm hg hn hl =>
    have ha := ha l.tid
    rw [if_pos rfl] at ha
    have hno : ¬ (l.tid = l.tid ∧ l.lib ∧ w.within l.tid e) := fun hh => by
      have := (moves hh).2.1
      rw [ha] at this; simp at this; omega
    rw [if_neg hno]
    have := turned_mono (e := e) (evs := [_]) hl
    have hp : pot w' l.tid e = pot w l.tid e := by
      unfold pot; rw [ha, List.find?_cons_of_neg (by simp; omega)]
    omega
  | adv a a' rest evs ha hs' hm hn hl hq hw ok =>
    have hs' := hs' l.tid
    rw [if_pos rfl] at hs'
    by_cases hae : a.m.e = e
    · have h1 := turned_own (e := e) hl fun ev hev => by rw [(hq ev hev).1, hae]
      have hp : pot w l.tid e = a.owed + 1 := by unfold pot; rw [ha, List.find?_cons_of_pos (by simp [hae])]
      have hp' : pot w' l.tid e = a'.owed + 1 := by unfold pot; rw [hs', List.find?_cons_of_pos (by simp [hm, hae])]
      rw [hp, hp', h1]
      split <;> omega
    · have hno : ¬ (l.tid = l.tid ∧ l.lib ∧ w.within l.tid e) := fun hh => by
        obtain ⟨-, -, a1, r1, h1, h2⟩ := moves hh
        rw [ha] at h1; cases h1; exact hae h2
      rw [if_neg hno]
      have := turned_mono (e := e) hl
      have hp : pot w' l.tid e = pot w l.tid e := by
        unfold pot
        rw [ha, hs', List.find?_cons_of_neg (by simp [hm, hae]), List.find?_cons_of_neg (by simp [hae])]
      omega
  | fin a rest evs ha hs' hn hl hq ok =>
    have hs' := hs' l.tid
    rw [if_pos rfl] at hs'
    have := turned_mono (e := e) hl
    by_cases hae : a.m.e = e
    · have hp : pot w l.tid e = a.owed + 1 := by unfold pot; rw [ha, List.find?_cons_of_pos (by simp [hae])]
      have hp' : pot w' l.tid e = 0 := by
        unfold pot
        rw [hs', List.find?_eq_none.2]
        intro x hx hxe
        have nd := h.full.t.nd l.tid
        rw [ha, List.map_cons, List.nodup_cons] at nd
        exact nd.1 (List.mem_map.2 ⟨x, hx, by rw [hae]; simpa using hxe⟩)
      rw [hp, hp']
      split <;> omega
    · have hno : ¬ (l.tid = l.tid ∧ l.lib ∧ w.within l.tid e) := fun hh => by
        obtain ⟨-, -, a1, r1, h1, h2⟩ := moves hh
        rw [ha] at h1; cases h1; exact hae h2
      rw [if_neg hno]
      have hp : pot w' l.tid e = pot w l.tid e := by
        unfold pot
        rw [ha, hs', List.find?_cons_of_neg (by simp [hae])]
      omega

theorem ub_later {ls : List Label} (h : exec E w ls = some w') (hub : w'.ub = none) : w.ub = none := by
  cases ls with
  | nil => cases h; exact hub
  | cons l ls =>
    simp only [exec] at h
    split at h
    · rename_i hs; exact (step_inv hs).1
    · cases h

theorem work_le (ls : List Label) : ∀ {w : World}, Reachable E w → exec E w ls = some w' → e < w.nEm → w'.ub = none →
    work E t e w ls + pot w' t e + 6 * turned w e ≤ pot w t e + 6 * turned w' e := by
  induction ls with
  | nil => intro w _ h _ _; cases h; simp [work]
  | cons l ls ih =>
    intro w h hx he hub
    simp only [exec] at hx
    split at hx
    · rename_i w1 hs
      have h1 := pot_step (t := t) h hs he (ub_later hx hub)
      have h2 := ih (h.step hs) hx (Nat.lt_of_lt_of_le he (fixed (step_inv hs).2.2).nEm) hub
      simp only [work, hs]
      omega
    · cases hx

theorem countP_visits (vs : List Visit) : (vs.flatMap (·.events e)).countP Event.turns = vs.length := by
  induction vs with
  | nil => rfl
  | cons v vs ih =>
    rw [List.flatMap_cons, List.countP_append, ih, List.length_cons]
    have : (v.events e).countP Event.turns = 1 := by unfold Visit.events; split <;> rfl
    omega

/-- The default combiner turns to every listener of the copy at most once. -/
theorem turned_snap (h : Reachable E w) {m : Em} {items : List SlotId} (hs : Event.snap m items ∈ w.log) (he : m.e = e)
    (hc : m.comb = .lastValue) : turned w e ≤ items.length := by
  subst he
  obtain ⟨t, vs, args, tail, -, hv, htl, htr⟩ := (h.full.shape m.e).of_snap (mem_trace.2 ⟨hs, rfl⟩)
  unfold turned
  rw [htr, List.countP_cons_of_neg (by simp [Event.turns]), List.countP_cons_of_neg (by simp [Event.turns]),
    List.countP_append, countP_visits]
  have hlt : ∀ {i s}, items[i]? = some s → i < items.length := fun h => (List.getElem?_eq_some_iff.1 h).1
  have hle : vs.length ≤ items.length := by
    have ho := hv.order hc
    rcases Nat.eq_zero_or_pos vs.length with h0 | h0
    · omega
    · have hm : vs.length - 1 ∈ vs.map (·.pos) := by rw [ho]; simp; omega
      obtain ⟨v, hv1, hv2⟩ := List.mem_map.1 hm
      have := hlt (hv.here v hv1)
      omega
  cases htl with
  | idle hk => simpa using hle
  | visit i s hi ho hk => have := hlt hi; have := ho hc; simp [Event.turns]; omega
  | enter i s hi ho hk => have := hlt hi; have := ho hc; simp [Event.turns, List.countP_cons]; omega
  | done r hd => simpa [Event.turns] using hle
  | aborted hd => simpa [Event.turns] using hle

/-- Before the copy is taken no listener is turned to. -/
theorem turned_none (h : Reachable E w) (hs : ∀ m items, Event.snap m items ∈ w.log → m.e ≠ e) : turned w e = 0 := by
  unfold turned
  have hsh := h.full.shape e
  generalize ht : trace w.log e = tr at hsh
  cases hsh with
  | none => rfl
  | began t m he => rfl
  | snap t m items vs args tail he hv htl =>
    exact (hs m items (mem_trace (e := e).1 (by rw [ht]; simp)).1 he).elim

/-- The world after `sig(args…)` has been called. -/
theorem emit_called {g : SigId} {comb : Comb} {args : List Arg} (h : Reachable E w)
    (hs : step E w (.call t (.emit g comb args)) = some w') :
    w'.nEm = w.nEm + 1 ∧ pot w' t w.nEm = 5 ∧ turned w' w.nEm = 0 ∧ trace w'.log w.nEm = [.began t ⟨w.nEm, g, comb, args⟩] := by
  obtain ⟨-, -, -, hu⟩ := step_call hs
  simp only [userOp] at hu
  split at hu
  · cases hu
    have htr : trace (Event.began t ⟨w.nEm, g, comb, args⟩ :: w.log) w.nEm = [.began t ⟨w.nEm, g, comb, args⟩] := by
      rw [trace_cons rfl, h.full.t.old _ (Nat.le_refl _)]; rfl
    refine ⟨rfl, ?_, ?_, htr⟩
    · simp [pot, World.emitEv, World.setStack, upd_apply, acts, Act.owed]
    · show (trace (Event.began t ⟨w.nEm, g, comb, args⟩ :: w.log) w.nEm).countP _ = 0
      rw [htr]; rfl
  · cases hu

theorem pot_pos {m : Em} {pc : EmitPc} (hf : Frame.emit m pc ∈ w.stacks t) (he : m.e = e) : 0 < pot w t e := by
  obtain ⟨c, hc⟩ := emit_act hf
  unfold pot
  cases hx : (acts (w.stacks t)).find? (·.m.e == e) with
  | some a => exact Nat.succ_pos _
  | none => exact (List.find?_eq_none.1 hx _ hc (by simp [he])).elim

theorem exec_reach {ls : List Label} (h : Reachable E w) (hx : exec E w ls = some w') : Reachable E w' := by
  obtain ⟨n, hn⟩ := h
  exact ⟨n, exec_steps hn (fun _ _ => trivial) hx⟩

/-- C56, for any combiner: whatever the callables, the combiner and the other threads do in the meantime, the steps that the library
takes for an emission are at most five, and six for each time the combiner dereferences an iterator. -/
theorem C56_steps {w0 w1 w2 : World} {g : SigId} {comb : Comb} {args : List Arg} {ls : List Label} (h : Reachable E w0)
    (hs : step E w0 (.call t (.emit g comb args)) = some w1) (hx : exec E w1 ls = some w2) (hub : w2.ub = none) :
    work E t w0.nEm w1 ls ≤ 5 + 6 * (trace w2.log w0.nEm).countP Event.turns := by
  obtain ⟨h1, h2, h3, -⟩ := emit_called h hs
  have := work_le (t := t) (e := w0.nEm) ls (h.step hs) hx (by omega) hub
  unfold turned at *
  omega

/-- The copy that emission `e` iterates was taken for the emission that began as `e`. -/
theorem snap_called {w0 w1 w2 : World} {g : SigId} {comb : Comb} {args : List Arg} {ls : List Label} (h : Reachable E w0)
    (hs : step E w0 (.call t (.emit g comb args)) = some w1) (hx : exec E w1 ls = some w2) {m : Em} {items : List SlotId}
    (hm : Event.snap m items ∈ w2.log) (he : m.e = w0.nEm) : m = ⟨w0.nEm, g, comb, args⟩ := by
  have h2 := exec_reach (h.step hs) hx
  obtain ⟨t', vs, args', tail, -, hv, htl, htr⟩ := (h2.full.shape w0.nEm).of_snap (mem_trace.2 ⟨hm, by rw [Event.em, he]⟩)
  obtain ⟨evs, hl⟩ := (exec_steps (P := fun _ => True) (.refl w1) (fun _ _ => trivial) hx).log_mono
  rw [hl, trace_append, (emit_called h hs).2.2.2] at htr
  simp at htr
  exact htr.1.2.symm

/-- C56, for the default combiner: an emission that has copied a list of `n` listeners takes at most `5 + 6 n` steps, however many
listeners its callables or other threads connect meanwhile; with the last of them it ends. -/
theorem C56_ends {w0 w1 w2 : World} {g : SigId} {args : List Arg} {ls : List Label} (h : Reachable E w0)
    (hs : step E w0 (.call t (.emit g .lastValue args)) = some w1) (hx : exec E w1 ls = some w2) (hub : w2.ub = none) :
    (∀ m items, Event.snap m items ∈ w2.log → m.e = w0.nEm →
      work E t w0.nEm w1 ls ≤ 5 + 6 * items.length ∧
      ((∃ m pc, Frame.emit m pc ∈ w2.stacks t ∧ m.e = w0.nEm) → work E t w0.nEm w1 ls ≤ 4 + 6 * items.length)) ∧
    ((∀ m items, Event.snap m items ∈ w2.log → m.e ≠ w0.nEm) →
      work E t w0.nEm w1 ls ≤ 5 ∧
      ((∃ m pc, Frame.emit m pc ∈ w2.stacks t ∧ m.e = w0.nEm) → work E t w0.nEm w1 ls ≤ 4)) := by
  obtain ⟨h1, h2, h3, -⟩ := emit_called h hs
  have hr2 := exec_reach (h.step hs) hx
  have hw := work_le (t := t) (e := w0.nEm) ls (h.step hs) hx (by omega) hub
  constructor
  · intro m items hm he
    have := turned_snap hr2 hm he (by rw [snap_called h hs hx hm he])
    exact ⟨by omega, fun ⟨m, pc, hf, he⟩ => by have := pot_pos hf he; omega⟩
  · intro hn
    have := turned_none hr2 hn
    exact ⟨by omega, fun ⟨m, pc, hf, he⟩ => by have := pot_pos hf he; omega⟩

theorem finitely_often {p : Nat → Prop} [DecidablePred p] (cnt : Nat → Nat) (B : Nat) (hB : ∀ n, cnt n ≤ B)
    (hc : ∀ n, cnt n + (if p n then 1 else 0) ≤ cnt (n + 1)) : ∃ N, ∀ i, N ≤ i → ¬ p i := by
  apply Classical.byContradiction
  intro hn
  have hinf : ∀ N, ∃ i, N ≤ i ∧ p i := fun N => by
    apply Classical.byContradiction
    exact fun h => hn ⟨N, fun i hi hp => h ⟨i, hi, hp⟩⟩
  have mono : ∀ {a b}, a ≤ b → cnt a ≤ cnt b := fun {a b} hab => by
    induction hab with
    | refl => exact Nat.le_refl _
    | @step m _ ih => have := hc m; exact Nat.le_trans ih (Nat.le_trans (Nat.le_add_right _ _) this)
  have big : ∀ k, ∃ n, k ≤ cnt n := fun k => by
    induction k with
    | zero => exact ⟨0, Nat.zero_le _⟩
    | succ k ih =>
      obtain ⟨n, hk⟩ := ih
      obtain ⟨i, hi, hp⟩ := hinf n
      have := hc i
      rw [if_pos hp] at this
      have := mono hi
      exact ⟨i + 1, by omega⟩
  obtain ⟨n, hk⟩ := big (B + 1)
  have := hB n
  omega

/-- C56, infinite executions: from some point on the library takes no more step for the emission. -/
theorem C56_infinite {ws : Nat → World} {ls : Nat → Label} {g : SigId} {args : List Arg} (h : Reachable E (ws 0))
    (h0 : ls 0 = .call t (.emit g .lastValue args)) (hs : ∀ i, step E (ws i) (ls i) = some (ws (i + 1))) :
    ∃ N, ∀ i, N ≤ i → ¬ ((ls i).tid = t ∧ (ls i).lib ∧ (ws i).within t (ws 0).nEm) := by
  have hr : ∀ i, Reachable E (ws i) := fun i => by
    induction i with
    | zero => exact h
    | succ i ih => exact ih.step (hs i)
  have hub : ∀ i, (ws i).ub = none := fun i => (step_inv (hs i)).1
  have hs0 : step E (ws 0) (.call t (.emit g .lastValue args)) = some (ws 1) := h0 ▸ hs 0
  obtain ⟨h1, h2, h3, -⟩ := emit_called h hs0
  have hx : ∀ i, exec E (ws 1) ((List.range i).map fun j => ls (j + 1)) = some (ws (i + 1)) := fun i => by
    induction i with
    | zero => rfl
    | succ i ih => rw [List.range_succ, List.map_append, Demo.exec_append, ih]; simp [exec, hs]
  have hem : ∀ i, (ws 0).nEm < (ws (i + 1)).nEm := fun i => by
    induction i with
    | zero => show _ < (ws 1).nEm; omega
    | succ i ih => exact Nat.lt_of_lt_of_le ih (fixed (step_inv (hs _)).2.2).nEm
  obtain ⟨K, hK⟩ : ∃ K, ∀ i, turned (ws (i + 1)) (ws 0).nEm ≤ K := by
    by_cases hsn : ∃ i m items, Event.snap m items ∈ (ws (i + 1)).log ∧ m.e = (ws 0).nEm
    · obtain ⟨i, m, items, hm, he⟩ := hsn
      have hmono : ∀ j, ∃ evs, (ws (i + 1 + j)).log = evs ++ (ws (i + 1)).log := fun j => by
        induction j with
        | zero => exact ⟨[], rfl⟩
        | succ j ih =>
          obtain ⟨evs, hl⟩ := ih
          obtain ⟨evs', hl'⟩ := log_grows (step_inv (hs (i + 1 + j))).2.2
          exact ⟨evs' ++ evs, by rw [← Nat.add_assoc, hl', hl, List.append_assoc]⟩
      refine ⟨items.length, fun j => ?_⟩
      rcases Nat.le_total i j with hij | hij
      · obtain ⟨evs, hl⟩ := hmono (j - i)
        rw [show i + 1 + (j - i) = j + 1 by omega] at hl
        have hm' : Event.snap m items ∈ (ws (j + 1)).log := by rw [hl]; exact List.mem_append_right _ hm
        exact turned_snap (hr _) hm' he (by rw [snap_called h hs0 (hx j) hm' he])
      · have hup : ∀ k, turned (ws (j + 1)) (ws 0).nEm ≤ turned (ws (j + 1 + k)) (ws 0).nEm := fun k => by
          induction k with
          | zero => exact Nat.le_refl _
          | succ k ih =>
            obtain ⟨evs', hl'⟩ := log_grows (step_inv (hs (j + 1 + k))).2.2
            exact Nat.le_trans ih (turned_mono hl')
        have := hup (i - j)
        rw [show j + 1 + (i - j) = i + 1 by omega] at this
        exact Nat.le_trans this (turned_snap (hr _) hm he (by rw [snap_called h hs0 (hx i) hm he]))
    · exact ⟨0, fun i => Nat.le_of_eq (turned_none (hr _) fun m items hm he => hsn ⟨i, m, items, hm, he⟩)⟩
  have key := finitely_often (p := fun i => (ls (i + 1)).tid = t ∧ (ls (i + 1)).lib ∧ (ws (i + 1)).within t (ws 0).nEm)
    (fun i => 6 * K + 5 + 6 * turned (ws (i + 1)) (ws 0).nEm - pot (ws (i + 1)) t (ws 0).nEm)
    (6 * K + 5 + 6 * K) (fun n => by have := hK n; show _ - _ ≤ _; omega) ?_
  · obtain ⟨N, hN⟩ := key
    refine ⟨N + 1, fun i hi => ?_⟩
    obtain ⟨j, rfl⟩ : ∃ j, i = j + 1 := ⟨i - 1, by omega⟩
    exact hN j (by omega)
  · intro n
    have hp := pot_step (t := t) (hr (n + 1)) (hs (n + 1)) (hem n) (hub _)
    have hle : ∀ i, pot (ws (i + 1)) t (ws 0).nEm ≤ 5 + 6 * turned (ws (i + 1)) (ws 0).nEm := fun i => by
      have := work_le (t := t) (e := (ws 0).nEm) _ (hr 1) (hx i) (hem 0) (hub _)
      omega
    have := hle n
    have := hle (n + 1)
    show _ - _ + _ ≤ _ - _
    omega

namespace Demo
/-- A signal with one listener, a tracked member function. -/
def feeding : List Label :=
  [.call 0 (.newSig false), .call 0 .objNew,
   .call 0 (.connect 0 (.tracked ⟨0, true, .rvalue⟩ ⟨1, true, .rvalue⟩ 5 0) [] true false (.conn 0))] ++ go 0 4

/-- While it runs, it connects another listener. -/
def fed : List Label := go 0 9 ++ connect 0 10 1 ++ go 0 1 ++ [.ret 0 7] ++ go 0 1
end Demo

/-- The emission takes exactly the eleven steps allowed for its one listener, though the signal has two when it ends. -/
example : (exec Demo.E0 (World.init 1) (Demo.feeding ++ [.call 0 (.emit 0 .lastValue [])] ++ Demo.fed)).isSome = true ∧
    work Demo.E0 0 0 (Demo.world 1 (Demo.feeding ++ [.call 0 (.emit 0 .lastValue [])])) Demo.fed = 11 ∧
    (Demo.world 1 (Demo.feeding ++ [.call 0 (.emit 0 .lastValue [])] ++ Demo.fed)).log.head? = some (.done 0 (some 7)) ∧
    Event.snap ⟨0, 0, .lastValue, []⟩ [0] ∈ (Demo.world 1 (Demo.feeding ++ [.call 0 (.emit 0 .lastValue [])] ++ Demo.fed)).log ∧
    (Demo.world 1 (Demo.feeding ++ [.call 0 (.emit 0 .lastValue [])] ++ Demo.fed)).listOf 0 = [0, 1] := by decide +kernel

end Verif
