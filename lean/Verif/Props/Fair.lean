import Verif.Props.Terminate

/-!
# C57: under a fair scheduler every call returns
-/

namespace Verif

variable {E : Env} {ws : Nat → World} {ls : Nat → Label} {t : Tid}

/-- An execution that never stops: `ls i` leads from `ws i` to `ws (i + 1)`. -/
structure Run (E : Env) (ws : Nat → World) (ls : Nat → Label) : Prop where
  init : Reachable E (ws 0)
  next : ∀ i, step E (ws i) (ls i) = some (ws (i + 1))

/-- The scheduler is fair: a thread for which the library can go on (a thread about to lock a mutex: the mutex is free) again and again
is scheduled again and again. -/
def Fair (E : Env) (ws : Nat → World) (ls : Nat → Label) : Prop :=
  ∀ t, (∀ n, ∃ k, n ≤ k ∧ (step E (ws k) (.run t)).isSome = true) → ∀ n, ∃ k, n ≤ k ∧ (ls k).tid = t

theorem Run.reach (R : Run E ws ls) (i : Nat) : Reachable E (ws i) := by
  induction i with
  | zero => exact R.init
  | succ i ih => exact ih.step (R.next i)

theorem Run.ub (R : Run E ws ls) (i : Nat) : (ws i).ub = none := (step_inv (R.next i)).1

theorem Run.drop (R : Run E ws ls) (n : Nat) : Run E (fun i => ws (n + i)) (fun i => ls (n + i)) :=
  ⟨R.reach n, fun i => R.next (n + i)⟩

/-- The thread keeps its stack while only others take steps. -/
theorem Run.still (R : Run E ws ls) {i j : Nat} (hij : i ≤ j) (hn : ∀ k, i ≤ k → k < j → (ls k).tid ≠ t) :
    (ws j).stacks t = (ws i).stacks t := by
  induction hij with
  | refl => rfl
  | @step m hm ih =>
    rw [stacks_other (step_inv (R.next m)).2.2 (Ne.symm (hn m hm (Nat.lt_succ_self m))),
      ih fun k h1 h2 => hn k h1 (Nat.lt_succ_of_lt h2)]

/-- Among the later steps of a thread there is a first one. -/
theorem first_step {i : Nat} (h : ∃ j, i ≤ j ∧ (ls j).tid = t) :
    ∃ j, i ≤ j ∧ (ls j).tid = t ∧ ∀ k, i ≤ k → k < j → (ls k).tid ≠ t := by
  obtain ⟨j, h1, h2⟩ := h
  induction j using Nat.strongRecOn with
  | ind j ih =>
    by_cases hk : ∃ k, i ≤ k ∧ k < j ∧ (ls k).tid = t
    · obtain ⟨k, k1, k2, k3⟩ := hk
      exact ih k k2 k1 k3
    · exact ⟨j, h1, h2, fun k k1 k2 k3 => hk ⟨k, k1, k2, k3⟩⟩

/-- While it does not move, the holder of a mutex keeps it. -/
theorem Run.keep (R : Run E ws ls) {g : SigId} {i j : Nat} (hm : ((ws i).sigs g).mutex = some t) (hij : i ≤ j)
    (hno : ∀ k, i ≤ k → k < j → (ls k).tid ≠ t) :
    ((ws j).sigs g).mutex = some t ∧ todo (ws j) ((ws j).stacks t) = todo (ws i) ((ws i).stacks t) := by
  induction hij with
  | refl => exact ⟨hm, rfl⟩
  | @step m hm' ih =>
    obtain ⟨h1, h2⟩ := ih fun k k1 k2 => hno k k1 (Nat.lt_succ_of_lt k2)
    obtain ⟨h3, h4⟩ := todo_other (R.reach m) (R.next m) h1 (hno m hm' (Nat.lt_succ_self m))
    exact ⟨h3, h4.trans h2⟩

/-- A mutex that is held is let go. -/
theorem Run.frees (R : Run E ws ls) (F : Fair E ws ls) {g : SigId} : ∀ {i : Nat}, ((ws i).sigs g).mutex = some t →
    ∃ j, i ≤ j ∧ ((ws j).sigs g).mutex = none := by
  intro i hm
  generalize hn : todo (ws i) ((ws i).stacks t) = n
  induction n using Nat.strongRecOn generalizing i with
  | ind n ih =>
    subst hn
    have ex : ∃ j, i ≤ j ∧ (ls j).tid = t := by
      apply Classical.byContradiction
      intro hno
      have hno : ∀ k, i ≤ k → (ls k).tid ≠ t := fun k hk he => hno ⟨k, hk, he⟩
      obtain ⟨k, k1, k2⟩ := F t (fun n => ⟨i + n, Nat.le_add_left _ _, by
        obtain ⟨w', hw⟩ := C21_holder (R.reach (i + n)) (R.ub _) (R.keep hm (Nat.le_add_right i n) fun k hk _ => hno k hk).1
        rw [hw]; rfl⟩) i
      exact hno k k1 k2
    obtain ⟨j, h1, h2, h3⟩ := first_step ex
    obtain ⟨k1, k2⟩ := R.keep hm h1 h3
    rcases todo_own (R.reach j) (R.next j) (by rw [h2]; exact k1) with h | h | ⟨h, hlt⟩
    · exact (h (R.ub _)).elim
    · exact ⟨j + 1, by omega, h⟩
    · rw [h2] at h hlt
      rw [k2] at hlt
      obtain ⟨j', e1, e2⟩ := ih _ hlt h rfl
      exact ⟨j', by omega, e2⟩

/-- A thread inside the library moves on: no lock is waited for forever. -/
theorem Run.moves (R : Run E ws ls) (F : Fair E ws ls) {i : Nat} (hu : userCtx ((ws i).stacks t) = false) :
    ∃ j, i ≤ j ∧ (ls j).tid = t ∧ (ws j).stacks t = (ws i).stacks t ∧ ∀ k, i ≤ k → k < j → (ls k).tid ≠ t := by
  have ex : ∃ j, i ≤ j ∧ (ls j).tid = t := by
    apply Classical.byContradiction
    intro hno
    have hno : ∀ k, i ≤ k → (ls k).tid ≠ t := fun k hk he => hno ⟨k, hk, he⟩
    have hst : ∀ k, i ≤ k → (ws k).stacks t = (ws i).stacks t := fun k hk => R.still hk fun k' h1 _ => hno k' h1
    have hlt : ∀ k, i ≤ k → t < (ws k).nThr := fun k hk => Nat.lt_of_not_le fun hle => by
      have := (R.reach k).full.i.i1.thr t hle
      rw [hst k hk] at this; rw [this] at hu; cases hu
    have enabled : ∀ n, ∃ k, n ≤ k ∧ (step E (ws k) (.run t)).isSome = true := by
      intro n
      have hin : i ≤ i + n := Nat.le_add_right _ _
      rcases run_or_wait (E := E) (R.reach (i + n)).full.i.i1 (t := t) (by rw [hst _ hin]; exact hu) with ⟨w', hr⟩ | ⟨g, t', hw, hm⟩
      · exact ⟨i + n, Nat.le_add_left _ _, by rw [run_step (R.ub _) (hlt _ hin) hr]; rfl⟩
      · obtain ⟨j, j1, j2⟩ := R.frees F hm
        refine ⟨j, by omega, ?_⟩
        rcases run_or_wait (E := E) (R.reach j).full.i.i1 (t := t) (by rw [hst j (by omega)]; exact hu) with
          ⟨w', hr⟩ | ⟨g', t'', ⟨f, f', rest, h1, h2⟩, hm'⟩
        · rw [run_step (R.ub _) (hlt _ (by omega)) hr]; rfl
        · obtain ⟨f0, f0', rest0, h3, h4⟩ := hw
          rw [hst j (by omega), ← hst (i + n) hin, h3] at h1
          cases h1
          rw [h4] at h2; cases h2
          rw [j2] at hm'; cases hm'
    obtain ⟨k, k1, k2⟩ := F t enabled i
    exact hno k k1 k2
  obtain ⟨j, h1, h2, h3⟩ := first_step ex
  exact ⟨j, h1, h2, R.still h1 h3, h3⟩

/-- A thread inside the library: its steps are the library's. -/
theorem own_label {w w' : World} {l : Label} (hs : step E w l = some w') (hb : w'.ub = none) (hu : userCtx (w.stacks l.tid) = false) :
    l = .run l.tid ∨ l = .fail l.tid := by
  cases l with
  | run t => exact .inl rfl
  | fail t => exact .inr rfl
  | ctl t => obtain ⟨-, -, rfl, -⟩ := step_ctl hs; cases hb
  | call t a => obtain ⟨-, -, h, -⟩ := step_call hs; rw [Label.tid, h] at hu; cases hu
  | ret t v => obtain ⟨-, -, s, o, m, b, pos, acc, rest, h, -⟩ := step_ret hs; rw [Label.tid, h] at hu; cases hu
  | throw t c => obtain ⟨-, -, s, o, m, b, pos, acc, rest, h, -⟩ := step_throw hs; rw [Label.tid, h] at hu; cases hu

/-- How far a call is from having held the mutex. -/
def Frame.phase : Frame → Nat
  | .disc _ _ .exch => 3
  | .disc _ _ (.drop _) => 0
  | f => if f.locks = none then 2 else 1

theorem api_user {f : Frame} {rest : List Frame} (hf : f.api = true) : userCtx (f :: rest) = false := by
  cases f <;> first | rfl | cases hf

theorem phase_next {w w' : World} {f f' : Frame} {rest : List Frame} (hst : w.stacks t = f :: rest) (hf : f.api = true)
    (hs : step E w (.run t) = some w') (hub : w'.ub = none) (hst' : w'.stacks t = f' :: rest) :
    f'.phase < f.phase ∨ ∃ g, f.locks = some g ∧ f'.locks = some g := by
  obtain ⟨-, -, hr⟩ := step_run hs
  unfold runTop at hr
  rw [hst] at hr
  have len : ∀ {α : Type} {a : α} {l : List α}, l ≠ a :: l := fun {α a l} h => by
    have := congrArg List.length h
    simp at this
  cases f with
  | emit m pc => cases hf
  | call s pc => cases hf
  | add g s d pc =>
    cases pc <;> simp only [runAdd, acquire] at hr
    all_goals
      repeat' split at hr
      all_goals
        cases hr
        try simp [World.setStack, World.emitEv, World.setMutex, upd_apply, len] at hst'
        try (subst hst'; simp [Frame.phase, Frame.locks]; done)
        try (cases hub; done)
  | erase g tgt pc =>
    cases pc <;> simp only [runErase, acquire] at hr
    all_goals
      repeat' split at hr
      all_goals
        cases hr
        try simp [World.setStack, World.emitEv, World.setMutex, upd_apply, len] at hst'
        try (subst hst'; simp [Frame.phase, Frame.locks]; done)
        try (cases hub; done)
  | mov g1 g2 pc =>
    cases pc <;> simp only [runMov, acquire] at hr
    all_goals
      repeat' split at hr
      all_goals
        cases hr
        try simp [World.setStack, World.emitEv, World.setMutex, upd_apply, len] at hst'
        try (subst hst'; simp [Frame.phase, Frame.locks]; done)
        try (cases hub; done)
  | disc s k pc =>
    have dr : ∀ {w0 : World} {b}, w' = discReturn w0 t rest (some s) k b → False := by
      rintro w0 b rfl
      unfold discReturn at hst'
      cases k <;> simp [World.setStack, World.emitEv, upd_apply, len] at hst'
      split at hst' <;> simp [upd_apply, len] at hst'
    rcases pc with _ | ⟨g, _ | _ | _ | _⟩ | g <;> simp only [runDisc, acquire] at hr
    all_goals
      repeat' split at hr
      all_goals
        cases hr <;> first
        | exact (dr rfl).elim
        | (cases hub; done)
        | (simp [World.setStack, World.emitEv, World.setMutex, upd_apply] at hst'
           subst hst'
           simp [Frame.phase, Frame.locks]; done)

/-- A step of the call itself: it returns, gets the mutex, or goes on holding it. -/
theorem api_own {w w' : World} (h : Reachable E w) {l : Label} (hl : l.tid = t) {f : Frame} {rest : List Frame}
    (hst : w.stacks t = f :: rest) (hf : f.api = true) (hs : step E w l = some w') (hub : w'.ub = none) :
    w'.stacks t = rest ∨ ∃ f', w'.stacks t = f' :: rest ∧ f'.api = true ∧
      (f'.phase < f.phase ∨ (f.phase = 1 ∧ f'.phase = 1 ∧ todo w' (w'.stacks t) < todo w (w.stacks t))) := by
  rcases own_label hs hub (by rw [hl, hst]; exact api_user hf) with e | e <;> rw [hl] at e <;> subst e
  · rcases left_own h hst hf hs hub (N := match f with | .erase g _ _ => (w'.listOf g).length | _ => 0)
      (fun g tgt pc e => by subst e; exact Nat.le_refl _) with h1 | ⟨f', h1, h2, -, -⟩
    · exact .inl h1
    · refine .inr ⟨f', h1, h2, ?_⟩
      rcases phase_next hst hf hs hub h1 with hp | ⟨g, hk, hk'⟩
      · exact .inl hp
      · have ph : ∀ {f : Frame}, f.locks = some g → f.phase = 1 := fun {f} hk => by
          unfold Frame.phase; split
          · cases hk
          · cases hk
          · rw [if_neg (by rw [hk]; simp)]
        rcases todo_own h hs (l := .run t) ((h.full.i.i1.mtx g t).2 (by rw [hst]; exact hk)) with h3 | h3 | ⟨-, h4⟩
        · exact (h3 hub).elim
        · have := ((h.step hs).full.i.i1.mtx g t).2 (by rw [h1]; exact hk')
          rw [h3] at this; cases this
        · exact .inr ⟨ph hk, ph hk', h4⟩
  · rcases step_fail_cases hs with ⟨rfl, -⟩ | ⟨f1, r1, g, s, b, h1, -, -, rfl⟩
    · cases hub
    · rw [hst] at h1; cases h1
      exact .inl (by simp [World.emitEv, World.setStack, upd_apply])

/-- C57: under a fair scheduler every call of `connect`, `disconnect(f)`, `disconnect()` of a connection and of a signal's move
constructor returns, however the other threads contend for the mutex. -/
theorem C57_call (R : Run E ws ls) (F : Fair E ws ls) {i : Nat} {f : Frame} {rest : List Frame}
    (hst : (ws i).stacks t = f :: rest) (hf : f.api = true) : ∃ j, i < j ∧ (ws j).stacks t = rest := by
  generalize hp : f.phase = p
  generalize hn : todo (ws i) ((ws i).stacks t) = n
  induction p using Nat.strongRecOn generalizing i f n with
  | ind p ihp =>
    induction n using Nat.strongRecOn generalizing i f with
    | ind n ihn =>
      subst hp hn
      obtain ⟨j, j1, j2, j3, j4⟩ := R.moves F (i := i) (t := t) (by rw [hst]; exact api_user hf)
      have hst' : (ws j).stacks t = f :: rest := j3.trans hst
      rcases api_own (R.reach j) j2 hst' hf (R.next j) (R.ub _) with h1 | ⟨f', h1, h2, h3 | ⟨h3, h4, h5⟩⟩
      · exact ⟨j + 1, by omega, h1⟩
      · obtain ⟨k, k1, k2⟩ := ihp _ h3 h1 h2 rfl _ rfl
        exact ⟨k, by omega, k2⟩
      · have : todo (ws j) ((ws j).stacks t) = todo (ws i) ((ws i).stacks t) := by
          obtain ⟨g, hk⟩ : ∃ g, f.locks = some g := by
            cases hk : f.locks with
            | some g => exact ⟨g, rfl⟩
            | none =>
              unfold Frame.phase at h3; split at h3
              · cases h3
              · cases h3
              · rw [if_pos hk] at h3; cases h3
          exact (R.keep (((R.reach i).full.i.i1.mtx g t).2 (by rw [hst]; exact hk)) j1 j4).2
        rw [this] at h5
        obtain ⟨k, k1, k2⟩ := ihn _ h5 h1 h2 (by rw [h4, h3]) rfl
        exact ⟨k, by omega, k2⟩

/-! ### Emissions -/

/-- The label ends the callable that is running on thread `t`. -/
def Label.ends (t : Tid) : Label → Prop
  | .ret t' _ | .throw t' _ => t' = t
  | _ => False

/-- Every callable that emission `e` calls on thread `t` returns or throws at some time. -/
def Returns (ws : Nat → World) (ls : Nat → Label) (t : Tid) (e : EmId) : Prop :=
  ∀ i s o m pc above rest, (ws i).stacks t = above ++ .call s (.body o) :: .emit m pc :: rest → m.e = e →
    ∃ j, i ≤ j ∧ (ws j).stacks t = .call s (.body o) :: .emit m pc :: rest ∧ (ls j).ends t

/-- An emission with the default combiner that is on the stack of a thread in user code waits for a callable. -/
theorem user_emit {st : List Frame} (hu : UserStk st) {m : Em} {pc : EmitPc} (hm : Frame.emit m pc ∈ st) (hc : m.comb = .lastValue) :
    ∃ above s o rest, st = above ++ .call s (.body o) :: .emit m pc :: rest := by
  induction hu with
  | nil => cases hm
  | body s o m' b pos acc rest hr ih =>
    rcases List.mem_cons.1 hm with hm | hm
    · cases hm
    · rcases List.mem_cons.1 hm with hm | hm
      · cases hm; exact ⟨[], s, o, rest, rfl⟩
      · obtain ⟨above, s', o', rest', rfl⟩ := ih hm
        exact ⟨_ :: _ :: above, s', o', rest', rfl⟩
  | comb m' b pos acc rest hc' hr ih =>
    rcases List.mem_cons.1 hm with hm | hm
    · cases hm; rw [hc] at hc'; cases hc'
    · obtain ⟨above, s', o', rest', rfl⟩ := ih hm
      exact ⟨_ :: above, s', o', rest', rfl⟩

/-- On the stack of thread `t`, an emission with the default combiner is at work, or waits for a callable. -/
theorem emit_where {w : World} (h : Reachable E w) {m : Em} {pc : EmitPc} (hm : Frame.emit m pc ∈ w.stacks t)
    (hc : m.comb = .lastValue) :
    (w.within t m.e = true ∧ userCtx (w.stacks t) = false) ∨
      ∃ above s o rest, w.stacks t = above ++ .call s (.body o) :: .emit m pc :: rest := by
  have hok := h.full.i.i1.stk t
  unfold World.within
  generalize w.stacks t = st at hm hok
  cases hok with
  | user _ hu => exact .inr (user_emit hu hm hc)
  | call s p m' b pos acc rest hu =>
    rcases List.mem_cons.1 hm with hm | hm
    · cases hm
    rcases List.mem_cons.1 hm with hm | hm
    · cases hm
      cases p with
      | body o => exact .inr ⟨[], s, o, rest, rfl⟩
      | _ => exact .inl ⟨by simp, rfl⟩
    · obtain ⟨above, s', o', rest', rfl⟩ := user_emit hu hm hc
      exact .inr ⟨_ :: _ :: above, s', o', rest', rfl⟩
  | lib f rest hf hu =>
    rcases List.mem_cons.1 hm with hm | hm
    · subst hm
      refine .inl ⟨by simp, ?_⟩
      obtain ⟨e, g, comb, args⟩ := m
      cases hc
      cases pc <;> rfl
    · obtain ⟨above, s', o', rest', rfl⟩ := user_emit hu hm hc
      exact .inr ⟨_ :: above, s', o', rest', rfl⟩

/-- C57: under a fair scheduler an emission with the default combiner returns (or is left by an exception of a callable), if the
callables it calls do; however the other threads contend for the mutex and change the list. -/
theorem C57_emit (R : Run E ws ls) (F : Fair E ws ls) {i : Nat} {g : SigId} {args : List Arg}
    (hc : ls i = .call t (.emit g .lastValue args)) (hr : Returns ws ls t (ws i).nEm) :
    ∃ j, i < j ∧ (Event.suppressed (ws i).nEm ∈ (ws j).log ∨ Event.aborted (ws i).nEm ∈ (ws j).log ∨
      ∃ r, Event.done (ws i).nEm r ∈ (ws j).log) := by
  generalize he : (ws i).nEm = e at *
  have hs0 : step E (ws i) (.call t (.emit g .lastValue args)) = some (ws (i + 1)) := hc ▸ R.next i
  obtain ⟨hn, -, -, htr⟩ := emit_called (R.reach i) hs0
  rw [he] at hn htr
  -- the emission has finitely many steps
  obtain ⟨N, hN⟩ := C56_infinite (ws := fun k => ws (i + k)) (ls := fun k => ls (i + k)) (t := t) (R.reach i) hc
    (R.drop i).next
  have hN : ∀ k, i + N ≤ k → ¬ ((ls k).tid = t ∧ (ls k).lib = true ∧ (ws k).within t e = true) := fun k hk => by
    have := hN (k - i) (by omega)
    simp only [show i + (k - i) = k by omega, Nat.add_zero, he] at this
    exact this
  have hlog : ∀ k, ∃ evs, (ws (i + 1 + k)).log = evs ++ (ws (i + 1)).log := fun k => by
    induction k with
    | zero => exact ⟨[], rfl⟩
    | succ k ih =>
      obtain ⟨evs, h⟩ := ih
      obtain ⟨evs', h'⟩ := log_grows (step_inv (R.next (i + 1 + k))).2.2
      exact ⟨evs' ++ evs, by rw [← Nat.add_assoc, h', h, List.append_assoc]⟩
  have hem : ∀ k, e < (ws (i + 1 + k)).nEm := fun k => by
    induction k with
    | zero => show _ < (ws (i + 1)).nEm; omega
    | succ k ih => exact Nat.lt_of_lt_of_le ih (fixed (step_inv (R.next _)).2.2).nEm
  have hd : ∀ k, ∃ tr, trace (ws (i + 1 + k)).log e = .began t ⟨e, g, .lastValue, args⟩ :: tr := fun k => by
    obtain ⟨evs, h⟩ := hlog k
    rw [h, trace_append, htr]; exact ⟨_, rfl⟩
  have hk : i + N ≤ i + 1 + N := by omega
  generalize hj : i + 1 + N = j at *
  have hd := fun k (hk : j ≤ k) => show ∃ tr, trace (ws k).log e = _ from by
    have := hd (k - (i + 1)); rwa [show i + 1 + (k - (i + 1)) = k by omega] at this
  rcases (R.reach j).full.t.fin e (by have := hem N; rwa [hj] at this) with ⟨t', a, ha, hae⟩ | hcm
  rotate_left
  · refine ⟨j, by omega, ?_⟩
    unfold World.complete at hcm
    have mem : ∀ {ev}, ev ∈ trace (ws j).log e → ev ∈ (ws j).log := fun h => (mem_trace.1 h).1
    generalize htr' : trace (ws j).log e = tr at hcm mem
    cases hcm with
    | suppressed => exact .inl (mem (by simp))
    | done _ _ _ _ _ r => exact .inr (.inr ⟨r, mem (by simp)⟩)
    | aborted => exact .inr (.inl (mem (by simp)))
  -- otherwise it would take a step more
  have info : ∀ k, j ≤ k → ∀ t' a, a ∈ acts ((ws k).stacks t') → a.m.e = e → t' = t ∧ a.m.comb = .lastValue := by
    intro k hk t' a ha hae
    obtain ⟨tr, htr⟩ := hd k hk
    have ok := (R.reach k).full.t.ok t' a ha
    unfold ActOk at ok
    split at ok
    · obtain ⟨m0, vs, a0, ok⟩ := ok
      have h1 := ok.tr
      rw [hae, htr] at h1; cases h1
      exact ⟨rfl, ok.comb.symm⟩
    · have h1 := ok.2
      rw [hae, htr] at h1
      simp only [List.cons.injEq, Event.began.injEq] at h1
      exact ⟨h1.1.1.symm, by rw [← h1.1.2]⟩
  obtain ⟨rfl, hcb⟩ := info j (Nat.le_refl _) t' a ha hae
  have hf := acts_mem ha
  rcases emit_where (R.reach j) hf hcb with ⟨hw, hu⟩ | ⟨above, s, o, rest, hst⟩
  · obtain ⟨k, k1, k2, k3, -⟩ := R.moves F hu
    have hl : (ls k).lib = true := by
      rcases own_label (R.next k) (R.ub (k + 1)) (by rw [k2, k3]; exact hu) with h | h
      · rw [h]; rfl
      · exfalso
        have hs := R.next k
        rw [h, k2] at hs
        rcases step_fail_cases hs with ⟨h1, -⟩ | ⟨f, rest, g', s, b, h1, h2, -⟩
        · have := R.ub (k + 1); rw [h1] at this; cases this
        · rw [k3] at h1
          unfold World.within at hw
          rw [h1] at hw
          rcases Frame.allocs_inv h2 with ⟨_, _, _, rfl, _⟩ | ⟨_, rfl, _⟩ <;> cases hw
    exact (hN k (by omega) ⟨k2, hl, by unfold World.within at hw ⊢; rw [k3, ← hae]; exact hw⟩).elim
  · obtain ⟨k, k1, k2, k3⟩ := hr j s o a.m a.pc above rest hst hae
    refine (hN k (by omega) ⟨?_, ?_, ?_⟩).elim
    · revert k3; cases ls k <;> simp [Label.ends, Label.tid]
    · revert k3; cases ls k <;> simp [Label.ends, Label.lib]
    · unfold World.within; rw [k2]; simpa using hae

/-! ### Fairness is needed -/

/-- Weak fairness: a thread for which the library can go on at all times from some time on is scheduled again and again. -/
def WeakFair (E : Env) (ws : Nat → World) (ls : Nat → Label) : Prop :=
  ∀ t, (∃ n, ∀ k, n ≤ k → (step E (ws k) (.run t)).isSome = true) → ∀ n, ∃ k, n ≤ k ∧ (ls k).tid = t

namespace Demo

/-- The execution that a list of labels and then `objNew` by thread 0 for ever describe. -/
def idleLab (ls : List Label) (i : Nat) : Label := ls[i]?.getD (.call 0 .objNew)

/-- The worlds of the execution of `lab` from `w`. -/
def follow (E : Env) (w : World) (lab : Nat → Label) : Nat → World
  | 0 => w
  | i + 1 => (step E (follow E w lab i) (lab i)).getD (follow E w lab i)

theorem follow_exec {E : Env} {w w' : World} (lab : Nat → Label) (n : Nat)
    (h : exec E w ((List.range n).map lab) = some w') : follow E w lab n = w' := by
  induction n generalizing w' with
  | zero => cases h; rfl
  | succ n ih =>
    rw [List.range_succ, List.map_append, exec_append] at h
    cases hx : exec E w ((List.range n).map lab) with
    | none => rw [hx] at h; cases h
    | some w1 =>
      rw [hx] at h
      simp only [Option.bind_some, List.map_cons, List.map_nil, exec] at h
      rw [follow, ih hx]
      split at h
      · rename_i hs; rw [hs]; cases h; rfl
      · cases h

theorem range_lab (ls : List Label) (n : Nat) (hn : n ≤ ls.length) : (List.range n).map (idleLab ls) = ls.take n := by
  apply List.ext_getElem?
  intro i
  by_cases hi : i < n
  · rw [List.getElem?_map, List.getElem?_range hi, List.getElem?_take_of_lt hi]
    have : i < ls.length := by omega
    simp [idleLab, List.getElem?_eq_getElem this]
  · rw [List.getElem?_eq_none (by simp; omega), List.getElem?_eq_none (by simp; omega)]

theorem follow_next {E : Env} {w : World} {lab : Nat → Label} {i : Nat}
    (h : (step E (follow E w lab i) (lab i)).isSome = true) : step E (follow E w lab i) (lab i) = some (follow E w lab (i + 1)) := by
  obtain ⟨w', hw⟩ := Option.isSome_iff_exists.1 h
  rw [follow, hw]; rfl

/-- `ls` describes an execution, it is fair, and from the end of `ls` on everybody is idle. -/
structure Idle (n : Nat) (ls : List Label) : Prop where
  run : Run E0 (follow E0 (World.init n) (idleLab ls)) (idleLab ls)
  fair : Fair E0 (follow E0 (World.init n) (idleLab ls)) (idleLab ls)
  start : ∀ i, i ≤ ls.length → follow E0 (World.init n) (idleLab ls) i = world n (ls.take i)
  rest : ∀ i t, ls.length ≤ i → (follow E0 (World.init n) (idleLab ls) i).stacks t = []

theorem idle {n : Nat} {ls : List Label} (hx : (exec E0 (World.init n) ls).isSome = true) (hn : 0 < n)
    (hub : (world n ls).ub = none) (hthr : (world n ls).nThr = n) (hi : ∀ t, t < n → (world n ls).stacks t = []) :
    Idle n ls := by
  have hi : ∀ t, (world n ls).stacks t = [] := fun t =>
    if ht : t < n then hi t ht else (reach n ls).full.i.i1.thr t (by omega)
  have some_take : ∀ i, (exec E0 (World.init n) (ls.take i)).isSome = true := by
    intro i
    rw [← List.take_append_drop i ls, exec_append] at hx
    cases h : exec E0 (World.init n) (ls.take i) with
    | some => rfl
    | none => rw [h] at hx; cases hx
  have at_ : ∀ i, i ≤ ls.length → follow E0 (World.init n) (idleLab ls) i = world n (ls.take i) := by
    intro i hi
    apply follow_exec
    rw [range_lab ls i hi]
    obtain ⟨w, hw⟩ := Option.isSome_iff_exists.1 (some_take i)
    rw [world, hw]; rfl
  have go : ∀ w : World, (∀ t, w.stacks t = []) → w.ub = none → w.nThr = n →
      step E0 w (.call 0 .objNew) = some { w with objs := upd w.objs w.nObjs 1, nObjs := w.nObjs + 1 } := by
    intro w h1 h2 h3
    unfold step
    rw [if_neg (by rw [h2]; simp), if_pos (by rw [h3]; exact hn)]
    simp only
    rw [if_pos (by rw [h1 0]; rfl)]
    rfl
  have lab : ∀ i, ls.length ≤ i → idleLab ls i = .call 0 .objNew := fun i hi => by
    unfold idleLab; rw [List.getElem?_eq_none hi]; rfl
  have after : ∀ i, ls.length ≤ i → (∀ t, (follow E0 (World.init n) (idleLab ls) i).stacks t = []) ∧
      (follow E0 (World.init n) (idleLab ls) i).ub = none ∧ (follow E0 (World.init n) (idleLab ls) i).nThr = n := by
    intro i hi'
    induction hi' with
    | refl => rw [at_ _ (Nat.le_refl _), List.take_length]; exact ⟨hi, hub, hthr⟩
    | @step i hi' ih =>
      have h := go _ ih.1 ih.2.1 ih.2.2
      rw [Nat.succ_eq_add_one, follow, lab i hi', h]
      exact ih
  have R : Run E0 (follow E0 (World.init n) (idleLab ls)) (idleLab ls) := by
    refine ⟨⟨n, .refl _⟩, fun i => follow_next ?_⟩
    by_cases hi' : ls.length ≤ i
    · obtain ⟨h1, h2, h3⟩ := after i hi'
      rw [lab i hi', go _ h1 h2 h3]; rfl
    · have hlt : i < ls.length := by omega
      rw [at_ i (by omega)]
      have hs := some_take (i + 1)
      rw [List.take_succ_eq_append_getElem hlt] at hs
      have := world_step n (ls.take i) ls[i] hs
      rw [show idleLab ls i = ls[i] by simp [idleLab, List.getElem?_eq_getElem hlt], this]; rfl
  refine ⟨R, ?_, at_, fun i t h => (after i h).1 t⟩
  intro t hen
  obtain ⟨k, hk, he⟩ := hen ls.length
  obtain ⟨w', hw⟩ := Option.isSome_iff_exists.1 he
  rw [user_norun .nil ((after k hk).1 t)] at hw
  cases hw

/-- Thread 1 wants to disconnect listener 0 while thread 0 is connecting; both calls return. -/
def contended : List Label := contend ++ go 0 3 ++ go 1 5

theorem contended_fair : Idle 2 contended :=
  idle (by decide +kernel) (by decide) (by decide +kernel) (by decide +kernel) (by decide +kernel)

/-- Thread 0 emits; meanwhile thread 1 connects, and the listener called emits again. -/
def emitting : List Label :=
  [.call 0 (.newSig false)] ++ connect 0 10 0 ++
  [.call 1 (.connect 0 (fn 11) [] true false (.conn 1)), .run 1, .call 0 (.emit 0 .lastValue []), .run 0] ++ go 1 3 ++ go 0 7 ++
  [.call 0 (.emit 0 .lastValue [])] ++ go 0 8 ++ [.throw 0 false, .ret 0 7] ++ go 0 4 ++ [.ret 0 8] ++ go 0 1

theorem emitting_fair : Idle 2 emitting :=
  idle (by decide +kernel) (by decide) (by decide +kernel) (by decide +kernel) (by decide +kernel)

end Demo

/-- Thread 1's `disconnect()` starts (step 10) waiting for thread 0, and returns. -/
example : ∃ j, 10 < j ∧ (Demo.follow Demo.E0 (World.init 2) (Demo.idleLab Demo.contended) j).stacks 1 = [] :=
  C57_call Demo.contended_fair.run Demo.contended_fair.fair (f := .disc 0 .ret (.crit 0 .wait))
    (by rw [Demo.contended_fair.start 10 (by decide)]; decide +kernel) rfl

/-- In the execution of `ls` every callable that emission `e` calls on thread `t` returns. -/
def Demo.returns (n : Nat) (ls : List Label) (t : Tid) (e : EmId) : Bool :=
  (List.range ls.length).all fun i =>
    let st := (world n (ls.take i)).stacks t
    (List.range st.length).all fun k =>
      match st.drop k with
      | .call s (.body o) :: .emit m pc :: rest => m.e != e || (List.range ls.length).any fun j =>
          decide (i ≤ j) && (world n (ls.take j)).stacks t == .call s (.body o) :: .emit m pc :: rest &&
          (match ls[j]? with | some (.ret t' _) | some (.throw t' _) => t' == t | _ => false)
      | _ => true

theorem Demo.Idle.returns {n : Nat} {ls : List Label} {t : Tid} {e : EmId} (h : Idle n ls) (hr : Demo.returns n ls t e = true) :
    Returns (follow E0 (World.init n) (idleLab ls)) (idleLab ls) t e := by
  intro i s o m pc above rest hst he
  by_cases hi : ls.length ≤ i
  · rw [h.rest i t hi] at hst; simp at hst
  have hi : i < ls.length := by omega
  rw [h.start i (by omega)] at hst
  unfold Demo.returns at hr
  have h1 := List.all_eq_true.1 hr i (List.mem_range.2 hi)
  have h2 := List.all_eq_true.1 h1 above.length (List.mem_range.2 (by rw [hst]; simp))
  rw [hst, List.drop_left] at h2
  simp only [he, bne_self_eq_false, Bool.false_or, List.any_eq_true, List.mem_range, Bool.and_eq_true, decide_eq_true_eq,
    beq_iff_eq] at h2
  obtain ⟨j, h3, ⟨h4, h5⟩, h6⟩ := h2
  refine ⟨j, h4, by rw [h.start j (by omega)]; exact h5, ?_⟩
  unfold idleLab
  split at h6
  · rename_i e; rw [e]; exact eq_of_beq h6
  · rename_i e; rw [e]; exact eq_of_beq h6
  · cases h6

/-- The emission that begins in step 8 and waits for thread 1 ends, since its callables return (one of them after an emission of its
own, which is left by an exception). -/
example : ∃ j, 8 < j ∧ (Event.suppressed 0 ∈ (Demo.follow Demo.E0 (World.init 2) (Demo.idleLab Demo.emitting) j).log ∨
    Event.aborted 0 ∈ (Demo.follow Demo.E0 (World.init 2) (Demo.idleLab Demo.emitting) j).log ∨
    ∃ r, Event.done 0 r ∈ (Demo.follow Demo.E0 (World.init 2) (Demo.idleLab Demo.emitting) j).log) := by
  have h0 : (Demo.follow Demo.E0 (World.init 2) (Demo.idleLab Demo.emitting) 8).nEm = 0 := by
    rw [Demo.emitting_fair.start 8 (by decide)]; decide +kernel
  have := C57_emit Demo.emitting_fair.run Demo.emitting_fair.fair (t := 0) (i := 8) (g := 0) (args := []) (by decide +kernel)
    (by rw [h0]; exact Demo.emitting_fair.returns (by decide +kernel))
  rwa [h0] at this
example : (Demo.world 2 Demo.emitting).log.head? = some (.done 0 (some 8)) := by decide +kernel

/-! A mutex need not be fair: with only weak fairness a call can wait for ever. -/

namespace Demo

/-- Thread 0 is about to lock the mutex in `connect`. -/
def starving : List Label := [.call 0 (.newSig false), .call 0 (.connect 0 (fn 10) [] true false (.conn 0))]

/-- Thread 1 emits again and again. -/
def starveLab (i : Nat) : Label := if i % 6 = 0 then .call 1 (.emit 0 .lastValue []) else .run 1

/-- The stack of thread 1 at step `k` of an emission. -/
def starveStk (k : Nat) (e : EmId) : List Frame :=
  match k with
  | 0 => []
  | 1 => [.emit ⟨e, 0, .lastValue, []⟩ .start]
  | 2 => [.emit ⟨e, 0, .lastValue, []⟩ .wait]
  | 3 => [.emit ⟨e, 0, .lastValue, []⟩ .copy]
  | 4 => [.emit ⟨e, 0, .lastValue, []⟩ (.unlock (some 0))]
  | _ => [.emit ⟨e, 0, .lastValue, []⟩ (.iter 0 0 none)]

/-- The worlds of a schedule in which thread 1 emits again and again, at step `k` of an emission, and thread 0 waits. -/
structure Starving (k : Nat) (w : World) : Prop where
  ub : w.ub = none
  thr : w.nThr = 2
  sigs : w.nSigs = 1
  st0 : w.stacks 0 = [.add 0 0 (.conn 0) .wait]
  st1 : ∃ e, w.stacks 1 = starveStk k e
  sig : w.sigs 0 = ⟨some 0, if k = 3 ∨ k = 4 then some 1 else none, false, true, false⟩
  blk : w.blks 0 = []

theorem starve_step {w : World} (i : Nat) (h : Starving (i % 6) w) :
    ∃ w', step E0 w (starveLab i) = some w' ∧ Starving ((i + 1) % 6) w' := by
  obtain ⟨ub, thr, sigs, st0, ⟨e, st1⟩, sig, blk⟩ := h
  have run : ∀ {w'}, runTop E0 w 1 = some w' → step E0 w (.run 1) = some w' := fun h => run_step ub (by rw [thr]; decide) h
  unfold starveLab
  rw [Nat.add_mod]
  have hk : i % 6 < 6 := Nat.mod_lt _ (by decide)
  generalize i % 6 = k at *
  match k, hk with
  | 0, _ =>
    refine ⟨_, by
      rw [if_pos rfl]; unfold step; rw [if_neg (by rw [ub]; simp), if_pos (by rw [thr]; decide)]
      simp only; rw [if_pos (by rw [st1]; rfl)]; simp only [userOp]; rw [if_pos (by rw [sigs]; decide)], ?_⟩
    exact ⟨ub, thr, sigs, st0, ⟨w.nEm, by simp [World.emitEv, World.setStack, upd_apply, starveStk, st1]⟩, sig, blk⟩
  | 1, _ =>
    have hs : runTop E0 w 1 = some (w.setStack 1 [.emit ⟨e, 0, .lastValue, []⟩ .wait]) := by
      unfold runTop; rw [st1]; simp [starveStk, runEmit, sig]
    refine ⟨_, run hs, ?_⟩
    exact ⟨ub, thr, sigs, st0, ⟨e, by simp [World.setStack, upd_apply, starveStk]⟩,
      sig, blk⟩
  | 2, _ =>
    have hs : runTop E0 w 1 = some ((w.setMutex 0 (some 1)).setStack 1 [.emit ⟨e, 0, .lastValue, []⟩ .copy]) := by
      unfold runTop; rw [st1]; simp [starveStk, runEmit, acquire, sig]
    refine ⟨_, run hs, ?_⟩
    exact ⟨ub, thr, sigs, st0, ⟨e, by simp [World.setStack, upd_apply, starveStk]⟩,
      by simp [World.setStack, World.setMutex, upd_apply, sig], blk⟩
  | 3, _ =>
    have hs : runTop E0 w 1 = some (w.setStack 1 [.emit ⟨e, 0, .lastValue, []⟩ (.unlock (some 0))]) := by
      unfold runTop; rw [st1]; simp [starveStk, runEmit, sig]
    refine ⟨_, run hs, ?_⟩
    exact ⟨ub, thr, sigs, st0, ⟨e, by simp [World.setStack, upd_apply, starveStk]⟩,
      sig, blk⟩
  | 4, _ =>
    have hs : runTop E0 w 1 = some (((w.setMutex 0 none).setStack 1 [.emit ⟨e, 0, .lastValue, []⟩ (.iter 0 0 none)]).emitEv (.snap ⟨e, 0, .lastValue, []⟩ (w.blks 0))) := by
      unfold runTop; rw [st1]; simp [starveStk, runEmit]
    refine ⟨_, run hs, ?_⟩
    exact ⟨ub, thr, sigs, st0, ⟨e, by simp [World.emitEv, World.setStack, upd_apply, starveStk]⟩,
      by simp [World.emitEv, World.setStack, World.setMutex, upd_apply, sig], blk⟩
  | 5, _ =>
    have hs : runTop E0 w 1 = some ((w.setStack 1 []).emitEv (.done e none)) := by
      unfold runTop; rw [st1]; simp [starveStk, runEmit, blk]
    refine ⟨_, run hs, ?_⟩
    exact ⟨ub, thr, sigs, st0, ⟨e, by simp [World.emitEv, World.setStack, upd_apply, starveStk]⟩,
      sig, blk⟩

theorem starve_at (i : Nat) : Starving (i % 6) (follow E0 (world 2 starving) starveLab i) := by
  induction i with
  | zero => exact ⟨by decide +kernel, by decide +kernel, by decide +kernel, by decide +kernel, ⟨0, by decide +kernel⟩, rfl,
      by decide +kernel⟩
  | succ i ih =>
    obtain ⟨w', h1, h2⟩ := starve_step i ih
    rw [follow, h1]; exact h2

end Demo

/-- Weak fairness is not enough: thread 0 waits in `connect` for ever, because another thread emits again and again, and so again and
again the mutex is taken. -/
theorem C57_weak_false : ∃ ws ls, Run Demo.E0 ws ls ∧ WeakFair Demo.E0 ws ls ∧
    ∀ i, (ws i).stacks 0 = [.add 0 0 (.conn 0) .wait] := by
  refine ⟨Demo.follow Demo.E0 (Demo.world 2 Demo.starving) Demo.starveLab, Demo.starveLab,
    ⟨Demo.reach _ _, fun i => Demo.follow_next ?_⟩, ?_, fun i => (Demo.starve_at i).st0⟩
  · obtain ⟨w', h, -⟩ := Demo.starve_step i (Demo.starve_at i)
    rw [h]; rfl
  · rintro t ⟨n, hn⟩ m
    by_cases h1 : t = 1
    · subst h1
      exact ⟨m, Nat.le_refl _, by unfold Demo.starveLab; split <;> rfl⟩
    exfalso
    have hk := hn (6 * n + 3) (by omega)
    have S := Demo.starve_at (6 * n + 3)
    obtain ⟨w', hw⟩ := Option.isSome_iff_exists.1 hk
    obtain ⟨-, hlt, hr⟩ := step_run hw
    rw [S.thr] at hlt
    have : t = 0 := by omega
    subst this
    unfold runTop at hr
    rw [S.st0] at hr
    simp only [runAdd, acquire] at hr
    have hsig := S.sig
    rw [if_pos (by omega)] at hsig
    rw [hsig] at hr
    cases hr

end Verif
