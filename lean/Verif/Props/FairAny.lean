import Verif.Props.Fair
import Verif.Props.SeqTotal

/-!
# C57 for every thread inside the library, and for emissions with a combiner of the user
-/

namespace Verif

variable {E : Env} {ws : Nat → World} {ls : Nat → Label} {t : Tid}

/-! ### The library always comes back -/

/-- How far an emission is from having its list. -/
def EmitPc.ahead : EmitPc → Nat
  | .start => 4
  | .wait => 3
  | .copy => 2
  | .unlock _ => 1
  | .iter _ _ _ => 0

/-- An emission that has not got its list yet gets closer with every step. -/
theorem ahead_step {w w' : World} (h : Reachable E w) {m : Em} {pc : EmitPc} {rest : List Frame} (hst : w.stacks t = .emit m pc :: rest) (hp : 0 < pc.ahead)
    (hs : step E w (.run t) = some w') (hub : w'.ub = none) :
    userCtx (w'.stacks t) = true ∨ ∃ pc', w'.stacks t = .emit m pc' :: rest ∧ pc'.ahead < pc.ahead := by
  have U : UserStk rest := by have O := h.full.i.i1.stk t; rw [hst] at O; exact O.tail rfl
  obtain ⟨-, -, hr⟩ := step_run hs
  unfold runTop at hr
  rw [hst] at hr
  cases pc with
  | start =>
    simp only [runEmit] at hr
    split at hr
    · injection hr with hr; subst hr; cases hub
    · split at hr <;> (injection hr with hr; subst hr)
      · left; simp only [World.setStack, World.emitEv, upd, if_true]; exact U.ctx
      · right; exact ⟨.wait, by simp [World.setStack, upd], by decide⟩
  | wait =>
    obtain ⟨h1, -⟩ := acquire_eff hr hub
    exact .inr ⟨.copy, h1, by simp [EmitPc.ahead]⟩
  | copy =>
    simp only [runEmit] at hr
    injection hr with hr; subst hr
    exact .inr ⟨.unlock (w.sigs m.g).list, by simp only [World.setStack, upd, if_true], by simp [EmitPc.ahead]⟩
  | unlock b =>
    cases b with
    | none => injection hr with hr; subst hr; cases hub
    | some b =>
      simp only [runEmit] at hr
      injection hr with hr; subst hr
      exact .inr ⟨.iter b 0 none, by simp only [World.setStack, World.emitEv, upd, if_true], by simp [EmitPc.ahead]⟩
  | iter b pos acc => cases hp

/-- The emission that a thread is in, once it has its list. -/
def iterTop : List Frame → Option (Em × BlkId × Nat × Option Val)
  | .emit m (.iter b pos acc) :: _ => some (m, b, pos, acc)
  | .call _ _ :: .emit m (.iter b pos acc) :: _ => some (m, b, pos, acc)
  | _ => none

theorem iterTop_mem {st : List Frame} {m : Em} {b : BlkId} {pos : Nat} {acc : Option Val} (h : iterTop st = some (m, b, pos, acc)) :
    Frame.emit m (.iter b pos acc) ∈ st := by
  unfold iterTop at h
  split at h
  · cases h; simp
  · cases h; simp
  · cases h

theorem chore_iter {w w' : World} {st : List Frame} {m : Em} {b : BlkId} {pos : Nat} {acc : Option Val} (h : iterTop st = some (m, b, pos, acc))
    (hb : w'.blks b = w.blks b) : chore w' st = chore w st := by
  unfold iterTop at h
  split at h
  · cases h; simp [chore, hb]
  · rename_i s pc _ _ _ _ _
    cases h
    cases pc <;> simp [chore, hb, left, todo]
  · cases h

/-- A step of an emission that has its list: back to user code, or on in the same list. -/
theorem iter_step {w w' : World} (h : Reachable E w) (hu : userCtx (w.stacks t) = false) {m : Em} {b : BlkId} {pos : Nat} {acc : Option Val}
    (hi : iterTop (w.stacks t) = some (m, b, pos, acc)) (hs : step E w (.run t) = some w') (hub : w'.ub = none) :
    userCtx (w'.stacks t) = true ∨ (iterTop (w'.stacks t)).isSome = true := by
  have O := h.full.i.i1.stk t
  obtain ⟨-, -, hr⟩ := step_run hs
  unfold runTop at hr
  split at hr
  · rename_i m' pc rest hst
    rw [hst] at O hi hu
    have U := O.tail rfl
    cases pc <;> simp [iterTop] at hi
    obtain ⟨rfl, rfl, rfl, rfl⟩ := hi
    simp only [runEmit] at hr
    split at hr
    · cases hr
    · split at hr <;> (injection hr with hr; subst hr)
      · right; simp [World.setStack, World.emitEv, upd, iterTop]
      · left; simp only [World.setStack, World.emitEv, upd, if_true]; exact U.ctx
  · rename_i s pc m' b' pos' acc' rest hst
    have fin : ∀ {v : World}, v.stacks t = .emit m' (deliver m'.comb b' pos' acc' none) :: rest → userCtx (v.stacks t) = true ∨ (iterTop (v.stacks t)).isSome = true := by
      intro v e
      rw [e]
      cases hc : m'.comb <;> right <;> rfl
    cases pc <;> simp only [runCall] at hr
    case body => cases hr
    case invoke => injection hr with hr; subst hr; right; simp [World.setStack, World.emitEv, upd, iterTop]
    all_goals
      repeat' split at hr
      all_goals
        injection hr with hr; subst hr
        first
        | (refine fin ?_; simp [World.setStack, World.emitEv, World.setConnected, upd]; done)
        | (right; simp [World.setStack, World.emitEv, upd, iterTop])
  all_goals first
    | cases hr; done
    | (rename_i hst; rw [hst] at hi; cases hi)

theorem Run.steps (R : Run E ws ls) {i j : Nat} (h : i ≤ j) : Steps E (fun _ => True) (ws i) (ws j) := by
  induction h with
  | refl => exact .refl _
  | @step m _ ih => exact ih.tail (ls m) trivial (R.next m)

/-- A thread inside an emission moves on by a step of the library. -/
theorem Run.emits (R : Run E ws ls) (F : Fair E ws ls) {i : Nat} (hu : userCtx ((ws i).stacks t) = false)
    (hno : ∀ f rest, (ws i).stacks t = f :: rest → f.allocs = none) :
    ∃ j, i ≤ j ∧ (ws j).stacks t = (ws i).stacks t ∧ step E (ws j) (.run t) = some (ws (j + 1)) := by
  obtain ⟨j, j1, j2, j3, -⟩ := R.moves F hu
  refine ⟨j, j1, j3, ?_⟩
  rcases own_label (R.next j) (R.ub (j + 1)) (by rw [j2, j3]; exact hu) with e | e <;> rw [j2] at e
  · rw [← e]; exact R.next j
  · have hs := R.next j
    rw [e] at hs
    rcases step_fail_cases hs with ⟨h1, -⟩ | ⟨f, rest, g, s, b, h1, h2, -⟩
    · have := R.ub (j + 1); rw [h1] at this; cases this
    · rw [hno f rest (j3 ▸ h1)] at h2; cases h2

theorem back_iter (R : Run E ws ls) (F : Fair E ws ls) {i : Nat} (hi : (iterTop ((ws i).stacks t)).isSome = true) :
    ∃ j, i ≤ j ∧ userCtx ((ws j).stacks t) = true := by
  generalize hn : chore (ws i) ((ws i).stacks t) = n
  induction n using Nat.strongRecOn generalizing i with
  | ind n ih =>
    subst hn
    cases hu : userCtx ((ws i).stacks t) with
    | true => exact ⟨i, Nat.le_refl _, hu⟩
    | false =>
      obtain ⟨⟨m, b, pos, acc⟩, hi⟩ := Option.isSome_iff_exists.1 hi
      obtain ⟨j, j1, j2, j3⟩ := R.emits F hu (fun f rest e => by
        rw [e] at hi; cases f <;> first | rfl | cases hi)
      have hm := iterTop_mem hi
      have hb : (ws j).blks b = (ws i).blks b := C19_unchanged (R.reach i) (R.steps j1) hm (j2 ▸ hm) rfl
      rcases chore_step (R.reach j) j3 with h | h | h
      · exact (h (R.ub _)).elim
      · exact ⟨j + 1, by omega, h⟩
      · rcases iter_step (R.reach j) (j2 ▸ hu) (j2 ▸ hi) j3 (R.ub _) with h1 | h1
        · exact ⟨j + 1, by omega, h1⟩
        · rw [j2, chore_iter hi hb] at h
          obtain ⟨k, k1, k2⟩ := ih _ h h1 rfl
          exact ⟨k, by omega, k2⟩

theorem back_emit (R : Run E ws ls) (F : Fair E ws ls) {i : Nat} {m : Em} {pc : EmitPc} {rest : List Frame} (hst : (ws i).stacks t = .emit m pc :: rest) :
    ∃ j, i ≤ j ∧ userCtx ((ws j).stacks t) = true := by
  generalize hn : pc.ahead = n
  induction n using Nat.strongRecOn generalizing i pc with
  | ind n ih =>
    subst hn
    rcases Nat.eq_zero_or_pos pc.ahead with h0 | h0
    · cases pc <;> simp [EmitPc.ahead] at h0
      exact back_iter R F (by rw [hst]; rfl)
    · obtain ⟨j, j1, j2, j3⟩ := R.emits F (t := t) (i := i) (by
        rw [hst]; obtain ⟨_, _, c, _⟩ := m
        cases pc <;> first | (cases h0; done) | (cases c <;> rfl)) (fun f r e => by rw [hst] at e; cases e; rfl)
      rcases ahead_step (R.reach j) (j2.trans hst) h0 j3 (R.ub _) with h | ⟨pc', h1, h2⟩
      · exact ⟨j + 1, by omega, h⟩
      · obtain ⟨k, k1, k2⟩ := ih _ h2 h1 rfl
        exact ⟨k, by omega, k2⟩

/-- C57, for every call of the library: under a fair scheduler a thread that is inside the library gets back to user code, be it the caller, a callable or a combiner.
Nothing is assumed of the callables and combiners of this or other threads. -/
theorem C57_back (R : Run E ws ls) (F : Fair E ws ls) (t : Tid) (i : Nat) : ∃ j, i ≤ j ∧ userCtx ((ws j).stacks t) = true := by
  have O := (R.reach i).full.i.i1.stk t
  have api : ∀ {f rest}, (ws i).stacks t = f :: rest → f.api = true → ∃ j, i ≤ j ∧ userCtx ((ws j).stacks t) = true := by
    intro f rest hst hf
    obtain ⟨j, j1, j2⟩ := C57_call R F hst hf
    rw [hst] at O
    exact ⟨j, by omega, by rw [j2]; exact (O.tail (by cases f <;> first | rfl | cases hf)).ctx⟩
  cases hst : (ws i).stacks t with
  | nil => exact ⟨i, Nat.le_refl _, by rw [hst]; rfl⟩
  | cons f rest =>
    cases f with
    | emit m pc => exact back_emit R F hst
    | call s pc =>
      rw [hst] at O
      cases O with
      | user _ h => exact ⟨i, Nat.le_refl _, by rw [hst]; exact h.ctx⟩
      | call s pc m b pos acc rest h => exact back_iter R F (by rw [hst]; rfl)
      | lib _ _ hf => cases hf
    | add g s d pc => exact api hst rfl
    | erase g tgt pc => exact api hst rfl
    | disc s k pc => exact api hst rfl
    | mov g g' pc => exact api hst rfl

/-! ### Emissions with any combiner -/

/-- The label is something the combiner on thread `t` does: it dereferences an iterator, returns or throws. -/
def Label.combines (t : Tid) : Label → Prop
  | .call t' (.combDeref _) | .call t' (.combDone _) | .call t' .combThrow => t' = t
  | _ => False

/-- Whenever the combiner of emission `e` on thread `t` is the one to go on, it goes on at some time. -/
def Answers (ws : Nat → World) (ls : Nat → Label) (t : Tid) (e : EmId) : Prop :=
  ∀ i m pc above rest, (ws i).stacks t = above ++ .emit m pc :: rest → m.e = e → m.comb = .custom → pc.ahead = 0 →
    (∀ s p, above.getLast? ≠ some (.call s p)) → ∃ j, i ≤ j ∧ (ws j).stacks t = .emit m pc :: rest ∧ (ls j).combines t

theorem user_any {st : List Frame} (hu : UserStk st) {m : Em} {pc : EmitPc} (hm : Frame.emit m pc ∈ st) :
    (∃ above s o rest, st = above ++ .call s (.body o) :: .emit m pc :: rest) ∨
      (m.comb = .custom ∧ pc.ahead = 0 ∧ ∃ above rest, st = above ++ .emit m pc :: rest ∧ ∀ s p, above.getLast? ≠ some (.call s p)) := by
  induction hu with
  | nil => cases hm
  | body s o m' b pos acc rest hr ih =>
    rcases List.mem_cons.1 hm with hm | hm
    · cases hm
    · rcases List.mem_cons.1 hm with hm | hm
      · cases hm; exact .inl ⟨[], s, o, rest, rfl⟩
      · rcases ih hm with ⟨above, s', o', rest', rfl⟩ | ⟨h1, h2, above, rest', rfl, h3⟩
        · exact .inl ⟨_ :: _ :: above, s', o', rest', rfl⟩
        · refine .inr ⟨h1, h2, _ :: _ :: above, rest', rfl, fun s p => ?_⟩
          cases above with
          | nil => simp
          | cons x above => simpa using h3 s p
  | comb m' b pos acc rest hc' hr ih =>
    rcases List.mem_cons.1 hm with hm | hm
    · cases hm; exact .inr ⟨hc', rfl, [], rest, rfl, by simp⟩
    · rcases ih hm with ⟨above, s', o', rest', rfl⟩ | ⟨h1, h2, above, rest', rfl, h3⟩
      · exact .inl ⟨_ :: above, s', o', rest', rfl⟩
      · refine .inr ⟨h1, h2, _ :: above, rest', rfl, fun s p => ?_⟩
        cases above with
        | nil => simp
        | cons x above => simpa using h3 s p

/-- On the stack of thread `t`, an emission is at work, or waits for a callable, or for its combiner. -/
theorem any_where {w : World} (h : Reachable E w) {m : Em} {pc : EmitPc} (hm : Frame.emit m pc ∈ w.stacks t) :
    (w.within t m.e = true ∧ userCtx (w.stacks t) = false) ∨
      (∃ above s o rest, w.stacks t = above ++ .call s (.body o) :: .emit m pc :: rest) ∨
      (m.comb = .custom ∧ pc.ahead = 0 ∧ ∃ above rest, w.stacks t = above ++ .emit m pc :: rest ∧ ∀ s p, above.getLast? ≠ some (.call s p)) := by
  have hok := h.full.i.i1.stk t
  unfold World.within
  generalize w.stacks t = st at hm hok
  cases hok with
  | user _ hu => exact .inr (user_any hu hm)
  | call s p m' b pos acc rest hu =>
    rcases List.mem_cons.1 hm with hm | hm
    · cases hm
    rcases List.mem_cons.1 hm with hm | hm
    · cases hm
      cases p with
      | body o => exact .inr (.inl ⟨[], s, o, rest, rfl⟩)
      | _ => exact .inl ⟨by simp, rfl⟩
    · rcases user_any hu hm with ⟨above, s', o', rest', rfl⟩ | ⟨h1, h2, above, rest', rfl, h3⟩
      · exact .inr (.inl ⟨_ :: _ :: above, s', o', rest', rfl⟩)
      · refine .inr (.inr ⟨h1, h2, _ :: _ :: above, rest', rfl, fun s p => ?_⟩)
        cases above with
        | nil => simp
        | cons x above => simpa using h3 s p
  | lib f rest hf hu =>
    rcases List.mem_cons.1 hm with hm | hm
    · subst hm
      by_cases hc : m.comb = .custom ∧ pc.ahead = 0
      · exact .inr (.inr ⟨hc.1, hc.2, [], rest, rfl, by simp⟩)
      · refine .inl ⟨by simp, ?_⟩
        obtain ⟨e, g, comb, args⟩ := m
        cases comb <;> cases pc <;> first | rfl | (exact (hc ⟨rfl, rfl⟩).elim)
    · rcases user_any hu hm with ⟨above, s', o', rest', rfl⟩ | ⟨h1, h2, above, rest', rfl, h3⟩
      · exact .inr (.inl ⟨_ :: above, s', o', rest', rfl⟩)
      · refine .inr (.inr ⟨h1, h2, _ :: above, rest', rfl, fun s p => ?_⟩)
        cases above with
        | nil => cases f <;> first | (simp; done) | cases hf
        | cons x above => simpa using h3 s p

/-- If the combiner dereferences finitely often, the library takes finitely many steps for the emission. -/
theorem work_finite {g : SigId} {comb : Comb} {args : List Arg} {K : Nat} (h : Reachable E (ws 0))
    (h0 : ls 0 = .call t (.emit g comb args)) (hs : ∀ i, step E (ws i) (ls i) = some (ws (i + 1)))
    (hK : ∀ i, turned (ws (i + 1)) (ws 0).nEm ≤ K) :
    ∃ N, ∀ i, N ≤ i → ¬ ((ls i).tid = t ∧ (ls i).lib ∧ (ws i).within t (ws 0).nEm) := by
  have hr : ∀ i, Reachable E (ws i) := fun i => by
    induction i with
    | zero => exact h
    | succ i ih => exact ih.step (hs i)
  have hub : ∀ i, (ws i).ub = none := fun i => (step_inv (hs i)).1
  have hs0 : step E (ws 0) (.call t (.emit g comb args)) = some (ws 1) := h0 ▸ hs 0
  obtain ⟨h1, h2, h3, -⟩ := emit_called h hs0
  have hx : ∀ i, exec E (ws 1) ((List.range i).map fun j => ls (j + 1)) = some (ws (i + 1)) := fun i => by
    induction i with
    | zero => rfl
    | succ i ih => rw [List.range_succ, List.map_append, Demo.exec_append, ih]; simp [exec, hs]
  have hem : ∀ i, (ws 0).nEm < (ws (i + 1)).nEm := fun i => by
    induction i with
    | zero => show _ < (ws 1).nEm; omega
    | succ i ih => exact Nat.lt_of_lt_of_le ih (fixed (step_inv (hs _)).2.2).nEm
  have key := finitely_often (p := fun i => (ls (i + 1)).tid = t ∧ (ls (i + 1)).lib ∧ (ws (i + 1)).within t (ws 0).nEm)
    (fun i => 6 * K + 5 + 6 * turned (ws (i + 1)) (ws 0).nEm - pot (ws (i + 1)) t (ws 0).nEm)
    (6 * K + 5 + 6 * K) (fun n => by have := hK n; show _ - _ ≤ _; omega) ?_
  · obtain ⟨N, hN⟩ := key
    refine ⟨N + 1, fun i hi => ?_⟩
    obtain ⟨j, rfl⟩ : ∃ j, i = j + 1 := ⟨i - 1, by omega⟩
    exact hN j (by omega)
  · intro n
    have hp := pot_step (t := t) (hr (n + 1)) (hs (n + 1)) (hem n) (hub _)
    have hle : ∀ i, pot (ws (i + 1)) t (ws 0).nEm ≤ 5 + 6 * turned (ws (i + 1)) (ws 0).nEm := fun i => by
      have := work_le (t := t) (e := (ws 0).nEm) _ (hr 1) (hx i) (hem 0) (hub _)
      omega
    have := hle n
    have := hle (n + 1)
    show _ - _ + _ ≤ _ - _
    omega

/-- C57, for any combiner: under a fair scheduler an emission returns (or is left by an exception), if the callables that it calls return, and the combiner always goes on and
dereferences only finitely often; however the other threads contend for the mutex and change the list. -/
theorem C57_any (R : Run E ws ls) (F : Fair E ws ls) {i : Nat} {g : SigId} {comb : Comb} {args : List Arg}
    (hc : ls i = .call t (.emit g comb args)) (hr : Returns ws ls t (ws i).nEm) (ha : Answers ws ls t (ws i).nEm)
    {K : Nat} (hK : ∀ j, (trace (ws j).log (ws i).nEm).countP Event.turns ≤ K) :
    ∃ j, i < j ∧ (Event.suppressed (ws i).nEm ∈ (ws j).log ∨ Event.aborted (ws i).nEm ∈ (ws j).log ∨
      ∃ r, Event.done (ws i).nEm r ∈ (ws j).log) := by
  generalize he : (ws i).nEm = e at *
  have hs0 : step E (ws i) (.call t (.emit g comb args)) = some (ws (i + 1)) := hc ▸ R.next i
  obtain ⟨hn, -, -, htr⟩ := emit_called (R.reach i) hs0
  rw [he] at hn htr
  obtain ⟨N1, hN1⟩ := work_finite (ws := fun k => ws (i + k)) (ls := fun k => ls (i + k)) (t := t) (K := K) (R.reach i) hc
    (R.drop i).next (fun k => by simp only [Nat.add_zero, he]; exact hK (i + (k + 1)))
  obtain ⟨N2, hN2⟩ := finitely_often (p := fun k => turned (ws k) e < turned (ws (k + 1)) e) (fun k => turned (ws k) e) K hK (fun k => by
    obtain ⟨evs, hl⟩ := log_grows (step_inv (R.next k)).2.2
    have := turned_mono (e := e) hl
    split <;> omega)
  have hN : ∀ k, i + N1 ≤ k → ¬ ((ls k).tid = t ∧ (ls k).lib = true ∧ (ws k).within t e = true) := fun k hk => by
    have := hN1 (k - i) (by omega)
    simp only [show i + (k - i) = k by omega, Nat.add_zero, he] at this
    exact this
  have hlog : ∀ k, ∃ evs, (ws (i + 1 + k)).log = evs ++ (ws (i + 1)).log := fun k => by
    induction k with
    | zero => exact ⟨[], rfl⟩
    | succ k ih =>
      obtain ⟨evs, h⟩ := ih
      obtain ⟨evs', h'⟩ := log_grows (step_inv (R.next (i + 1 + k))).2.2
      exact ⟨evs' ++ evs, by rw [← Nat.add_assoc, h', h, List.append_assoc]⟩
  have hem : ∀ k, e < (ws (i + 1 + k)).nEm := fun k => by
    induction k with
    | zero => show _ < (ws (i + 1)).nEm; omega
    | succ k ih => exact Nat.lt_of_lt_of_le ih (fixed (step_inv (R.next _)).2.2).nEm
  have hd : ∀ k, ∃ tr, trace (ws (i + 1 + k)).log e = .began t ⟨e, g, comb, args⟩ :: tr := fun k => by
    obtain ⟨evs, h⟩ := hlog k
    rw [h, trace_append, htr]; exact ⟨_, rfl⟩
  have hem := hem (N1 + N2)
  have hd := hd (N1 + N2)
  have hj1 : i + N1 ≤ i + 1 + (N1 + N2) := by omega
  have hj2 : N2 ≤ i + 1 + (N1 + N2) := by omega
  have hj3 : i < i + 1 + (N1 + N2) := by omega
  generalize i + 1 + (N1 + N2) = j at *
  rcases (R.reach j).full.t.fin e hem with ⟨t', a, hact, hae⟩ | hcm
  rotate_left
  · refine ⟨j, hj3, ?_⟩
    unfold World.complete at hcm
    have mem : ∀ {ev}, ev ∈ trace (ws j).log e → ev ∈ (ws j).log := fun h => (mem_trace.1 h).1
    generalize htr' : trace (ws j).log e = tr at hcm mem
    cases hcm with
    | suppressed => exact .inl (mem (by simp))
    | done _ _ _ _ _ r => exact .inr (.inr ⟨r, mem (by simp)⟩)
    | aborted => exact .inr (.inl (mem (by simp)))
  have htt : t' = t := by
    obtain ⟨tr, htr⟩ := hd
    have ok := (R.reach j).full.t.ok t' a hact
    unfold ActOk at ok
    split at ok
    · obtain ⟨m0, vs, a0, ok⟩ := ok
      have h1 := ok.tr
      rw [hae, htr] at h1; cases h1; rfl
    · have h1 := ok.2
      rw [hae, htr] at h1
      simp only [List.cons.injEq, Event.began.injEq] at h1
      exact h1.1.1.symm
  subst htt
  have hf := acts_mem hact
  rcases any_where (R.reach j) hf with ⟨hw, hu⟩ | ⟨above, s, o, rest, hst⟩ | ⟨h1, h2, above, rest, hst, h3⟩
  · obtain ⟨k, k1, k2, k3, -⟩ := R.moves F hu
    have hl : (ls k).lib = true := by
      rcases own_label (R.next k) (R.ub (k + 1)) (by rw [k2, k3]; exact hu) with h | h
      · rw [h]; rfl
      · exfalso
        have hs := R.next k
        rw [h, k2] at hs
        rcases step_fail_cases hs with ⟨h1, -⟩ | ⟨f, rest, g', s, b, h1, h2, -⟩
        · have := R.ub (k + 1); rw [h1] at this; cases this
        · rw [k3] at h1
          unfold World.within at hw
          rw [h1] at hw
          rcases Frame.allocs_inv h2 with ⟨_, _, _, rfl, _⟩ | ⟨_, rfl, _⟩ <;> cases hw
    exact (hN k (by omega) ⟨k2, hl, by unfold World.within at hw ⊢; rw [k3, ← hae]; exact hw⟩).elim
  · obtain ⟨k, k1, k2, k3⟩ := hr j s o a.m a.pc above rest hst hae
    refine (hN k (by omega) ⟨?_, ?_, ?_⟩).elim
    · revert k3; cases ls k <;> simp [Label.ends, Label.tid]
    · revert k3; cases ls k <;> simp [Label.ends, Label.lib]
    · unfold World.within; rw [k2]; simpa using hae
  · obtain ⟨k, k1, k2, k3⟩ := ha j a.m a.pc above rest hst hae h1 h2 h3
    have hs := R.next k
    have hub := R.ub (k + 1)
    have hkj : i < k + 1 := by omega
    have hno := hN2 k (by omega)
    generalize hv : ws (k + 1) = v at hs hub hno
    generalize hl : ls k = lb at k3 hs
    unfold Label.combines at k3
    split at k3
    · subst k3
      rename_i n _
      exfalso
      obtain ⟨-, -, -, hu⟩ := step_call hs
      simp only [userOp, k2] at hu
      split at hu
      · rename_i e2 g2 args2 b2 p2 acc2 rest2 hst2
        injection hst2 with hst2
        injection hst2 with hst2 _
        split at hu
        · injection hu with hu
          subst hu
          apply hno
          unfold turned
          have : e2 = e := by rw [← hae, hst2]
          subst this
          simp only [World.emitEv, World.setStack]
          rw [trace_cons rfl, List.countP_append]
          simp [Event.turns]
        · injection hu with hu; subst hu; cases hub
      · cases hu
    · subst k3
      refine ⟨k + 1, hkj, .inr (.inr ?_)⟩
      obtain ⟨-, -, -, hu⟩ := step_call hs
      simp only [userOp, k2] at hu
      split at hu
      · rename_i e2 g2 args2 b2 p2 acc2 rest2 hst2
        injection hst2 with hst2
        injection hst2 with hst2 _
        injection hu with hu
        have : e2 = e := by rw [← hae, hst2]
        subst this
        rw [hv, ← hu]
        exact ⟨_, List.mem_cons_self⟩
      · cases hu
    · subst k3
      refine ⟨k + 1, hkj, .inr (.inl ?_)⟩
      obtain ⟨-, -, -, hu⟩ := step_call hs
      simp only [userOp, k2] at hu
      split at hu
      · rename_i e2 g2 args2 b2 p2 acc2 rest2 hst2
        injection hst2 with hst2
        injection hst2 with hst2 _
        injection hu with hu
        have : e2 = e := by rw [← hae, hst2]
        subst this
        rw [hv, ← hu]
        exact List.mem_cons_self
      · cases hu
    · cases k3

namespace Demo

/-- Thread 0 emits with a combiner of its own, which dereferences the first iterator twice and returns; meanwhile thread 1 connects, and the listener called emits itself. -/
def combining : List Label :=
  [.call 0 (.newSig false)] ++ connect 0 10 0 ++
  [.call 1 (.connect 0 (fn 11) [] true false (.conn 1)), .run 1, .call 0 (.emit 0 .custom []), .run 0] ++ go 1 3 ++ go 0 3 ++
  [.call 0 (.combDeref 0)] ++ go 0 3 ++ [.call 0 (.emit 0 .lastValue [])] ++ go 0 8 ++ [.throw 0 false, .ret 0 7, .call 0 (.combDeref 0)] ++ go 0 3 ++
  [.ret 0 8, .call 0 (.combDone (some 9))]

theorem combining_fair : Idle 2 combining :=
  idle (by decide +kernel) (by decide) (by decide +kernel) (by decide +kernel) (by decide +kernel)

/-- In the execution of `ls` the combiner of emission `e` on thread `t` goes on whenever it has to. -/
def answers (n : Nat) (ls : List Label) (t : Tid) (e : EmId) : Bool :=
  (List.range ls.length).all fun i =>
    let st := (world n (ls.take i)).stacks t
    (List.range st.length).all fun k =>
      match st.drop k with
      | .emit m pc :: rest => m.e != e || m.comb != .custom || pc.ahead != 0 ||
          (match (st.take k).getLast? with | some (.call _ _) => true | _ => false) || (List.range ls.length).any fun j =>
          decide (i ≤ j) && (world n (ls.take j)).stacks t == .emit m pc :: rest &&
          (match ls[j]? with | some (.call t' (.combDeref _)) | some (.call t' (.combDone _)) | some (.call t' .combThrow) => t' == t | _ => false)
      | _ => true

theorem Idle.answers {n : Nat} {ls : List Label} {t : Tid} {e : EmId} (h : Idle n ls) (hr : Demo.answers n ls t e = true) :
    Answers (follow E0 (World.init n) (idleLab ls)) (idleLab ls) t e := by
  intro i m pc above rest hst he hc hp hl
  by_cases hi : ls.length ≤ i
  · rw [h.rest i t hi] at hst; simp at hst
  have hi : i < ls.length := by omega
  rw [h.start i (by omega)] at hst
  unfold Demo.answers at hr
  have h1 := List.all_eq_true.1 hr i (List.mem_range.2 hi)
  have h2 := List.all_eq_true.1 h1 above.length (List.mem_range.2 (by rw [hst]; simp))
  rw [hst, List.drop_left, List.take_left] at h2
  simp only [he, hc, hp, bne_self_eq_false, Bool.false_or, List.any_eq_true, List.mem_range, Bool.and_eq_true, decide_eq_true_eq,
    beq_iff_eq] at h2
  obtain ⟨j, h3, ⟨h4, h5⟩, h6⟩ := h2
  refine ⟨j, h4, by rw [h.start j (by omega)]; exact h5, ?_⟩
  unfold idleLab
  split at h6
  · rename_i e; rw [e]; exact eq_of_beq h6
  · rename_i e; rw [e]; exact eq_of_beq h6
  · rename_i e; rw [e]; exact eq_of_beq h6
  · cases h6

/-- The log of an execution that ends idle is the one at its end. -/
theorem Idle.turned {n : Nat} {ls : List Label} (h : Idle n ls) (e : EmId) (i : Nat) :
    Verif.turned (follow E0 (World.init n) (idleLab ls) i) e ≤ Verif.turned (world n ls) e := by
  have mono : ∀ i, Verif.turned (follow E0 (World.init n) (idleLab ls) i) e ≤ Verif.turned (follow E0 (World.init n) (idleLab ls) (i + 1)) e := fun i => by
    obtain ⟨evs, hl⟩ := log_grows (step_inv (h.run.next i)).2.2
    exact turned_mono hl
  have le : ∀ d i, Verif.turned (follow E0 (World.init n) (idleLab ls) i) e ≤ Verif.turned (follow E0 (World.init n) (idleLab ls) (i + d)) e := fun d i => by
    induction d with
    | zero => exact Nat.le_refl _
    | succ d ih => exact Nat.le_trans ih (mono (i + d))
  have hend : Verif.turned (follow E0 (World.init n) (idleLab ls) ls.length) e = Verif.turned (world n ls) e := by
    rw [h.start _ (Nat.le_refl _), List.take_length]
  by_cases hi : i ≤ ls.length
  · have := le (ls.length - i) i
    rw [show i + (ls.length - i) = ls.length by omega, hend] at this
    exact this
  · obtain ⟨d, rfl⟩ : ∃ d, i = ls.length + d := ⟨i - ls.length, by omega⟩
    clear hi
    induction d with
    | zero => exact Nat.le_of_eq hend
    | succ d ih =>
      have hs := h.run.next (ls.length + d)
      rw [show idleLab ls (ls.length + d) = .call 0 .objNew by unfold idleLab; rw [List.getElem?_eq_none (by omega)]; rfl] at hs
      obtain ⟨-, -, -, hu⟩ := step_call hs
      simp only [userOp, Option.some.injEq] at hu
      rw [← Nat.add_assoc, ← hu]
      exact ih

end Demo

/-- The emission that begins in step 8 waits for thread 1, for the listener and for its combiner, and ends. -/
example : ∃ j, 8 < j ∧ (Event.suppressed 0 ∈ (Demo.follow Demo.E0 (World.init 2) (Demo.idleLab Demo.combining) j).log ∨
    Event.aborted 0 ∈ (Demo.follow Demo.E0 (World.init 2) (Demo.idleLab Demo.combining) j).log ∨
    ∃ r, Event.done 0 r ∈ (Demo.follow Demo.E0 (World.init 2) (Demo.idleLab Demo.combining) j).log) := by
  have h0 : (Demo.follow Demo.E0 (World.init 2) (Demo.idleLab Demo.combining) 8).nEm = 0 := by
    rw [Demo.combining_fair.start 8 (by decide)]; decide +kernel
  have := C57_any Demo.combining_fair.run Demo.combining_fair.fair (t := 0) (i := 8) (g := 0) (args := []) (comb := .custom) (by decide +kernel)
    (by rw [h0]; exact Demo.combining_fair.returns (by decide +kernel)) (by rw [h0]; exact Demo.combining_fair.answers (by decide +kernel))
    (fun j => Demo.combining_fair.turned _ j)
  rwa [h0] at this
example : (Demo.world 2 Demo.combining).log.head? = some (.done 0 (some 9)) := by decide +kernel

/-- After 10 steps the emission is about to lock the mutex, which thread 1 has; and it comes back to user code, the combiner. -/
example : userCtx ((Demo.follow Demo.E0 (World.init 2) (Demo.idleLab Demo.combining) 10).stacks 0) = false ∧
    ∃ j, 10 ≤ j ∧ userCtx ((Demo.follow Demo.E0 (World.init 2) (Demo.idleLab Demo.combining) j).stacks 0) = true :=
  ⟨by rw [Demo.combining_fair.start 10 (by decide)]; decide +kernel, C57_back Demo.combining_fair.run Demo.combining_fair.fair 0 10⟩

/-! A combiner that never stops to dereference keeps its emission going. -/

namespace Demo

/-- A signal with a listener that is blocked. -/
def stubborn : List Label := [.call 0 (.newSig false)] ++ connect 0 10 0 ++ [.call 0 (.block (.conn 0))]

/-- Thread 0 emits; its combiner dereferences again and again. -/
def derefLab (i : Nat) : Label :=
  if i = 0 then .call 0 (.emit 0 .custom []) else if i < 5 then .run 0 else if i % 2 = 1 then .call 0 (.combDeref 0) else .run 0

def derefStk (k : Nat) : List Frame :=
  if k % 2 = 1 then [.emit ⟨0, 0, .custom, []⟩ (.iter 0 0 none)] else [.call 0 .chkBlocked, .emit ⟨0, 0, .custom, []⟩ (.iter 0 0 none)]

/-- The worlds of this execution once the emission has its list. -/
structure Dereffing (k : Nat) (w : World) : Prop where
  ub : w.ub = none
  thr : w.nThr = 1
  st : w.stacks 0 = derefStk k
  blk : w.blks 0 = [0]
  slot : (w.slots 0).blocked = true
  log : w.log.all (fun | .suppressed _ | .aborted _ | .done _ _ => false | _ => true) = true

theorem deref_step {w : World} {i : Nat} (hi : 5 ≤ i) (h : Dereffing i w) :
    ∃ w', step E0 w (derefLab i) = some w' ∧ Dereffing (i + 1) w' := by
  obtain ⟨ub, thr, st, blk, slot, log⟩ := h
  unfold derefLab
  rw [if_neg (by omega), if_neg (by omega)]
  unfold derefStk at st
  by_cases h : i % 2 = 1
  · rw [if_pos h] at st ⊢
    refine ⟨(w.setStack 0 [.call 0 .chkBlocked, .emit ⟨0, 0, .custom, []⟩ (.iter 0 0 none)]).emitEv (.visit 0 0 0), by
      unfold step; rw [if_neg (by rw [ub]; simp), if_pos (by rw [thr]; decide)]
      simp only; rw [if_pos (by rw [st]; rfl)]; simp only [userOp, st, blk, List.getElem?_cons_zero], ?_⟩
    refine ⟨ub, thr, ?_, blk, slot, ?_⟩
    · simp [World.emitEv, World.setStack, upd_apply, derefStk]; omega
    · simpa [World.emitEv, World.setStack] using log
  · rw [if_neg h] at st ⊢
    have hs : runTop E0 w 0 = some ((w.setStack 0 [.emit ⟨0, 0, .custom, []⟩ (.iter 0 0 none)]).emitEv (.skip 0 0 .blocked)) := by
      unfold runTop; rw [st]; simp [runCall, slot, deliver]
    refine ⟨_, run_step ub (by rw [thr]; decide) hs, ub, thr, ?_, blk, slot, ?_⟩
    · simp [World.emitEv, World.setStack, upd_apply, derefStk]; omega
    · simpa [World.emitEv, World.setStack] using log

/-- The worlds of the execution. -/
def derefs : Nat → World := follow E0 (world 1 stubborn) derefLab

theorem deref_at {i : Nat} (hi : 5 ≤ i) : Dereffing i (derefs i) := by
  induction hi with
  | refl => exact ⟨by decide +kernel, by decide +kernel, by decide +kernel, by decide +kernel, by decide +kernel, by decide +kernel⟩
  | @step i hi ih =>
    obtain ⟨w', h1, h2⟩ := deref_step hi ih
    show Dereffing (i + 1) ((step E0 (derefs i) (derefLab i)).getD (derefs i))
    rw [h1]; exact h2

theorem deref_start : ∀ i, i < 5 → (step E0 (derefs i) (derefLab i)).isSome = true ∧
    ((derefs i).stacks 0 = [] ∨ ∃ pc : EmitPc, pc ∈ [.start, .wait, .copy, .unlock (some 0)] ∧ (derefs i).stacks 0 = [.emit ⟨0, 0, .custom, []⟩ pc]) ∧
    (derefs i).log.all (fun | .suppressed _ | .aborted _ | .done _ _ => false | _ => true) = true := by decide +kernel

end Demo

/-- The bound on the number of dereferences in `C57_any` is needed: the scheduler is fair, callables return, the combiner always goes on, but the emission never ends. -/
theorem C57_deref_false : ∃ ws ls, Run Demo.E0 ws ls ∧ Fair Demo.E0 ws ls ∧ ls 0 = .call 0 (.emit 0 .custom []) ∧
    Returns ws ls 0 (ws 0).nEm ∧ Answers ws ls 0 (ws 0).nEm ∧
    ∀ j, ¬ (Event.suppressed (ws 0).nEm ∈ (ws j).log ∨ Event.aborted (ws 0).nEm ∈ (ws j).log ∨ ∃ r, Event.done (ws 0).nEm r ∈ (ws j).log) := by
  refine ⟨Demo.derefs, Demo.derefLab, ⟨Demo.reach 1 Demo.stubborn, fun i => Demo.follow_next ?_⟩, ?_, rfl, ?_, ?_, ?_⟩
  · by_cases hi : i < 5
    · exact (Demo.deref_start i hi).1
    · obtain ⟨w', h, -⟩ := Demo.deref_step (by omega) (Demo.deref_at (i := i) (by omega))
      exact Option.isSome_iff_exists.2 ⟨w', h⟩
  · intro t h n
    obtain ⟨k, hk, hs⟩ := h 5
    obtain ⟨w', hw⟩ := Option.isSome_iff_exists.1 hs
    obtain ⟨-, hlt, -⟩ := step_run hw
    rw [(Demo.deref_at hk).thr] at hlt
    refine ⟨n, Nat.le_refl _, ?_⟩
    have : t = 0 := by omega
    subst this
    unfold Demo.derefLab
    repeat' split
    all_goals rfl
  · intro i s o m pc above rest hst _
    exfalso
    have hm : Frame.call s (.body o) ∈ (Demo.derefs i).stacks 0 := by rw [hst]; simp
    by_cases hi : i < 5
    · rcases (Demo.deref_start i hi).2.1 with h | ⟨pc, -, h⟩ <;> rw [h] at hm <;> simp at hm
    · rw [(Demo.deref_at (by omega)).st, Demo.derefStk] at hm
      split at hm <;> simp at hm
  · intro i m pc above rest hst _ _ hp hl
    by_cases hi : i < 5
    · exfalso
      have hm : Frame.emit m pc ∈ (Demo.derefs i).stacks 0 := by rw [hst]; simp
      rcases (Demo.deref_start i hi).2.1 with h | ⟨pc', h1, h⟩ <;> rw [h] at hm <;> simp at hm
      obtain ⟨-, rfl⟩ := hm
      simp only [List.mem_cons, List.not_mem_nil, or_false] at h1
      rcases h1 with rfl | rfl | rfl | rfl <;> cases hp
    · have h := (Demo.deref_at (i := i) (by omega)).st
      rw [Demo.derefStk] at h
      split at h
      · rename_i hodd
        rw [h] at hst
        rcases above with _ | ⟨a, above⟩
        · refine ⟨i, Nat.le_refl _, by rw [h, hst]; rfl, ?_⟩
          unfold Demo.derefLab
          rw [if_neg (by omega), if_neg (by omega), if_pos hodd]; rfl
        · simp at hst
      · exfalso
        rw [h] at hst
        rcases above with _ | ⟨a, _ | ⟨b, above⟩⟩
        · simp at hst
        · simp only [List.cons_append, List.nil_append, List.cons.injEq] at hst
          exact hl _ _ (by rw [← hst.1]; rfl)
        · simp at hst
  · intro j hj
    have hlog : (Demo.derefs j).log.all (fun | .suppressed _ | .aborted _ | .done _ _ => false | _ => true) = true := by
      by_cases hi : j < 5
      · exact (Demo.deref_start j hi).2.2
      · exact (Demo.deref_at (by omega)).log
    have := List.all_eq_true.1 hlog
    rcases hj with hj | hj | ⟨r, hj⟩ <;> exact absurd (this _ hj) (by simp)

end Verif
