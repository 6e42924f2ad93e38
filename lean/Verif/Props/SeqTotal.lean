import Verif.Props.Seq
import Verif.Props.Progress

/-!
# C71: every program that the sequential specification allows can be run, and the library always comes back to it
-/

namespace Verif

open _root_.Verif.Seq

variable {E : Env} {w w' : World} {t : Tid}

/-- Bound on the steps that the library still has to take before it comes back to user code. -/
def chore (w : World) : List Frame → Nat
  | .emit m .start :: _ => 8 * (w.listOf m.g).length + 6
  | .emit m .wait :: _ => 8 * (w.listOf m.g).length + 5
  | .emit m .copy :: _ => 8 * (w.listOf m.g).length + 4
  | .emit _ (.unlock none) :: _ => 1
  | .emit _ (.unlock (some b)) :: _ => 8 * (w.blks b).length + 3
  | .emit _ (.iter b pos _) :: _ => 8 * ((w.blks b).length - pos) + 2
  | .call _ .chkBlocked :: .emit _ (.iter b pos _) :: _ => 8 * ((w.blks b).length - (pos + 1)) + 7
  | .call _ .chkConnected :: .emit _ (.iter b pos _) :: _ => 8 * ((w.blks b).length - (pos + 1)) + 6
  | .call _ (.lockObj _) :: .emit _ (.iter b pos _) :: _ => 8 * ((w.blks b).length - (pos + 1)) + 5
  | .call _ (.recheck _) :: .emit _ (.iter b pos _) :: _ => 8 * ((w.blks b).length - (pos + 1)) + 4
  | .call _ .invoke :: .emit _ (.iter b pos _) :: _ => 8 * ((w.blks b).length - (pos + 1)) + 4
  | .erase g tgt pc :: rest => left w (w.listOf g).length (.erase g tgt pc :: rest)
  | st => left w 0 st

theorem UserStk.ctx {st : List Frame} (h : UserStk st) : userCtx st = true := by
  cases h with
  | nil => rfl
  | body => rfl
  | comb m b pos acc rest hc => cases m; simp only at hc; subst hc; rfl

theorem acquire_eff {g : SigId} {next : List Frame} (h : acquire w t g next = some w') (hub : w'.ub = none) :
    w'.stacks t = next ∧ ∀ g', w'.listOf g' = w.listOf g' := by
  unfold acquire at h
  split at h
  · injection h with h; subst h; cases hub
  · split at h
    · cases h
    · injection h with h; subst h
      refine ⟨by simp [World.setStack, upd], fun g' => ?_⟩
      simp only [World.listOf, World.setStack, World.setMutex, upd]
      by_cases hg : g' = g
      · subst hg; simp
      · simp [hg]

theorem deliver_user {m : Em} {b : BlkId} {pos : Nat} {acc r : Option Val} {rest : List Frame} :
    userCtx (.emit m (deliver m.comb b pos acc r) :: rest) = true ∨
      ∃ acc', deliver m.comb b pos acc r = .iter b (pos + 1) acc' := by
  cases hc : m.comb with
  | lastValue => exact .inr ⟨_, rfl⟩
  | custom => left; cases m; simp only at hc; subst hc; rfl

theorem chore_step (h : Reachable E w) (hs : step E w (.run t) = some w') :
    w'.ub ≠ none ∨ userCtx (w'.stacks t) = true ∨ chore w' (w'.stacks t) < chore w (w.stacks t) := by
  by_cases hub : w'.ub = none
  rotate_left
  · exact .inl hub
  right
  have O := h.full.i.i1.stk t
  obtain ⟨-, -, hr⟩ := step_run hs
  have api : ∀ {f rest}, w.stacks t = f :: rest → f.api = true → (∀ g tgt pc, f ≠ .erase g tgt pc) →
      userCtx (w'.stacks t) = true ∨ left w' 0 (w'.stacks t) < left w 0 (w.stacks t) ∧
        ∃ f', w'.stacks t = f' :: rest ∧ f'.api = true ∧ ∀ g tgt pc, f' ≠ .erase g tgt pc := by
    intro f rest hst hf hne
    have U : UserStk rest := by rw [hst] at O; exact O.tail (by cases f <;> first | rfl | cases hf)
    rcases left_own h hst hf hs hub (N := 0) (fun g tgt pc e => (hne g tgt pc e).elim) with e | ⟨f', e, hf', he, hlt⟩
    · left; rw [e]; exact U.ctx
    · right
      refine ⟨hlt, f', e, hf', fun g tgt pc e' => ?_⟩
      obtain ⟨pc0, e0⟩ := he g tgt pc e'
      exact hne _ _ _ e0
  have chore_api : ∀ {v : World} {f rest}, f.api = true → (∀ g tgt pc, f ≠ .erase g tgt pc) → chore v (f :: rest) = left v 0 (f :: rest) := by
    intro v f rest hf hne
    cases f with
    | emit => cases hf
    | call => cases hf
    | erase g tgt pc => exact (hne _ _ _ rfl).elim
    | add => rfl
    | disc => rfl
    | mov => rfl
  have go : ∀ {f rest}, w.stacks t = f :: rest → f.api = true → (∀ g tgt pc, f ≠ .erase g tgt pc) →
      userCtx (w'.stacks t) = true ∨ chore w' (w'.stacks t) < chore w (w.stacks t) := by
    intro f rest hst hf hne
    rcases api hst hf hne with hu | ⟨hlt, f', e, hf', hne'⟩
    · exact .inl hu
    · right; rw [e, chore_api hf' hne', ← e, hst, chore_api hf hne, ← hst]; exact hlt
  unfold runTop at hr
  split at hr
  · rename_i m pc rest hst
    have U : UserStk rest := by rw [hst] at O; exact O.tail rfl
    rw [hst]
    cases pc with
    | start =>
      simp only [runEmit] at hr
      split at hr
      · injection hr with hr; subst hr; cases hub
      · split at hr
        · injection hr with hr; subst hr
          left
          simp only [World.setStack, World.emitEv, upd, if_true]
          exact U.ctx
        · injection hr with hr; subst hr
          right
          simp only [World.setStack, upd, if_true, chore]
          show 8 * (w.listOf m.g).length + 5 < _
          omega
    | wait =>
      obtain ⟨h1, h2⟩ := acquire_eff hr hub
      right
      rw [h1]
      simp only [chore, h2]
      omega
    | copy =>
      simp only [runEmit] at hr
      injection hr with hr; subst hr
      right
      simp only [World.setStack, upd, if_true]
      cases hl : (w.sigs m.g).list with
      | none => simp only [chore]; omega
      | some b => simp only [chore, World.listOf, hl]; omega
    | unlock b =>
      cases b with
      | none => injection hr with hr; subst hr; cases hub
      | some b =>
        simp only [runEmit] at hr
        injection hr with hr; subst hr
        right
        simp only [World.setStack, World.setMutex, World.emitEv, upd, if_true, chore]
        omega
    | iter b pos acc =>
      simp only [runEmit] at hr
      split at hr
      · cases hr
      · split at hr
        · rename_i s hi
          injection hr with hr; subst hr
          right
          have := (List.getElem?_eq_some_iff.1 hi).1
          simp only [World.setStack, World.emitEv, upd, if_true, chore]
          omega
        · injection hr with hr; subst hr
          left
          simp only [World.setStack, World.emitEv, upd, if_true]
          exact U.ctx
  · rename_i s pc m b pos acc rest hst
    have U : UserStk rest := by rw [hst] at O; exact O.callTail
    rw [hst]
    have del : ∀ {v : World} {n : Nat}, v.stacks t = .emit m (deliver m.comb b pos acc none) :: rest → v.blks = w.blks → 2 < n →
        userCtx (v.stacks t) = true ∨ chore v (v.stacks t) < 8 * ((w.blks b).length - (pos + 1)) + n := by
      intro v n e1 e2 hn
      rcases deliver_user (m := m) (b := b) (pos := pos) (acc := acc) (r := none) (rest := rest) with hu | ⟨acc', e⟩
      · left; rw [e1]; exact hu
      · right; rw [e1, e]; simp only [chore, e2]; omega
    cases pc with
    | chkBlocked =>
      simp only [runCall] at hr
      split at hr
      · injection hr with hr; subst hr
        exact del (by simp [World.setStack, World.emitEv, upd]) rfl (by omega)
      · injection hr with hr; subst hr
        right; simp only [World.setStack, upd, if_true, chore]; omega
    | chkConnected =>
      simp only [runCall] at hr
      split at hr
      · split at hr <;>
        · injection hr with hr; subst hr
          right; simp only [World.setStack, upd, if_true, chore]; omega
      · injection hr with hr; subst hr
        exact del (by simp [World.setStack, World.emitEv, upd]) rfl (by omega)
    | invoke =>
      simp only [runCall] at hr
      injection hr with hr; subst hr
      left; simp [World.setStack, World.emitEv, upd, userCtx]
    | lockObj o =>
      simp only [runCall] at hr
      split at hr
      · injection hr with hr; subst hr
        right; simp only [World.setStack, upd, if_true, chore]; omega
      · injection hr with hr; subst hr
        exact del (by simp [World.setStack, World.emitEv, World.setConnected, upd]) rfl (by omega)
    | recheck o =>
      simp only [runCall] at hr
      split at hr
      · injection hr with hr; subst hr
        left; simp [World.setStack, World.emitEv, upd, userCtx]
      · injection hr with hr; subst hr
        exact del (by simp [World.setStack, World.emitEv, upd]) rfl (by omega)
    | body o => cases hr
  · rename_i hst; exact go hst rfl (by simp)
  · rename_i g tgt pc rest hst
    have U : UserStk rest := by rw [hst] at O; exact O.tail rfl
    have fin : ∀ N, (w'.listOf g).length ≤ N → left w N (w.stacks t) = chore w (w.stacks t) → (w'.listOf g).length = N →
        userCtx (w'.stacks t) = true ∨ chore w' (w'.stacks t) < chore w (w.stacks t) := by
      intro N hN he hN'
      rcases left_own h hst rfl hs hub (N := N) (fun g' tgt' pc' e => by cases e; exact hN) with e | ⟨f', e, hf', hee, hlt⟩
      · left; rw [e]; exact U.ctx
      · right
        rw [← he]
        refine Nat.lt_of_le_of_lt (Nat.le_of_eq ?_) hlt
        rw [e]
        by_cases hh : ∃ g' tgt' pc', f' = .erase g' tgt' pc'
        · obtain ⟨g', tgt', pc', rfl⟩ := hh
          obtain ⟨pc0, e0⟩ := hee _ _ _ rfl
          injection e0 with e1 e2 e3
          subst e1
          simp only [chore, hN']
        · have hh : ∀ g' tgt' pc', f' ≠ .erase g' tgt' pc' := fun g' tgt' pc' e => hh ⟨_, _, _, e⟩
          rw [chore_api hf' hh]
          cases f' with
          | emit => cases hf'
          | call => cases hf'
          | erase g tgt pc => exact (hh _ _ _ rfl).elim
          | add g s d pc => cases pc <;> rfl
          | mov g1 g2 pc => cases pc <;> rfl
          | disc s k pc =>
            cases pc with
            | exch => rfl
            | drop => rfl
            | crit g pc => cases pc <;> rfl
    cases pc with
    | wait =>
      obtain ⟨h1, h2⟩ := acquire_eff hr hub
      exact fin _ (Nat.le_of_eq (by rw [h2])) (by rw [hst]; rfl) (by rw [h2])
    | detach => exact fin _ (Nat.le_refl _) (by rw [hst]; rfl) rfl
    | clone => exact fin _ (Nat.le_refl _) (by rw [hst]; rfl) rfl
    | scan i c => exact fin _ (Nat.le_refl _) (by rw [hst]; rfl) rfl
    | unlock r => exact fin _ (Nat.le_refl _) (by rw [hst]; rfl) rfl
  · rename_i hst; exact go hst rfl (by simp)
  · rename_i hst; exact go hst rfl (by simp)
  · cases hr

theorem nThr_step (R : StepR E w t w') : w'.nThr = w.nThr := by
  cases R <;> first
    | rfl
    | exact (removeAt_same _ _ _).2.2.2.2.2.1

/-- A thread that is alone does not wait. -/
theorem alone_runs (A : Alone E t w) (hub : w.ub = none) (ht : t < w.nThr) (hu : userCtx (w.stacks t) = false) :
    ∃ w', step E w (.run t) = some w' := by
  rcases C21_progress A.reach hub ht with h | h | ⟨g, t', hne, -, -, w', h⟩
  · rw [hu] at h; cases h
  · exact h
  · obtain ⟨-, -, hr⟩ := step_run h
    unfold runTop at hr
    rw [A.others t' hne] at hr
    cases hr

/-- C71: a thread that is alone always gets back to user code, unless it runs into undefined behaviour. -/
theorem C71_returns (A : Alone E t w) (hub : w.ub = none) (ht : t < w.nThr) :
    ∃ n w', exec E w (List.replicate n (.run t)) = some w' ∧ (w'.ub ≠ none ∨ userCtx (w'.stacks t) = true) := by
  generalize hk : chore w (w.stacks t) = k
  induction k using Nat.strongRecOn generalizing w with
  | ind k ih =>
    cases hu : userCtx (w.stacks t) with
    | true => exact ⟨0, w, rfl, .inr hu⟩
    | false =>
      obtain ⟨w1, hs⟩ := alone_runs A hub ht hu
      have one : exec E w (List.replicate 1 (.run t)) = some w1 := by simp [exec, hs]
      rcases chore_step A.reach hs with h | h | h
      · exact ⟨1, w1, one, .inl h⟩
      · exact ⟨1, w1, one, .inr h⟩
      · by_cases hub1 : w1.ub = none
        · obtain ⟨n, w2, h1, h2⟩ := ih _ (hk ▸ h) (A.step rfl rfl hs) hub1 (by rw [nThr_step (step_inv hs).2.2]; exact ht) rfl
          exact ⟨n + 1, w2, by simp [List.replicate_succ, exec, hs, h1], h2⟩
        · exact ⟨1, w1, one, .inl hub1⟩

theorem body_of_cur {st : List Frame} (U : UserStk st) {f : Fr} {fs : List Fr} (h : w.frs st = f :: fs) (hc : f.cur ≠ none) :
    ∃ s o m b pos acc rest, st = .call s (.body o) :: .emit m (.iter b pos acc) :: rest ∧ f = w.frOf m b pos acc (some (s, o)) := by
  cases U with
  | nil => cases h
  | body s o m b pos acc rest => injection h with h; exact ⟨s, o, m, b, pos, acc, rest, rfl, h.symm⟩
  | comb m b pos acc rest => injection h with h; subst h; exact (hc rfl).elim

theorem comb_of_cur {st : List Frame} (U : UserStk st) {f : Fr} {fs : List Fr} (h : w.frs st = f :: fs) (hc : f.cur = none) :
    ∃ e g args b pos acc rest, st = .emit ⟨e, g, .custom, args⟩ (.iter b pos acc) :: rest := by
  cases U with
  | nil => cases h
  | body s o m b pos acc rest => injection h with h; subst h; cases hc
  | comb m b pos acc rest hm => obtain ⟨e, g, c, args⟩ := m; simp only at hm; subst hm; exact ⟨_, _, _, _, _, _, _, rfl⟩

theorem ite_no {c : Prop} [Decidable c] {x : Option World} (h : (if c then x else none) = none) (hx : x.isSome = true) : ¬c := by
  intro hc; rw [if_pos hc] at h; rw [h] at hx; cases hx

/-- C71: what the specification lets user code do, it can do. -/
theorem C71_can {l : Label} (A : Alone E t w) (hub : w.ub = none) (ht : t < w.nThr) (hu : userCtx (w.stacks t) = true)
    (hl : l.tid = t) (hr : ∀ u, l ≠ .run u) (hn : (w.view (w.stacks t)).next E l ≠ .no) : ∃ w', step E w l = some w' := by
  have U := (A.reach.full.i.i1.stk t).toUser hu
  have hsome : ∀ o : Option World, (o = none → False) → ∃ w', o = some w' := by
    intro o h; cases o with
    | none => exact (h rfl).elim
    | some x => exact ⟨x, rfl⟩
  refine hsome _ fun h0 => hn ?_
  simp only [step, hub] at h0
  rw [if_neg (by simp), if_pos (by rw [hl]; exact ht)] at h0
  cases l with
  | run u => exact (hr u rfl).elim
  | fail u => rfl
  | ctl u => rfl
  | ret u v =>
    have hl : u = t := hl
    subst hl
    simp only [St.next, St.ret]
    split
    · rename_i f fs hf
      split
      · rfl
      · rename_i hc
        obtain ⟨s, o, m, b, pos, acc, rest, hst, -⟩ := body_of_cur U hf hc
        simp only [userRet, hst] at h0
        cases h0
    · rfl
  | throw u c =>
    have hl : u = t := hl
    subst hl
    simp only [St.next, St.throw_]
    split
    · rename_i f fs hf
      split
      · rfl
      · rename_i hc
        obtain ⟨s, o, m, b, pos, acc, rest, hst, hfe⟩ := body_of_cur U hf hc
        simp only [userThrow, hst] at h0
        split at h0
        · split at h0
          · cases h0
          · rename_i h1 _ h2
            rw [if_pos h1, if_neg]
            rw [hfe]; simp [World.frOf, h2]
        · cases h0
    · rfl
  | call u x =>
    have hl : u = t := hl
    subst hl
    simp only at h0
    rw [if_pos hu] at h0
    simp only [St.next]
    cases x <;> simp only [userOp] at h0
    case objShare o =>
      simp only [St.op]
      split at h0
      · cases h0
      · rename_i h1
        rw [if_neg]
        intro h2; exact h1 ((objLives_iff A (pre := []) rfl U (by simp) o).2 h2)
    case newSig => cases h0
    case destroySig g => exact if_neg (ite_no h0 (by split <;> (try split) <;> rfl))
    case moveSig g => exact if_neg (ite_no h0 (by split <;> rfl))
    case moveAssignSig => exact if_neg (ite_no h0 rfl)
    case connect => exact if_neg (ite_no h0 rfl)
    case emit => exact if_neg (ite_no h0 rfl)
    case sigDisconnect => exact if_neg (ite_no h0 rfl)
    case disconnect => cases h0
    case block => cases h0
    case unblock => cases h0
    case connCopy => cases h0
    case connMove => split at h0 <;> cases h0
    case connSwap => cases h0
    case scopedNew => exact if_neg (by simpa [World.view] using ite_no h0 rfl)
    case scopedOfConn => exact if_neg (by simpa [World.view] using ite_no h0 rfl)
    case scopedBase x h =>
      have h1 := ite_no h0 rfl
      exact if_pos (by simpa [World.view] using h1)
    case blockerNew => exact if_neg (by simpa [World.view] using ite_no h0 rfl)
    case blockerOf => exact if_neg (by simpa [World.view] using ite_no h0 rfl)
    case objNew => cases h0
    case objDrop => exact if_neg (ite_no h0 rfl)
    case pin => rfl
    case unpin => rfl
    case combDeref i =>
      simp only [St.op]
      split
      · rename_i f fs hf
        by_cases hc : f.custom = true ∧ f.cur = none
        · obtain ⟨e, g, args, b, pos, acc, rest, hst⟩ := comb_of_cur U hf hc.2
          rw [hst] at h0
          simp only at h0
          split at h0 <;> cases h0
        · rw [if_neg hc]
      · rfl
    case combDone v =>
      simp only [St.op]
      split
      · rename_i f fs hf
        by_cases hc : f.custom = true ∧ f.cur = none
        · obtain ⟨e, g, args, b, pos, acc, rest, hst⟩ := comb_of_cur U hf hc.2
          rw [hst] at h0
          cases h0
        · rw [if_neg hc]
      · rfl
    case combThrow =>
      simp only [St.op]
      split
      · rename_i f fs hf
        by_cases hc : f.custom = true ∧ f.cur = none
        · obtain ⟨e, g, args, b, pos, acc, rest, hst⟩ := comb_of_cur U hf hc.2
          rw [hst] at h0
          cases h0
        · rw [if_neg hc]
      · rfl
    case scopedRelease y x => simp only [St.op, World.view]; cases hx : w.sv x <;> simp [hx] at h0 ⊢
    case scopedDtor x => simp only [St.op, World.view]; cases hx : w.sv x <;> simp [hx] at h0 ⊢
    case blockerDtor x => simp only [St.op, World.view]; cases hx : w.bv x <;> simp [hx] at h0 ⊢
    case scopedMoveCtor x y => simp only [St.op, World.view]; cases hx : w.sv x <;> cases hy : w.sv y <;> simp [hx, hy] at h0 ⊢
    case scopedMoveAssign x y => simp only [St.op, World.view]; cases hx : w.sv x <;> cases hy : w.sv y <;> simp [hx, hy] at h0 ⊢
    case scopedSwap x y => simp only [St.op, World.view]; cases hx : w.sv x <;> cases hy : w.sv y <;> simp [hx, hy] at h0 ⊢
    case blockerMoveCtor x y => simp only [St.op, World.view]; cases hx : w.bv x <;> cases hy : w.bv y <;> simp [hx, hy] at h0 ⊢
    case blockerMoveAssign x y =>
      simp only [St.op, World.view]
      cases hx : w.bv x <;> cases hy : w.bv y <;> simp [hx, hy] at h0 ⊢
      split at h0 <;> cases h0
    case blockerSwap x y => simp only [St.op, World.view]; cases hx : w.bv x <;> cases hy : w.bv y <;> simp [hx, hy] at h0 ⊢

theorem run_runs (a : St) (n : Nat) : a.run E (List.replicate n (.run t)) = .ok a := by
  induction n with
  | zero => rfl
  | succ n ih => rw [List.replicate_succ]; exact ih

theorem tame_runs (a : St) (n : Nat) : a.Tame E (List.replicate n (.run t)) := by
  induction n generalizing a with
  | zero => trivial
  | succ n ih => exact ⟨fun ⟨_, _, h, _⟩ => (by cases h), fun a' _ => ih a'⟩

theorem nThr_exec {ls : List Label} (hx : exec E w ls = some w') : w'.nThr = w.nThr := by
  induction ls generalizing w with
  | nil => injection hx with hx; rw [hx]
  | cons l ls ih =>
    simp only [exec] at hx
    split at hx
    · rename_i w1 hs
      rw [ih hx, nThr_step (step_inv hs).2.2]
    · cases hx

theorem seq_total (A : Alone E t w) (hub : w.ub = none) (ht : t < w.nThr) (hu : userCtx (w.stacks t) = true) {prog : List Label}
    (hl : ∀ l ∈ prog, l.tid = t ∧ l.plain = true ∧ l.user = true) (hn : (w.view (w.stacks t)).Tame E prog) :
    (∀ a, (w.view (w.stacks t)).run E prog = .ok a → ∃ ls w', ls.filter Label.user = prog ∧ (∀ l ∈ ls, l.tid = t ∧ l.plain = true) ∧
      exec E w ls = some w' ∧ w'.ub = none ∧ userCtx (w'.stacks t) = true ∧ w'.view (w'.stacks t) = a) ∧
    (∀ u, (w.view (w.stacks t)).run E prog = .ub u → ∃ ls w', ls.filter Label.user <+: prog ∧ (∀ l ∈ ls, l.tid = t ∧ l.plain = true) ∧
      exec E w ls = some w' ∧ w'.ub = some u) := by
  induction prog generalizing w with
  | nil => exact ⟨fun a h => ⟨[], w, rfl, (by simp), rfl, hub, hu, (by injection h)⟩, fun u h => (by cases h)⟩
  | cons l prog ih =>
    obtain ⟨htid, hp, hus⟩ := hl l List.mem_cons_self
    have U := (A.reach.full.i.i1.stk t).toUser hu
    simp only [St.run]
    by_cases hno : (w.view (w.stacks t)).next E l = .no
    · rw [hno]; exact ⟨fun a h => (by cases h), fun u h => (by cases h)⟩
    obtain ⟨w1, hs⟩ := C71_can A hub ht hu htid (by rintro u rfl; cases hus) hno
    have e0 : outcome E t w = .ok (w.view (w.stacks t)) := by rw [outcome_st hub rfl, settled_user U]
    obtain ⟨h1, h2⟩ := one_step A (ready_user U) htid hp hs fun a ha => by
      rw [e0] at ha; injection ha with ha; subst ha; exact hn.1
    rw [e0] at h1
    have h1 : (w.view (w.stacks t)).next E l = outcome E t w1 := h1
    have A1 := A.step htid hp hs
    cases hub1 : w1.ub with
    | some u1 =>
      rw [outcome_ub hub1] at h1
      rw [h1]
      refine ⟨fun a h => (by cases h), fun u h => ?_⟩
      injection h with h; subst h
      exact ⟨[l], w1, by simp [hus], by simp [htid, hp], by simp [exec, hs], hub1⟩
    | none =>
      obtain ⟨n, w2, hx, hd⟩ := C71_returns A1 hub1 (by rw [nThr_step (step_inv hs).2.2]; exact ht)
      obtain ⟨h3, A2, -⟩ := many_steps A1 (h2 hub1) (by intro l' h'; rw [List.eq_of_mem_replicate h']; exact ⟨rfl, rfl⟩) hx
        fun a _ => tame_runs a n
      have h3 : outcome E t w1 = outcome E t w2 := by
        rw [← h3]; cases outcome E t w1 with
        | ok a => exact (run_runs a n).symm
        | ub u => rfl
        | no => rfl
      have hfl : (l :: List.replicate n (Label.run t)).filter Label.user = [l] := by
        rw [List.filter_cons_of_pos hus, List.filter_eq_nil_iff.2]
        intro l' h'; rw [List.eq_of_mem_replicate h']; simp [Label.user]
      have hall : ∀ l' ∈ l :: List.replicate n (Label.run t), l'.tid = t ∧ l'.plain = true := by
        intro l' h'
        rcases List.mem_cons.1 h' with rfl | h'
        · exact ⟨htid, hp⟩
        · rw [List.eq_of_mem_replicate h']; exact ⟨rfl, rfl⟩
      have hx2 : exec E w (l :: List.replicate n (Label.run t)) = some w2 := by simp [exec, hs, hx]
      rw [h1, h3]
      cases hub2 : w2.ub with
      | some u2 =>
        rw [outcome_ub hub2]
        refine ⟨fun a h => (by cases h), fun u h => ?_⟩
        injection h with h; subst h
        exact ⟨_, w2, by rw [hfl]; exact ⟨prog, rfl⟩, hall, hx2, hub2⟩
      | none =>
        have hu2 : userCtx (w2.stacks t) = true := by
          rcases hd with h | h
          · exact (h hub2).elim
          · exact h
        have e2 : outcome E t w2 = .ok (w2.view (w2.stacks t)) := by
          rw [outcome_st hub2 rfl, settled_user ((A2.reach.full.i.i1.stk t).toUser hu2)]
        rw [e2]
        obtain ⟨i1, i2⟩ := ih A2 hub2 (by rw [nThr_exec hx2]; exact ht) hu2 (fun l' h' => hl l' (List.mem_cons_of_mem _ h'))
          (hn.2 _ (by rw [h1, h3, e2]))
        refine ⟨fun a h => ?_, fun u h => ?_⟩
        · obtain ⟨ls, w3, g1, g2, g3, g4⟩ := i1 a h
          refine ⟨(l :: List.replicate n (Label.run t)) ++ ls, w3, by rw [List.filter_append, hfl, g1]; rfl, fun l' h' => ?_, ?_, g4⟩
          · rcases List.mem_append.1 h' with h' | h'
            · exact hall l' h'
            · exact g2 l' h'
          · rw [Demo.exec_append, hx2]; exact g3
        · obtain ⟨ls, w3, g1, g2, g3, g4⟩ := i2 u h
          refine ⟨(l :: List.replicate n (Label.run t)) ++ ls, w3, ?_, fun l' h' => ?_, ?_, g4⟩
          · rw [List.filter_append, hfl]; exact List.prefix_cons_iff.2 (.inr ⟨_, rfl, g1⟩)
          · rcases List.mem_append.1 h' with h' | h'
            · exact hall l' h'
            · exact g2 l' h'
          · rw [Demo.exec_append, hx2]; exact g3

/-- C71 (partial, see `C71_false`), the other direction: whatever the specification says that a program comes to, it can come to. (`ls` is
the program with the steps of the library in between; when there is undefined behaviour, it is a part of the program.) -/
theorem C71_runs_partial {n : Nat} (ht : t < n) {prog : List Label} (hl : ∀ l ∈ prog, l.tid = t ∧ l.plain = true ∧ l.user = true)
    (hn : St.start.Tame E prog) :
    (∀ a, St.start.run E prog = .ok a → ∃ ls w, ls.filter Label.user = prog ∧ (∀ l ∈ ls, l.tid = t ∧ l.plain = true) ∧
      exec E (World.init n) ls = some w ∧ w.ub = none ∧ userCtx (w.stacks t) = true ∧ w.view (w.stacks t) = a) ∧
    (∀ u, St.start.run E prog = .ub u → ∃ ls w, ls.filter Label.user <+: prog ∧ (∀ l ∈ ls, l.tid = t ∧ l.plain = true) ∧
      exec E (World.init n) ls = some w ∧ w.ub = some u) :=
  seq_total (w := World.init n) ⟨⟨n, .refl _⟩, fun _ _ => rfl, rfl⟩ rfl ht rfl hl hn

/-- The steps of the library do not matter to the specification. -/
theorem C71_user {a : St} {ls : List Label} (hl : ∀ l ∈ ls, l.plain = true) : a.run E ls = a.run E (ls.filter Label.user) := by
  induction ls generalizing a with
  | nil => rfl
  | cons l ls ih =>
    have ih := fun a => ih (a := a) fun l' h' => hl l' (List.mem_cons_of_mem _ h')
    have hp := hl l List.mem_cons_self
    cases l with
    | run u => exact ih a
    | fail u => cases hp
    | ctl u => cases hp
    | call u x =>
      rw [List.filter_cons_of_pos rfl]
      simp only [St.run]
      cases a.next E (.call u x) with
      | ok a' => exact ih a'
      | ub u => rfl
      | no => rfl
    | ret u v =>
      rw [List.filter_cons_of_pos rfl]
      simp only [St.run]
      cases a.next E (.ret u v) with
      | ok a' => exact ih a'
      | ub u => rfl
      | no => rfl
    | throw u c =>
      rw [List.filter_cons_of_pos rfl]
      simp only [St.run]
      cases a.next E (.throw u c) with
      | ok a' => exact ih a'
      | ub u => rfl
      | no => rfl

/-! ### It does not hold for stray listeners -/

theorem Seq.St.run_append (a : St) (l1 l2 : List Label) : a.run E (l1 ++ l2) = (a.run E l1).bind fun a => a.run E l2 := by
  induction l1 generalizing a with
  | nil => rfl
  | cons l l1 ih =>
    simp only [List.cons_append, St.run]
    cases a.next E l with
    | ok a' => exact ih a'
    | ub u => rfl
    | no => rfl

theorem Seq.St.tame_append {a : St} {l1 l2 : List Label} (h1 : a.Tame E l1) (h2 : ∀ a', a.run E l1 = .ok a' → a'.Tame E l2) :
    a.Tame E (l1 ++ l2) := by
  induction l1 generalizing a with
  | nil => exact h2 a rfl
  | cons l l1 ih =>
    refine ⟨h1.1, fun a' ha => ih (h1.2 a' ha) fun a'' ha' => h2 a'' ?_⟩
    simp only [St.run, ha]; exact ha'

/-- Calls that disconnect through a handle. -/
def Label.hangs : Label → Bool
  | .call _ (.disconnect _) => true
  | .call _ (.scopedMoveAssign _ _) => true
  | .call _ (.scopedDtor _) => true
  | _ => false

theorem tame_nohang {a : St} {ls : List Label} (h : ∀ l ∈ ls, l.hangs = false) : a.Tame E ls := by
  induction ls generalizing a with
  | nil => trivial
  | cons l ls ih =>
    refine ⟨fun ⟨s, m, hh, _⟩ => ?_, fun a' _ => ih fun l' h' => h l' (List.mem_cons_of_mem _ h')⟩
    have := h l List.mem_cons_self
    unfold St.hungUp at hh
    split at hh
    · cases this
    · cases this
    · cases this
    · cases hh

/-- Programs that never call `disconnect()` through a handle need no further assumption either. -/
theorem C71_nohang {n : Nat} {ls : List Label} (hl : ∀ l ∈ ls, l.tid = t ∧ l.plain = true) (hh : ∀ l ∈ ls, l.hangs = false)
    (hx : exec E (World.init n) ls = some w) :
    (∀ u, w.ub = some u → St.start.run E ls = .ub u) ∧
    (w.ub = none → userCtx (w.stacks t) = true → St.start.run E ls = .ok (w.view (w.stacks t))) :=
  C71_partial hl hx (tame_nohang hh)

theorem Demo.exec_world {n : Nat} {ls : List Label} (h : (exec E0 (World.init n) ls).isSome = true) :
    exec E0 (World.init n) ls = some (world n ls) := by
  unfold world
  obtain ⟨w, hw⟩ := Option.isSome_iff_exists.1 h
  rw [hw]; rfl

/-- The body of listener 0 has removed its own listener with `disconnect(callable)`: what the specification says. -/
theorem Demo.erased_run : St.start.run E0 erased = .ok ((world 1 erased).view ((world 1 erased).stacks 0)) :=
  (C71_nohang (t := 0) (n := 1) (by decide +kernel) (by decide +kernel) (Demo.exec_world (by decide +kernel))).2
    (by decide +kernel) (by decide +kernel)

/-- C71 is false without the assumption `Tame`: the listener that has removed itself with `disconnect(callable)` calls `disconnect()` on its own
connection, and that takes another listener, which nobody asked to disconnect, out of the list. -/
theorem C71_false : ∃ n ls w, (∀ l ∈ ls, l.tid = 0 ∧ l.plain = true) ∧ exec Demo.E0 (World.init n) ls = some w ∧ w.ub = none ∧
    userCtx (w.stacks 0) = true ∧ St.start.run Demo.E0 ls ≠ .ok (w.view (w.stacks 0)) := by
  refine ⟨1, Demo.stale, Demo.world 1 Demo.stale, by decide +kernel, Demo.exec_world (by decide +kernel), by decide +kernel,
    by decide +kernel, fun h => ?_⟩
  unfold Demo.stale at h
  rw [Seq.St.run_append, Seq.St.run_append, Demo.erased_run] at h
  generalize hv : (Demo.world 1 Demo.erased).view ((Demo.world 1 Demo.erased).stacks 0) = V at h
  have e1 : V.sig 0 = some (some [2, 1]) := by rw [← hv]; show (Demo.world 1 Demo.erased).sigOf 0 = _; decide +kernel
  have e2 : (V.lis 0).home = 0 := by rw [← hv]; show ((Demo.world 1 Demo.erased).lisOf 0).home = _; decide +kernel
  have e3 : V.cv 0 = some 0 := by rw [← hv]; show (Demo.world 1 Demo.erased).cv 0 = _; decide +kernel
  have key : ∀ a, V.hangUp (some 0) = .ok a → a.sig 0 = some (some [2, 1]) := by
    intro a ha
    simp only [St.hangUp] at ha
    split at ha
    · rw [e2] at ha
      unfold St.onList at ha
      simp only [e1] at ha
      injection ha with ha; subst ha
      rfl
    · injection ha with ha; subst ha; exact e1
  simp only [Res.bind, St.run, St.next, St.op, St.ptr, e3] at h
  cases hh : V.hangUp (some 0) with
  | ok a =>
    rw [hh] at h
    have h' : a.run Demo.E0 (List.replicate 6 (.run 0)) = .ok _ := h
    rw [run_runs] at h'
    injection h' with h'
    have := key a hh
    rw [h'] at this
    revert this
    show ¬(Demo.world 1 Demo.stale).sigOf 0 = _
    decide +kernel
  | ub u => rw [hh] at h; cases h
  | no => rw [hh] at h; cases h

/-! ### The questions that a connection answers -/

/-- What `valid()`, `connected()` and `blocked()` answer in user code. -/
theorem answers (A : Alone E t w) (hu : userCtx (w.stacks t) = true) (h : Handle) :
    (w.connValid (w.hval h) = true ↔ (w.view (w.stacks t)).valid h) ∧
    (w.connConnected (w.hval h) = true ↔ (w.view (w.stacks t)).connected h) ∧
    (w.connBlocked (w.hval h) = true ↔ (w.view (w.stacks t)).blocked h) := by
  have U := (A.reach.full.i.i1.stk t).toUser hu
  unfold St.valid St.connected St.blocked
  rw [ptr_eq]
  cases hh : w.hval h with
  | none => simp [World.connValid, World.connConnected, World.connBlocked]
  | some s =>
    have h1 := lives_iff A hu s
    have h2 := up_iff A (pre := []) rfl U (by simp) s
    refine ⟨?_, ?_, ?_⟩
    · simp [World.connValid, h1]
    · simp [World.connConnected, h1, h2]
    · simp only [World.connBlocked, Bool.and_eq_true, h1, Option.some.injEq, exists_eq_left']
      rfl

/-- C71, the questions (partial as `C71_partial`): between its calls the program may ask any handle whether it is valid, connected or blocked, and
is told what the specification says. -/
theorem C71_queries_partial {n : Nat} {ls : List Label} (hl : ∀ l ∈ ls, l.tid = t ∧ l.plain = true)
    (hx : exec E (World.init n) ls = some w) (hn : St.start.Tame E ls) (hub : w.ub = none) (hu : userCtx (w.stacks t) = true) :
    ∃ a, St.start.run E ls = .ok a ∧ ∀ h,
      (w.connValid (w.hval h) = true ↔ a.valid h) ∧ (w.connConnected (w.hval h) = true ↔ a.connected h) ∧
      (w.connBlocked (w.hval h) = true ↔ a.blocked h) := by
  have A : Alone E t (World.init n) := ⟨⟨n, .refl _⟩, fun _ _ => rfl, rfl⟩
  have A' : Alone E t w := (many_steps A trivial hl hx fun a ha => by
    rw [outcome_st (w := World.init n) rfl rfl] at ha
    injection ha with ha
    rw [← ha]; exact hn).2.1
  exact ⟨_, (C71_partial hl hx hn).2 hub hu, fun h => answers A' hu h⟩

/-! ### Examples -/

namespace Demo

/-- A body that disconnects another listener, connects one, emits again and returns. -/
def lively : List Label :=
  inBody ++ [.call 0 (.disconnect (.conn 1))] ++ go 0 7 ++ connect 0 13 3 ++ [.call 0 (.emit 0 .lastValue [])] ++ go 0 8

/-- The body removes its own listener with `disconnect(callable)`, and another one through its connection. -/
def tidy : List Label := erased ++ [.call 0 (.disconnect (.conn 1))] ++ go 0 6

theorem tidy_tame : St.start.Tame E0 tidy := by
  refine Seq.St.tame_append (Seq.St.tame_append (tame_nohang (by decide +kernel)) fun a ha => ?_) fun a _ => tame_runs a 6
  rw [erased_run] at ha
  injection ha with ha; subst ha
  refine ⟨?_, fun a' _ => trivial⟩
  rintro ⟨s, m, h1, -, -, h2, h3⟩
  have e1 : (world 1 erased).cv 1 = some s := h1
  rw [show (world 1 erased).cv 1 = some 1 by decide +kernel] at e1
  injection e1 with e1; subst e1
  have e2 : (world 1 erased).sigOf ((world 1 erased).lisOf 1).home = some (some m) := h2
  rw [show (world 1 erased).sigOf ((world 1 erased).lisOf 1).home = some (some [2, 1]) by decide +kernel] at e2
  injection e2 with e2; injection e2 with e2; subst e2
  exact h3 (by simp)

end Demo

-- `C71_partial`: both kinds of disconnecting, from the body of a listener; the specification says that listener 2 is left
example : St.start.run Demo.E0 Demo.tidy = .ok ((Demo.world 1 Demo.tidy).view ((Demo.world 1 Demo.tidy).stacks 0)) ∧
    (Demo.world 1 Demo.tidy).sigOf 0 = some (some [2]) ∧ ((Demo.world 1 Demo.tidy).frs ((Demo.world 1 Demo.tidy).stacks 0)).length = 1 :=
  ⟨(C71_partial (t := 0) (n := 1) (by decide +kernel) (Demo.exec_world (by decide +kernel)) Demo.tidy_tame).2 (by decide +kernel)
    (by decide +kernel), by decide +kernel, by decide +kernel⟩

/-- At the end of `tidy` the body that is running asks: its own connection is valid and connected (it was removed from the list, but not
disconnected), that of the listener it disconnected is valid (the emission still has it) but not connected, the third is both. -/
example : ∃ a, St.start.run Demo.E0 Demo.tidy = .ok a ∧ (a.valid (.conn 0) ∧ a.connected (.conn 0)) ∧ (a.valid (.conn 1) ∧ ¬a.connected (.conn 1)) ∧
    a.connected (.conn 2) ∧ ¬a.blocked (.conn 2) ∧ ¬a.valid (.conn 7) := by
  obtain ⟨a, ha, hq⟩ := C71_queries_partial (t := 0) (n := 1) (ls := Demo.tidy) (by decide +kernel) (Demo.exec_world (by decide +kernel))
    Demo.tidy_tame (by decide +kernel) (by decide +kernel)
  refine ⟨a, ha, ?_⟩
  simp only [← (hq _).1, ← (hq _).2.1, ← (hq _).2.2]
  decide +kernel

theorem Demo.lively_run : St.start.run E0 lively = .ok ((world 1 lively).view ((world 1 lively).stacks 0)) :=
  (C71_noerase (t := 0) (n := 1) (by decide +kernel)
    (by have : ∀ l ∈ lively, ¬(∃ u g tgt, l = .call u (.sigDisconnect g tgt)) := by
          have h : ∀ l ∈ lively, (match l with | .call _ (.sigDisconnect _ _) => true | _ => false) = false := by decide +kernel
          rintro l hl ⟨u, g, tgt, rfl⟩
          cases h _ hl
        exact fun l hl u g tgt e => this l hl ⟨u, g, tgt, e⟩)
    (Demo.exec_world (by decide +kernel))).2 (by decide +kernel) (by decide +kernel)

-- `C71_noerase`: two emissions are in progress, of which the second goes through the list as it is now and the first through the old one
example : St.start.run Demo.E0 Demo.lively = .ok ((Demo.world 1 Demo.lively).view ((Demo.world 1 Demo.lively).stacks 0)) ∧
    ((Demo.world 1 Demo.lively).frs ((Demo.world 1 Demo.lively).stacks 0)).map (·.items) = [[0, 2, 3], [0, 1, 2]] :=
  ⟨Demo.lively_run, by decide +kernel⟩

-- `C71_runs_partial`: the same program without the steps of the library
example : (∀ l ∈ Demo.lively.filter Label.user, l.tid = 0 ∧ l.plain = true ∧ l.user = true) ∧ (Demo.lively.filter Label.user).length = 8 ∧
    ∃ a, St.start.run Demo.E0 (Demo.lively.filter Label.user) = .ok a :=
  ⟨by decide +kernel, by decide +kernel, _, (C71_user (by decide +kernel)).symm.trans Demo.lively_run⟩

-- `C71_returns`, `C71_can`: a thread that is alone, inside the body of a listener, which has just called `disconnect()`
example : Alone Demo.E0 0 (Demo.world 1 (Demo.inBody ++ [.call 0 (.disconnect (.conn 1))])) ∧
    userCtx ((Demo.world 1 (Demo.inBody ++ [.call 0 (.disconnect (.conn 1))])).stacks 0) = false :=
  ⟨⟨Demo.reach _ _, fun u hu => (Demo.reach _ _).full.i.i1.thr u (by
    rw [show (Demo.world 1 (Demo.inBody ++ [.call 0 (.disconnect (.conn 1))])).nThr = 1 by decide +kernel]; omega), by decide +kernel⟩,
    by decide +kernel⟩

end Verif
