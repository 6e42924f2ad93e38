import Verif.Mach.Shape

/-!
# Steps by label
-/

namespace Verif

variable {E : Env} {w w' : World} {t : Tid}

theorem step_run (h : step E w (.run t) = some w') : w.ub = none ∧ t < w.nThr ∧ runTop E w t = some w' := by
  obtain ⟨h1, h2, -⟩ := step_inv h
  simp only [step, h1] at h
  rw [if_neg (by simp), if_pos h2] at h
  exact ⟨h1, h2, h⟩

theorem step_call {a : Api} (h : step E w (.call t a) = some w') :
    w.ub = none ∧ t < w.nThr ∧ userCtx (w.stacks t) = true ∧ userOp w t a = some w' := by
  obtain ⟨h1, h2, -⟩ := step_inv h
  simp only [step, h1] at h
  rw [if_neg (by simp), if_pos h2] at h
  split at h
  · exact ⟨h1, h2, by assumption, h⟩
  · cases h

theorem step_ret {v : Val} (h : step E w (.ret t v) = some w') :
    w.ub = none ∧ t < w.nThr ∧ ∃ s o m b pos acc rest,
      w.stacks t = .call s (.body o) :: .emit m (.iter b pos acc) :: rest ∧
      w' = (w.setStack t (.emit m (deliver m.comb b pos acc (if (w.sigs m.g).isVoid then none else some v)) ::
        rest)).emitEv (.exit m.e s (if (w.sigs m.g).isVoid then none else some v)) := by
  obtain ⟨h1, h2, -⟩ := step_inv h
  simp only [step, h1] at h
  rw [if_neg (by simp), if_pos h2] at h
  unfold userRet at h
  split at h
  · rename_i hst
    injection h with h
    exact ⟨h1, h2, _, _, _, _, _, _, _, hst, h.symm⟩
  · cases h

theorem step_fail (h : step E w (.fail t) = some w') : w.ub = none ∧ t < w.nThr ∧ allocFail w t = some w' := by
  obtain ⟨h1, h2, -⟩ := step_inv h
  simp only [step, h1] at h
  rw [if_neg (by simp), if_pos h2] at h
  exact ⟨h1, h2, h⟩

/-- Out of memory: the call is abandoned, or the program is. -/
theorem step_fail_cases (h : step E w (.fail t) = some w') :
    (w' = w.setUB .terminate ∧ ∃ s k g rest b, w.stacks t = .disc s k (.crit g .clone) :: rest ∧ (w.sigs g).list = some b) ∨
    ∃ f rest g s b, w.stacks t = f :: rest ∧ f.allocs = some (g, s) ∧ (w.sigs g).list = some b ∧
      w' = ((w.setMutex g none).setStack t rest).emitEv (.failed t g s) := by
  obtain ⟨-, -, h⟩ := step_fail h
  unfold allocFail at h
  split at h
  · rename_i hst
    split at h
    · rename_i hl
      injection h with h; exact .inr ⟨_, _, _, _, _, hst, rfl, hl, h.symm⟩
    · cases h
  · rename_i hst
    split at h
    · rename_i hl
      injection h with h; exact .inr ⟨_, _, _, _, _, hst, rfl, hl, h.symm⟩
    · cases h
  · rename_i hst
    split at h
    · rename_i hl
      injection h with h; exact .inr ⟨_, _, _, _, _, hst, rfl, hl, h.symm⟩
    · cases h
  · rename_i hst
    split at h
    · rename_i hl
      injection h with h; exact .inl ⟨h.symm, _, _, _, _, _, hst, hl⟩
    · cases h
  · cases h

/-- No memory for the control block: the program ends, in one of the three functions that copy a shared list. -/
theorem step_ctl (h : step E w (.ctl t) = some w') : w.ub = none ∧ t < w.nThr ∧ w' = w.setUB .terminate ∧
    ∃ f f' rest g b, w.stacks t = f :: rest ∧ f.det = some (g, f') ∧ (w.sigs g).list = some b := by
  obtain ⟨h1, h2, -⟩ := step_inv h
  simp only [step, h1] at h
  rw [if_neg (by simp), if_pos h2] at h
  refine ⟨h1, h2, ?_⟩
  unfold ctlFail at h
  split at h
  · rename_i hst
    split at h
    · rename_i hl
      obtain ⟨b, hb⟩ := Option.isSome_iff_exists.1 hl
      injection h with h; exact ⟨h.symm, _, _, _, _, _, hst, rfl, hb⟩
    · cases h
  · rename_i hst
    split at h
    · rename_i hl
      obtain ⟨b, hb⟩ := Option.isSome_iff_exists.1 hl
      injection h with h; exact ⟨h.symm, _, _, _, _, _, hst, rfl, hb⟩
    · cases h
  · rename_i hst
    split at h
    · rename_i hl
      obtain ⟨b, hb⟩ := Option.isSome_iff_exists.1 hl
      injection h with h; exact ⟨h.symm, _, _, _, _, _, hst, rfl, hb⟩
    · cases h
  · cases h

theorem step_throw {c : Bool} (h : step E w (.throw t c) = some w') :
    w.ub = none ∧ t < w.nThr ∧ ∃ s o m b pos acc rest,
      w.stacks t = .call s (.body o) :: .emit m (.iter b pos acc) :: rest ∧
      ((c = false ∧ w' = ((w.setStack t rest).emitEv (.threw m.e s)).emitEv (.aborted m.e)) ∨
        (c = true ∧ m.comb = .custom ∧
          w' = (w.setStack t (.emit m (.iter b pos none) :: rest)).emitEv (.threw m.e s))) := by
  obtain ⟨h1, h2, -⟩ := step_inv h
  simp only [step, h1] at h
  rw [if_neg (by simp), if_pos h2] at h
  unfold userThrow at h
  split at h
  · rename_i hst
    refine ⟨h1, h2, _, _, _, _, _, _, _, hst, ?_⟩
    split at h
    · rename_i hc
      split at h
      · rename_i hcm
        injection h with h
        exact .inr ⟨hc, hcm, h.symm⟩
      · cases h
    · rename_i hc
      injection h with h
      exact .inl ⟨by simpa using hc, h.symm⟩
  · cases h

theorem Reachable.step {l : Label} (h : Reachable E w) (hs : step E w l = some w') : Reachable E w' :=
  let ⟨n, h⟩ := h; ⟨n, h.tail l trivial hs⟩

theorem Steps.trans {P : Label → Prop} {w0 w1 w2 : World} (h1 : Steps E P w0 w1) (h2 : Steps E P w1 w2) :
    Steps E P w0 w2 := by
  induction h2 with
  | refl => exact h1
  | tail l _ hp hs ih => exact ih.tail l hp hs

theorem Reachable.steps {P : Label → Prop} (h : Reachable E w) (hs : Steps E P w w') : Reachable E w' := by
  induction hs with
  | refl => exact h
  | tail l _ _ hs ih => exact ih.step hs

end Verif
