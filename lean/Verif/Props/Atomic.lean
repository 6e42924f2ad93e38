import Verif.Props.SeqTotal
import Verif.Props.Erase

/-!
# C72: calls made at the same time look as if they had been made one after the other
-/

namespace Verif

open _root_.Verif.Seq

variable {E : Env} {w w' : World} {t : Tid}

/-! ### No emission sees part of a `disconnect(callable)` -/

/-- The thread is in the loop of `signal::disconnect(callable)` on `g`, or about to release the mutex after it. -/
def Scans (g : SigId) (st : List Frame) : Prop :=
  ∃ tgt rest, (∃ i cnt, st = .erase g tgt (.scan i cnt) :: rest) ∨ ∃ r, st = .erase g tgt (.unlock r) :: rest

theorem Scans.locks {g : SigId} {st : List Frame} (h : Scans g st) : topLocks st = some g := by
  obtain ⟨tgt, rest, ⟨i, cnt, rfl⟩ | ⟨r, rfl⟩⟩ := h <;> rfl

/-- A `disconnect(callable)` on `g` has taken out a listener and has not returned. -/
def amid (g : SigId) : List Event → Bool
  | [] => false
  | .erased g' _ :: l => decide (g' = g) || amid g l
  | .eraseRet _ g' _ _ :: l => !decide (g' = g) && amid g l
  | _ :: l => amid g l

theorem amid_quiet {g : SigId} {evs l : List Event} (h1 : ∀ v, Event.erased g v ∉ evs) :
    amid g (evs ++ l) = true → amid g l = true := by
  induction evs with
  | nil => exact id
  | cons ev evs ih =>
    intro h
    have ih := ih fun v hv => h1 v (List.mem_cons_of_mem _ hv)
    cases ev <;> simp only [List.cons_append, amid, Bool.or_eq_true, Bool.and_eq_true, decide_eq_true_eq] at h <;> try exact ih h
    · rcases h with rfl | h
      · exact absurd List.mem_cons_self (h1 _)
      · exact ih h
    · exact ih h.2

theorem amid_open {g : SigId} {v : SlotId} {mid pre : List Event} (h : ∀ u tgt r, Event.eraseRet u g tgt r ∉ mid) :
    amid g (mid ++ .erased g v :: pre) = true := by
  induction mid with
  | nil => simp [amid]
  | cons ev mid ih =>
    have ih := ih fun u tgt r hm => h u tgt r (List.mem_cons_of_mem _ hm)
    cases ev <;> simp only [List.cons_append, amid, ih, Bool.or_true, Bool.and_true]
    rename_i u g' tgt r
    simp only [Bool.not_eq_true', decide_eq_false_iff_not]
    rintro rfl
    exact h u tgt r List.mem_cons_self

/-- What a step adds to the history. -/
theorem new_events (R : StepR E w t w') :
    (∃ g v, w'.log = .erased g v :: w.log ∧ Scans g (w.stacks t) ∧ Scans g (w'.stacks t)) ∨
    ∃ evs, w'.log = evs ++ w.log ∧ ∀ ev ∈ evs, (∀ g v, ev ≠ .erased g v) ∧
      (∀ m items, ev = .snap m items → topLocks (w.stacks t) = some m.g) ∧
      ∀ u g tgt r, ev = .eraseRet u g tgt r → topLocks (w.stacks t) = some g := by
  cases R
  case eraseHit g tgt i cnt rest b s hst hl hi he =>
    exact .inl ⟨g, s, by simp only [World.emitEv, World.setStack, (removeAt_same _ _ _).2.2.2.2.2.2.2.2.2.2.1],
      ⟨tgt, rest, .inl ⟨i, cnt, hst⟩⟩, ⟨tgt, rest, .inl ⟨i, cnt + 1, upd_same _ _ _⟩⟩⟩
  case discWrite s v k rest g b hst hl hi =>
    exact .inr ⟨[.removed g s v], by simp only [World.emitEv, World.setStack, (removeAt_same _ _ _).2.2.2.2.2.2.2.2.2.2.1]; rfl, by simp⟩
  case emSnap m b rest hst =>
    refine .inr ⟨[.snap m (w.blks b)], rfl, ?_⟩
    simp only [List.mem_singleton, forall_eq]
    refine ⟨by simp, ?_, by simp⟩
    rintro m' items e
    injection e with e _
    subst e; rw [hst]; rfl
  case eraseUnlock g tgt r rest hst =>
    refine .inr ⟨[.eraseRet t g tgt r], rfl, ?_⟩
    simp only [List.mem_singleton, forall_eq]
    refine ⟨by simp, by simp, ?_⟩
    rintro u g' tgt' r' e
    injection e with _ e _ _
    subst e; rw [hst]; rfl
  case callThrow => exact .inr ⟨[_, _], rfl, by simp⟩
  case exchFalse => exact .inr ⟨[_, _], rfl, by simp⟩
  all_goals first
    | exact .inr ⟨[], rfl, by simp⟩
    | exact .inr ⟨[_], rfl, by simp⟩

/-- A thread in the loop of `disconnect(callable)` stays there, or returns. -/
theorem scans_own {g : SigId} (h : Scans g (w.stacks t)) (R : StepR E w t w') :
    (Scans g (w'.stacks t) ∧ (w'.log = w.log ∨ ∃ v, w'.log = .erased g v :: w.log)) ∨
    ∃ tgt r, w'.log = .eraseRet t g tgt r :: w.log := by
  obtain ⟨tgt, rest, h⟩ := h
  have hu : userCtx (w.stacks t) = false := by rcases h with ⟨i, cnt, h⟩ | ⟨r, h⟩ <;> rw [h] <;> rfl
  have key : ∀ {f : Frame} {rest' : List Frame}, w.stacks t = f :: rest' → ∃ pc, f = .erase g tgt pc ∧ rest' = rest ∧
      ((∃ i cnt, pc = .scan i cnt) ∨ ∃ r, pc = .unlock r) := by
    intro f rest' e
    rcases h with ⟨i, cnt, h⟩ | ⟨r, h⟩ <;> rw [h] at e <;> injection e with e1 e2 <;> subst e1 e2
    · exact ⟨_, rfl, rfl, .inl ⟨_, _, rfl⟩⟩
    · exact ⟨_, rfl, rfl, .inr ⟨_, rfl⟩⟩
  cases R
  case ub => exact .inl ⟨⟨tgt, rest, h⟩, .inl rfl⟩
  case eraseEnd g0 tgt0 i cnt rest0 b hst hl hi =>
    obtain ⟨pc, e, er, -⟩ := key hst
    injection e with e1 e2 e3; subst e1 e2 er
    exact .inl ⟨⟨tgt0, rest0, .inr ⟨some cnt, upd_same _ _ _⟩⟩, .inl rfl⟩
  case eraseThrow g0 tgt0 i cnt rest0 b s hst hl hi he =>
    obtain ⟨pc, e, er, -⟩ := key hst
    injection e with e1 e2 e3; subst e1 e2 er
    exact .inl ⟨⟨tgt0, rest0, .inr ⟨none, upd_same _ _ _⟩⟩, .inl rfl⟩
  case eraseMiss g0 tgt0 i cnt rest0 b s hst hl hi he =>
    obtain ⟨pc, e, er, -⟩ := key hst
    injection e with e1 e2 e3; subst e1 e2 er
    exact .inl ⟨⟨tgt0, rest0, .inl ⟨i + 1, cnt, upd_same _ _ _⟩⟩, .inl rfl⟩
  case eraseHit g0 tgt0 i cnt rest0 b s hst hl hi he =>
    obtain ⟨pc, e, er, -⟩ := key hst
    injection e with e1 e2 e3; subst e1 e2 er
    exact .inl ⟨⟨tgt0, rest0, .inl ⟨i, cnt + 1, upd_same _ _ _⟩⟩,
      .inr ⟨s, by simp only [World.emitEv, World.setStack, (removeAt_same _ _ _).2.2.2.2.2.2.2.2.2.2.1]⟩⟩
  case eraseUnlock g0 tgt0 r rest0 hst =>
    obtain ⟨pc, e, er, -⟩ := key hst
    injection e with e1 e2 e3; subst e1 e2 er
    exact .inr ⟨_, _, rfl⟩
  case acq f f' rest0 g0 hst hf ha hm =>
    obtain ⟨pc, rfl, er, ⟨i, cnt, rfl⟩ | ⟨r, rfl⟩⟩ := key hst <;> cases hf
  case tst f f' rest0 g0 b hst hf hl =>
    obtain ⟨pc, rfl, er, ⟨i, cnt, rfl⟩ | ⟨r, rfl⟩⟩ := key hst <;> cases hf
  case det f f' rest0 g0 b hst hf hl =>
    obtain ⟨pc, rfl, er, ⟨i, cnt, rfl⟩ | ⟨r, rfl⟩⟩ := key hst <;> cases hf
  case fail f rest0 g0 s hst hf =>
    obtain ⟨pc, rfl, er, ⟨i, cnt, rfl⟩ | ⟨r, rfl⟩⟩ := key hst <;> cases hf
  all_goals first
    | (rename_i hu' _ _; rw [hu] at hu'; cases hu'; done)
    | (exfalso; simp_all; done)
    | (rename_i hst; obtain ⟨pc, e, -⟩ := key hst; cases e; done)
    | skip

/-- The events that may happen while a `disconnect(callable)` on `g` is taking out listeners: nothing that changes the list of `g`, but its own
doing, and no emission copies the list. -/
def Event.leaves (g : SigId) (ev : Event) : Prop :=
  (ev.touches g = true → ∃ v, ev = .erased g v) ∧ ∀ m items, ev = .snap m items → m.g ≠ g

/-- Somebody is at it, and has been undisturbed. -/
structure Amid (w : World) : Prop where
  who : ∀ g, amid g w.log = true → ∃ t, Scans g (w.stacks t)
  alone : ∀ g post ev pre, w.log = post ++ ev :: pre → amid g pre = true → ev.leaves g

theorem Amid.step (h : Reachable E w) (J : Amid w) (R : StepR E w t w') : Amid w' := by
  have other : ∀ {g t'}, Scans g (w.stacks t') → t' ≠ t → ∃ evs, w'.log = evs ++ w.log ∧ ∀ ev ∈ evs, ev.leaves g ∧
      ∀ v, ev ≠ .erased g v := by
    intro g t' hg ht
    obtain ⟨-, evs, e1, q1⟩ := others_quiet h.full.i R ht hg.locks
    refine ⟨evs, e1, fun ev hev => ⟨⟨fun ht => (by rw [q1 ev hev] at ht; cases ht), ?_⟩, ?_⟩⟩
    · rintro m items rfl rfl
      have : topLocks (w.stacks t) = some m.g := by
        rcases new_events R with ⟨g', v, e2, -⟩ | ⟨evs', e2, q2⟩
        · rw [e1] at e2
          have : evs = [.erased g' v] := List.append_cancel_right (e2.trans (by rfl : _ = [.erased g' v] ++ w.log))
          rw [this] at hev; simp at hev
        · have : evs = evs' := List.append_cancel_right (e1.symm.trans e2)
          rw [this] at hev
          exact (q2 _ hev).2.1 _ _ rfl
      have h1 := (h.full.i.i1.mtx _ _).2 this
      rw [(h.full.i.i1.mtx _ _).2 hg.locks] at h1
      injection h1 with h1; exact ht h1
    · rintro v rfl
      have := q1 _ hev
      simp [Event.touches] at this
  refine ⟨fun g hg => ?_, fun g post ev pre hl ha => ?_⟩
  · rcases new_events R with ⟨g', v, e, h1, h2⟩ | ⟨evs, e, q⟩
    · by_cases hgg : g' = g
      · subst hgg; exact ⟨t, h2⟩
      · rw [e] at hg
        simp only [amid, hgg, decide_false, Bool.false_or] at hg
        obtain ⟨t', ht'⟩ := J.who g hg
        refine ⟨t', ?_⟩
        have : t' ≠ t := by
          rintro rfl
          have := ht'.locks; rw [h1.locks] at this; injection this with this; exact hgg this
        rw [stacks_other R this]; exact ht'
    · rw [e] at hg
      have hw := amid_quiet (fun v hv => (q _ hv).1 g v rfl) hg
      obtain ⟨t', ht'⟩ := J.who g hw
      by_cases ht : t' = t
      · subst ht
        rcases scans_own ht' R with ⟨h1, -⟩ | ⟨tgt, r, h1⟩
        · exact ⟨_, h1⟩
        · rw [e] at h1
          have : evs = [.eraseRet t' g tgt r] := List.append_cancel_right (h1.trans (by rfl : _ = [.eraseRet t' g tgt r] ++ w.log))
          rw [this] at hg; simp [amid] at hg
      · exact ⟨t', by rw [stacks_other R ht]; exact ht'⟩
  · obtain ⟨evs, e⟩ := log_grows R
    rw [e] at hl
    rcases List.append_eq_append_iff.1 hl with ⟨as, rfl, e2⟩ | ⟨bs, e1, e2⟩
    · exact J.alone g as ev pre e2 ha
    · cases bs with
      | nil =>
        simp only [List.nil_append] at e2
        exact J.alone g [] ev pre (by rw [← e2]; rfl) ha
      | cons x bs =>
        simp only [List.cons_append, List.cons.injEq] at e2
        obtain ⟨rfl, rfl⟩ := e2
        have hev : ev ∈ evs := by rw [e1]; simp
        have hw : amid g w.log = true := by
          rcases new_events R with ⟨g', v, e3, -⟩ | ⟨evs', e3, q⟩
          · have : evs = [.erased g' v] := List.append_cancel_right (e.symm.trans (e3.trans (by rfl : _ = [.erased g' v] ++ w.log)))
            rw [this] at e1
            have : bs = [] := by
              have := congrArg List.length e1
              simp at this
              exact List.eq_nil_of_length_eq_zero (by omega)
            rw [this] at ha; exact ha
          · have : evs = evs' := List.append_cancel_right (e.symm.trans e3)
            subst this
            exact amid_quiet (fun v hv => (q _ (by rw [e1]; simp [hv])).1 g v rfl) ha
        obtain ⟨t', ht'⟩ := J.who g hw
        by_cases ht : t' = t
        · subst ht
          have : evs = [] ∨ (∃ v, evs = [.erased g v]) ∨ ∃ tgt r, evs = [.eraseRet t' g tgt r] := by
            rcases scans_own ht' R with ⟨-, h1 | ⟨v, h1⟩⟩ | ⟨tgt, r, h1⟩
            · exact .inl (List.append_cancel_right (e.symm.trans (h1.trans (List.nil_append _).symm)))
            · exact .inr (.inl ⟨v, List.append_cancel_right (e.symm.trans (h1.trans (by rfl : _ = [.erased g v] ++ w.log)))⟩)
            · exact .inr (.inr ⟨tgt, r, List.append_cancel_right (e.symm.trans (h1.trans (by rfl : _ = [.eraseRet t' g tgt r] ++ w.log)))⟩)
          rcases this with h1 | ⟨v, h1⟩ | ⟨tgt, r, h1⟩ <;> rw [h1] at hev
          · cases hev
          · rw [List.mem_singleton.1 hev]; exact ⟨fun _ => ⟨v, rfl⟩, by simp⟩
          · rw [List.mem_singleton.1 hev]; exact ⟨by simp [Event.touches], by simp⟩
        · obtain ⟨evs', e3, q⟩ := other ht' ht
          have : evs = evs' := List.append_cancel_right (e.symm.trans e3)
          subst this
          exact (q ev hev).1

theorem Reachable.amid (h : Reachable E w) : Amid w := by
  obtain ⟨n, hs⟩ := h
  induction hs with
  | refl => exact ⟨fun g h => (by cases h), fun g post ev pre h => by simp [World.init] at h⟩
  | tail l hs' _ hl ih => exact Amid.step ⟨n, hs'⟩ ih (step_inv hl).2.2

/-- C72 (partial: this is about emissions and about updates of the list; who asks the handles of the listeners can tell, see `C72_false`). From the
moment when a `disconnect(callable)` on `g` takes out its first listener until it returns, nobody else changes the list and no emission copies
it. So every emission and every other call on the signal comes before all that the call does, or after it. -/
theorem C72_partial (h : Reachable E w) {post mid pre : List Event} {g : SigId} {v : SlotId}
    (hl : w.log = post ++ mid ++ .erased g v :: pre) (hn : ∀ u tgt r, Event.eraseRet u g tgt r ∉ mid) :
    (∀ ev ∈ mid, (ev.touches g = true → ∃ x, ev = .erased g x) ∧ ∀ m items, ev = .snap m items → m.g ≠ g) ∧
    (post = [] → ∃ t, (w.sigs g).mutex = some t ∧ ∃ tgt pc rest, w.stacks t = .erase g tgt pc :: rest) := by
  refine ⟨fun ev hev => ?_, ?_⟩
  · obtain ⟨m1, m2, rfl⟩ := List.append_of_mem hev
    exact h.amid.alone g (post ++ m1) ev (m2 ++ .erased g v :: pre) (by rw [hl]; simp)
      (amid_open fun u tgt r hm => hn u tgt r (by simp [hm]))
  · rintro rfl
    obtain ⟨t, ht⟩ := h.amid.who g (by rw [hl]; exact amid_open hn)
    refine ⟨t, (h.full.i.i1.mtx g t).2 ht.locks, ?_⟩
    obtain ⟨tgt, rest, ⟨i, cnt, e⟩ | ⟨r, e⟩⟩ := ht
    · exact ⟨_, _, _, e⟩
    · exact ⟨_, _, _, e⟩

/-! ### Taking turns -/

/-- An execution in which the threads take turns: each begins when the others have returned from all their calls. -/
inductive Turns (E : Env) : World → List Label → World → Prop where
  | last {w ls w'} (t : Tid) : (∀ l ∈ ls, l.tid = t ∧ l.plain = true) → exec E w ls = some w' → Turns E w ls w'
  | turn {w ls w1 rest w'} (t : Tid) : (∀ l ∈ ls, l.tid = t ∧ l.plain = true) → exec E w ls = some w1 → w1.ub = none → w1.stacks t = [] →
      Turns E w1 rest w' → Turns E w (ls ++ rest) w'

theorem Turns.run {ls : List Label} (T : Turns E w ls w') (h : Reachable E w) (hu : w.ub = none) (hs : ∀ t, w.stacks t = []) (hp : w.pins = [])
    (hn : (w.view []).Tame E ls) :
    (∀ u, w'.ub = some u → (w.view []).run E ls = .ub u) ∧
    (w'.ub = none → ∃ t, (∀ u, u ≠ t → w'.stacks u = []) ∧
      (userCtx (w'.stacks t) = true → (w.view []).run E ls = .ok (w'.view (w'.stacks t)))) := by
  have seg : ∀ {w ls w'} (t : Tid), Reachable E w → w.ub = none → (∀ t, w.stacks t = []) → w.pins = [] → (w.view []).Tame E ls →
      (∀ l ∈ ls, l.tid = t ∧ l.plain = true) → exec E w ls = some w' → (w.view []).run E ls = outcome E t w' ∧ Alone E t w' := by
    intro w ls w' t h hu hs hp hn hl hx
    have o : outcome E t w = .ok (w.view []) := by rw [outcome_st hu (hs t)]; rfl
    obtain ⟨h1, h2, -⟩ := many_steps (w := w) ⟨h, fun u _ => hs u, hp⟩ (by rw [hs t]; trivial) hl hx fun a ha => by
      rw [o] at ha; injection ha with ha; rw [← ha]; exact hn
    rw [o] at h1
    exact ⟨h1, h2⟩
  induction T with
  | last t hl hx =>
    obtain ⟨h1, h2⟩ := seg t h hu hs hp hn hl hx
    refine ⟨fun u hub => by rw [h1, outcome_ub hub], fun hub => ⟨t, h2.others, fun hc => ?_⟩⟩
    rw [h1, outcome_st hub rfl, settled_user ((h2.reach.full.i.i1.stk t).toUser hc)]
  | @turn w ls w1 rest w2 t hl hx hub hst T ih =>
    have hn1 : (w.view []).Tame E ls ∧ ∀ a', (w.view []).run E ls = .ok a' → a'.Tame E rest := by
      clear ih T hx hl seg
      generalize w.view [] = a at hn
      induction ls generalizing a with
      | nil => exact ⟨trivial, fun a' e => by injection e with e; subst e; exact hn⟩
      | cons l ls ih =>
        obtain ⟨n1, n2⟩ := hn
        refine ⟨⟨n1, fun a' e => (ih _ (n2 a' e)).1⟩, fun a' e => ?_⟩
        simp only [St.run] at e
        cases hr : a.next E l with
        | ok b => rw [hr] at e; exact (ih b (n2 b hr)).2 a' e
        | ub u => rw [hr] at e; cases e
        | no => rw [hr] at e; cases e
    obtain ⟨h1, h2⟩ := seg t h hu hs hp hn1.1 hl hx
    have e1 : (w.view []).run E ls = .ok (w1.view []) := by rw [h1, outcome_st hub hst]; rfl
    have hs1 : ∀ u, w1.stacks u = [] := fun u => by
      by_cases hu : u = t
      · subst hu; exact hst
      · exact h2.others u hu
    obtain ⟨i1, i2⟩ := ih h2.reach hub hs1 h2.pins (hn1.2 _ e1)
    rw [Seq.St.run_append, e1]
    exact ⟨i1, i2⟩

/-- C72, for threads that take turns (partial: see `C72_false`, and as `C71_partial`). They see what the sequential specification says, for the calls in the order in
which they were made. -/
theorem C72_turns_partial {n : Nat} {ls : List Label} (T : Turns E (World.init n) ls w) (hn : St.start.Tame E ls) :
    (∀ u, w.ub = some u → St.start.run E ls = .ub u) ∧
    (w.ub = none → ∃ t, (∀ u, u ≠ t → w.stacks u = []) ∧
      (userCtx (w.stacks t) = true → St.start.run E ls = .ok (w.view (w.stacks t)))) :=
  T.run ⟨n, .refl _⟩ rfl (fun _ => rfl) rfl hn

/-! ### Not one after the other -/

/-- The results `out` of the calls in `ls`, made from the state `a` on, could have come about one after the other: there is an order of the calls, in which each
thread makes its own in the order in which it made them, for which the specification gives the same results. (How the results of different threads are ordered in
time is not compared.) -/
def Seq.Explains (E : Env) (a : St) (ls : List Label) (out : List Obs) : Prop :=
  ∃ ls' a', (∀ t, ls'.filter (·.tid == t) = ls.filter fun l => l.user && l.tid == t) ∧ a.run E ls' = .ok a' ∧ a'.out.Perm out

/-- The first of the calls of all threads is the first of one thread. -/
theorem head_cases {ps : Tid → List Label} {ls : List Label} (h : ∀ t, ls.filter (·.tid == t) = ps t) :
    (ls = [] ∧ ∀ t, ps t = []) ∨ ∃ t l rest ls', ps t = l :: rest ∧ ls = l :: ls' ∧
      ∀ u, ls'.filter (·.tid == u) = if u = t then rest else ps u := by
  cases ls with
  | nil => exact .inl ⟨rfl, fun t => (h t).symm⟩
  | cons l ls =>
    refine .inr ⟨l.tid, l, ls.filter (·.tid == l.tid), ls, ?_, rfl, fun u => ?_⟩
    · rw [← h]; simp
    · by_cases hu : u = l.tid
      · subst hu; simp
      · rw [if_neg hu, ← h u, List.filter_cons_of_neg]
        simpa using Ne.symm hu

namespace Demo

/-- Listeners 0 and 1 have equal callables. -/
def twins : List Label := [.call 0 (.newSig false)] ++ connect 0 10 0 ++ connect 0 10 1

/-- Thread 0 disconnects that callable. When it has taken out listener 0, thread 1 disconnects both, through their connections. -/
def tangle : List Label :=
  [.call 0 (.sigDisconnect 0 (some (fn 10)))] ++ go 0 3 ++ [.call 1 (.disconnect (.conn 0)), .call 1 (.disconnect (.conn 1))] ++ go 1 1 ++
  go 0 3 ++ go 1 5

/-- Three listeners. -/
def trio : List Label := [.call 0 (.newSig false)] ++ connect 0 10 0 ++ connect 0 11 1 ++ connect 0 12 2

/-- Thread 0 disconnects listener 0, through its connection. When it has marked it as disconnected, thread 1 emits and comes to listener 1. -/
def glance : List Label :=
  [.call 0 (.disconnect (.conn 0))] ++ go 0 1 ++ [.call 1 (.emit 0 .lastValue [])] ++ go 1 11 ++ go 0 6

end Demo

/-- What the specification says about a program of thread 0, from the model. -/
theorem Demo.spec {n : Nat} {ls : List Label} (hl : ∀ l ∈ ls, l.tid = 0 ∧ l.plain = true)
    (hh : (∀ l ∈ ls, l.hangs = false) ∨ ∀ l ∈ ls, ∀ u g tgt, l ≠ .call u (.sigDisconnect g tgt))
    (hx : (exec E0 (World.init n) ls).isSome = true) (hu : (world n ls).ub = none) (hc : userCtx ((world n ls).stacks 0) = true) :
    St.start.run E0 ls = .ok ((world n ls).view ((world n ls).stacks 0)) := by
  rcases hh with hh | hh
  · exact (C71_nohang (t := 0) hl hh (exec_world hx)).2 hu hc
  · exact (C71_noerase (t := 0) hl hh (exec_world hx)).2 hu hc

def Label.erases : Label → Bool
  | .call _ (.sigDisconnect _ _) => true
  | _ => false

theorem Label.not_erases {ls : List Label} (h : ∀ l ∈ ls, l.erases = false) : ∀ l ∈ ls, ∀ u g tgt, l ≠ .call u (.sigDisconnect g tgt) := by
  rintro l hl u g tgt rfl
  exact absurd (h _ hl) (by simp [Label.erases])

theorem Demo.twins_run : St.start.run E0 twins = .ok ((world 2 twins).view []) :=
  spec (n := 2) (by decide +kernel) (.inl (by decide +kernel)) (by decide +kernel) (by decide +kernel) (by decide +kernel)

theorem Demo.trio_run : St.start.run E0 trio = .ok ((world 2 trio).view []) :=
  spec (n := 2) (by decide +kernel) (.inl (by decide +kernel)) (by decide +kernel) (by decide +kernel) (by decide +kernel)

/-- From a state that thread 0 has made. -/
theorem Demo.spec_from {n k : Nat} {ls : List Label} {l : Label} (h0 : St.start.run E0 ls = .ok ((world n ls).view []))
    (hl : ∀ x ∈ ls ++ ([l] ++ go 0 k), x.tid = 0 ∧ x.plain = true)
    (hh : (∀ x ∈ ls ++ ([l] ++ go 0 k), x.hangs = false) ∨ ∀ x ∈ ls ++ ([l] ++ go 0 k), x.erases = false)
    (hx : (exec E0 (World.init n) (ls ++ ([l] ++ go 0 k))).isSome = true) (hu : (world n (ls ++ ([l] ++ go 0 k))).ub = none)
    (hc : userCtx ((world n (ls ++ ([l] ++ go 0 k))).stacks 0) = true) :
    ((world n ls).view []).next E0 l = .ok ((world n (ls ++ ([l] ++ go 0 k))).view ((world n (ls ++ ([l] ++ go 0 k))).stacks 0)) := by
  have := spec hl (hh.imp id Label.not_erases) hx hu hc
  rw [Seq.St.run_append, h0] at this
  simp only [Res.bind, List.singleton_append, St.run] at this
  cases hr : ((world n ls).view []).next E0 l with
  | ok a =>
    rw [hr] at this
    have this : a.run E0 (List.replicate k (.run 0)) = _ := this
    rw [run_runs] at this
    exact this
  | ub u => rw [hr] at this; cases this
  | no => rw [hr] at this; cases this

theorem Demo.both_idle {ls : List Label} (hn : (world 2 ls).nThr = 2) {p : List Frame → Prop} (h0 : p ((world 2 ls).stacks 0))
    (h1 : p ((world 2 ls).stacks 1)) (hz : p []) (t : Tid) : p ((world 2 ls).stacks t) := by
  match t with
  | 0 => exact h0
  | 1 => exact h1
  | t + 2 =>
    rw [(reach 2 ls).full.i.i1.thr (t + 2) (by rw [hn]; omega)]
    exact hz

theorem Demo.two_calls {ls : List Label} (h : ∀ l ∈ ls, l.tid = 0 ∨ l.tid = 1) (t : Tid) :
    ls.filter (fun l => l.user && l.tid == t) =
      if t = 0 then ls.filter (fun l => l.user && l.tid == 0) else if t = 1 then ls.filter (fun l => l.user && l.tid == 1) else [] := by
  split
  · subst t; rfl
  · split
    · subst t; rfl
    · rw [List.filter_eq_nil_iff]
      intro l hl
      rcases h l hl with e | e <;> simp [e] <;> omega

/-- The calls of two threads in some order. -/
def Mixed (p q ls : List Label) : Prop := ∀ t, ls.filter (·.tid == t) = if t = 0 then p else if t = 1 then q else []

theorem Mixed.cases {p q ls : List Label} (h : Mixed p q ls) :
    (ls = [] ∧ p = [] ∧ q = []) ∨ (∃ l p' ls', p = l :: p' ∧ ls = l :: ls' ∧ Mixed p' q ls') ∨
      ∃ l q' ls', q = l :: q' ∧ ls = l :: ls' ∧ Mixed p q' ls' := by
  rcases head_cases h with ⟨h1, h2⟩ | ⟨t, l, rest, ls', h1, h2, h3⟩
  · exact .inl ⟨h1, h2 0, h2 1⟩
  · by_cases t0 : t = 0
    · subst t0
      refine .inr (.inl ⟨l, rest, ls', h1, h2, fun u => ?_⟩)
      rw [h3 u]
      by_cases hu : u = 0 <;> simp [hu]
    · by_cases t1 : t = 1
      · subst t1
        refine .inr (.inr ⟨l, rest, ls', h1, h2, fun u => ?_⟩)
        rw [h3 u]
        by_cases hu : u = 0
        · subst hu; simp
        · by_cases hu1 : u = 1 <;> simp [hu, hu1]
      · simp [t0, t1] at h1

theorem Mixed.left {l : Label} {p ls : List Label} (h : Mixed (l :: p) [] ls) : ∃ ls', ls = l :: ls' ∧ Mixed p [] ls' := by
  rcases h.cases with ⟨-, h, -⟩ | ⟨l', p', ls', h1, h2, h3⟩ | ⟨_, _, _, h, -⟩
  · cases h
  · injection h1 with h1 h4; subst h1 h4; exact ⟨ls', h2, h3⟩
  · cases h

theorem Mixed.right {l : Label} {q ls : List Label} (h : Mixed [] (l :: q) ls) : ∃ ls', ls = l :: ls' ∧ Mixed [] q ls' := by
  rcases h.cases with ⟨-, -, h⟩ | ⟨_, _, _, h, -⟩ | ⟨l', p', ls', h1, h2, h3⟩
  · cases h
  · cases h
  · injection h1 with h1 h4; subst h1 h4; exact ⟨ls', h2, h3⟩

theorem Mixed.both {l l' : Label} {p q ls : List Label} (h : Mixed (l :: p) (l' :: q) ls) :
    (∃ ls', ls = l :: ls' ∧ Mixed p (l' :: q) ls') ∨ ∃ ls', ls = l' :: ls' ∧ Mixed (l :: p) q ls' := by
  rcases h.cases with ⟨-, h, -⟩ | ⟨x, p', ls', h1, h2, h3⟩ | ⟨x, q', ls', h1, h2, h3⟩
  · cases h
  · injection h1 with h1 h4; subst h1 h4; exact .inl ⟨ls', h2, h3⟩
  · injection h1 with h1 h4; subst h1 h4; exact .inr ⟨ls', h2, h3⟩

theorem Mixed.nil {ls : List Label} (h : Mixed [] [] ls) : ls = [] := by
  rcases h.cases with ⟨h, -⟩ | ⟨_, _, _, h, -⟩ | ⟨_, _, _, h, -⟩
  · exact h
  · cases h
  · cases h

theorem Seq.Obs.missing {l l' : List Obs} (h : l.Perm l') {o : Obs} (h1 : o ∉ l) (h2 : o ∈ l') : False := h1 (h.mem_iff.2 h2)

theorem Seq.St.hangUp_out {a a' : St} {h : Option SlotId} (he : a.hangUp h = .ok a') : ∃ b, a'.out = .disc b :: a.out := by
  unfold St.hangUp at he
  split at he
  · injection he with he; subst he; exact ⟨_, rfl⟩
  · split at he
    · unfold St.onList at he
      split at he <;> first | (cases he; done) | (injection he with he; subst he; exact ⟨_, rfl⟩)
    · injection he with he; subst he; exact ⟨_, rfl⟩

theorem Seq.St.next_disconnect (a : St) (u : Tid) (h : Handle) : a.next E (.call u (.disconnect h)) = a.hangUp (a.ptr h) := rfl

theorem Seq.Res.bind_eq_ok {r : Res} {f : St → Res} {a : St} (h : r.bind f = .ok a) : ∃ b, r = .ok b ∧ f b = .ok a := by
  cases r with
  | ok b => exact ⟨b, rfl, h⟩
  | ub u => cases h
  | no => cases h

/-- C72 is false: an emission that runs while a listener is being disconnected finds it marked but still in the list, and so goes on with the listener that was
connected after it. Before the call it would have begun with the listener itself, after it with the one that was connected last, which has then taken its place. -/
theorem C72_false_order : ∃ w0 ls w, Reachable Demo.E0 w0 ∧ (∀ t, w0.stacks t = []) ∧ exec Demo.E0 w0 ls = some w ∧ w.ub = none ∧
    (∀ t, userCtx (w.stacks t) = true) ∧ ¬Explains Demo.E0 (w0.view []) ls (w.log.filterMap Event.obs) := by
  refine ⟨Demo.world 2 Demo.trio, Demo.glance, Demo.world 2 (Demo.trio ++ Demo.glance), Demo.reach _ _,
    Demo.both_idle (p := (· = [])) (by decide +kernel) (by decide +kernel) (by decide +kernel) rfl, ?_, by decide +kernel,
    Demo.both_idle (p := (userCtx · = true)) (by decide +kernel) (by decide +kernel) (by decide +kernel) rfl, ?_⟩
  · have h := Demo.exec_world (n := 2) (ls := Demo.trio ++ Demo.glance) (by decide +kernel)
    rw [Demo.exec_append, Demo.exec_world (by decide +kernel)] at h
    exact h
  · rintro ⟨ls, a', hl0, hr, hp⟩
    have m0 : Mixed [.call 0 (.disconnect (.conn 0))] [.call 1 (.emit 0 .lastValue [])] ls :=
      fun t => (hl0 t).trans (Demo.two_calls (ls := Demo.glance) (by decide +kernel) t)
    rcases m0.both with ⟨ls1, rfl, m1⟩ | ⟨ls1, rfl, m1⟩
    · obtain ⟨ls2, rfl, m2⟩ := m1.right
      obtain rfl := m2.nil
      obtain ⟨a1, hr1, hr⟩ := Seq.Res.bind_eq_ok hr
      obtain ⟨a2, hr2, hr⟩ := Seq.Res.bind_eq_ok hr
      injection hr with hr; subst hr
      have hd := Demo.spec_from (k := 6) Demo.trio_run (by decide +kernel) (.inr (by decide +kernel)) (by decide +kernel) (by decide +kernel)
        (by decide +kernel) (l := .call 0 (.disconnect (.conn 0)))
      have h0 := Demo.spec (n := 2) (ls := Demo.trio ++ ([.call 0 (.disconnect (.conn 0))] ++ Demo.go 0 6)) (by decide +kernel)
        (.inr (Label.not_erases (by decide +kernel))) (by decide +kernel) (by decide +kernel) (by decide +kernel)
      rw [show (Demo.world 2 (Demo.trio ++ ([.call 0 (.disconnect (.conn 0))] ++ Demo.go 0 6))).stacks 0 = [] by decide +kernel] at hd h0
      rw [hd] at hr1
      injection hr1 with hr1; subst hr1
      have he := Demo.spec_from (k := 8) h0 (by decide +kernel) (.inr (by decide +kernel)) (by decide +kernel) (by decide +kernel)
        (by decide +kernel) (l := .call 0 (.emit 0 .lastValue []))
      have hr2 := he.symm.trans hr2
      injection hr2 with hr2; subst hr2
      exact Seq.Obs.missing hp (o := .call 1 []) (by show _ ∉ List.filterMap _ _; decide +kernel) (by decide +kernel)
    · obtain ⟨ls2, rfl, m3⟩ := m1.left
      obtain rfl := m3.nil
      obtain ⟨a1, hr1, hr⟩ := Seq.Res.bind_eq_ok hr
      obtain ⟨a2, hr2, hr⟩ := Seq.Res.bind_eq_ok hr
      injection hr with hr; subst hr
      have he := Demo.spec_from (k := 8) Demo.trio_run (by decide +kernel) (.inr (by decide +kernel)) (by decide +kernel) (by decide +kernel)
        (by decide +kernel) (l := .call 0 (.emit 0 .lastValue []))
      have hr1 := he.symm.trans hr1
      injection hr1 with hr1; subst hr1
      rw [Seq.St.next_disconnect] at hr2
      obtain ⟨b, hb⟩ := Seq.St.hangUp_out hr2
      rw [hb] at hp
      refine Seq.Obs.missing hp (o := .call 1 []) ?_ (by decide +kernel)
      rw [List.mem_cons, not_or]
      exact ⟨by simp, by show _ ∉ List.filterMap _ _; decide +kernel⟩

theorem Seq.St.hangUp_dead {a : St} {s : SlotId} (h : ¬a.lives s) : a.hangUp (some s) = .ok (a.say (.disc false)) := by
  simp only [St.hangUp]
  rw [if_neg fun h' => h h'.1]

theorem Seq.St.erase_out {a a' : St} {u : Tid} {g : SigId} {tgt : Option Callable} {l : List SlotId} (hg : a.sig g = some (some l))
    (h : a.next E (.call u (.sigDisconnect g tgt)) = .ok a') :
    a'.out = .erased (Vec.eraseScan (fun s => slotEq E (some (a.lis s).fn) tgt) l 0 0).2 :: a.out := by
  simp only [St.next, St.op] at h
  split at h
  · simp only [St.onList, hg] at h
    injection h with h; subst h; rfl
  · cases h

/-- C72 is false: two listeners have equal callables. While one thread disconnects that callable, which takes out both, as its result says, another calls `disconnect()`
on the two connections, and is told that the first had been disconnected already and the second had not. -/
theorem C72_false : ∃ w0 ls w, Reachable Demo.E0 w0 ∧ (∀ t, w0.stacks t = []) ∧ exec Demo.E0 w0 ls = some w ∧ w.ub = none ∧
    (∀ t, w.stacks t = []) ∧ ¬Explains Demo.E0 (w0.view []) ls (w.log.filterMap Event.obs) := by
  refine ⟨Demo.world 2 Demo.twins, Demo.tangle, Demo.world 2 (Demo.twins ++ Demo.tangle), Demo.reach _ _,
    Demo.both_idle (p := (· = [])) (by decide +kernel) (by decide +kernel) (by decide +kernel) rfl, ?_, by decide +kernel,
    Demo.both_idle (p := (· = [])) (by decide +kernel) (by decide +kernel) (by decide +kernel) rfl, ?_⟩
  · have h := Demo.exec_world (n := 2) (ls := Demo.twins ++ Demo.tangle) (by decide +kernel)
    rw [Demo.exec_append, Demo.exec_world (by decide +kernel)] at h
    exact h
  · rintro ⟨ls, a', hl0, hr, hp⟩
    have m0 : Mixed [.call 0 (.sigDisconnect 0 (some (Demo.fn 10)))] [.call 1 (.disconnect (.conn 0)), .call 1 (.disconnect (.conn 1))] ls :=
      fun t => (hl0 t).trans (Demo.two_calls (ls := Demo.tangle) (by decide +kernel) t)
    rcases m0.both with ⟨ls1, rfl, m4⟩ | ⟨ls1, rfl, m4⟩
    · obtain ⟨ls2, rfl, m5⟩ := m4.right
      obtain ⟨ls3, rfl, m6⟩ := m5.right
      obtain rfl := m6.nil
      obtain ⟨a1, hr1, hr⟩ := Seq.Res.bind_eq_ok hr
      obtain ⟨a2, hr2, hr⟩ := Seq.Res.bind_eq_ok hr
      obtain ⟨a3, hr3, hr⟩ := Seq.Res.bind_eq_ok hr
      injection hr with hr; subst hr
      have he := Demo.spec_from (k := 6) Demo.twins_run (by decide +kernel) (.inl (by decide +kernel)) (by decide +kernel) (by decide +kernel)
        (by decide +kernel) (l := .call 0 (.sigDisconnect 0 (some (Demo.fn 10))))
      rw [he] at hr1
      injection hr1 with hr1
      have A : Alone Demo.E0 0 (Demo.world 2 (Demo.twins ++ ([.call 0 (.sigDisconnect 0 (some (Demo.fn 10)))] ++ Demo.go 0 6))) :=
        ⟨Demo.reach _ _, fun u _ => Demo.both_idle (p := (· = [])) (by decide +kernel) (by decide +kernel) (by decide +kernel) rfl u, by decide +kernel⟩
      have d0 : ¬a1.lives 0 := by rw [← hr1, ← lives_iff A (by decide +kernel)]; decide +kernel
      have d1 : ¬a1.lives 1 := by rw [← hr1, ← lives_iff A (by decide +kernel)]; decide +kernel
      have p0 : a1.ptr (.conn 0) = some 0 := by rw [← hr1, ptr_eq]; decide +kernel
      have p1 : a1.ptr (.conn 1) = some 1 := by rw [← hr1, ptr_eq]; decide +kernel
      rw [Seq.St.next_disconnect, p0, Seq.St.hangUp_dead d0] at hr2
      injection hr2 with hr2; subst hr2
      have p1' : (a1.say (.disc false)).ptr (.conn 1) = some 1 := p1
      rw [Seq.St.next_disconnect, p1', Seq.St.hangUp_dead (a := a1.say (.disc false)) d1] at hr3
      injection hr3 with hr3; subst hr3
      refine Seq.Obs.missing hp (o := .disc true) ?_ (by decide +kernel)
      show Obs.disc true ∉ Obs.disc false :: Obs.disc false :: a1.out
      rw [← hr1]
      show Obs.disc true ∉ Obs.disc false :: Obs.disc false :: List.filterMap _ _
      decide +kernel
    · obtain ⟨a1, hr1, hr⟩ := Seq.Res.bind_eq_ok hr
      have hd := Demo.spec_from (k := 6) Demo.twins_run (by decide +kernel) (.inr (by decide +kernel)) (by decide +kernel) (by decide +kernel)
        (by decide +kernel) (l := .call 0 (.disconnect (.conn 0)))
      have h0 := Demo.spec (n := 2) (ls := Demo.twins ++ ([.call 0 (.disconnect (.conn 0))] ++ Demo.go 0 6)) (by decide +kernel)
        (.inr (Label.not_erases (by decide +kernel))) (by decide +kernel) (by decide +kernel) (by decide +kernel)
      rw [show (Demo.world 2 (Demo.twins ++ ([.call 0 (.disconnect (.conn 0))] ++ Demo.go 0 6))).stacks 0 = [] by decide +kernel] at hd h0
      have hr1 := hd.symm.trans hr1
      injection hr1 with hr1; subst hr1
      rcases m4.both with ⟨ls2, rfl, m7⟩ | ⟨ls2, rfl, m7⟩
      · obtain ⟨ls3, rfl, m8⟩ := m7.right
        obtain rfl := m8.nil
        obtain ⟨a2, hr2, hr⟩ := Seq.Res.bind_eq_ok hr
        obtain ⟨a3, hr3, hr⟩ := Seq.Res.bind_eq_ok hr
        injection hr with hr; subst hr
        have ec : (Vec.eraseScan (fun s => slotEq Demo.E0 (some ((Demo.world 2 (Demo.twins ++ ([.call 0 (.disconnect (.conn 0))] ++
          Demo.go 0 6))).lisOf s).fn) (some (Demo.fn 10))) [1] 0 0).2 = some 1 := by decide +kernel
        have e2 : a2.out = .erased (some 1) :: (Demo.world 2 (Demo.twins ++ ([.call 0 (.disconnect (.conn 0))] ++ Demo.go 0 6))).log.filterMap
            Event.obs := by
          rw [← ec]
          exact Seq.St.erase_out (l := [1]) (by
            show World.sigOf (Demo.world 2 (Demo.twins ++ ([.call 0 (.disconnect (.conn 0))] ++ Demo.go 0 6))) 0 = _; decide +kernel) hr2
        rw [Seq.St.next_disconnect] at hr3
        obtain ⟨b, hb⟩ := Seq.St.hangUp_out hr3
        rw [hb, e2] at hp
        refine Seq.Obs.missing hp (o := .erased (some 2)) ?_ (by decide +kernel)
        rw [List.mem_cons, not_or]
        refine ⟨by simp, ?_⟩
        decide +kernel
      · obtain ⟨ls3, rfl, m9⟩ := m7.left
        obtain rfl := m9.nil
        obtain ⟨a2, hr2, hr⟩ := Seq.Res.bind_eq_ok hr
        obtain ⟨a3, hr3, hr⟩ := Seq.Res.bind_eq_ok hr
        injection hr with hr; subst hr
        have hd2 := Demo.spec_from (k := 6) h0 (by decide +kernel) (.inr (by decide +kernel)) (by decide +kernel) (by decide +kernel)
          (by decide +kernel) (l := .call 0 (.disconnect (.conn 1)))
        have hr2 := hd2.symm.trans hr2
        injection hr2 with hr2; subst hr2
        have e2 := Seq.St.erase_out (l := []) (by show World.sigOf (Demo.world 2 (Demo.twins ++ ([.call 0 (.disconnect (.conn 0))] ++ Demo.go 0 6) ++
          ([.call 0 (.disconnect (.conn 1))] ++ Demo.go 0 6))) 0 = _; decide +kernel) hr3
        rw [e2] at hp
        refine Seq.Obs.missing hp (o := .erased (some 2)) ?_ (by decide +kernel)
        rw [List.mem_cons, not_or]
        exact ⟨by simp [Vec.eraseScan], by show _ ∉ List.filterMap _ _; decide +kernel⟩

/-! ### Examples -/

-- `C72_partial`: thread 0 has taken out listener 0 of two; meanwhile thread 1 has made two calls, one of which waits for the mutex
example : (Demo.world 2 (Demo.twins ++ Demo.tangle.take 7)).log = [] ++ [.exch 1 true, .discRet 1 (some 0) false] ++ .erased 0 0 ::
      (Demo.world 2 Demo.twins).log ∧ (∀ u tgt r, Event.eraseRet u 0 tgt r ∉ [Event.exch 1 true, .discRet 1 (some 0) false]) ∧
    ((Demo.world 2 (Demo.twins ++ Demo.tangle.take 7)).sigs 0).mutex = some 0 ∧ (Demo.world 2 (Demo.twins ++ Demo.tangle.take 7)).listOf 0 = [1] :=
  ⟨by decide +kernel, by simp, by decide +kernel, by decide +kernel⟩

namespace Demo

/-- Thread 0 connects three listeners, thread 1 emits, thread 0 disconnects a callable, thread 1 emits again and is in the body of a listener. -/
def turn1 : List Label := [.call 1 (.emit 0 .lastValue [])] ++ go 1 8 ++ [.ret 1 5] ++ go 1 4 ++ [.ret 1 6] ++ go 1 4 ++ [.ret 1 7] ++ go 1 1
def turn2 : List Label := [.call 0 (.sigDisconnect 0 (some (fn 10)))] ++ go 0 7
def turn3 : List Label := [.call 1 (.emit 0 .lastValue [])] ++ go 1 8

theorem exec_split {n : Nat} {a b : List Label} (h : (exec E0 (World.init n) (a ++ b)).isSome = true) (ha : (exec E0 (World.init n) a).isSome = true) :
    exec E0 (world n a) b = some (world n (a ++ b)) := by
  have h := exec_world h
  rw [exec_append, exec_world ha] at h
  exact h

theorem turns : Turns E0 (World.init 2) (trio ++ (turn1 ++ (turn2 ++ turn3))) (world 2 (((trio ++ turn1) ++ turn2) ++ turn3)) :=
  .turn 0 (by decide +kernel) (exec_world (by decide +kernel)) (by decide +kernel) (by decide +kernel) <|
  .turn 1 (by decide +kernel) (exec_split (by decide +kernel) (by decide +kernel)) (by decide +kernel) (by decide +kernel) <|
  .turn 0 (by decide +kernel) (exec_split (by decide +kernel) (by decide +kernel)) (by decide +kernel) (by decide +kernel) <|
  .last 1 (by decide +kernel) (exec_split (by decide +kernel) (by decide +kernel))

end Demo

-- `C72_turns_partial`: the specification agrees; the second emission calls listener 2 first, which has taken the place of listener 0
example : ∃ a, St.start.run Demo.E0 (Demo.trio ++ (Demo.turn1 ++ (Demo.turn2 ++ Demo.turn3))) = .ok a ∧ Obs.ret (some 7) ∈ a.out ∧
    Obs.erased (some 1) ∈ a.out ∧ a.out.head? = some (.call 2 []) := by
  obtain ⟨t, h1, h2⟩ := (C72_turns_partial Demo.turns (tame_nohang (by decide +kernel))).2 (by decide +kernel)
  have ht : t = 1 := by
    by_cases ht : t = 1
    · exact ht
    · exact absurd (h1 1 (Ne.symm ht)) (by decide +kernel)
  subst ht
  refine ⟨_, h2 (by decide +kernel), ?_⟩
  show _ ∈ List.filterMap _ _ ∧ _ ∈ List.filterMap _ _ ∧ (List.filterMap _ _).head? = _
  decide +kernel

end Verif
