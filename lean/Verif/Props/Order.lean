import Verif.Props.Emission
import Verif.Props.Calls

/-!
# C69: in which order the listeners of a signal are called

Listeners are called in the order in which they were connected only as long as none is taken out. Taking one out puts the last one in its place.
-/

namespace Verif

variable {E : Env} {w w' : World}

/-! ### The specification: the order of connecting -/

/-- The listeners that were connected to a signal, in the order in which their `connect` took effect; moving a signal takes them along, destroying it
forgets them. A listener that is taken out is not left out here. -/
def arrivals : List Event → SigId → List SlotId
  | [], _ => []
  | .added g s :: log, x => if x = g then arrivals log g ++ [s] else arrivals log x
  | .moved g g' :: log, x => if x = g then [] else if x = g' then arrivals log g else arrivals log x
  | .destroyed g :: log, x => if x = g then [] else arrivals log x
  | _ :: log, x => arrivals log x

/-- Listener `s` has been taken out of a list. -/
abbrev Taken (log : List Event) (s : SlotId) : Prop := ∃ ev ∈ log, ev.takes s = true

/-! ### Lists -/

theorem takeOut_prefix {v : SlotId} {p l : List SlotId} (hp : p <+: l) (hv : v ∈ l) (hn : v ∉ p) : p <+: takeOut v l := by
  obtain ⟨q, rfl⟩ := hp
  have hq : v ∈ q := (List.mem_append.1 hv).resolve_left hn
  unfold takeOut
  rw [List.map_append, List.dropLast_append_of_ne_nil (by rintro e; simp at e; subst e; cases hq)]
  have : (p.map fun x => if x = v then (p ++ q).getLastD v else x) = p := by
    refine (List.map_congr_left fun x hx => ?_).trans (List.map_id _)
    rw [if_neg (by rintro rfl; exact hn hx)]; rfl
  rw [this]
  exact List.prefix_append _ _

/-- Every listener taken out was in the list. -/
def TakesOk (log : List Event) : Prop :=
  ∀ post ev pre, log = post ++ ev :: pre → ∀ g v, (ev = .erased g v ∨ ∃ req, ev = .removed g req v) → v ∈ replay pre g

theorem TakesOk.tail {log pre post : List Event} (h : TakesOk log) (e : log = post ++ pre) : TakesOk pre := by
  intro p ev q e'
  exact h (post ++ p) ev q (by rw [e, e', List.append_assoc])

theorem takesOk (h : Reachable E w) : TakesOk w.log := by
  obtain ⟨n, h⟩ := h
  refine (h.induct (I := fun w => Reachable E w ∧ TakesOk w.log) ⟨⟨n, .refl _⟩, ?_⟩ ?_).2
  · intro post ev pre e; simp [World.init] at e
  · rintro w w' l ⟨hr, ok⟩ - hst
    have hr : Reachable E w := hr
    refine ⟨hr.step hst, ?_⟩
    have one : ∀ ev, w'.log = ev :: w.log → (∀ g v, (ev = .erased g v ∨ ∃ req, ev = .removed g req v) → v ∈ replay w.log g) → TakesOk w'.log := by
      intro ev hl he post ev' pre e g v hev
      rw [hl] at e
      cases post with
      | nil => injection e with e1 e2; subst e1; subst e2; exact he g v hev
      | cons x post => injection e with e1 e2; exact ok post ev' pre e2 g v hev
    obtain ⟨-, -, R⟩ := step_inv hst
    have I := hr.full.i
    cases listEff I.i1 I.i2 R with
    | same hl hi hlog =>
      obtain ⟨evs, h1, h2⟩ := hlog
      intro post ev pre e g v hev
      rw [h1] at e
      rcases List.append_eq_append_iff.1 e with ⟨a, h3, h4⟩ | ⟨a, h3, h4⟩
      · exact ok a ev pre h4 g v hev
      · cases a with
        | nil => exact ok [] ev pre (by simpa using h4.symm) g v hev
        | cons x a =>
          injection h4 with h4 h5; subst h4
          have := h2 ev (by rw [h3]; simp)
          rcases hev with rfl | ⟨req, rfl⟩ <;> cases this
    | add g s b dest rest hst hb hl hi hlog => exact one _ hlog (by rintro g v (h | ⟨_, h⟩) <;> cases h)
    | rem g i v ev hst hv hl hi hev hlog =>
      refine one _ hlog fun g' v' h => ?_
      rw [← C20_serial hr]
      rcases hev with rfl | ⟨req, rfl⟩ <;> rcases h with h | ⟨_, h⟩ <;> cases h <;> exact List.mem_of_getElem? hv
    | move g1 g2 hne hst h0 hd hl hi hlog => exact one _ hlog (by rintro g v (h | ⟨_, h⟩) <;> cases h)
    | destroy g hm hl hi hlog => exact one _ hlog (by rintro g v (h | ⟨_, h⟩) <;> cases h)

theorem Taken.mono {log pre post : List Event} {s : SlotId} (e : log = post ++ pre) (h : Taken pre s) : Taken log s := by
  subst e
  obtain ⟨ev, h1, h2⟩ := h
  exact ⟨ev, List.mem_append_right _ h1, h2⟩

/-- There are no more listeners in the list than have been connected. -/
theorem replay_le : ∀ (log : List Event) (g : SigId), (replay log g).length ≤ (arrivals log g).length
  | [], _ => Nat.le_refl _
  | ev :: log, g => by
    have ih := replay_le log
    have tk : ∀ v (l : List SlotId), (takeOut v l).length ≤ l.length := by intro v l; simp [takeOut]
    cases ev <;> simp only [replay, arrivals, upd_apply] <;> try exact ih g
    case added g' s =>
      split
      · simp; exact ih _
      · exact ih _
    case removed g' req v =>
      split
      · rename_i e; subst e; exact Nat.le_trans (tk _ _) (ih _)
      · exact ih g
    case erased g' v =>
      split
      · rename_i e; subst e; exact Nat.le_trans (tk _ _) (ih _)
      · exact ih g
    case moved g1 g2 =>
      split
      · exact Nat.le_refl _
      · split <;> exact ih _
    case destroyed g1 =>
      split
      · exact Nat.le_refl _
      · exact ih _

/-- The first listeners keep their places while none of them is taken out. -/
theorem replay_first : ∀ {log : List Event}, TakesOk log → ∀ {g : SigId} {p : List SlotId}, p <+: arrivals log g →
    (∀ s ∈ p, ¬ Taken log s) → p <+: replay log g
  | [], _, _, _, hp, _ => hp
  | ev :: log, ok, g, p, hp, hn => by
    have ih := @replay_first log (ok.tail (post := [ev]) rfl)
    have hn' : ∀ q : List SlotId, q <+: p → ∀ s ∈ q, ¬ Taken log s :=
      fun q hq s hs ht => hn s (hq.subset hs) (ht.mono (post := [ev]) rfl)
    have hself := hn' p (List.prefix_refl p)
    cases ev <;> simp only [replay, arrivals] at hp ⊢ <;> try exact ih hp hself
    case added g' s =>
      rw [upd_apply]
      split
      · rename_i e; subst e
        rw [if_pos rfl] at hp
        rcases List.prefix_concat_iff.1 hp with rfl | hp
        · have h1 := ih (List.prefix_refl _) (hn' _ (List.prefix_append _ _))
          rw [h1.eq_of_length_le (replay_le log g)]
          exact List.prefix_refl _
        · exact (ih hp hself).trans (List.prefix_append _ _)
      · rename_i e
        rw [if_neg e] at hp; exact ih hp hself
    case removed g' req v =>
      rw [upd_apply]
      split
      · rename_i e; subst e
        exact takeOut_prefix (ih hp hself) (ok [] _ log rfl g v (.inr ⟨req, rfl⟩)) fun hv => hn v hv ⟨_, List.mem_cons_self, by simp [Event.takes]⟩
      · exact ih hp hself
    case erased g' v =>
      rw [upd_apply]
      split
      · rename_i e; subst e
        exact takeOut_prefix (ih hp hself) (ok [] _ log rfl g v (.inl rfl)) fun hv => hn v hv ⟨_, List.mem_cons_self, by simp [Event.takes]⟩
      · exact ih hp hself
    case moved g1 g2 =>
      rw [upd_apply]
      split
      · rename_i e; rw [if_pos e] at hp; exact hp
      · rename_i e
        rw [if_neg e] at hp
        rw [upd_apply]
        split
        · rename_i e; rw [if_pos e] at hp; exact ih hp hself
        · rename_i e; rw [if_neg e] at hp; exact ih hp hself
    case destroyed g1 =>
      rw [upd_apply]
      split
      · rename_i e; rw [if_pos e] at hp; exact hp
      · rename_i e; rw [if_neg e] at hp; exact ih hp hself

/-! ### C69 -/

/-- The full claim: whatever an emission with the default combiner calls, it calls in the order of connecting. -/
def InOrder (w : World) : Prop :=
  ∀ post pre m items, w.log = post ++ .snap m items :: pre → m.comb = .lastValue →
    ((trace w.log m.e).filterMap Event.entered).Sublist (arrivals pre m.g)

/-- The listeners that were connected first, as long as none of them has been taken out, are at the beginning of the list, in the order of connecting.
Others may be taken out, also while this happens. -/
theorem C69_list_partial (h : Reachable E w) {g : SigId} {p : List SlotId} (hp : p <+: arrivals w.log g) (hn : ∀ s ∈ p, ¬ Taken w.log s) :
    p <+: w.listOf g := by
  rw [C20_serial h]; exact replay_first (takesOk h) hp hn

/-- As long as none of the listeners has been taken out, the list has all of them, in the order of connecting. -/
theorem C69_whole_partial (h : Reachable E w) {g : SigId} (hn : ∀ s ∈ arrivals w.log g, ¬ Taken w.log s) : w.listOf g = arrivals w.log g := by
  refine ((C69_list_partial h (List.prefix_refl _) hn).eq_of_length_le ?_).symm
  rw [C20_serial h]; exact replay_le _ _

theorem split_sublist {p q l : List SlotId} (h : l.Sublist (p ++ q)) (hn : (p ++ q).Nodup) :
    ∃ xs ys, l = xs ++ ys ∧ xs.Sublist p ∧ ∀ y ∈ ys, y ∉ p := by
  obtain ⟨xs, ys, rfl, h1, h2⟩ := List.sublist_append_iff.1 h
  refine ⟨xs, ys, rfl, h1, fun y hy hp => ?_⟩
  exact (List.nodup_append.1 hn).2.2 y hp y (h2.subset hy) rfl

theorem done_visited (h : Reachable E w) {m : Em} {items : List SlotId} (hs : Event.snap m items ∈ w.log) (hc : m.comb = .lastValue) {r : Option Val}
    (hd : Event.done m.e r ∈ w.log) : ((trace w.log m.e).filterMap Event.visited).map (·.2) = items := by
  obtain ⟨t, m', items', vs, args, he, hv, hdd, hs', htr⟩ := done_shape h hd
  obtain ⟨rfl, rfl⟩ := C19_one_snapshot h hs hs' he.symm
  obtain ⟨post', pre', items'', hl', -, hz⟩ := C07 h (t := t) (m := m) (r := r) ((mem_trace (e := m.e)).1 (by rw [htr]; simp)).1 hd hc
  have hs'' : Event.snap m items'' ∈ w.log := by rw [hl']; simp
  obtain ⟨-, rfl⟩ := C19_one_snapshot h hs hs'' rfl
  rw [hz, List.map_snd_zip (by simp)]

/-- C69, what is true of it: an emission with the default combiner calls the listeners that were connected first, as long as none of them was taken out before
its snapshot, in the order of connecting and before all others, and when it returns it has visited all of them. -/
theorem C69_partial (h : Reachable E w) {m : Em} {items : List SlotId} {post pre : List Event} (hl : w.log = post ++ .snap m items :: pre)
    (hc : m.comb = .lastValue) {p : List SlotId} (hp : p <+: arrivals pre m.g) (hn : ∀ s ∈ p, ¬ Taken pre s) :
    (∃ xs ys, (trace w.log m.e).filterMap Event.entered = xs ++ ys ∧ xs.Sublist p ∧ ∀ y ∈ ys, y ∉ p) ∧
    ∀ r, Event.done m.e r ∈ w.log → p <+: ((trace w.log m.e).filterMap Event.visited).map (·.2) := by
  have hs : Event.snap m items ∈ w.log := by rw [hl]; simp
  have h1 := replay_first ((takesOk h).tail (post := post ++ [.snap m items]) (by rw [hl]; simp)) hp hn
  rw [← (h.full.h.at hl).1] at h1
  refine ⟨?_, fun r hd => by rw [done_visited h hs hc hd]; exact h1⟩
  obtain ⟨q, rfl⟩ := h1
  exact split_sublist (C07_calls h hs hc) (C19_nodup h hs)

/-- If none was taken out before the snapshot, all calls are in the order of connecting, and an emission that returns has visited all listeners, and no others. -/
theorem C69_all_partial (h : Reachable E w) {m : Em} {items : List SlotId} {post pre : List Event} (hl : w.log = post ++ .snap m items :: pre)
    (hc : m.comb = .lastValue) (hn : ∀ s ∈ arrivals pre m.g, ¬ Taken pre s) :
    ((trace w.log m.e).filterMap Event.entered).Sublist (arrivals pre m.g) ∧
    ∀ r, Event.done m.e r ∈ w.log → ((trace w.log m.e).filterMap Event.visited).map (·.2) = arrivals pre m.g := by
  have hs : Event.snap m items ∈ w.log := by rw [hl]; simp
  have h1 := replay_first ((takesOk h).tail (post := post ++ [.snap m items]) (by rw [hl]; simp)) (List.prefix_refl _) hn
  have h2 := h1.eq_of_length_le (replay_le _ _)
  rw [← (h.full.h.at hl).1] at h2
  exact ⟨h2 ▸ C07_calls h hs hc, fun r hd => by rw [done_visited h hs hc hd, h2]⟩

/-! ### When two listeners change places -/

theorem pair_sublist {a b : SlotId} {l : List SlotId} : [a, b].Sublist l ↔ ∃ i j : Nat, i < j ∧ l[i]? = some a ∧ l[j]? = some b := by
  constructor
  · intro h
    obtain ⟨x, y, rfl, h1, h2⟩ := List.cons_sublist_iff.1 h
    obtain ⟨i, h1⟩ := List.mem_iff_getElem?.1 h1
    obtain ⟨j, h2⟩ := List.mem_iff_getElem?.1 (List.singleton_sublist.1 h2)
    have hi := (List.getElem?_eq_some_iff.1 h1).1
    refine ⟨i, x.length + j, by omega, by rw [List.getElem?_append_left hi]; exact h1, ?_⟩
    rw [List.getElem?_append_right (by omega), Nat.add_sub_cancel_left]; exact h2
  · rintro ⟨i, j, hij, h1, h2⟩
    refine List.cons_sublist_iff.2 ⟨l.take j, l.drop j, (List.take_append_drop _ _).symm, ?_, List.singleton_sublist.2 ?_⟩
    · exact List.mem_iff_getElem?.2 ⟨i, by rw [List.getElem?_take_of_lt hij]; exact h1⟩
    · exact List.mem_iff_getElem?.2 ⟨0, by rw [List.getElem?_drop]; exact h2⟩

theorem nodup_at {l : List SlotId} (hn : l.Nodup) {i j : Nat} {x : SlotId} (h1 : l[i]? = some x) (h2 : l[j]? = some x) : i = j := by
  obtain ⟨h1, e1⟩ := List.getElem?_eq_some_iff.1 h1
  obtain ⟨h2, e2⟩ := List.getElem?_eq_some_iff.1 h2
  exact (List.getElem_inj hn).1 (e1.trans e2.symm)

theorem swapPop_flips {l : List SlotId} (hn : l.Nodup) {i : Nat} {v a b : SlotId} (hv : l[i]? = some v) (hab : [a, b].Sublist l) :
    [b, a].Sublist (Vec.swapPop l i) ↔ [v, a].Sublist l ∧ l.getLast? = some b := by
  obtain ⟨ia, ib, hlt, ha, hb⟩ := pair_sublist.1 hab
  have hi := (List.getElem?_eq_some_iff.1 hv).1
  have hib := (List.getElem?_eq_some_iff.1 hb).1
  simp only [pair_sublist, Vec.getElem?_swapPop _ _ hi, List.getLast?_eq_getElem?]
  constructor
  · rintro ⟨j, k, hjk, h1, h2⟩
    have hj : j < l.length - 1 := by
      refine Decidable.byContradiction fun n => ?_
      rw [if_neg n] at h1; cases h1
    have hk : k < l.length - 1 := by
      refine Decidable.byContradiction fun n => ?_
      rw [if_neg n] at h2; cases h2
    rw [if_pos hj] at h1
    rw [if_pos hk] at h2
    split at h1
    · rename_i e; subst e
      rw [if_neg (by omega)] at h2
      exact ⟨⟨j, k, hjk, hv, h2⟩, h1⟩
    · have := nodup_at hn h1 hb
      split at h2
      · have := nodup_at hn h2 ha; omega
      · have := nodup_at hn h2 ha; omega
  · rintro ⟨⟨j, k, hjk, h1, h2⟩, h3⟩
    have := nodup_at hn h1 hv
    have := nodup_at hn h2 ha
    refine ⟨i, ia, by omega, ?_, ?_⟩
    · rw [if_pos (by omega), if_pos rfl]; exact h3
    · rw [if_pos (by omega), if_neg (by omega)]; exact ha

theorem flip_not {l : List SlotId} (hn : l.Nodup) {a b : SlotId} (h1 : [a, b].Sublist l) : ¬ [b, a].Sublist l := by
  intro h2
  obtain ⟨i, j, hij, ha, hb⟩ := pair_sublist.1 h1
  obtain ⟨i', j', hij', hb', ha'⟩ := pair_sublist.1 h2
  have := nodup_at hn ha ha'
  have := nodup_at hn hb hb'
  omega

/-- C69: two listeners change places when, and only when, one that comes before both is taken out and the second of them is the last of the list. -/
theorem C69_flip (h : Reachable E w) {l : Label} (hst' : step E w l = some w') {g : SigId} {a b : SlotId} (hab : [a, b].Sublist (w.listOf g)) (g' : SigId) :
    [b, a].Sublist (w'.listOf g') ↔ g' = g ∧ (w.listOf g).getLast? = some b ∧
      ∃ v, [v, a].Sublist (w.listOf g) ∧ (w'.log = .erased g v :: w.log ∨ ∃ req, w'.log = .removed g req v :: w.log) := by
  obtain ⟨-, -, R⟩ := step_inv hst'
  have I := h.full.i
  have hn := I.i3.nodup
  have away : ∀ x, ¬ [b, a].Sublist (w.listOf x) := by
    intro x hx
    obtain rfl : x = g := I.i3.disj (hx.subset (by simp : a ∈ _)) (hab.subset (by simp))
    exact flip_not (hn x) hab hx
  have nlog : ∀ {evs : List Event} {v}, w'.log = evs ++ w.log → (∀ e ∈ evs, e ≠ .erased g v ∧ ∀ req, e ≠ .removed g req v) →
      ¬ (w'.log = .erased g v :: w.log ∨ ∃ req, w'.log = .removed g req v :: w.log) := by
    intro evs v h1 h2 h3
    have key : ∀ ev, w'.log = ev :: w.log → evs = [ev] := by
      intro ev h4
      rw [h1] at h4
      exact List.append_cancel_right (bs := w.log) h4
    rcases h3 with h3 | ⟨req, h3⟩
    · exact (h2 _ (by rw [key _ h3]; simp)).1 rfl
    · exact (h2 _ (by rw [key _ h3]; simp)).2 req rfl
  cases listEff I.i1 I.i2 R with
  | same hl hi hlog =>
    obtain ⟨evs, h1, h2⟩ := hlog
    rw [hl]
    refine iff_of_false (away g') ?_
    rintro ⟨-, -, v, -, hx⟩
    refine nlog h1 (fun e he => ?_) hx
    have := h2 e he
    constructor
    · rintro rfl; cases this
    · rintro req rfl; cases this
  | add g1 s b1 dest rest hst hb hl hi hlog =>
    refine iff_of_false ?_ (by
      rintro ⟨-, -, v, -, hx⟩
      exact nlog (evs := [.added g1 s]) hlog (by simp) hx)
    have I' := (h.step hst').full.i
    have hab' : [a, b].Sublist (w'.listOf g) := by
      rw [hl]
      split
      · rename_i e; subst e; exact hab.trans (List.sublist_append_left _ _)
      · exact hab
    intro hx
    obtain rfl : g' = g := I'.i3.disj (hx.subset (by simp : a ∈ _)) (hab'.subset (by simp))
    exact flip_not (I'.i3.nodup g') hab' hx
  | rem g1 i v ev hst hv hl hi hev hlog =>
    rw [hl]
    by_cases e : g' = g1
    · subst e
      rw [if_pos rfl]
      by_cases e : g' = g
      · subst e
        rw [swapPop_flips (hn g') hv hab]
        have : (w'.log = .erased g' v :: w.log ∨ ∃ req, w'.log = .removed g' req v :: w.log) := by
          rw [hlog]; rcases hev with rfl | ⟨req, rfl⟩
          · exact .inl rfl
          · exact .inr ⟨req, rfl⟩
        refine ⟨fun ⟨h1, h2⟩ => ⟨rfl, h2, v, h1, this⟩, fun ⟨_, h2, v', h1, h3⟩ => ⟨?_, h2⟩⟩
        have : v' = v := by
          rw [hlog] at h3
          rcases hev with rfl | ⟨req, rfl⟩ <;> rcases h3 with h3 | ⟨_, h3⟩ <;> injection h3 with h3 <;> cases h3 <;> rfl
        exact this ▸ h1
      · refine iff_of_false ?_ fun h => e h.1
        intro hx
        have := ((mem_swapPop_iff (hn g') hv).1 (hx.subset (by simp : a ∈ _))).1
        exact e (I.i3.disj this (hab.subset (by simp)))
    · rw [if_neg e]
      refine iff_of_false (away g') ?_
      rintro ⟨rfl, -, v', -, hx⟩
      refine nlog (evs := [ev]) hlog (fun e' he => ?_) hx
      obtain rfl := List.mem_singleton.1 he
      rcases hev with rfl | ⟨req, rfl⟩
      · refine ⟨?_, by simp⟩
        rintro h; cases h; exact e rfl
      · refine ⟨by simp, ?_⟩
        rintro r h; cases h; exact e rfl
  | move g1 g2 hne hst h0 hd hl hi hlog =>
    refine iff_of_false ?_ (by
      rintro ⟨-, -, v, -, hx⟩
      exact nlog (evs := [.moved g1 g2]) hlog (by simp) hx)
    rw [hl]
    split
    · simp
    · split
      · exact away g1
      · exact away g'
  | destroy g1 hm hl hi hlog =>
    refine iff_of_false ?_ (by
      rintro ⟨-, -, v, -, hx⟩
      exact nlog (evs := [.destroyed g1]) hlog (by simp) hx)
    rw [hl]
    split
    · simp
    · exact away g'

/-! ### Examples, and what is false -/

namespace Demo
/-- Three listeners are connected, the first is disconnected, and the signal is emitted. -/
def third : List Label :=
  [.call 0 (.newSig false)] ++ connect 0 10 0 ++ connect 0 11 1 ++ connect 0 12 2 ++ [.call 0 (.disconnect (.conn 0))] ++ go 0 6 ++
  [.call 0 (.emit 0 .lastValue [])] ++ go 0 8 ++ [.ret 0 5] ++ go 0 4

/-- Three listeners are connected, the last but one is disconnected, and the signal is moved and emitted. -/
def kept : List Label :=
  [.call 0 (.newSig false)] ++ connect 0 10 0 ++ connect 0 11 1 ++ connect 0 12 2 ++ connect 0 13 3 ++ [.call 0 (.disconnect (.conn 2))] ++ go 0 6 ++
  [.call 0 (.moveSig 0)] ++ go 0 3 ++
  [.call 0 (.emit 1 .lastValue [])] ++ go 0 8 ++ [.ret 0 5] ++ go 0 4 ++ [.ret 0 6] ++ go 0 4 ++ [.ret 0 7] ++ go 0 1

/-- The moments at which these emissions take their snapshots. -/
def past (w : World) (m : Em) (l : List SlotId) : List Event := w.log.drop (w.log.idxOf (.snap m l) + 1)
end Demo


theorem Demo.past_eq {w : World} {m : Em} {l : List SlotId} (h : Event.snap m l ∈ w.log) :
    w.log = w.log.take (w.log.idxOf (.snap m l)) ++ .snap m l :: Demo.past w m l := by
  have hi := List.idxOf_lt_length_iff.2 h
  have : w.log[w.log.idxOf (.snap m l)] = .snap m l := List.getElem_idxOf hi
  conv => lhs; rw [← List.take_append_drop (w.log.idxOf (.snap m l)) w.log, List.drop_eq_getElem_cons hi, this]
  rfl

/-- C69 is false: listeners 0, 1, 2 are connected, 0 is disconnected, and the next emission calls 2 before 1. -/
theorem C69_false : ¬ ∀ (E : Env) (w : World), Reachable E w → InOrder w := by
  intro hx
  have := hx _ _ (Demo.reach 1 Demo.third) _ _ _ _ (Demo.past_eq (m := ⟨0, 0, .lastValue, []⟩) (l := [2, 1]) (by decide +kernel)) rfl
  revert this
  decide +kernel

-- the first two stay the first two, though another is taken out and the signal is moved
example : arrivals (Demo.world 1 Demo.kept).log 1 = [0, 1, 2, 3] ∧ (Demo.world 1 Demo.kept).listOf 1 = [0, 1, 3] ∧ Taken (Demo.world 1 Demo.kept).log 2 := by
  decide +kernel
example : [0, 1] <+: (Demo.world 1 Demo.kept).listOf 1 := C69_list_partial (Demo.reach _ _) (by decide +kernel) (by decide +kernel)
example : (∃ xs ys, (trace (Demo.world 1 Demo.kept).log 0).filterMap Event.entered = xs ++ ys ∧ xs.Sublist [0, 1] ∧ ∀ y ∈ ys, y ∉ [0, 1]) ∧
    ∀ r, Event.done 0 r ∈ (Demo.world 1 Demo.kept).log → [0, 1] <+: ((trace (Demo.world 1 Demo.kept).log 0).filterMap Event.visited).map (·.2) :=
  C69_partial (Demo.reach _ _) (Demo.past_eq (m := ⟨0, 1, .lastValue, []⟩) (l := [0, 1, 3]) (by decide +kernel)) rfl (by decide +kernel) (by decide +kernel)
example : (trace (Demo.world 1 Demo.kept).log 0).filterMap Event.entered = [0, 1, 3] := by decide +kernel

-- none was taken out before the snapshot: all calls of a completed emission are in order, though listeners are disconnected and connected meanwhile
example : ((trace (Demo.world 1 Demo.busy).log 0).filterMap Event.entered).Sublist [0, 1, 2, 3] ∧
    ∀ r, Event.done 0 r ∈ (Demo.world 1 Demo.busy).log → ((trace (Demo.world 1 Demo.busy).log 0).filterMap Event.visited).map (·.2) = [0, 1, 2, 3] := by
  have := C69_all_partial (Demo.reach 1 Demo.busy) (Demo.past_eq (m := ⟨0, 0, .lastValue, []⟩) (l := [0, 1, 2, 3]) (by decide +kernel)) rfl (by decide +kernel)
  rwa [show arrivals (Demo.past (Demo.world 1 Demo.busy) ⟨0, 0, .lastValue, []⟩ [0, 1, 2, 3]) 0 = [0, 1, 2, 3] by decide +kernel] at this
example : (Demo.world 1 (Demo.third.take 13)).listOf 0 = arrivals (Demo.world 1 (Demo.third.take 13)).log 0 :=
  C69_whole_partial (Demo.reach _ _) (by decide +kernel)

-- listener 0 is taken out of [0, 1, 2]: 1 and 2 change places
example : [2, 1].Sublist ((Demo.world 1 (Demo.third.take 20 ++ [.run 0])).listOf 0) :=
  (C69_flip (Demo.reach 1 (Demo.third.take 20)) (Demo.world_step 1 _ (.run 0) (by decide +kernel)) (g := 0) (a := 1) (b := 2) (by decide +kernel) 0).2
    ⟨rfl, by decide +kernel, 0, by decide +kernel, .inr ⟨0, by decide +kernel⟩⟩

end Verif
