import Verif.Props.Calls
import Verif.Props.Connect

/-!
# C62: a listener counts the emissions
-/

namespace Verif

variable {E : Env} {w w' : World} {t : Tid}

/-- Something that bears on whether emissions of `g` call listener `s`: it is disconnected, blocked or taken out of a list, or the signal is
moved or destroyed. -/
def Event.disturbs (g : SigId) (s : SlotId) : Event → Bool
  | .exch s' _ => s' = s
  | .blockSet s' c => s' = s && c
  | .removed _ _ v => v = s
  | .erased _ v => v = s
  | .moved g' _ => g' = g
  | .destroyed g' => g' = g
  | _ => false

/-- An emission of `g` begins. -/
def Event.begins (g : SigId) : Event → Option EmId
  | .began _ m => if m.g = g then some m.e else none
  | _ => none

/-- One of these emissions calls `s`. -/
def Event.callsIn (s : SlotId) (ems : List EmId) : Event → Bool
  | .enter e s' _ => s' = s && ems.contains e
  | _ => false

/-- Emission `e` is over. -/
def Event.ends (e : EmId) : Event → Bool
  | .done e' _ => e' = e
  | _ => false

/-! ### Where an event comes from -/

theorem event_at (h : Reachable E w) {post pre : List Event} {ev : Event} (hl : w.log = post ++ ev :: pre) :
    ∃ w1 l w2 a b, Reachable E w1 ∧ step E w1 l = some w2 ∧ w2.log = (a ++ ev :: b) ++ w1.log ∧ pre = b ++ w1.log := by
  obtain ⟨n, hs⟩ := h
  induction hs generalizing post with
  | refl => simp [World.init] at hl
  | @tail w1 w2 l h1 _ hst ih =>
    obtain ⟨evs, he⟩ := log_grows (step_inv hst).2.2
    rw [he] at hl
    rcases List.append_eq_append_iff.1 hl with ⟨c, h2, h3⟩ | ⟨c, h2, h3⟩
    · exact ih h3
    · cases c with
      | nil => exact ih (post := []) (by simpa using h3.symm)
      | cons x c =>
        simp only [List.cons_append, List.cons.injEq] at h3
        obtain ⟨rfl, rfl⟩ := h3
        exact ⟨w1, l, w2, post, c, ⟨n, h1⟩, hst, by rw [he, h2], rfl⟩

/-- When `connect` returns, the listener is at home in the signal. -/
theorem connRet_home (h : Reachable E w) {post pre : List Event} {g : SigId} {s : SlotId} (hl : w.log = post ++ .connRet t g s :: pre) :
    home (.connRet t g s :: pre) s = some g := by
  obtain ⟨w1, l, w2, a, b, h1, hst, e1, e2⟩ := event_at h hl
  have hb : b = [] := by
    obtain ⟨-, -, R⟩ := step_inv hst
    generalize l.tid = u at R
    have one : ∀ {ev : Event}, w2.log = ev :: w1.log → b = [] := by
      intro ev h2
      rw [h2] at e1
      have := congrArg List.length e1
      simp at this
      exact List.length_eq_zero_iff.1 (by omega)
    have two : ∀ {ev ev' : Event}, w2.log = ev :: ev' :: w1.log → (∀ u g s, ev ≠ .connRet u g s) → (∀ u g s, ev' ≠ .connRet u g s) → b = [] := by
      intro ev ev' h2 n1 n2
      have := List.append_cancel_right (show [ev, ev'] ++ w1.log = _ from h2.symm.trans e1)
      have hm : Event.connRet t g s ∈ [ev, ev'] := by rw [this]; simp
      simp at hm
      rcases hm with h | h
      · exact absurd h.symm (n1 _ _ _)
      · exact absurd h.symm (n2 _ _ _)
    have none : w2.log = w1.log → b = [] := by
      intro h2
      rw [h2] at e1
      have := congrArg List.length e1
      simp at this
      omega
    cases R <;> first | exact none rfl | exact one rfl | exact two rfl (by simp) (by simp) | skip
    case eraseHit g0 _ _ _ _ _ s0 _ _ _ _ => refine one (ev := .erased g0 s0) ?_; simp only [World.emitEv, World.setStack, (removeAt_same _ _ _).2.2.2.2.2.2.2.2.2.2.1]
    case discWrite s0 v0 _ _ g0 _ _ _ _ => refine one (ev := .removed g0 s0 v0) ?_; simp only [World.emitEv, World.setStack, (removeAt_same _ _ _).2.2.2.2.2.2.2.2.2.2.1]
  subst hb
  rw [e2]
  obtain ⟨k, -⟩ := h.inv8.hist _ _ _ hl
  rw [e2, List.nil_append, ← C20_serial h1] at k
  exact (C43_listed h1 g s).1 (List.mem_of_getLast? k)

/-! ### Nothing changes while nobody disturbs it -/

theorem home_calm {g : SigId} {s : SlotId} {q log : List Event} (h0 : home log s = some g) (hq : ∀ ev ∈ q, ev.disturbs g s = false)
    (ha : ∀ g', Event.added g' s ∉ q) : home (q ++ log) s = some g := by
  induction q with
  | nil => exact h0
  | cons ev q ih =>
    have ih := ih (fun x hx => hq x (List.mem_cons_of_mem _ hx)) (fun g' hx => ha g' (List.mem_cons_of_mem _ hx))
    have hev := hq ev (by simp)
    rw [List.cons_append]
    cases ev <;> simp only [Event.disturbs, decide_eq_false_iff_not] at hev <;> simp only [home] <;> try exact ih
    case added g' s' =>
      have : s ≠ s' := by rintro rfl; exact ha g' (by simp)
      rw [if_neg this]; exact ih
    case removed => rw [if_neg (fun e => hev e.symm)]; exact ih
    case erased => rw [if_neg (fun e => hev e.symm)]; exact ih
    case moved => rw [if_neg (by rw [ih]; simpa using fun e => hev e.symm)]; exact ih
    case destroyed => rw [if_neg (by rw [ih]; simpa using fun e => hev e.symm)]; exact ih

theorem flags_calm {g : SigId} {s : SlotId} {q log : List Event} (h0 : blockedAfter log s = false ∧ connectedAfter log s = true)
    (hq : ∀ ev ∈ q, ev.disturbs g s = false) (hc : ∀ g' c b, Event.created g' s c b ∉ q) (hx : ∀ e, Event.skip e s .expired ∉ q) :
    blockedAfter (q ++ log) s = false ∧ connectedAfter (q ++ log) s = true := by
  induction q with
  | nil => exact h0
  | cons ev q ih =>
    have ih := ih (fun x hx => hq x (List.mem_cons_of_mem _ hx)) (fun g' c b hx => hc g' c b (List.mem_cons_of_mem _ hx))
      (fun e hx' => hx e (List.mem_cons_of_mem _ hx'))
    have hev := hq ev (by simp)
    rw [List.cons_append]
    cases ev <;> try exact ih
    case created g' s' c b =>
      have : s' ≠ s := by rintro rfl; exact hc g' c b (by simp)
      simp only [blockedAfter, connectedAfter, if_neg this]; exact ih
    case blockSet s' c =>
      simp only [blockedAfter, connectedAfter]
      refine ⟨?_, ih.2⟩
      split
      · rename_i e
        subst e
        simpa [Event.disturbs] using hev
      · exact ih.1
    case exch s' b =>
      have : s' ≠ s := by simpa [Event.disturbs] using hev
      simp only [blockedAfter, connectedAfter, if_neg this]; exact ih
    case skip e s' why =>
      cases why <;> try exact ih
      have : s' ≠ s := by rintro rfl; exact hx e (by simp)
      simp only [blockedAfter, connectedAfter, if_neg this]; exact ih

/-- C62: from the return of `connect` on, every emission of the signal that begins and ends calls the listener exactly once, as long as nobody disconnects, blocks or
removes it, its tracked object (if any) is alive, and the signal is neither moved nor destroyed. Whatever happens to other listeners, and on
whatever threads the emissions are. -/
theorem C62_each (h : Reachable E w) {post pre : List Event} {g : SigId} {s : SlotId} (hl : w.log = post ++ .connRet t g s :: pre)
    (hc : Event.created g s true false ∈ pre) (ho : ∀ o, (w.slots s).fn.obj? = some o → w.objAlive o = true)
    (hq : ∀ ev ∈ post, ev.disturbs g s = false) {u : Tid} {m : Em} {r : Option Val} (hb : Event.began u m ∈ post) (hg : m.g = g)
    (hm : m.comb = .lastValue) (hd : Event.done m.e r ∈ w.log) : ((trace w.log m.e).filterMap Event.entered).count s = 1 := by
  obtain ⟨u', m', items, vs, args, he, -, -, hs, htr⟩ := done_shape h hd
  have : u = u' ∧ m = m' := by
    refine (h.full.shape m.e).began_eq (mem_tr (by rw [hl]; simp [hb]) rfl) ?_
    rw [htr]; simp
  obtain ⟨rfl, rfl⟩ := this
  have cu : ∀ g' c b, Event.created g' s c b ∉ post := by
    intro g' c b hx
    obtain ⟨p2, p1, rfl⟩ := List.append_of_mem hx
    exact (h.full.h.at (ev := .created g' s c b) (post := p2) (pre := p1 ++ .connRet t g s :: pre) (by rw [hl]; simp)) g true false (by simp [hc])
  have ad := h.full.h.at hl
  have au : ∀ g', Event.added g' s ∉ post := by
    intro g' hx
    have h1 := h.full.i.i3.adds s
    have h2 : 0 < post.countP (Event.adds s) := List.countP_pos_iff.2 ⟨_, hx, by simp [Event.adds]⟩
    have h3 : 0 < pre.countP (Event.adds s) := List.countP_pos_iff.2 ⟨_, ad, by simp [Event.adds]⟩
    rw [hl, List.countP_append, List.countP_cons] at h1
    omega
  have xp : ∀ e, Event.skip e s .expired ∉ post := by
    intro e hx
    obtain ⟨p2, p1, rfl⟩ := List.append_of_mem hx
    obtain ⟨-, -, o, h1, h2⟩ := h.full.h.at (ev := .skip e s .expired) (post := p2) (pre := p1 ++ .connRet t g s :: pre) (by rw [hl]; simp)
    rw [ho o h1] at h2; cases h2
  have f0 : blockedAfter (.connRet t g s :: pre) s = false ∧ connectedAfter (.connRet t g s :: pre) s = true := by
    have hu : ∀ g' c' b', Event.created g' s c' b' ∈ pre → c' = true ∧ b' = false := fun g' c' b' hx =>
      (created_unique h.full.h (s := s) (g := g') (g' := g) (c := c') (b := b') (c' := true) (b' := false) (by rw [hl]; simp [hx]) (by rw [hl]; simp [hc])).2
    exact initial_flags (log := pre) hc hu (h.inv8.hist _ _ _ hl).2
  -- the part of the history that ends in something this emission did after it began
  have cut : ∀ {a b : List Event} {ev : Event}, w.log = a ++ ev :: b → Event.began u m ∈ b → ∃ q, post = a ++ q ∧ ev :: b = q ++ .connRet t g s :: pre := by
    intro a b ev e hbb
    rw [hl] at e
    rcases List.append_eq_append_iff.1 e with ⟨c, h2, h3⟩ | ⟨c, h2, h3⟩
    · exfalso
      have hbp : Event.began u m ∈ pre := by
        cases c with
        | nil =>
          simp only [List.nil_append, List.cons.injEq] at h3
          rw [h3.2]; exact hbb
        | cons x c =>
          simp only [List.cons_append, List.cons.injEq] at h3
          rw [h3.2]; simp [hbb]
      have h4 : (trace w.log m.e).countP (· == .began u m) ≤ 1 := by
        rw [htr]
        simp only [List.countP_cons, List.countP_append]
        have : (vs.flatMap (·.events m.e)).countP (· == .began u m) = 0 := List.countP_eq_zero.2 fun x hx hxx => by
          rw [beq_iff_eq] at hxx; subst hxx; exact no_began_visits hx
        simp [this]
      have h5 : w.log.countP (· == .began u m) = (trace w.log m.e).countP (· == .began u m) := by
        simp only [trace, List.countP_reverse, List.countP_filter]
        refine List.countP_congr fun x _ => ?_
        simp only [Bool.and_eq_true, beq_iff_eq]
        constructor
        · rintro rfl; exact ⟨rfl, rfl⟩
        · exact fun h => h.1
      rw [← h5, hl, List.countP_append, List.countP_cons] at h4
      have h6 : 0 < post.countP (· == .began u m) := List.countP_pos_iff.2 ⟨_, hb, by simp⟩
      have h7 : 0 < pre.countP (· == .began u m) := List.countP_pos_iff.2 ⟨_, hbp, by simp⟩
      omega
    · exact ⟨c, h2, h3⟩
  have hmem : s ∈ items := by
    obtain ⟨l3, l2, l1, e, -, -, -⟩ := trace_split (A := []) (by rw [htr]; rfl)
    obtain ⟨q, h1, h2⟩ := cut e (by simp)
    rw [C09_early h e, hg]
    cases q with
    | nil => simp at h2
    | cons x q =>
      simp only [List.cons_append, List.cons.injEq] at h2
      rw [h2.2]
      exact home_calm (connRet_home h hl) (fun ev hev => hq ev (by rw [h1]; simp [hev])) fun g' hx => au g' (by rw [h1]; simp [hx])
  refine C44 h hs hd hm hmem ho fun p2 mid i p1 e _ => ?_
  have hbb : Event.began u m ∈ p1 := by
    have hv : trace w.log m.e = trace (.visit m.e i s :: p1) m.e ++ trace (p2 ++ mid) m.e := by
      rw [e]
      simp [trace]
    have hv' : trace (.visit m.e i s :: p1) m.e = trace p1 m.e ++ [.visit m.e i s] := by
      simp [trace, Event.em]
    rw [hv, hv'] at htr
    have h1 : Event.began u m ∈ trace p1 m.e := by
      cases h2 : trace p1 m.e with
      | nil => rw [h2] at htr; simp at htr
      | cons x l => rw [h2] at htr; simp at htr; simp [htr.1]
    simp only [trace, List.mem_reverse, List.mem_filter] at h1
    exact h1.1
  obtain ⟨q, h1, h2⟩ := cut (a := p2 ++ mid) (ev := .visit m.e i s) (b := p1) (by rw [e]; simp) hbb
  have q2 : ∀ x ∈ mid ++ q, x ∈ post := fun x hx => by
    rw [h1, List.append_assoc]
    exact List.mem_append_right _ hx
  rw [h2, ← List.append_assoc]
  exact flags_calm f0 (fun ev hev => hq ev (q2 ev hev)) (fun g' c b hx => cu g' c b (q2 _ hx)) fun e' hx => xp e' (q2 _ hx)

/-! ### All of them together -/

/-- Some emission begins. -/
def Event.isBegan : Event → Bool
  | .began _ _ => true
  | _ => false

theorem Shape.began_once {e : EmId} {tr : List Event} (h : Shape w e tr) : tr.countP Event.isBegan ≤ 1 := by
  cases h with
  | none => simp
  | began => simp [Event.isBegan]
  | snap t m items vs args tail he hv htl =>
    have h1 : (vs.flatMap (·.events e)).countP Event.isBegan = 0 := by
      refine List.countP_eq_zero.2 fun x hx => ?_
      cases x <;> simp [Event.isBegan]
      exact no_began_visits hx
    have h2 : tail.countP Event.isBegan = 0 := by cases htl <;> simp [Event.isBegan]
    simp [List.countP_cons, List.countP_append, h1, h2, Event.isBegan]

theorem begins_nodup (h : Reachable E w) {post pre : List Event} (hl : w.log = post ++ pre) (g : SigId) :
    (post.filterMap (Event.begins g)).Nodup := by
  have key : ∀ e : EmId, post.countP (fun ev => Event.begins g ev == some e) ≤ 1 := by
    intro e
    refine Nat.le_trans ?_ (h.full.shape e).began_once
    simp only [trace, List.countP_reverse, List.countP_filter, hl, List.countP_append]
    refine Nat.le_trans (List.countP_mono_left fun ev _ hev => ?_) (Nat.le_add_right _ _)
    cases ev <;> simp [Event.begins, Event.isBegan, Event.em] at hev ⊢
    exact hev.2
  clear hl
  induction post with
  | nil => simp
  | cons ev post ih =>
    have ih := ih fun e => Nat.le_trans (List.Sublist.countP_le (List.sublist_cons_self ev post)) (key e)
    rw [List.filterMap_cons]
    split
    · exact ih
    · rename_i e he
      refine List.nodup_cons.2 ⟨fun hx => ?_, ih⟩
      obtain ⟨x, hx, hxe⟩ := List.mem_filterMap.1 hx
      have h1 := key e
      rw [List.countP_cons_of_pos (by simp [he])] at h1
      have h2 : 0 < post.countP (fun ev => Event.begins g ev == some e) := List.countP_pos_iff.2 ⟨x, hx, by simp [hxe]⟩
      omega

theorem calls_one (log : List Event) (s : SlotId) (e : EmId) :
    log.countP (Event.callsIn s [e]) = ((trace log e).filterMap Event.entered).count s := by
  rw [List.count_filterMap, trace, List.countP_reverse, List.countP_filter]
  refine List.countP_congr fun ev _ => ?_
  cases ev <;> simp [Event.callsIn, Event.entered, Event.em]

theorem calls_cons (log : List Event) (s : SlotId) {e : EmId} {ems : List EmId} (he : e ∉ ems) :
    log.countP (Event.callsIn s (e :: ems)) = log.countP (Event.callsIn s [e]) + log.countP (Event.callsIn s ems) := by
  induction log with
  | nil => simp
  | cons ev log ih =>
    simp only [List.countP_cons, ih]
    have : (if Event.callsIn s (e :: ems) ev = true then 1 else 0) =
        (if Event.callsIn s [e] ev = true then 1 else 0) + (if Event.callsIn s ems ev = true then 1 else 0) := by
      cases ev <;> simp [Event.callsIn]
      rename_i e' s' a
      by_cases h1 : e' = e
      · subst h1; by_cases h2 : s' = s <;> simp [he, h2]
      · by_cases h2 : s' = s <;> simp [h1, h2]
    omega

theorem calls_between {log : List Event} {s : SlotId} {fin : EmId → Bool} : ∀ {ems : List EmId}, ems.Nodup →
    (∀ e ∈ ems, log.countP (Event.callsIn s [e]) ≤ 1 ∧ (fin e = true → log.countP (Event.callsIn s [e]) = 1)) →
    ems.countP fin ≤ log.countP (Event.callsIn s ems) ∧ log.countP (Event.callsIn s ems) ≤ ems.length
  | [], _, _ => by
    have : log.countP (Event.callsIn s []) = 0 := List.countP_eq_zero.2 fun x _ => by cases x <;> simp [Event.callsIn]
    simp [this]
  | e :: ems, hn, h => by
    obtain ⟨h1, h2⟩ := List.nodup_cons.1 hn
    obtain ⟨i1, i2⟩ := calls_between (fin := fin) h2 fun e' he' => h e' (List.mem_cons_of_mem _ he')
    obtain ⟨j1, j2⟩ := h e (by simp)
    rw [calls_cons log s h1, List.countP_cons, List.length_cons]
    constructor
    · split
      · rename_i hf; have := j2 hf; omega
      · omega
    · omega

theorem calls_le (h : Reachable E w) {m : Em} {u : Tid} (hb : Event.began u m ∈ w.log) (hm : m.comb = .lastValue) (s : SlotId) :
    w.log.countP (Event.callsIn s [m.e]) ≤ 1 := by
  rw [calls_one]
  by_cases hx : s ∈ (trace w.log m.e).filterMap Event.entered
  · obtain ⟨ev, h1, h2⟩ := List.mem_filterMap.1 hx
    obtain ⟨m', items, hs⟩ := (h.full.shape m.e).has_snap h1 (by rintro t m rfl; cases h2)
    obtain ⟨t, vs, args, tail, he, hv, htl, e1⟩ := (h.full.shape m.e).of_snap hs
    have : m = m' := ((h.full.shape m.e).began_eq (t' := t) (mem_tr hb rfl) (by rw [e1]; simp)).2
    subst this
    have hs := (mem_trace.1 hs).1
    exact List.nodup_iff_count.1 ((C07_calls h hs hm).nodup (C19_nodup h hs)) s
  · rw [List.count_eq_zero.2 hx]; omega

/-- C62: the emissions begun since `connect` returned. Those of them that have ended have called the listener as many times as they are, and all of them
together at most as many times as they are. -/
theorem C62 (h : Reachable E w) {post pre : List Event} {g : SigId} {s : SlotId} (hl : w.log = post ++ .connRet t g s :: pre)
    (hc : Event.created g s true false ∈ pre) (ho : ∀ o, (w.slots s).fn.obj? = some o → w.objAlive o = true)
    (hq : ∀ ev ∈ post, ev.disturbs g s = false) (hm : ∀ u m, Event.began u m ∈ post → m.g = g → m.comb = .lastValue) :
    w.log.countP (Event.callsIn s ((post.filterMap (Event.begins g)).filter fun e => w.log.any (Event.ends e))) =
      ((post.filterMap (Event.begins g)).filter fun e => w.log.any (Event.ends e)).length ∧
    w.log.countP (Event.callsIn s (post.filterMap (Event.begins g))) ≤ (post.filterMap (Event.begins g)).length := by
  have key : ∀ e ∈ post.filterMap (Event.begins g), w.log.countP (Event.callsIn s [e]) ≤ 1 ∧
      (w.log.any (Event.ends e) = true → w.log.countP (Event.callsIn s [e]) = 1) := by
    intro e he
    obtain ⟨ev, h1, h2⟩ := List.mem_filterMap.1 he
    cases ev <;> simp [Event.begins] at h2
    rename_i u m
    obtain ⟨hg, rfl⟩ := h2
    refine ⟨calls_le h (u := u) (by rw [hl]; simp [h1]) (hm u m h1 hg) s, fun hf => ?_⟩
    obtain ⟨d, h3, h4⟩ := List.any_eq_true.1 hf
    cases d <;> simp [Event.ends] at h4
    subst h4
    rw [calls_one]
    exact C62_each h hl hc ho hq h1 hg (hm u m h1 hg) h3
  have hn := begins_nodup h hl g
  refine ⟨?_, (calls_between (fin := fun _ => false) hn fun e he => ⟨(key e he).1, by simp⟩).2⟩
  have := calls_between (fin := fun _ => true) (log := w.log) (s := s) (hn.filter fun e => w.log.any (Event.ends e))
    fun e he => ⟨(key e (List.mem_filter.1 he).1).1, fun _ => (key e (List.mem_filter.1 he).1).2 (List.mem_filter.1 he).2⟩
  rw [List.countP_true] at this
  omega

/-- C62: once they have all ended, the listener has been called as many times as there were emissions. -/
theorem C62_exact (h : Reachable E w) {post pre : List Event} {g : SigId} {s : SlotId} (hl : w.log = post ++ .connRet t g s :: pre)
    (hc : Event.created g s true false ∈ pre) (ho : ∀ o, (w.slots s).fn.obj? = some o → w.objAlive o = true)
    (hq : ∀ ev ∈ post, ev.disturbs g s = false) (hm : ∀ u m, Event.began u m ∈ post → m.g = g → m.comb = .lastValue)
    (hd : ∀ u m, Event.began u m ∈ post → m.g = g → ∃ r, Event.done m.e r ∈ w.log) :
    w.log.countP (Event.callsIn s (post.filterMap (Event.begins g))) = (post.filterMap (Event.begins g)).length := by
  have h1 := (C62 h hl hc ho hq hm).1
  rw [List.filter_eq_self.2 fun e he => ?_] at h1
  · exact h1
  · obtain ⟨ev, h3, h4⟩ := List.mem_filterMap.1 he
    cases ev <;> simp [Event.begins] at h4
    rename_i u m
    obtain ⟨hg, rfl⟩ := h4
    obtain ⟨r, hr⟩ := hd u m h3 hg
    exact List.any_eq_true.2 ⟨_, hr, by simp [Event.ends]⟩

namespace Demo
/-- Listener 0 is connected; two threads emit at the same time, and the second connects another listener and emits again from inside the call. -/
def crowd : List Label :=
  [.call 0 (.newSig false)] ++ connect 0 10 0 ++
  [.call 0 (.emit 0 .lastValue []), .call 1 (.emit 0 .lastValue [])] ++ go 0 8 ++ go 1 8 ++
  connect 1 11 1 ++ go 1 1 ++ [.call 1 (.emit 0 .lastValue [])] ++ go 1 8 ++ [.ret 0 5] ++ go 0 1 ++
  [.ret 1 6] ++ go 1 4 ++ [.ret 1 7] ++ go 1 1
end Demo

-- two of the three emissions are over, the third is inside its call of listener 0: it has been called three times
example : let w := Demo.world 2 Demo.crowd
    (w.log.any (Event.ends 0), w.log.any (Event.ends 2), w.log.any (Event.ends 1)) = (true, true, false) ∧
    w.log.countP (Event.callsIn 0 [0, 1, 2]) = 3 ∧ w.log.countP (Event.callsIn 1 [0, 1, 2]) = 1 := by
  decide +kernel

example : let w := Demo.world 2 (Demo.crowd ++ .ret 1 8 :: Demo.go 1 1)
    w.log.countP (Event.callsIn 0 [2, 1, 0]) = 3 := by
  intro w
  have hl : w.log = w.log.take 24 ++ .connRet 0 0 0 :: w.log.drop 25 := by decide +kernel
  have h := C62_exact (Demo.reach 2 (Demo.crowd ++ .ret 1 8 :: Demo.go 1 1)) (g := 0) (s := 0) hl (by decide +kernel)
    (fun o ho => by
      have : (w.slots 0).fn.obj? = none := by decide +kernel
      rw [this] at ho; cases ho) (by decide +kernel) ?_ ?_
  · have e : (w.log.take 24).filterMap (Event.begins 0) = [2, 1, 0] := by decide +kernel
    rw [e] at h
    exact h
  · have : ∀ ev ∈ w.log.take 24, (match ev with | .began _ m => decide (m.comb = .lastValue) | _ => true) = true := by decide +kernel
    exact fun u m hm _ => of_decide_eq_true (this _ hm)
  · have : ∀ ev ∈ w.log.take 24, (match ev with | .began _ m => w.log.any (Event.ends m.e) | _ => true) = true := by decide +kernel
    intro u m hm _
    obtain ⟨d, h1, h2⟩ := List.any_eq_true.1 (this _ hm)
    cases d <;> simp [Event.ends] at h2
    subst h2
    exact ⟨_, h1⟩

end Verif
