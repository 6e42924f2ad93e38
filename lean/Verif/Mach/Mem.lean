import Verif.Memory

/-!
# Lemmas about sequences of memory operations
-/

namespace Verif

/-- An access: its position in the trace, thread, location and reason. -/
structure Acc where
  n : Nat
  t : Tid
  loc : Loc
  site : Site
deriving DecidableEq, Repr

/-- Two accesses conflict. -/
def conflict (a b : Acc) : Bool := decide (a.loc = b.loc) && decide (a.t ≠ b.t) && (a.site.writes || b.site.writes)

/-- The accesses that happen before whatever a thread does next, computed along a trace. -/
structure HB where
  /-- the number of operations so far -/
  n : Nat
  acc : List Acc
  /-- accesses that happen before the next action of a thread -/
  K : Tid → List Nat
  /-- accesses that happen before the last unlock of a mutex -/
  M : SigId → List Nat
  /-- accesses that happen before some decrement of a reference count -/
  R : BlkId → List Nat
  /-- accesses that happen before some operation on a flag -/
  F : SlotId → List Nat
  races : List (Acc × Acc)

def HB.init : HB := ⟨0, [], fun _ => [], fun _ => [], fun _ => [], fun _ => [], []⟩

/-- One memory operation of thread `t`. -/
def HB.op (c : Sync) (t : Tid) (h : HB) : Mem → HB
  | .acc l k =>
      let a : Acc := ⟨h.n, t, l, k⟩
      { h with
        n := h.n + 1
        acc := a :: h.acc
        K := upd h.K t (h.n :: h.K t)
        races := ((h.acc.filter fun e => conflict e a && !(h.K t).contains e.n).map fun e => (e, a)) ++ h.races }
  | .lock g => { h with n := h.n + 1, K := upd h.K t (h.K t ++ h.M g) }
  | .unlock g => { h with n := h.n + 1, M := upd h.M g (h.M g ++ h.K t) }
  | .drop b last =>
      { h with
        n := h.n + 1
        R := upd h.R b (h.R b ++ h.K t)
        K := if last then upd h.K t (h.K t ++ h.R b) else h.K }
  | .count b => if c.count then { h with n := h.n + 1, K := upd h.K t (h.K t ++ h.R b) } else { h with n := h.n + 1 }
  | .flag s =>
      if c.flags then { h with n := h.n + 1, K := upd h.K t (h.K t ++ h.F s), F := upd h.F s (h.F s ++ h.K t) }
      else { h with n := h.n + 1 }

/-- Several memory operations of thread `t`. -/
def HB.run (c : Sync) (t : Tid) (h : HB) (ops : List Mem) : HB := ops.foldl (HB.op c t) h

variable {c : Sync} {t : Tid} {h : HB}

theorem run_nil : h.run c t [] = h := rfl

theorem run_cons (o : Mem) (ops : List Mem) : h.run c t (o :: ops) = (h.op c t o).run c t ops := rfl

theorem run_append (ops ops' : List Mem) : h.run c t (ops ++ ops') = (h.run c t ops).run c t ops' := by
  unfold HB.run; rw [List.foldl_append]

/-- What never shrinks. -/
structure Grows (t : Tid) (h h' : HB) : Prop where
  K : ∀ t', ∀ n ∈ h.K t', n ∈ h'.K t'
  Ko : ∀ t', t' ≠ t → h'.K t' = h.K t'
  M : ∀ g, ∀ n ∈ h.M g, n ∈ h'.M g
  R : ∀ b, ∀ n ∈ h.R b, n ∈ h'.R b
  n : h.n ≤ h'.n
  acc : ∀ a ∈ h.acc, a ∈ h'.acc
  old : ∀ a ∈ h'.acc, a ∈ h.acc ∨ (a.t = t ∧ h.n ≤ a.n ∧ a.n < h'.n ∧ a.n ∈ h'.K t)

theorem Grows.refl (t : Tid) (h : HB) : Grows t h h :=
  ⟨fun _ _ h => h, fun _ _ => rfl, fun _ _ h => h, fun _ _ h => h, Nat.le_refl _, fun _ h => h, fun _ h => .inl h⟩

theorem Grows.trans {h h1 h2 : HB} (a : Grows t h h1) (b : Grows t h1 h2) : Grows t h h2 where
  K t' n hn := b.K t' n (a.K t' n hn)
  Ko t' ht := (b.Ko t' ht).trans (a.Ko t' ht)
  M g n hn := b.M g n (a.M g n hn)
  R g n hn := b.R g n (a.R g n hn)
  n := Nat.le_trans a.n b.n
  acc x hx := b.acc x (a.acc x hx)
  old x hx := by
    rcases b.old x hx with hx | ⟨h1, h2, h3, h4⟩
    · rcases a.old x hx with hx | ⟨h1, h2, h3, h4⟩
      · exact .inl hx
      · exact .inr ⟨h1, h2, Nat.lt_of_lt_of_le h3 b.n, b.K _ _ h4⟩
    · exact .inr ⟨h1, Nat.le_trans a.n h2, h3, h4⟩

theorem upd_mono {f : Nat → List Nat} {a : Nat} {L : List Nat} (hL : ∀ n ∈ f a, n ∈ L) (x : Nat) :
    ∀ n ∈ f x, n ∈ upd f a L x := by
  intro n hn; unfold upd; split
  · rename_i e; subst e; exact hL n hn
  · exact hn

theorem op_grows (o : Mem) : Grows t h (h.op c t o) := by
  have id {f : Nat → List Nat} : ∀ x, ∀ n ∈ f x, n ∈ f x := fun _ _ h => h
  have app {f : Nat → List Nat} (a : Nat) (L : List Nat) : ∀ x, ∀ n ∈ f x, n ∈ upd f a (f a ++ L) x :=
    upd_mono (fun n hn => List.mem_append_left _ hn)
  have ne {f : Nat → List Nat} {L : List Nat} : ∀ x, x ≠ t → upd f t L x = f x := fun x hx => if_neg hx
  cases o with
  | acc l k =>
    refine ⟨upd_mono (fun n hn => List.mem_cons_of_mem _ hn), ne, id, id, Nat.le_succ _,
      fun a ha => List.mem_cons_of_mem _ ha, ?_⟩
    intro a ha
    rcases List.mem_cons.1 ha with rfl | ha
    · exact .inr ⟨rfl, Nat.le_refl _, Nat.lt_succ_self _, by simp [HB.op, upd]⟩
    · exact .inl ha
  | lock g => exact ⟨app t _, ne, id, id, Nat.le_succ _, fun _ h => h, fun _ h => .inl h⟩
  | unlock g => exact ⟨id, fun _ _ => rfl, app g _, id, Nat.le_succ _, fun _ h => h, fun _ h => .inl h⟩
  | drop b last =>
    cases last
    · exact ⟨id, fun _ _ => rfl, id, app b _, Nat.le_succ _, fun _ h => h, fun _ h => .inl h⟩
    · exact ⟨app t _, ne, id, app b _, Nat.le_succ _, fun _ h => h, fun _ h => .inl h⟩
  | count b =>
    unfold HB.op; simp only; split
    · exact ⟨app t _, ne, id, id, Nat.le_succ _, fun _ h => h, fun _ h => .inl h⟩
    · exact ⟨id, fun _ _ => rfl, id, id, Nat.le_succ _, fun _ h => h, fun _ h => .inl h⟩
  | flag s =>
    unfold HB.op; simp only; split
    · exact ⟨app t _, ne, id, id, Nat.le_succ _, fun _ h => h, fun _ h => .inl h⟩
    · exact ⟨id, fun _ _ => rfl, id, id, Nat.le_succ _, fun _ h => h, fun _ h => .inl h⟩

theorem run_grows (ops : List Mem) : Grows t h (h.run c t ops) := by
  induction ops generalizing h with
  | nil => exact .refl t h
  | cons o ops ih => exact (op_grows o).trans ih

/-- Every new access comes from one of the operations. -/
theorem run_acc {ops : List Mem} {a : Acc} (ha : a ∈ (h.run c t ops).acc) :
    a ∈ h.acc ∨ (Mem.acc a.loc a.site ∈ ops ∧ a.t = t ∧ h.n ≤ a.n ∧ a.n < (h.run c t ops).n ∧ a.n ∈ (h.run c t ops).K t) := by
  have : a ∈ h.acc ∨ Mem.acc a.loc a.site ∈ ops := by
    induction ops generalizing h with
    | nil => exact .inl ha
    | cons o ops ih =>
      rw [run_cons] at ha
      rcases ih ha with h1 | h1
      · cases o with
        | acc l k =>
          rcases List.mem_cons.1 h1 with rfl | h1
          · exact .inr (by simp)
          · exact .inl h1
        | lock g => exact .inl h1
        | unlock g => exact .inl h1
        | drop b last => exact .inl h1
        | count b => unfold HB.op at h1; simp only at h1; split at h1 <;> exact .inl h1
        | flag b => unfold HB.op at h1; simp only at h1; split at h1 <;> exact .inl h1
      · exact .inr (List.mem_cons_of_mem _ h1)
  rcases (run_grows (c := c) ops).old a ha with h1 | h1
  · exact .inl h1
  · rcases this with h2 | h2
    · exact .inl h2
    · exact .inr ⟨h2, h1⟩

/-- Every new race is between an earlier access and one of the operations, and the earlier access was not known. -/
theorem run_races {ops : List Mem} {e a : Acc} (hr : (e, a) ∈ (h.run c t ops).races) :
    (e, a) ∈ h.races ∨ ∃ pre post, ops = pre ++ .acc a.loc a.site :: post ∧ e ∈ h.acc ∧ e.t ≠ t ∧ e.loc = a.loc ∧
      (e.site.writes = true ∨ a.site.writes = true) ∧ e.n ∉ (h.run c t pre).K t ∧ h.n ≤ a.n := by
  induction ops generalizing h with
  | nil => exact .inl hr
  | cons o ops ih =>
    rw [run_cons] at hr
    have keep : (h.op c t o).races = h.races → (e, a) ∈ h.races ∨ ∃ pre post, o :: ops = pre ++ .acc a.loc a.site :: post ∧
        e ∈ h.acc ∧ e.t ≠ t ∧ e.loc = a.loc ∧ (e.site.writes = true ∨ a.site.writes = true) ∧ e.n ∉ (h.run c t pre).K t ∧ h.n ≤ a.n := by
      intro hq
      rcases ih hr with h1 | ⟨pre, post, h1, h2, h3, h4⟩
      · rw [hq] at h1; exact .inl h1
      · refine .inr ⟨o :: pre, post, by rw [h1]; rfl, ?_, h3, h4.1, h4.2.1, h4.2.2.1, Nat.le_trans (op_grows o).n h4.2.2.2⟩
        rcases (op_grows o).old e h2 with h2 | ⟨h2, -⟩
        · exact h2
        · exact absurd h2 h3
    cases o with
    | acc l k =>
      rcases ih hr with h1 | ⟨pre, post, h1, h2, h3, h4⟩
      · rcases List.mem_append.1 h1 with h1 | h1
        · right
          obtain ⟨x, hx, e1⟩ := List.mem_map.1 h1
          obtain ⟨rfl, rfl⟩ := Prod.mk.inj e1
          simp only [List.mem_filter, conflict, Bool.and_eq_true, decide_eq_true_eq, Bool.or_eq_true, Bool.not_eq_true',
            List.contains_eq_mem, decide_eq_false_iff_not] at hx
          obtain ⟨h2, ⟨⟨h3, h4⟩, h5⟩, h6⟩ := hx
          exact ⟨[], ops, rfl, h2, h4, h3, h5, h6, Nat.le_refl _⟩
        · exact .inl h1
      · refine .inr ⟨.acc l k :: pre, post, by rw [h1]; rfl, ?_, h3, h4.1, h4.2.1, h4.2.2.1,
          Nat.le_trans (op_grows (c := c) (t := t) (.acc l k)).n h4.2.2.2⟩
        rcases (op_grows (c := c) (t := t) (.acc l k)).old e h2 with h2 | ⟨h2, -⟩
        · exact h2
        · exact absurd h2 h3
    | lock g => exact keep rfl
    | unlock g => exact keep rfl
    | drop b last => exact keep rfl
    | count b => exact keep (by unfold HB.op; simp only; split <;> rfl)
    | flag b => exact keep (by unfold HB.op; simp only; split <;> rfl)

/-! ### What the synchronising operations achieve -/

theorem run_mem {ops : List Mem} {o : Mem} (ho : o ∈ ops) : ∃ h1, Grows t h h1 ∧ Grows t (h1.op c t o) (h.run c t ops) := by
  obtain ⟨pre, post, rfl⟩ := List.append_of_mem ho
  refine ⟨h.run c t pre, run_grows pre, ?_⟩
  rw [run_append, run_cons]
  exact run_grows post

theorem run_lock {ops : List Mem} {g : SigId} (ho : Mem.lock g ∈ ops) : ∀ n ∈ h.M g, n ∈ (h.run c t ops).K t := by
  obtain ⟨h1, g1, g2⟩ := run_mem (c := c) (t := t) (h := h) ho
  intro n hn
  exact g2.K t n (by simp [HB.op, upd, g1.M g n hn])

theorem run_unlock {ops : List Mem} {g : SigId} (ho : Mem.unlock g ∈ ops) : ∀ n ∈ h.K t, n ∈ (h.run c t ops).M g := by
  obtain ⟨h1, g1, g2⟩ := run_mem (c := c) (t := t) (h := h) ho
  intro n hn
  exact g2.M g n (by simp [HB.op, upd, g1.K t n hn])

theorem run_drop {ops : List Mem} {b : BlkId} {l : Bool} (ho : Mem.drop b l ∈ ops) :
    ∀ n ∈ h.K t, n ∈ (h.run c t ops).R b := by
  obtain ⟨h1, g1, g2⟩ := run_mem (c := c) (t := t) (h := h) ho
  intro n hn
  exact g2.R b n (by simp [HB.op, upd, g1.K t n hn])

theorem run_last {ops : List Mem} {b : BlkId} (ho : Mem.drop b true ∈ ops) :
    ∀ n ∈ h.R b, n ∈ (h.run c t ops).K t := by
  obtain ⟨h1, g1, g2⟩ := run_mem (c := c) (t := t) (h := h) ho
  intro n hn
  exact g2.K t n (by simp [HB.op, upd, g1.R b n hn])

theorem run_count {ops : List Mem} {b : BlkId} (hc : c.count = true) (ho : Mem.count b ∈ ops) :
    ∀ n ∈ h.R b, n ∈ (h.run c t ops).K t := by
  obtain ⟨h1, g1, g2⟩ := run_mem (c := c) (t := t) (h := h) ho
  intro n hn
  exact g2.K t n (by simp [HB.op, hc, upd, g1.R b n hn])

/-- Without `unlock g`, what is known of mutex `g` stays. -/
theorem run_split {ops pre post : List Mem} (e : ops = pre ++ post) : h.run c t ops = (h.run c t pre).run c t post := by
  rw [e, run_append]

end Verif
