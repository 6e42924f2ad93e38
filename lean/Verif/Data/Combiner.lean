import Verif.Data.OptCmp

/-!
# Combiners and property C36

`optional_last_value` (signals.hpp:1619-1638), `maximum_value` (README.md:246-265, examples/maximum_value/maximum_value.cpp:5-23),
`aggregate_values` (README.md:310-328, examples/aggregate_values/aggregate_values.cpp:6-23), `max_or_default`
(tests/signal_tests.cpp:354-373).

A combiner is given two iterators. Dereferencing one runs a listener, so the combiner is a program with effects: `Loop` records which
positions it dereferences.
-/

namespace Verif.Combiner

open OptCmp

variable {α β : Type}

/-- The `k`-th dereference that a combiner makes gives `d k pos`, with `pos` the position of the iterator. -/
abbrev Deref (α : Type) := Nat → Nat → Option α

/-- `while (first != last) { ... *first ...; ++first; }` from position `i`, `k` listeners having been run: the final state and the
positions dereferenced. `*first` and `++first`, or `*first++` at once (1107-1119, 1126-1135). `last` is position `n`. -/
def loop (d : Deref α) (body : β → Option α → β) (n i k : Nat) (b : β) : β × List Nat :=
  if i < n then
    let r := loop d body n (i + 1) (k + 1) (body b (d k i))
    (r.1, i :: r.2)
  else (b, [])
termination_by n - i

/-- `optional_last_value::operator()` (1625-1637) -/
def lastValue (d : Deref α) (n : Nat) : Option α × List Nat :=
  loop d (fun result temp => if temp.isSome then temp else result) n 0 0 none

/-- `maximum_value::operator()` (maximum_value.cpp:11-22) -/
def maximum (R : Rel α) (d : Deref α) (n : Nat) : Option α × List Nat :=
  loop d (fun max tmp => if oo R .gt tmp max then tmp else max) n 0 0 none

/-- `aggregate_values::operator()` (aggregate_values.cpp:12-22) -/
def aggregate (d : Deref α) (n : Nat) : List α × List Nat :=
  loop d (fun values value => match value with | some v => values ++ [v] | none => values) n 0 0 []

/-- `max_or_default::operator()` (signal_tests.cpp:359-372); `dflt` is `T()` -/
def maxOrDefault (R : Rel α) (dflt : α) (d : Deref α) (n : Nat) : α × List Nat :=
  let r := maximum R d n
  (match r.1 with | some v => v | none => dflt, r.2)

/-- The results of the listeners in the order in which they are run: the `k`-th is run at position `k`. -/
def results (d : Deref α) (n : Nat) : List (Option α) := (List.range n).map fun k => d k k

theorem loop_spec (d : Deref α) (body : β → Option α → β) (n i : Nat) (b : β) (h : i ≤ n) :
    loop d body n i i b = (((List.range' i (n - i)).map fun k => d k k).foldl body b, List.range' i (n - i)) := by
  generalize hm : n - i = m
  induction m generalizing i b with
  | zero =>
    unfold loop
    rw [if_neg (by omega)]; rfl
  | succ m ih =>
    unfold loop
    rw [if_pos (by omega), ih (i + 1) _ (by omega) (by omega)]
    rfl

theorem loop_all (d : Deref α) (body : β → Option α → β) (n : Nat) (b : β) :
    loop d body n 0 0 b = ((results d n).foldl body b, List.range n) := by
  rw [loop_spec d body n 0 b (Nat.zero_le n)]
  simp [results, List.range_eq_range']

/-- C36: the documented combiners run every listener exactly once, in order. -/
theorem C36_runs_all (R : Rel α) (v : α) (d : Deref α) (n : Nat) :
    (lastValue d n).2 = List.range n ∧ (maximum R d n).2 = List.range n ∧ (aggregate d n).2 = List.range n ∧
    (maxOrDefault R v d n).2 = List.range n := by
  simp [lastValue, maximum, aggregate, maxOrDefault, loop_all]

theorem fold_last (l : List (Option α)) (b : Option α) :
    l.foldl (fun result temp => if temp.isSome then temp else result) b = ((l.filterMap id).getLast?).or b := by
  induction l generalizing b with
  | nil => rfl
  | cons x l ih =>
    rw [List.foldl_cons, ih]
    cases x with
    | none => rfl
    | some v =>
      simp only [Option.isSome_some, if_true, List.filterMap_cons, id, List.getLast?_cons]
      cases (l.filterMap id).getLast? <;> rfl

/-- C36: `optional_last_value` returns the last engaged result; disengaged iff there is none. -/
theorem C36_last (d : Deref α) (n : Nat) : (lastValue d n).1 = ((results d n).filterMap id).getLast? := by
  simp only [lastValue, loop_all, fold_last]
  simp

/-- `m` is a greatest element of `l`. -/
def Greatest (R : Rel α) (l : List α) (m : α) : Prop := m ∈ l ∧ ∀ a ∈ l, R .lt m a = false

theorem fold_max {R : Rel α} (h : Total R) (l : List (Option α)) (b : Option α) :
    match l.foldl (fun max tmp => if oo R .gt tmp max then tmp else max) b with
    | none => b = none ∧ l.filterMap id = []
    | some m => Greatest R (b.toList ++ l.filterMap id) m := by
  induction l generalizing b with
  | nil =>
    cases b with
    | none => exact ⟨rfl, rfl⟩
    | some v => exact ⟨by simp, by simp [h.irrefl]⟩
  | cons x l ih =>
    rw [List.foldl_cons]
    have := ih (if oo R .gt x b then x else b)
    revert this
    generalize l.foldl (fun max tmp => if oo R .gt tmp max then tmp else max) (if oo R .gt x b then x else b) = res
    intro hres
    cases x with
    | none =>
      have e : (if oo R .gt none b = true then (none : Option α) else b) = b := by cases b <;> simp [oo, ltOO]
      rw [e] at hres
      exact hres
    | some v =>
      cases b with
      | none =>
        have e : (if oo R .gt (some v) none = true then some v else none) = some v := by simp [oo, ltOO]
        rw [e] at hres
        cases res with
        | none => cases hres.1
        | some m => simpa using hres
      | some u =>
        have g : oo R .gt (some v) (some u) = R .lt u v := rfl
        rw [g] at hres
        cases hc : R .lt u v with
        | true =>
          rw [hc, if_pos rfl] at hres
          cases res with
          | none => cases hres.1
          | some m =>
            obtain ⟨h1, h2⟩ := hres
            simp only [Option.toList_some, List.filterMap_cons, id, List.cons_append, List.nil_append, List.mem_cons] at h1 h2 ⊢
            refine ⟨by simp only [List.mem_cons]; exact .inr h1, fun a ha => ?_⟩
            simp only [List.mem_cons] at ha
            rcases ha with rfl | ha | ha
            · cases hm : R .lt m a with
              | false => rfl
              | true =>
                have := h2 v (.inl rfl)
                rw [h.trans _ _ _ hm hc] at this; cases this
            · exact h2 a (.inl ha)
            · exact h2 a (.inr ha)
        | false =>
          rw [hc, if_neg (by simp)] at hres
          cases res with
          | none => cases hres.1
          | some m =>
            obtain ⟨h1, h2⟩ := hres
            simp only [Option.toList_some, List.filterMap_cons, id, List.cons_append, List.nil_append, List.mem_cons] at h1 h2 ⊢
            refine ⟨by simp only [List.mem_cons]; rcases h1 with h1 | h1 <;> simp [h1], fun a ha => ?_⟩
            simp only [List.mem_cons] at ha
            rcases ha with ha | rfl | ha
            · exact h2 a (.inl ha)
            · cases hm : R .lt m a with
              | false => rfl
              | true =>
                rcases (h.not_lt a u).1 hc with h3 | rfl
                · have := h2 u (.inl rfl)
                  rw [h.trans _ _ _ hm h3] at this; cases this
                · have := h2 a (.inl rfl)
                  rw [hm] at this; cases this
            · exact h2 a (.inr ha)

/-- C36: over a totally ordered type `maximum_value` returns the greatest engaged result, and is disengaged exactly if there is
none. -/
theorem C36_maximum {R : Rel α} (h : Total R) (d : Deref α) (n : Nat) :
    (∀ m, (maximum R d n).1 = some m → Greatest R ((results d n).filterMap id) m) ∧
    ((maximum R d n).1 = none ↔ (results d n).filterMap id = []) := by
  have := fold_max h (results d n) none
  simp only [maximum, loop_all]
  revert this
  generalize (results d n).foldl _ none = res
  cases res with
  | none => intro h1; exact ⟨nofun, fun _ => h1.2, fun _ => rfl⟩
  | some m =>
    intro h1
    refine ⟨fun m' e => by cases e; simpa using h1, nofun, fun e => ?_⟩
    have := h1.1
    simp [e] at this

theorem fold_agg (l : List (Option α)) (b : List α) :
    l.foldl (fun values value => match value with | some v => values ++ [v] | none => values) b = b ++ l.filterMap id := by
  induction l generalizing b with
  | nil => simp
  | cons x l ih => rw [List.foldl_cons, ih]; cases x <;> simp

/-- C36: `aggregate_values` returns all engaged results, in the order in which the listeners ran. -/
theorem C36_aggregate (d : Deref α) (n : Nat) : (aggregate d n).1 = (results d n).filterMap id := by
  simp only [aggregate, loop_all, fold_agg, List.nil_append]

/-- C36: `max_or_default` returns the greatest engaged result, or `T()` if no listener gave one. -/
theorem C36_default {R : Rel α} (h : Total R) (v : α) (d : Deref α) (n : Nat) :
    ((results d n).filterMap id = [] → (maxOrDefault R v d n).1 = v) ∧
    ((results d n).filterMap id ≠ [] → Greatest R ((results d n).filterMap id) (maxOrDefault R v d n).1) := by
  obtain ⟨h1, h2⟩ := C36_maximum h d n
  simp only [maxOrDefault]
  cases e : (maximum R d n).1 with
  | none => exact ⟨fun _ => rfl, fun h3 => (h3 (h2.1 e)).elim⟩
  | some m => exact ⟨(fun h3 => by rw [h2.2 h3] at e; cases e), fun _ => h1 m e⟩

/-- The README uses `maximum_value` with `float`, which is not totally ordered: if the first result is NaN, it is the maximum, although
there are greater results than none at all: here the results are NaN, 1 and 2. -/
theorem C36_nan_false : ∃ (d : Deref (Option Int)) (n : Nat), results d n = [some none, some (some 1), some (some 2)] ∧
    (maximum nanRel d n).1 = some none :=
  ⟨fun k _ => [some none, some (some 1), some (some 2)].getD k none, 3, by decide, by
    simp only [maximum, loop_all]; decide⟩

-- the second of four listeners is blocked, the results of the others are 3, 5 and 4
/-- Four listeners. -/
def d4 : Deref Int := fun k _ => [some 3, none, some 5, some 4].getD k none
example : (maximum intRel d4 4).1 = some 5 ∧ (aggregate d4 4).1 = [3, 5, 4] ∧ (lastValue d4 4).1 = some 4 ∧
    (maxOrDefault intRel 0 d4 0).1 = 0 ∧ (lastValue d4 4).2 = [0, 1, 2, 3] := by
  simp only [maximum, aggregate, lastValue, maxOrDefault, loop_all]; decide

end Verif.Combiner
