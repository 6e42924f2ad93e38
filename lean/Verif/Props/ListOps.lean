import Verif.Vec

/-!
# C40 and the list part of C05/C06

The machine (`Verif.Machine`) uses exactly these list operations; that the running code computes them
under concurrency is proved in the machine files.
-/

namespace Verif

/-- C40: removing position `i` of a list of length `n + 1` puts the last element at position `i`
(unless `i` is the last position) and changes nothing else. -/
theorem C40_swap_with_last {α : Type} (front : List α) (x : α) (mid : List α) (z : α) :
    Vec.swapPop (front ++ x :: (mid ++ [z])) front.length = front ++ z :: mid := by
  have hlen : front.length < (front ++ x :: (mid ++ [z])).length := by simp
  apply List.ext_getElem?
  intro j
  rw [Vec.getElem?_swapPop _ _ hlen]
  have hl : (front ++ x :: (mid ++ [z])).length - 1 = front.length + mid.length + 1 := by
    simp; omega
  rw [hl]
  by_cases h1 : j < front.length
  · rw [if_pos (by omega), if_neg (by omega)]
    simp [List.getElem?_append_left h1]
  · by_cases h2 : j = front.length
    · subst h2
      rw [if_pos (by omega), if_pos rfl, List.getElem?_append_right (by omega),
        List.getElem?_append_right (by omega)]
      have : front.length + mid.length + 1 - front.length = mid.length + 1 := by omega
      rw [this]; simp
    · by_cases h3 : j < front.length + mid.length + 1
      · rw [if_pos h3, if_neg h2, List.getElem?_append_right (by omega),
          List.getElem?_append_right (by omega)]
        obtain ⟨k, hk⟩ : ∃ k, j - front.length = k + 1 := ⟨j - front.length - 1, by omega⟩
        rw [hk]; simp
        rw [List.getElem?_append_left (by omega)]
      · rw [if_neg h3, eq_comm, List.getElem?_eq_none_iff]; simp; omega

/-- C40: removing the last listener preserves the order of all others. -/
theorem C40_remove_last {α : Type} (front : List α) (x : α) :
    Vec.swapPop (front ++ [x]) front.length = front := by
  have hlen : front.length < (front ++ [x]).length := by simp
  apply List.ext_getElem?
  intro j
  rw [Vec.getElem?_swapPop _ _ hlen]
  simp only [List.length_append, List.length_cons, List.length_nil]
  by_cases h1 : j < front.length
  · rw [if_pos (by omega), if_neg (by omega), List.getElem?_append_left h1]
  · rw [if_neg (by omega), eq_comm, List.getElem?_eq_none_iff]; omega

/-- C40: whatever position is removed, the listeners before it keep their places. -/
theorem C40_prefix_kept {α : Type} (l : List α) (i : Nat) (h : i < l.length) :
    (Vec.swapPop l i).take i = l.take i := by
  apply List.ext_getElem?
  intro j
  by_cases hj : j < i
  · rw [List.getElem?_take_of_lt hj, List.getElem?_take_of_lt hj, Vec.getElem?_swapPop l i h,
      if_pos (by omega), if_neg (by omega)]
  · simp [List.getElem?_take, hj]

example : Vec.swapPop [10, 20, 30, 40] 1 = [10, 40, 30] := by decide

/-- C05 (list part): a completed scan over any list with any matching predicate removes exactly the
matching elements, keeps the others (as a multiset) and returns how many it removed. -/
theorem C05_scan {α : Type} (p : α → Option Bool) (l l' : List α) (n : Nat)
    (h : Vec.eraseScan p l 0 0 = (l', some n)) :
    l'.Perm (l.filter fun x => p x != some true) ∧
      n = (l.filter fun x => p x == some true).length ∧ (∀ x ∈ l, p x ≠ none) := by
  obtain ⟨m, h1, h2, h3⟩ := Vec.eraseScan_removed p l 0 0
  have h4 := Vec.eraseScan_complete p l 0 0 (by intro j hj; omega) n (by rw [h])
  rw [h] at h1 h3 h4
  simp only at h1 h3 h4
  have e1 : (l'.filter fun x => p x != some true) = l' := by
    rw [List.filter_eq_self]; intro x hx; simp [h4 x hx]
  have e2 : (m.filter fun x => p x != some true) = [] := by
    rw [List.filter_eq_nil_iff]; intro x hx; simp [h2 x hx]
  have e3 : (l'.filter fun x => p x == some true) = [] := by
    rw [List.filter_eq_nil_iff]; intro x hx; simp [h4 x hx]
  have e4 : (m.filter fun x => p x == some true) = m := by
    rw [List.filter_eq_self]; intro x hx; simp [h2 x hx]
  refine ⟨?_, ?_, ?_⟩
  · have := h1.filter fun x => p x != some true
    rw [List.filter_append, e1, e2, List.append_nil] at this
    exact this.symm
  · have := (h1.filter fun x => p x == some true).length_eq
    rw [List.filter_append, e3, e4, List.nil_append] at this
    rw [this]; simpa using h3 n rfl
  · intro x hx hn
    have := h1.subset hx
    rcases List.mem_append.1 this with h5 | h5
    · rw [h4 x h5] at hn; cases hn
    · rw [h2 x h5] at hn; cases hn

/-- C06 (list part): a scan that throws has removed only matching elements, keeps every element that does
not match, and the incomparable element that made it throw is still there. -/
theorem C06_scan {α : Type} (p : α → Option Bool) (l l' : List α)
    (h : Vec.eraseScan p l 0 0 = (l', none)) :
    (∃ m, l.Perm (l' ++ m) ∧ ∀ x ∈ m, p x = some true) ∧
      (l'.filter fun x => p x != some true).Perm (l.filter fun x => p x != some true) ∧
      ∃ x ∈ l', p x = none := by
  obtain ⟨m, h1, h2, -⟩ := Vec.eraseScan_removed p l 0 0
  have h5 := Vec.eraseScan_throw p l 0 0 (by rw [h])
  rw [h] at h1 h5
  simp only at h1 h5
  refine ⟨⟨m, h1, h2⟩, ?_, h5⟩
  have e2 : (m.filter fun x => p x != some true) = [] := by
    rw [List.filter_eq_nil_iff]; intro x hx; simp [h2 x hx]
  have := h1.filter fun x => p x != some true
  rw [List.filter_append, e2, List.append_nil] at this
  exact this.symm

/-- C06 (list part): if nothing in the list can compare equal (the callable type is not comparable), a
throwing scan has not changed the list at all. -/
theorem C06_scan_unchanged {α : Type} (p : α → Option Bool) (l : List α)
    (hp : ∀ x ∈ l, p x ≠ some true) : (Vec.eraseScan p l 0 0).1 = l := by
  have gen : ∀ i cnt, (Vec.eraseScan p l i cnt).1 = l := by
    intro i
    induction hn : l.length - i generalizing i with
    | zero => intro cnt; rw [Vec.eraseScan, dif_neg (by omega)]
    | succ n ih =>
      intro cnt
      have hi : i < l.length := by omega
      rw [Vec.eraseScan]; simp only [hi, dite_true]
      match hq : p l[i] with
      | none => rfl
      | some true => exact absurd hq (hp _ (List.getElem_mem hi))
      | some false => exact ih (i + 1) (by omega) cnt
  exact gen 0 0

/-- Non-vacuity: removing the even numbers of a list, with a repeated one. -/
example : ∃ l' n, Vec.eraseScan (fun x : Nat => some (x % 2 == 0)) [2, 1, 4, 4, 3] 0 0 = (l', some n) := by
  refine ⟨[3, 1], 3, by simp [Vec.eraseScan, Vec.swapPop, Vec.swap]⟩
/-- Non-vacuity: 2 removed, then the incomparable 9 makes it throw. -/
example : ∃ l', Vec.eraseScan (fun x : Nat => if x = 9 then none else some (x % 2 == 0)) [2, 1, 9] 0 0 = (l', none) := by
  refine ⟨[9, 1], by simp [Vec.eraseScan, Vec.swapPop, Vec.swap]⟩

end Verif
