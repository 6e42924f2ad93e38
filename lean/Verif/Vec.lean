/-!
# Vector operations used by the signal's listener list

Model of the two list-manipulation idioms of `signal` in `/repo/signals.hpp`:

* `std::swap(slots[i], slots.back()); slots.pop_back();` (lines 1816-1818 and 1838-1840)
* the scan of `signal::erase` (lines 1826-1849).

`std::vector` is modelled by `List`.
-/

namespace Verif.Vec

variable {α : Type}

/-- `std::swap(v[i], v[j])` on a vector (signals.hpp:1816, 1838).
Out-of-range indices would be undefined behaviour in C++; every caller guards them
(`i < slots.size()`, and `back()` of a non-empty vector), here they leave the list alone. -/
def swap (l : List α) (i j : Nat) : List α :=
  match l[i]?, l[j]? with
  | some a, some b => (l.set i b).set j a
  | _, _ => l

/-- `std::swap(slots[i], slots.back()); slots.pop_back();` (signals.hpp:1816-1818, 1838-1840). -/
def swapPop (l : List α) (i : Nat) : List α :=
  (swap l i (l.length - 1)).dropLast

theorem swapPop_eq (l : List α) (i : Nat) (h : i < l.length) :
    swapPop l i = (l.set i (l[l.length - 1]'(by omega))).dropLast := by
  have h2 : l.length - 1 < l.length := by omega
  simp only [swapPop, swap, List.getElem?_eq_getElem h, List.getElem?_eq_getElem h2]
  apply List.ext_getElem
  · simp
  · intro n h3 h4
    simp at h3 h4
    simp [List.getElem_dropLast, List.getElem_set]
    intro h5; omega

@[simp] theorem length_swapPop (l : List α) (i : Nat) (h : i < l.length) :
    (swapPop l i).length = l.length - 1 := by
  rw [swapPop_eq l i h]; simp

theorem getElem?_swapPop (l : List α) (i : Nat) (h : i < l.length) (j : Nat) :
    (swapPop l i)[j]? =
      if j < l.length - 1 then (if j = i then l[l.length - 1]? else l[j]?) else none := by
  rw [swapPop_eq l i h]
  have h2 : l.length - 1 < l.length := by omega
  rw [List.getElem?_dropLast]
  simp only [List.length_set]
  split
  · rename_i h3
    rw [List.getElem?_set]
    by_cases hij : i = j
    · subst hij; simp [h]
    · have : ¬ j = i := fun h => hij h.symm
      simp [hij, this]
  · rfl

/-- Removing position `i` this way removes exactly that one occurrence. -/
theorem swapPop_perm (l : List α) (i : Nat) (h : i < l.length) :
    (l[i] :: swapPop l i).Perm l := by
  rw [swapPop_eq l i h]
  have h2 : l.length - 1 < l.length := by omega
  rcases List.eq_nil_or_concat l with rfl | ⟨m, b, rfl⟩
  · simp at h
  · simp only [List.concat_eq_append]
    have hlen : (m ++ [b]).length - 1 = m.length := by simp
    by_cases him : i < m.length
    · have e1 : (m ++ [b])[(m ++ [b]).length - 1]'(by simp) = b := by simp
      have e2 : (m ++ [b])[i]'(by simp; omega) = m[i] := by simp [him]
      have e3 : ((m ++ [b]).set i b).dropLast = m.set i b := by
        rw [List.set_append_left _ _ him]; simp
      simp only [List.concat_eq_append] at *
      rw [e2, e1, e3]
      have e4 : m.set i b = m.take i ++ b :: m.drop (i + 1) := by
        rw [List.set_eq_take_append_cons_drop]; simp [him]
      have e5 : m = m.take i ++ m[i] :: m.drop (i + 1) := by simp
      rw [e4]
      refine List.Perm.trans (List.Perm.cons _ List.perm_middle) ?_
      refine List.Perm.trans (List.Perm.swap _ _ _) ?_
      refine List.Perm.trans (List.Perm.cons _ List.perm_middle.symm) ?_
      rw [← e5]
      exact (List.perm_append_comm (l₁ := [b]) (l₂ := m))
    · have him : i = m.length := by simp at h; omega
      subst him
      simp
      exact (List.perm_append_comm (l₁ := [b]) (l₂ := m))

theorem mem_swapPop {l : List α} {i : Nat} (h : i < l.length) {x : α}
    (hx : x ∈ swapPop l i) : x ∈ l :=
  (swapPop_perm l i h).subset (List.mem_cons_of_mem _ hx)

/-- The scan of `signal::erase` (signals.hpp:1831-1848) started at index `i` with `cnt`
listeners already removed.  `p x` is the result of `*slots[i] == slot`: `none` is the
`not_comparable_exception`.  The result is the final vector and either the returned count
or `none` when the exception leaves the function. -/
def eraseScan (p : α → Option Bool) (l : List α) (i cnt : Nat) : List α × Option Nat :=
  if h : i < l.length then
    match p l[i] with
    | none => (l, none)
    | some true => eraseScan p (swapPop l i) i (cnt + 1)
    | some false => eraseScan p l (i + 1) cnt
  else (l, some cnt)
termination_by l.length - i
decreasing_by
  · rw [length_swapPop l i h]; omega
  · omega

/-- Everything that disappears from the vector during a scan matched. -/
theorem eraseScan_removed (p : α → Option Bool) (l : List α) (i cnt : Nat) :
    ∃ m, l.Perm ((eraseScan p l i cnt).1 ++ m) ∧ (∀ x ∈ m, p x = some true) ∧
      (∀ n, (eraseScan p l i cnt).2 = some n → n = cnt + m.length) := by
  fun_induction eraseScan p l i cnt with
  | case1 l i cnt h hp => exact ⟨[], by simp, by simp, by simp⟩
  | case2 l i cnt h hp ih =>
    obtain ⟨m, h1, h2, h3⟩ := ih
    refine ⟨l[i] :: m, ?_, ?_, ?_⟩
    · refine (swapPop_perm l i h).symm.trans ?_
      refine (List.Perm.cons _ h1).trans ?_
      exact List.perm_middle.symm
    · intro x hx
      rcases List.mem_cons.1 hx with rfl | hx
      · exact hp
      · exact h2 x hx
    · intro n hn; have := h3 n hn; simp; omega
  | case3 l i cnt h hp ih => exact ih
  | case4 l i cnt h => exact ⟨[], by simp, by simp, by simp⟩

/-- If the positions before `i` do not match, then nothing that matches is left when the scan
completes, and nothing was incomparable. -/
theorem eraseScan_complete (p : α → Option Bool) (l : List α) (i cnt : Nat)
    (hpre : ∀ j (_ : j < i) (hj : j < l.length), p l[j] = some false) :
    ∀ n, (eraseScan p l i cnt).2 = some n →
      ∀ x ∈ (eraseScan p l i cnt).1, p x = some false := by
  fun_induction eraseScan p l i cnt with
  | case1 l i cnt h hp => intro n hn; simp at hn
  | case2 l i cnt h hp ih =>
    apply ih
    intro j hji hj
    have hj' : j < l.length - 1 := by simpa [length_swapPop l i h] using hj
    have e : (swapPop l i)[j]? = l[j]? := by
      rw [getElem?_swapPop l i h]; simp [hj']; intro h5; omega
    rw [List.getElem?_eq_getElem hj, List.getElem?_eq_getElem (by omega)] at e
    injection e with e
    rw [e]; exact hpre j hji (by omega)
  | case3 l i cnt h hp ih =>
    apply ih
    intro j hji hj
    by_cases hji' : j < i
    · exact hpre j hji' hj
    · have : j = i := by omega
      subst this; exact hp
  | case4 l i cnt h =>
    intro n _ x hx
    obtain ⟨j, hj, rfl⟩ := List.getElem_of_mem hx
    exact hpre j (by simp at h; simp at hj; omega) hj

/-- A scan that throws has met an incomparable element that is still in the vector. -/
theorem eraseScan_throw (p : α → Option Bool) (l : List α) (i cnt : Nat) :
    (eraseScan p l i cnt).2 = none →
      ∃ x ∈ (eraseScan p l i cnt).1, p x = none := by
  fun_induction eraseScan p l i cnt with
  | case1 l i cnt h hp => intro _; exact ⟨l[i], List.getElem_mem h, hp⟩
  | case2 l i cnt h hp ih => exact ih
  | case3 l i cnt h hp ih => exact ih
  | case4 l i cnt h => simp

end Verif.Vec
