/-!
# Unpacking the arguments of an emission

`slot_iterator` keeps the arguments in a tuple and passes them on by expanding two packs side by side: the parameter types `Args` and the
indices `Is` made by `make_integer_sequence`. Types are abstract (`τ`), values too (`ν`).
-/

namespace Verif.IntSeq

/-- `make_integer_sequence<T, N, Is...>` (signals.hpp:1065-1072): inherits from `make_integer_sequence<T, N - 1, N - 1, Is...>`, down to
`N = 0`, which is `integer_sequence<T, Is...>`. -/
def make : Nat → List Nat → List Nat
  | 0, is => is
  | n + 1, is => make n (n :: is)

/-- `index_sequence_for<Args...>` (1074-1078). -/
def indexSequenceFor (args : List τ) : List Nat := make args.length []

/-- Expanding a pattern with the two packs `args` and `is`: both must have the same length, otherwise the program is ill-formed. -/
def expand (f : τ → Nat → Option β) : List τ → List Nat → Option (List β)
  | [], [] => some []
  | t :: ts, i :: is => do
      let x ← f t i
      let xs ← expand f ts is
      return x :: xs
  | _, _ => none

/-- `slot_iterator::do_invoke` with `m_Args` (1138-1143, 1203-1208): the arguments `std::forward<Args>(std::get<Is>(m_Args))...` of the call, each
with the type to which it is forwarded. `std::get` beyond the end of the tuple is ill-formed. -/
def doInvoke (args : List τ) (tuple : List ν) : Option (List (τ × ν)) :=
  expand (fun t i => (tuple[i]?).map (t, ·)) args (indexSequenceFor args)

theorem make_eq (n : Nat) (is : List Nat) : make n is = List.range n ++ is := by
  induction n generalizing is with
  | zero => rfl
  | succ n ih => rw [make, ih, List.range_succ, List.append_assoc]; rfl

/-- C45: the indices are 0, 1, ..., N-1 in this order, for every N. -/
theorem C45_indices (args : List τ) : indexSequenceFor args = List.range args.length := by
  rw [indexSequenceFor, make_eq, List.append_nil]

theorem expand_range (tuple : List ν) : ∀ (args : List τ) (k : Nat), args.length + k = tuple.length →
    expand (fun t i => (tuple[i]?).map (t, ·)) args (List.range' k args.length) = some (args.zip (tuple.drop k))
  | [], k, h => rfl
  | t :: ts, k, h => by
    have hk : k < tuple.length := by simp at h; omega
    simp only [List.length_cons, List.range'_succ, expand]
    rw [expand_range tuple ts (k + 1) (by simp at h; omega), List.getElem?_eq_getElem hk]
    rw [List.drop_eq_getElem_cons hk]
    rfl

/-- C45: for a signal with any number of parameters, and any values for them, the call is well formed and the i-th parameter, of the
i-th type, receives the i-th value. -/
theorem C45 (args : List τ) (tuple : List ν) (h : args.length = tuple.length) :
    ∃ l, doInvoke args tuple = some l ∧ l.length = args.length ∧ ∀ i (ha : i < args.length) (ht : i < tuple.length),
      l[i]? = some (args[i], tuple[i]) := by
  refine ⟨args.zip tuple, ?_, ?_, ?_⟩
  · rw [doInvoke, C45_indices, List.range_eq_range', expand_range tuple args 0 h]; rfl
  · simp; omega
  · intro i ha ht
    rw [List.getElem?_eq_getElem (by simp; omega)]
    simp

-- three parameters
example : doInvoke ["int", "const std::string&", "X"] [7, 8, 9] = some [("int", 7), ("const std::string&", 8), ("X", 9)] := by decide
example : make 5 [] = [0, 1, 2, 3, 4] := by decide

end Verif.IntSeq
