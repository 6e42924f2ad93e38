import Verif.Machine

/-!
# Concrete executions

Used for the examples beside the theorems and for the counterexamples.
-/

namespace Verif

theorem exec_steps {E : Env} {P : Label → Prop} {w0 w w' : World} {ls : List Label} (h0 : Steps E P w0 w)
    (hp : ∀ l ∈ ls, P l) (h : exec E w ls = some w') : Steps E P w0 w' := by
  induction ls generalizing w with
  | nil => simp [exec] at h; subst h; exact h0
  | cons l ls ih =>
    simp only [exec] at h
    split at h
    · rename_i w1 h1
      exact ih (h0.tail l (hp l (by simp)) h1) (fun x hx => hp x (List.mem_cons_of_mem _ hx)) h
    · cases h

namespace Demo

/-- Values of every type are compared by identity. -/
def E0 : Env := ⟨fun _ a b => some (a == b)⟩

/-- The world after a schedule for `n` threads. -/
def world (n : Nat) (ls : List Label) : World := (exec E0 (World.init n) ls).getD (World.init n)

theorem world_steps {P : Label → Prop} (n : Nat) (ls : List Label) (hp : ∀ l ∈ ls, P l) :
    Steps E0 P (World.init n) (world n ls) := by
  unfold world
  cases h : exec E0 (World.init n) ls with
  | none => exact .refl _
  | some w => exact exec_steps (.refl _) hp h

theorem reach (n : Nat) (ls : List Label) : Reachable E0 (world n ls) := ⟨n, world_steps n ls fun _ _ => trivial⟩

theorem exec_append {E : Env} {w : World} {ls ls' : List Label} :
    exec E w (ls ++ ls') = (exec E w ls).bind fun w' => exec E w' ls' := by
  induction ls generalizing w with
  | nil => rfl
  | cons l ls ih =>
    simp only [List.cons_append, exec]
    cases step E w l with
    | none => rfl
    | some w' => exact ih

theorem world_from (n : Nat) (ls ls' : List Label) (h : (exec E0 (World.init n) (ls ++ ls')).isSome = true) :
    exec E0 (world n ls) ls' = some (world n (ls ++ ls')) := by
  unfold world
  rw [exec_append] at h ⊢
  cases e : exec E0 (World.init n) ls with
  | none => rw [e] at h; cases h
  | some w =>
    rw [e] at h
    simp only [Option.bind_some, Option.getD_some] at h ⊢
    obtain ⟨w', hw'⟩ := Option.isSome_iff_exists.1 h
    rw [hw']; rfl

/-- One more step of a schedule. -/
theorem world_step (n : Nat) (ls : List Label) (l : Label) (h : (exec E0 (World.init n) (ls ++ [l])).isSome = true) :
    step E0 (world n ls) l = some (world n (ls ++ [l])) := by
  have := world_from n ls [l] h
  simp only [exec] at this
  split at this
  · rename_i e; rw [e]; exact this
  · cases this

/-- The rest of a schedule. -/
theorem world_more {P : Label → Prop} (n : Nat) (ls ls' : List Label)
    (h : (exec E0 (World.init n) (ls ++ ls')).isSome = true) (hp : ∀ l ∈ ls', P l) :
    Steps E0 P (world n ls) (world n (ls ++ ls')) :=
  exec_steps (.refl _) hp (world_from n ls ls' h)

/-- A function object of a comparable type. -/
def fn (k : Nat) : Callable := .func ⟨0, true, .rvalue⟩ k

/-- `n` steps of the library on thread `t`. -/
def go (t : Tid) (n : Nat) : List Label := List.replicate n (.run t)

/-- `connect(fn k)` on signal 0 by thread `t`, from call to return, into `connection` variable `x`. -/
def connect (t : Tid) (k : Nat) (x : Var) : List Label :=
  .call t (.connect 0 (fn k) [] true false (.conn x)) :: go t 4

end Demo
end Verif
