# Design: a Lean 4 model of jpvanoosten/signals

Everything lives in `lean/Verif/`. Lean core only wherever possible.

## 1. Layers

| Module | Models | Shape |
|---|---|---|
| `Vec` | `std::swap(slots[i], slots.back()); slots.pop_back()` and the `erase` scan (signals.hpp:1808-1849) | pure functions on lists |
| `Callable` | `slot_func/slot_pmf/slot_pmf_tracked::equals`, `try_equals`, `operator==` (417-438, 785-963, 1331-1345) | pure functions returning a value or "throws" |
| `Machine` | signal, listener objects, connections, scoped connections, blockers, tracked objects, threads | labelled transition system `step : World -> Label -> Option World` |
| `Seq` | nothing: a specification of the whole interface for one thread (no locks, no shared vectors, no positions, no steps) | function from a state and a call to a state; the machine refines it (`Props/Seq`, `Props/SeqTotal`) |
| `Mach/Reenter` | the machine with user code that calls the library from inside it (`stepC`) | simulation by the machine with more threads |
| `Fine` | the machine with every statement of an update of a list as a step of its own (`stepFine`) | simulation both ways (`Mach/FineSim`) |
| `Conform` | the tests and examples of the repository (signal_tests, connection_tests, slot_tests, cow_tests, examples/) as programs of the model | `example`s: the model gives what the tests expect. Tests of the model, not proofs; no claim rests on them |
| `Memory` | the non-atomic memory and the synchronisation of each machine step; happens-before; data races | traces of memory operations along machine executions |
| `Data/Cow` | `cow_ptr` (511-658) | heap of cells, handles, op sequences, refinement to private values |
| `Data/CowRef` | `cow_ptr::operator==` and references kept from `write()` etc. (560-637) | op sequences, refinement to values, a sharing relation and what each reference is tied to |
| `Data/Optional` | `optional.hpp` both storages | op sequences with throwing constructors, refinement to `Option` |
| `Data/OptKept` | references kept into an `optional` (optional.hpp:357-365, 928-1005) | op sequences, refinement to names of variables |
| `Data/OptRef` | `optional<T&>` (optional.hpp:1038-1129) | op sequences, specification over the history |
| `Data/Iter` | `slot_iterator` (signals.hpp:1084-1212) | op sequences, specification over the history |
| `Data/OptCmp` | relational operators (optional.hpp:1211-1536) | pure functions |
| `Data/Combiner` | `optional_last_value`, README combiners | pure folds |
| `Data/SlotObj` | free-standing `slot` objects (1249-1409) | op sequences |
| `Data/IntSeq`, `Data/Dispatch` | `make_integer_sequence`, member-pointer dispatch | pure functions |

### The machine

A `World` holds the heap (listener records, vectors of listeners, signals), user-held handles
(connection / scoped_connection / connection_blocker variables), owners of tracked objects, one call
stack per thread, a sticky undefined-behaviour marker and a log of events (ghost history).

User code (main program, listener bodies, user combiners) is *arbitrary*: whenever a thread is in
user code, any API call, return or throw is a possible next label. Every theorem over reachable
worlds therefore quantifies over all user programs, all re-entrancy and all thread schedules.

Library code runs in small atomic steps (`run t`), one shared-memory access or one
mutex operation at a time: lock, `use_count()` test, clone (if shared), mutate, unlock; `erase` does one list
position per step; an emission does: blocked check, lock, copy pointer, unlock, then per listener: load
`m_Blocked`, load `connected()`, (tracked: lock the weak pointer, load `connected()` again), run user body.

Undefined behaviour (null list, dead signal, falling off the end of `operator=`, dereferencing an end iterator,
destroying a locked mutex) is an explicit outcome: the step sets `ub`, after which no step is possible.

`COVERAGE.md` goes through the two headers and says for each function which definitions model it.

## 2. Trusted base

* Lean's kernel and its axioms `propext`, `Classical.choice`, `Quot.sound`, and no others. `AXIOMS.md` says for each theorem which of them it uses
  (many use `propext` only, or `propext` and `Quot.sound`).
* The reading of the C++ source (every definition cites its lines).
* The C++ standard library, used through its specification: `shared_ptr`/`weak_ptr` (an object lives while it has an
  owner, `use_count() > 1` iff another owner exists, `lock()` succeeds iff alive, moved-from is empty),
  `std::mutex` (mutual exclusion), `atomic_bool` (sequentially consistent), `vector`, `swap`.

## 3. Not modelled

* Executions that are not interleavings of steps. C54 is about the races of interleavings; the standard gives programs without
  races only such executions (all atomics of the library are sequentially consistent, reference counts aside).
* Stack overflow, index overflow of `size_t`, a mutex whose `lock()` throws. Allocations outside the mutex (a new listener, the slot that
  `signal::disconnect` compares with) do not fail: such a call would simply not have happened.
* In `Machine`, user destructors of callables and user `operator==` do not call back into the library (in `erase` they run under the mutex);
  `Mach/Reenter` adds this (C60). The result of `operator==` is an arbitrary function of the operands and may be an exception.
* Code that cannot be instantiated: `slot::operator=(const slot&)` (1304, `unique_ptr::swap` with a raw pointer) and
  `slot(std::unique_ptr<impl>)` (1290, copies a unique_ptr). `signal::clear` (1851) is private and never called.
* `optional<void>`: it has no state and its operations do nothing.
* `optional::swap` (optional.hpp 919-923): its call of `std::swap` is qualified and names the generic one. Should a compiler look it up at the instantiation only, it
  finds the overload at the end of the file, which calls `optional::swap` again.
* Compile-time overload resolution, except the decision logic in `Data/Dispatch` and among the constructors in `Data/SlotObj`.

### Granularity and other choices of the machine

* A read-modify-write done under the signal's mutex is one step: the write of `add_slot`, of `remove_slot`, and one
  position of `erase`. `Fine` splits these steps into their statements; that nobody can tell the difference is C61.
* `detach` is two steps: the `use_count()` test, and the clone with the swap of pointers. An emission that ends between the
  two leaves the thread with a clone it did not need, and makes it the one to free the old vector (`Demo.lastOwner`).
* Merged into one step: `connect`'s unlock and the store of the returned connection; the unlock after copying a null list and the null dereference that follows.
* `connection::block/unblock/connected/blocked` and the constructor and `release` of `connection_blocker` lock the `weak_ptr`, touch one atomic
  and give the `shared_ptr` up. The machine has a step that does the middle part, or all three, and the steps `pin` and `unpin` for the two ends. As user
  programs are arbitrary, they include `pin; block; unpin` with anything of other threads in between. Pins are counted per listener, not per thread.
* `connect` into `.scoped x` overwrites variable `x` even if it is alive (more behaviours than the code).
* `swap` between `connection` and `scoped_connection`, and construction of one from the other, are compositions of modelled moves. A `scoped_connection` can be
  assigned to as a `connection&` (`scopedBase`), which disconnects nothing; assigning by moving is that and a step that empties the source.
* The copy of the vector in `detach` needs two allocations: the vector (label `fail`) and the control block of the `shared_ptr` (label `ctl`), the latter in a
  constructor of `cow_ptr` that is `noexcept` (521-523). The constructor of a signal makes the same two (661-671), outside any mutex; they do not fail in the model.
* A copy of a listener's result that throws (in the combiner) is, for everything else, like the listener throwing.
* `connect` to a tracked object requires that the object has been created.
* Destroying a signal destroys its list in one step.

## 4. Property by property

| id | what is modelled / how it is proved |
|---|---|
| C01 | machine; effect of the `add` write step + run-alone lemma for connect |
| C02 | machine; negation witness (erase then disconnect inside an emission); partial: histories without `signal::disconnect` (invariant: an in-flight removal's listener is listed at its stored index) |
| C03 | machine; invariant over the log of flag exchanges |
| C04 | machine; flag is monotone; no new `enter` events once the flag is down and no call is past its check |
| C05, C06 | `Vec` induction on the erase scan for arbitrary predicate; machine invariant tying the running scan to it |
| C07, C08, C44 | machine; invariant relating each emission frame to its events in the log |
| C09, C10, C12 | machine; step theorems + monotone history |
| C11 | negation witness; partial: what is guaranteed |
| C13, C14 | machine; handle operations; C14 negation witness |
| C15 | machine; handle operations. `C15_keeps` lists the ways in which a listener can get out of the hands of scoped connections; the one that is easily overlooked is an assignment to the base class (`C15_sliced`) |
| C16, C17 | machine; ownership of tracked objects by call frames; C17 negation witness |
| C18 | `Cow`; refinement to independent values for every op sequence |
| C19, C20, C46, C43 | machine invariants |
| C21, C47 | machine; lock ownership invariant, progress theorem, measures: `todo` for the time a mutex is held, `left` for a whole call |
| C22, C23, C24, C25 | machine; `ub = none` invariant under label restrictions; negation witnesses |
| C26 | machine; throw step theorem |
| C27 | machine argument tuples; negation witness; partial for non-consuming listeners / non-movable parameters |
| C28, C29, C30 | `Callable` |
| C31, C51 | `Data/SlotObj`: programs over any number of slot variables and listeners sharing one heap of `slot_impl`s; refinement to private states. C51: overload resolution among the constructors as a decision function |
| C32, C33 | `Data/Optional`: programs over any number of variables of `optional_base` and of `tc_optional_base`, with exceptions from every operation of `T`; refinement to `Option`; C33 counts constructions and destructions |
| C34, C35 | `Data/OptCmp` |
| C36 | `Data/Combiner` |
| C37, C38, C39, C40, C41, C42 | machine / `Vec` |
| C45 | `Data/IntSeq`: template recursion as a recursive function, pack expansion as a partial zip |
| C48 | `Data/Dispatch`: constraint and call as two functions from types and value categories; negation witnesses; exact characterisation of the disagreements |
| C49 | machine; a listener is owned exactly by lists, snapshots, pending connect/disconnect frames and pins (threads inside functions of handles) |
| C52 | machine; a listener that is alive before a step and dead after it dies with no mutex held by the stepping thread, before or after the step, except when `connect` throws `bad_alloc` (unlocking first, in the same step), when `erase` pops it or when `remove_slot` pops it in place of another (both refuted: `C52_false`, `C52_stale_false`) |
| C53 | machine; `touched` lists the listeners whose members a step uses, each is shown alive; `C53_running` for callables on any stack |
| C54 | `Memory`: footprint of every step (`foot`), declarative happens-before `Before` and `Race` on the trace. Proof: `race_iff` reduces `Race` to a happens-before clock (`Mach/Clock`), then an invariant over all traced executions (`Mach/RaceStep`): every earlier access to a location is known to whoever may access it next (holder of the mutex, owners of the vector). Fewer synchronisations than C++ has are assumed for the positive theorems (for all `c : Sync`; connection flags need not synchronise), the most for the witness. Taken from the user: a new signal is handed over to other threads with synchronisation, a signal is destroyed after its last use elsewhere (both as mutex operations in `userFoot`). Construction and destruction of listener objects is left to `shared_ptr`. `C54_recorded`, `C54_mutex`: the footprints contain every write, lock and unlock the machine does. `C54_reads`: they contain every read — put other contents into any locations that the footprint does not mention and the step does the same (`Patch`; reference counts are computed from pointers in the model, so the new contents must not change them). `C54_kept`: the two values that the code keeps in local variables during a critical section were recorded when read |
| C55 | machine; label `fail` makes the copy of a shared list (653) or `push_back` (1804) throw. `SameView` compares what a program can see of two states; every step of a call that fails preserves it, up to the listener that is being connected. `C55_false`: `disconnect()` on a handle is `noexcept`. Label `ctl` is the want of a control block for the copy, in the `noexcept` constructor `cow_ptr(T*)`: it ends the program from `connect` and `signal::disconnect` too (`C55_connect_false`, `C55_erase_false`). `C55_terminate_partial`: only while an emission has the list as its snapshot. The theorems on completed calls (C01, C05, C06, C15) hold for calls that return; C22 excludes `terminate`, `C22_memory` is for programs that have enough memory |
| C56 | machine; `work` counts the steps of a thread inside an emission. A step lowers `Act.owed`, except that turning to the next listener raises it by less than six; the default combiner turns to every listener of the snapshot at most once. `C56_infinite`: in an infinite execution the emission stops taking steps. Steps of calls that callbacks make are not counted (they have C47 and C56 themselves) |
| C57 | machine; infinite executions (`Run`) with a fair scheduler: a thread for which the library can go on again and again (if it is about to lock a mutex: whenever that is free) is scheduled again and again. The holder of a mutex is never stuck and `todo` falls, so every mutex is let go again and again (`Run.frees`), so nobody waits for ever (`Run.moves`), and the measures of C47 and C56 do the rest. That the callables return is a hypothesis on user code (`Returns`). `C57_any` has any combiner, with the hypotheses that it goes on whenever it is its turn (`Answers`) and dereferences at most `K` times, for some `K` (needed: `C57_deref_false`); `C57_back` has no hypothesis on user code: a thread inside the library gets back to user code (`chore` of C70 falls, and no other thread changes it, C19). `C57_weak_false`: with weak fairness a call can starve |
| C58 | `Data/OptRef`: `optional<T&>` (optional.hpp 1038-1129) as a variable holding a pointer, in a program with objects that are created, written and destroyed. The specification (`names`, `holds`, `result`) is written over the history of operations. Dereferencing null or a destroyed object is undefined behaviour (assertions are off). `C58_combine`: the default combiner on a signal of references |
| C59 | `Data/Iter`: programs over emissions and iterators (`slot_iterator` as a pair of a vector iterator and a reference to a tuple). The specification (`place`, `here`, `now`, `result`) is written over the history. Listeners are arbitrary functions of arguments and program state. `C59_loop`: every loop to the end; `C59_twice`: two passes. There is no assignment of iterators (deleted), so algorithms that assign them do not compile |
| C60 | `Mach/Reenter`: the machine `stepC` lets user code run at further places `cb` inside the library; the theorems hold for every `cb`, the witnesses have `inErase` (comparisons and destructors in `erase`). A comparison and the removal that follows are still one step, so a callback comes before it; nobody can change the list in between. `C60_sim`: each callback is played by an idle thread of the machine without callbacks, step by step (`Sim`), so objects, handles and the history (up to thread numbers) are the same; from this `C60_lists` ... `C60_no_ub`. `C60_waits`: a thread that cannot go on waits for a mutex. `C60_order_partial`: if mutexes are locked in the order of a rank, the chain of waiting threads ends at one in user code or one that can go on. `C60_false`: a single thread locks itself out; `C60_order_false`: two threads lock each other out though neither touches the signal it came from; `C60_listener_false`: listeners can run under a mutex then |
| C61 | `Fine`: `stepFine` does `detach` in three steps (test, copy, assign the pointer), `add_slot` in two more (store the position, `push_back`), a removal in three more (`swap`, store the position, `pop_back`; in `erase` the comparison is another); what the code has in local variables between them is in `Half`. `SimF`: the state is a world of the coarse machine with some locations changed (`Patch`, as for C54), each of them private to one thread that holds a mutex, or the position of a listener whose `connect` failed; every step of another thread leaves these alone (`priv_apart`, from the footprints of C54) and does not depend on them (`patch_step`). So each statement is either a step of the coarse machine or changes private locations only; `C61`. The other direction (`back`): a step of the coarse machine is a bounded number of statements. `Looks` says what is the same: everything except the lists, and positions in them, of signals whose mutex is held. `C61_histories`: exactly the same histories are possible, so every theorem about the history (`w.log`) holds of both machines. `C61_lists` ... `C61_removes` carry over some results of the coarse machine. `C61_midway`: within an update the list is really in between. `slots[i]` past the end, `back()` and `pop_back()` on an empty vector are undefined behaviour in `Fine` (`outOfRange`); `C61_safe` and `C61` say that this does not happen |
| C62 | machine; `C62_each` puts C09 (the listener is in the snapshot: `connRet_home`, and nothing takes it out) and C44 (its flags stay up) together; `C62` sums over the emissions begun since, which are all different |
| C63 | machine; `C63_dies` compares C49 before and after the step, case by case; `C63_inside` counts the pins of a listener along a schedule. Each of the seven ways to die is shown to occur |
| C64 | `Data/CowRef`: programs over variables and kept references. The specification `View` has no addresses: values, who shares with whom, and which variables each reference is tied to. `C64`: every run of the code is one of the specification; `C64_total`: the code does not get stuck |
| C65 | `Data/CowRef`; `C65_false`: `auto& r = p.write(); auto q = p; r = 5;` changes `q`. `C65_partial`: true until the variable is copied, moved, assigned or destroyed. The library keeps to this: it uses the references of `m_Slots.write()` under the mutex only, and copies `m_Slots` under the mutex only |
| C66 | machine; `on` says which calls and which steps are on a signal (a `disconnect()` is on the signal that its listener was connected to). `C66_step`: all other steps leave the signal alone, by inversion of the step; `C66`: whole executions; `C66_wait` from C21 |
| C67 | machine; the specification lists, per kind of state, the calls and steps that change it and to what (`disconnects`, `blocks`, `setsConn`, `setsScoped`, `setsBlocker`, `owns`, `edits`). One theorem per kind says that a step which is not listed leaves it alone; `C67` and `C67_vars` put them together over executions. A flag of a listener does not say that the listener is on a list: `signal::disconnect`, moves and `~signal` take it off without touching the flag |
| C68 | `Data/OptKept` on top of `Data/Optional`, whose states record in which variable each object was constructed (`hist`): a reference is to the `k`-th object of a variable and dangles if that one is dead. The specification has names of variables only, no objects (`RSpec`). `step_law`: an object that is there before and after an operation other than `emplace` is the same one. `C68`: every run is one of the specification; `C68_stays`, `C68_ends` say the same in terms of the code; `C68_total`: nothing gets stuck; `C68_scalar`: for scalars a reference is good until the end of the variable |
| C69 | False (`C69_false`: connect 0, 1, 2, disconnect 0; the next emission calls 2, then 1). The order of connecting (`arrivals`) is a function of the history that ignores removals. Proved for all executions: the listeners connected first are, as long as none of them is taken out, the first of the list, in that order (`C69_list_partial`), and an emission calls them in that order and before all others (`C69_partial`), whatever else is taken out; if none is taken out before the snapshot the whole emission is in order (`C69_all_partial`). `C69_flip`: a step makes two listeners change places exactly if it takes out one that comes before both and the second of them is the last. The proofs are inductions over the history on top of C20 (list = replay of the history), C07 and C19. Missing: the order after a removal (it is not the order of connecting), and emissions with other combiners, which may dereference in any order (C59). |
| C70 | False: `disconnect()` waits for nobody. When it has returned true the callable may be running on another thread (`C70_false`), and may even be started afterwards by a thread that was past the check of the flag (`C70_false_later`). Proved for all executions: once the emissions that had begun before `disconnect()` returned have ended (a grace period; later emissions need not be waited for), the callable is not running and never runs again (`C70_partial`; counted from the exchange of the flag, and for every outcome of it, `C70_flag_partial`; for listeners out of every list, by whatever way, `C70_gone_partial`). A call that starts after the flag was cleared is of an emission that was at that moment between its checks and the call, and of a callable without a tracked object (`C70_late`); it is never of the thread that has called `disconnect()` (`C70_other`), so where the emissions under way are all of that thread no call starts any more (`C70_same_partial`). `Running` and `Quiesced` are stated on the history. |
| C71 | False: `disconnect()` of a listener that `disconnect(callable)` has taken out of the list while an emission keeps it alive takes another listener out (`C71_false`, one thread, one signal). The specification `Verif.Seq` is a state with lists of listeners and one function per call; an emission is the list it goes through. `World.view` is what it can see of a world. Proved for all programs of one thread that make no such call (`Tame`, stated on the specification alone): whenever the program is in user code the specification is in the state `view`, which includes all results and calls so far, and undefined behaviour is the same (`C71_partial`), and `valid()`, `connected()` and `blocked()` answer what the specification says (`C71_queries_partial`); conversely, what the specification says a program comes to, it can come to (`C71_runs_partial`), user code can do what the specification lets it (`C71_can`), and the library always comes back (`C71_returns`). Programs that never use `disconnect(callable)` (`C71_noerase`), or never `disconnect()` (`C71_nohang`), are such programs. Not covered: running out of memory, and `shared_ptr`s to listeners held by the query functions (`Api.pin`), which one thread cannot see. The comparison of callables (`slotEq`), the order that `disconnect(callable)` leaves (`Vec.eraseScan`) and the moving of arguments (`passArgs`) are shared with the model. |
| C72 | False, measured against the specification of C71 (`Seq.Explains`: an order of the calls that keeps each thread's own order and gives the same results, in whatever order in time). `C72_false`: two listeners have equal callables; one thread disconnects the callable, which takes out both (it returns 2); in between another calls `disconnect()` on the two connections and is told `false` and `true`. `C72_false_order`: an emission during `disconnect()` finds the listener marked but still in the list and begins with the one connected second; before the call it would begin with the first, after it with the last. Proved: from the first listener that a `disconnect(callable)` takes out until it returns nobody else changes the list and no emission copies it (`C72_partial`), so emissions and updates see all of the call or nothing; threads that take turns (each begins when the others have returned from all their calls) see what the specification says (`C72_turns_partial`, for programs that are `Tame` as in C71). What a concurrent emission or query may see in between is given by the theorems on single listeners (C04, C10, C12, C17, C44). |
| C73 | False (`C73_false`): a thread that has found the listener unblocked calls it after `block()` has returned on another. Proved for all executions, on the history: such a call, with no `unblock()` in between, is of an emission that at the time of `block()` had come to the listener and done nothing since (`C73_late`); it is not of the thread that has called `block()` (`C73_other`), and there is at most one such emission per thread (`C73_threads`). So nobody calls the listener until it is unblocked if no emission is at it (`C73_partial`) or if the emissions under way are all of the calling thread, as when a listener blocks another one (`C73_same_partial`); and once the emissions that had begun before have ended it is not running either (`C73_quiet_partial`). |
| C50 | `Data/Optional`; true of `emplace` in the general storage, negation witnesses for scalars and for assignments |
