#!/usr/bin/env python3
"""Writes /verif/properties.jsonl (source of truth for the property list)."""
import json
P = []
def p(id, title, statement, quantifier, why, anchors):
    P.append(dict(id=id, title=title, statement=statement, quantifier=quantifier,
                  why_tests_cant=why, anchors=anchors))
S = "signals.hpp"
O = "optional.hpp"

p("C01", "connect appends one live, connected listener",
  "signal::connect(f) adds exactly one new listener at the end of the signal's invocation order, leaves every earlier listener and its order as it was, leaves every other signal untouched, and the connection it returns is valid() and connected(); a listener connected from a slot object starts with that slot's blocked state.",
  "every reachable program state, every number of listeners already connected, every callable, every schedule of other threads",
  "a test connects a handful of callables to a fresh signal; the claim is about every prior history of connects, removals, running emissions and concurrent threads",
  [f"{S}: signal::connect, signal::add_slot, slot::slot(const slot&, signal_base*), connection::valid, connection::connected"])

p("C02", "disconnecting one connection detaches that listener and no other",
  "connection::disconnect() detaches precisely the listener the connection refers to: that listener leaves the signal's list, and no other listener leaves any signal's list.",
  "every history of API calls, every schedule, every position of the listener in the list",
  "it needs the stored position of every listener to be right after every possible history of swap-removals; it is false in histories that mix signal::disconnect(f) with connection::disconnect() during an emission, which no test tries",
  [f"{S}: slot::disconnect, signal::remove_slot, signal::erase, slot_state::index"])

p("C03", "at most one disconnect() call per listener reports success",
  "However many connection::disconnect() calls (from any copies of the connection, scoped_connection destructors included) are made on one listener by any threads, at most one of them returns true; and if the listener was connected (flag set) the first to take effect returns true.",
  "every number of calls, every schedule",
  "a race between two disconnects is only sampled by a stress test",
  [f"{S}: slot_state::disconnect, slot::disconnect, connection::disconnect"])

p("C04", "a disconnected listener stays disconnected and is never started again",
  "Once a disconnect() on a listener has taken effect, connected() on every handle to it is false for ever after, and no emission starts it again, except calls that had already passed their connected-check at that moment.",
  "every later history, every schedule, every running emission including ones whose snapshot still contains the listener",
  "'for ever after' and 'every schedule' are not sampled by tests",
  [f"{S}: slot_state::disconnect, slot_state::connected, slot::operator(), slot_pmf_tracked::operator()"])

p("C05", "signal::disconnect(f) removes exactly the matching listeners and counts them",
  "When it returns normally, signal::disconnect(f) has removed from the list exactly the listeners that compare equal to f, keeps every other listener (as a multiset), and returns the number removed; listeners connected or removed by other threads are not lost or resurrected.",
  "every list length, every arrangement of matching and non-matching listeners, every user-supplied operator==, every schedule",
  "swap-with-last erasure while scanning is a classic place for skipped elements that only particular arrangements reveal",
  [f"{S}: signal::disconnect, signal::erase, slot operator=="])

p("C06", "signal::disconnect(f) with a non-comparable callable throws and keeps the signal usable",
  "If the scan meets a listener of the same callable type that is not equality comparable, not_comparable_exception is thrown; a user's operator== may throw too. In both cases the mutex is released; only listeners equal to f have been removed; every listener not equal to f is still in the list. With a callable type that is itself not comparable nothing at all has been removed.",
  "every list, every position of the offending listener, every schedule",
  "tests only compare two slots, never erase from a mixed list",
  [f"{S}: signal::erase, try_equals, not_comparable_exception, slot_func::equals"])

p("C07", "an emission visits exactly its snapshot, in order, once each",
  "With the default combiner, an emission that completes has visited exactly the listeners that were in the signal's list at the instant it took its snapshot, in list order, each exactly once; nothing else is ever called by it.",
  "every list length, every schedule, every re-entrant behaviour of the listeners (connect, disconnect, nested emission, destroying the signal)",
  "the listener bodies and the other threads are arbitrary programs",
  [f"{S}: signal::operator(), signal::read_slots, slot_iterator, optional_last_value"])

p("C08", "default result is the last engaged listener result",
  "With the default combiner a completed emission returns the result of the last visited listener that actually ran (value-returning signals), a disengaged optional if none ran, and always a disengaged optional for void signals.",
  "every list length, every pattern of blocked/disconnected/expired listeners, every returned values, every schedule",
  "the pattern space of skipped/ran listeners is exponential in the list length",
  [f"{S}: optional_last_value::operator()"])

p("C09", "a listener connected during an emission is not called by that emission",
  "A listener whose connect() takes effect after an emission took its snapshot is never called by that emission; a listener whose connect() took effect earlier and which was not removed before the snapshot is in the snapshot.",
  "every schedule and re-entrancy pattern",
  "re-entrant and concurrent connect positions are unbounded",
  [f"{S}: signal::read_slots, signal::add_slot, cow_ptr::detach"])

p("C10", "disconnecting through a connection during an emission suppresses the not-yet-visited listener",
  "If connection::disconnect() on a listener takes effect before a running emission checks that listener, that emission does not call it, although its snapshot still contains it.",
  "every position in the list, every emission, every schedule",
  "needs all interleavings of the check with the disconnect",
  [f"{S}: slot::operator(), slot::disconnect"])

p("C11", "signal::disconnect(f) takes effect for running emissions too",
  "After signal::disconnect(f) has returned, a running emission that has not yet visited a removed listener does not call it, and connections to it report connected() == false (as they do after connection::disconnect()).",
  "every running emission at the moment of the call",
  "no test calls signal::disconnect from inside a listener; the property is in fact false of the code (erase never clears the connected flag)",
  [f"{S}: signal::erase, slot::operator()"])

p("C12", "blocking skips a listener and nothing else",
  "While a listener is blocked, emissions that check it skip it, contribute no result for it and do not remove it; unblocking restores it at the same position; block()/unblock() through one connection changes no other listener, no list and no connected state.",
  "every state, every interleaving of block/unblock/emission",
  "needs every other listener and every emission position",
  [f"{S}: slot_state::block, slot_state::unblock, slot::operator(), connection::block"])

p("C13", "connection_blocker blocks for exactly its lifetime (single blocker)",
  "Constructing a blocker blocks the listener; moving a blocker transfers responsibility (the moved-from object does nothing when destroyed); destroying the responsible blocker unblocks exactly that listener; if the listener is gone nothing happens.",
  "every sequence of blocker construct/move/assign/swap/destroy operations interleaved with any other operations",
  "histories of moves and swaps are unbounded",
  [f"{S}: connection_blocker"])

p("C14", "nested blockers keep a listener blocked until the last one is gone",
  "If two blockers for the same listener exist, the listener stays blocked until both have been destroyed.",
  "every history with overlapping blockers",
  "tests only use one blocker; the property is false of the code (a flag, not a counter)",
  [f"{S}: connection_blocker::release, slot_state::unblock"])

p("C15", "scoped_connection disconnects exactly what it owns, exactly when it should",
  "Destroying a scoped_connection disconnects the listener it refers to; moved-from, released and default-constructed ones disconnect nothing; move-assignment first disconnects the old listener and then takes over the new one; release() and swap() disconnect nothing. A listener referred to by some scoped_connection stays so until its owner is destroyed, released or assigned to.",
  "every sequence of construct/move/assign/release/swap/destroy operations",
  "histories are unbounded",
  [f"{S}: scoped_connection"])

p("C16", "listeners on expired tracked objects are never called, and live ones stay alive during the call",
  "A listener bound to a shared/weak pointer is called only while the object is alive, and the object cannot be destroyed while the call is running; once the object has expired the listener is never called again and connected() is false for ever.",
  "every moment at which any owner (any thread) may drop the last reference",
  "the window between the check and the call exists only in particular schedules",
  [f"{S}: slot_pmf_tracked"])

p("C17", "a successful disconnect() implies the listener was reported connected",
  "connection::disconnect() returns true only if connected() would have returned true immediately before.",
  "every listener kind and state",
  "depends on the expired-object state; false of the code for tracked listeners",
  [f"{S}: slot_pmf_tracked::connected, slot::disconnect, slot_state::disconnect"])

p("C18", "copy-on-write pointers behave like independent values",
  "Any sequence of make/copy/move/assign/read/write operations on any number of cow_ptr handles gives the same reads as if every handle held its own private value; dereferencing an empty handle is the only undefined operation.",
  "every operation sequence on every number of handles",
  "aliasing histories are unbounded",
  [f"{S}: cow_ptr"])

p("C19", "a running emission's list of listeners never changes",
  "From the moment an emission has its snapshot until it ends, the sequence of listeners it iterates is unchanged, whatever any thread (or a listener) connects, disconnects, erases, moves or destroys.",
  "every schedule",
  "iterator invalidation shows only in particular interleavings",
  [f"{S}: cow_ptr::detach, signal::read_slots, signal::operator()"])

p("C20", "list updates are atomic and none is lost",
  "Concurrent connect/disconnect calls on one signal take effect as if executed one at a time: the list at any moment the mutex is free is the result of applying the completed updates in some order consistent with the order they entered the critical section.",
  "every number of threads and every schedule",
  "lost updates appear only under specific interleavings",
  [f"{S}: signal::add_slot, signal::remove_slot, signal::erase, m_SlotMutex"])

p("C21", "no deadlock: the signal mutex is never held while a listener runs",
  "At no time does a thread hold a signal's mutex while it executes a listener or combiner; every thread blocked on a signal's mutex waits for a thread that can itself run, so some thread can always make progress; a listener may therefore call connect, disconnect, emit on the same signal.",
  "every reachable state of any number of threads and signals, including cross-emission between signals",
  "a deadlock needs a specific interleaving",
  [f"{S}: signal::operator(), signal::read_slots, lock_type"])

p("C22", "no undefined behaviour while signals stay put",
  "As long as no signal is moved or destroyed (and user combiners do not dereference the end iterator), no API call, from any thread, in any order, re-entrant or not, ever dereferences a null list, touches a dead signal, or indexes outside the list.",
  "every history and schedule without signal move/destruction",
  "absence of undefined behaviour over all executions cannot be observed by running some",
  [f"{S}: signal, slot, connection"])

p("C23", "destroying a signal is safe for its handles and for its own running emission",
  "A listener may destroy the signal that is calling it: the emission completes over its snapshot. After a signal is destroyed and its emissions and the calls on its handles have ended every connection to it is invalid, and all operations on such connections are harmless no-ops.",
  "every history, every number of connections",
  "lifetimes over all histories",
  [f"{S}: ~signal, signal::operator(), connection"])

p("C24", "connection::disconnect() is safe on any handle at any time",
  "connection::disconnect() never touches a dead or moved-from signal.",
  "every history including destruction of the signal during its own emission and moving the signal",
  "false of the code: the listener keeps a raw pointer to its signal; tests never move or destroy a signal with live handles",
  [f"{S}: slot::m_pSignal, slot::disconnect, signal::signal(signal&&)"])

p("C25", "moving a signal keeps its listeners and connections",
  "A move-constructed signal calls exactly the listeners of the source in the same order, connections stay valid and connected, and the source is left with no listeners.",
  "every list, every state",
  "no test moves a signal",
  [f"{S}: signal::signal(signal&&), signal::operator=(signal&&)"])

p("C26", "an exception from a listener ends the emission cleanly",
  "If a listener throws, no later listener is called by that emission, the exception reaches the caller, no mutex is left locked, no listener is removed and no flag changes because of it, and later emissions work.",
  "every position of the throwing listener, every nesting depth, every schedule",
  "positions and nesting are unbounded; no test throws from a listener",
  [f"{S}: signal::operator(), optional_last_value::operator()"])

p("C27", "every listener sees the same arguments",
  "All listeners called by one emission receive the argument values that were passed to the signal.",
  "every parameter list, every number of listeners, every way listeners take their parameters",
  "tests only use scalars and references; false of the code for by-value movable parameters",
  [f"{S}: slot_iterator::do_invoke, signal::operator(), slot_impl::operator()"])

p("C28", "slot equality is an equivalence where it is defined",
  "Comparing slots never depends on blocked/connected state or on which signal they belong to; empty slots equal only empty slots; slots of different kinds or callable types are unequal; on comparable slots == is reflexive, symmetric and transitive when the callables' own == is; it throws exactly when both have the same dynamic type and a needed member is not comparable or its own == throws.",
  "every pair of slots",
  "the pairs are unbounded",
  [f"{S}: slot operator==, slot_func::equals, slot_pmf::equals, slot_pmf_tracked::equals, try_equals"])

p("C29", "disconnect(f) matches what connect(f) connected",
  "Connecting a comparable callable and then disconnecting an equal callable removes it, however the two calls spell the callable.",
  "every comparable callable and every value category of the two call arguments",
  "tests use the same spelling for both; false of the code: the slot type depends on lvalue/rvalue spelling",
  [f"{S}: slot_func (template parameter Func), signal::connect, signal::disconnect"])

p("C30", "tracked listeners can be disconnected by (function, pointer)",
  "signal::disconnect(pmf, shared_ptr) removes the listeners connected with that member function and object.",
  "every list containing tracked listeners",
  "never tested; false of the code: weak_ptr is not equality comparable, so the scan throws",
  [f"{S}: slot_pmf_tracked::equals, try_equals"])

p("C31", "slot copies and connected listeners are independent",
  "Copying a slot (or connecting it) yields an independent blocked/connected state, copied at that moment: later block/unblock/disconnect on one never affects the other; connecting the same slot or callable n times yields n independent listeners.",
  "every history of operations on any number of slots",
  "histories are unbounded",
  [f"{S}: slot::slot(const slot&, signal_base*), slot_impl::clone, slot_state(const slot_state&)"])

p("C32", "optional behaves like a value-or-nothing",
  "Any sequence of construct/copy/move/assign/reset/emplace/swap operations on any number of opt::optional objects agrees with the abstract 'nothing or a value' semantics for has_value, value, value_or; value() throws exactly when disengaged.",
  "every operation sequence, both storage implementations (scalar and general)",
  "operation sequences are unbounded",
  [f"{O}: optional_base, tc_optional_base, optional"])

p("C33", "optional constructs and destroys each contained object exactly once",
  "Over any history, including constructors and assignments that throw, an engaged optional contains exactly one live object and a disengaged one none; no object is destroyed twice, leaked, or constructed over a live one.",
  "every operation sequence and every choice of which constructor/assignment call throws",
  "throw points times histories are unbounded",
  [f"{O}: optional_base::construct, destroy, assign, emplace_assign, ~optional_base"])

p("C34", "optional comparisons order nothing below every value",
  "For totally ordered T the relational operators on optional<T> form a total order with the disengaged state least; all mixed forms (optional/value, value/optional, optional/nullopt) agree with comparing optionals.",
  "every pair or triple of optionals over every totally ordered type",
  "the domain is infinite",
  [f"{O}: operator==, operator<, operator<=, operator>, operator>=, operator!="])

p("C35", "optional comparisons agree with the contained type's operators",
  "For every T, engaged optionals compare with each relational operator exactly as their values do.",
  "every type T including partially ordered ones such as floats with NaN",
  "false of the code for <=, >= and for types whose != is not the negation of ==; tests use ints",
  [f"{O}: operator<=(const optional<T>&, const optional<T>&), operator>="])

p("C36", "documented combiners compute what they promise",
  "Over a totally ordered result type maximum_value returns the greatest engaged result (disengaged iff none); aggregate_values returns all engaged results in invocation order; max_or_default returns the greatest engaged result, or the default if there is none; optional_last_value the last engaged one; each runs every listener once, in order.",
  "every list of results",
  "result lists are unbounded",
  ["README.md: maximum_value, aggregate_values", "examples/maximum_value/maximum_value.cpp", "examples/aggregate_values/aggregate_values.cpp", "tests/signal_tests.cpp: max_or_default"])

p("C37", "a listener runs once per dereference, and only then",
  "With a user combiner, each dereference of the iterator checks and calls the listener at that position once; positions never dereferenced are never called; n dereferences of one position make n calls.",
  "every combiner behaviour, every schedule",
  "combiners are arbitrary programs",
  [f"{S}: slot_iterator::operator*, signal::operator()"])

p("C38", "an emission is never silently suppressed at signal level",
  "No API call can put a signal into a state in which its emissions return without visiting the listeners.",
  "every history",
  "needs all histories (the m_Blocked flag is read but nothing may ever set it)",
  [f"{S}: signal::m_Blocked, signal::operator()"])

p("C39", "nested emissions are independent",
  "A listener may emit the same signal again to any depth: each emission has its own snapshot, position, arguments and result, and the inner one does not disturb the outer one.",
  "every nesting depth and schedule",
  "depth is unbounded",
  [f"{S}: signal::operator(), signal::read_slots"])

p("C40", "removal order is swap-with-last, documented exactly",
  "Removing one listener at position i moves the last listener to position i and changes nothing else; removing the last listener preserves order; the relative order of the first i listeners is always preserved.",
  "every list and position",
  "lists are unbounded",
  [f"{S}: signal::remove_slot, signal::erase", "README.md: Disconnecting Equivalent Slots"])

p("C41", "all copies of a connection agree",
  "Copies of a connection (however copied, moved or swapped) refer to the same listener: valid/connected/blocked agree on all of them, and disconnect or block through one is seen through all.",
  "every history of handle copies, moves and swaps",
  "histories are unbounded",
  [f"{S}: connection"])

p("C42", "an empty or expired connection is inert",
  "On a default-constructed, moved-from or expired connection, valid/connected/blocked/disconnect are false and block/unblock/disconnect/blocker change nothing.",
  "every state",
  "needs all states",
  [f"{S}: connection"])

p("C43", "listeners are conserved",
  "A listener is in a signal's list iff its connect() took effect and it has not been removed; it is never duplicated, never in two signals' lists, and at most one removal of it happens.",
  "every history and schedule",
  "needs all histories",
  [f"{S}: signal::add_slot, signal::remove_slot, signal::erase"])

p("C44", "a listener that stays connected and unblocked is called exactly once per emission",
  "If a listener is in the snapshot of a completed default emission and is connected, unblocked and (if tracked) alive whenever that emission checks it, the emission calls it exactly once.",
  "every schedule and every behaviour of other listeners",
  "all interleavings",
  [f"{S}: slot::operator(), optional_last_value::operator()"])

p("C45", "arguments are unpacked in order",
  "For a signal with N parameters the i-th listener parameter receives the i-th emission argument, for every N.",
  "every N",
  "template recursion over every arity",
  [f"{S}: make_integer_sequence, slot_iterator::do_invoke"])

p("C46", "listed listeners know their own position",
  "Whenever a signal's mutex is free, the position stored in every listed listener is its position in the list (so removal through a connection is constant time and correct).",
  "every history and schedule",
  "needs all histories of swap-removals",
  [f"{S}: slot_state::index, signal::add_slot, signal::remove_slot, signal::erase"])

p("C47", "API calls other than emission finish in a bounded number of own steps",
  "A call of connect, of a connection's disconnect or of the move constructor returns after at most seven steps of its own, disconnect(f) after at most N + 7 where N bounds the length of the list; and once a call or an emission holds the mutex it releases it after at most n + 4 steps of its own, n being the length of the list. Both whatever other threads do.",
  "every state and schedule",
  "a bound over all states",
  [f"{S}: signal::add_slot, signal::remove_slot, signal::erase, signal::read_slots"])

p("C48", "member-function dispatch agrees with the connect() constraint",
  "Whenever connect(pmf, p) is accepted because the trait says pmf is invocable on p, the call performed later is well formed and uses the same object expression (reference, reference_wrapper or dereference).",
  "every combination of class relation, pointer, smart pointer, reference wrapper and value category",
  "template case analysis; false for reference_wrapper to a pointer",
  [f"{S}: result_of_memfun, inv_unwrap, invoke_helper<Type Base::*>::get"])

p("C49", "a listener lives exactly as long as something can still call or remove it",
  "connection::valid() is true exactly while the listener is in some signal's list, or an emission whose snapshot contains it has not ended, or a connect/disconnect of it is in progress, or a thread is just inside another member function of a handle to it; so handles as such never keep a listener alive and an emission always does.",
  "every history and schedule, any number of handles, emissions and signals",
  "leaks and premature frees depend on the interleaving of emissions, copy-on-write clones and removals",
  [f"{S}: connection::valid, signal::operator(), slot_state, cow_ptr::detach"])

p("C50", "what a throwing assignment or emplace leaves behind",
  "As the comments of optional.hpp say: if the construction in emplace() throws, or the one in a converting assignment, the optional is left disengaged.",
  "every state of the optional, every T (scalar or not), every point at which an operation of T throws",
  "false of the code for scalar T and for assignment to an engaged optional; tests do not throw from conversions",
  [f"{O}: optional::emplace, optional::operator=(optional<U> const&), tc_optional_base::emplace_assign, optional_base::assign"])

p("C51", "a slot can be copied",
  "Copying any slot object (initialising a slot from another one) ends and gives a slot with the same callable and flags.",
  "every state of the slot, every constness and value category of the expression copied",
  "overload resolution picks the greedy template constructor for non-const slots, which recurses without end; tests only connect slots",
  [f"{S}: slot::slot(Func&&, signal_base*), slot::slot(const slot&, signal_base*), slot::slot(slot&&)"])

p("C52", "no listener is destroyed while the library holds a mutex",
  "Whenever a listener (and so the user's callable in it) is destroyed, the thread destroying it holds no signal's mutex, so a destructor that uses the signal cannot deadlock.",
  "every history, schedule and way for a listener to die",
  "only shows when a destructor re-enters the signal; false for erase() and for a disconnect() through a stale handle",
  [f"{S}: signal::remove_slot, signal::erase, connection::disconnect, slot::disconnect, signal::operator()"])

p("C53", "the library never touches a dead listener",
  "Every listener whose members or callable a step of the library uses is alive at that step, even when its callback has disconnected itself, erased itself or destroyed the signal.",
  "every history and schedule, every re-entrant action of a callback",
  "a use after free needs the last reference to be dropped at one point of a concurrent or re-entrant execution",
  [f"{S}: signal::operator(), slot_iterator::operator*, slot::operator(), connection::disconnect, signal::erase"])

p("C54", "no data races",
  "No execution has two conflicting accesses by different threads, neither happening before the other, to a signal's list pointer, to a vector of listeners or to a listener's stored position.",
  "every program of any number of threads, every schedule, every pair of accesses",
  "a data race is a property of the happens-before order, not of the values observed; on common hardware the racing execution behaves normally",
  [f"{S}: cow_ptr::detach, cow_ptr::write, signal::add_slot, signal::remove_slot, signal::erase, signal::operator(), slot_iterator"])

p("C55", "running out of memory has no effect",
  "When memory runs out inside connect(), signal::disconnect() or a connection's disconnect(), the call throws std::bad_alloc and has changed nothing: the lists, all listeners and all handles are as without the call, the mutex is free, and the new listener is destroyed and never called.",
  "every program and schedule, every point of a call at which an allocation under the mutex can fail",
  "allocation failures are rare and tests would have to hit the one allocation made while another thread emits; false for connection::disconnect(), which is noexcept and terminates, and for the control block of the copied list, which is allocated in a noexcept constructor",
  [f"{S}: signal::add_slot, signal::erase, cow_ptr::detach, cow_ptr::write, slot::disconnect, connection::disconnect"])

p("C56", "an emission ends",
  "An emission with the default combiner that copied a list of n listeners takes at most 5 + 6n steps of its own, however many listeners its callbacks and other threads connect, disconnect or block meanwhile (a callback that connects a listener each time it runs does not keep the emission going); with the last of these steps it ends. With any combiner the number of steps is linear in the number of dereferences.",
  "every program, schedule and callback, finite and infinite executions",
  "a bound over all executions; a test sees only that one emission returned",
  [f"{S}: signal::operator(), optional_last_value, slot_iterator, slot::operator()"])

p("C57", "every call returns",
  "If the scheduler is fair (a thread that again and again can go on, or finds the mutex it wants free, is scheduled again and again), then every connect(), disconnect(f), disconnect() and move construction of a signal returns, and every emission whose callbacks return does too (with a combiner of the user: if that goes on whenever it has to and dereferences finitely often), however much the other threads contend for the mutex and change the list. Whatever callbacks and combiners do, a thread inside the library always gets back to user code.",
  "every infinite execution of every program with any number of threads and a fair scheduler",
  "a liveness property: no finite run refutes it; a test cannot tell a starved call from a slow one",
  [f"{S}: signal::operator(), signal::add_slot, signal::remove_slot, signal::erase, slot::disconnect, optional_last_value, slot_iterator"])

p("C58", "an optional reference is a name that can be rebound",
  "An optional<T&> names the object it was last bound to, through whatever copies, assignments, emplacements and swaps the binding came; reading and writing through it reads and writes that object. No operation of the optional itself writes, moves from or destroys an object (assignment rebinds). value() throws exactly if it names nothing; undefined behaviour happens exactly if nothing or a dead object is accessed. So the default combiner on a signal of references gives back a reference to the object that the last listener returned and changes no object.",
  "every program of any length over any number of objects and optional references; every list of results of listeners",
  "aliasing: whether an assignment rebinds or writes through shows only with several names of several objects",
  [f"{O}: optional<T&>, make_optional(std::reference_wrapper<T>)", f"{S}: optional_last_value::operator()"])

p("C59", "an iterator is a place in its emission",
  "The iterators a combiner gets, and all copies of them, are independent places in the list of their emission: each is moved by its own increments only, two are equal exactly if they are at the same place, and dereferencing calls the listener at that place, once per dereference and at no other time, with the one set of arguments of the emission as the previous calls left it. *i++ calls the listener that *i would have called. A loop to the last iterator calls every listener from there on, once and in order; a second pass with a copy calls all of them again, with the arguments that the first pass left. Undefined behaviour is exactly: incrementing or dereferencing at the end, comparing iterators of different emissions, using one after its emission.",
  "every program of any length that makes emissions and copies, increments, compares and dereferences any number of their iterators; all listeners",
  "a test tries one combiner; what copies of iterators share shows only with several of them and listeners that change their arguments",
  [f"{S}: slot_iterator, signal::operator()"])

p("C60", "comparisons and destructors may use the library",
  "signal::disconnect(f) runs the operator== of callables, and the destructors of those it removes, while it holds the mutex of the signal. Whatever of the library these use, on this or other signals, they cannot break anything: lists, handles, results of emissions and the effects of all calls are such as a program without these callbacks could produce with more threads. And every call they make, and the disconnect(f) itself, can complete.",
  "every program, schedule and callback (at any place inside the library), any number of threads and signals, any depth of nesting",
  "callbacks under a lock: which calls block depends on what other threads hold at that moment",
  [f"{S}: try_equals, signal::erase, signal::disconnect"])

p("C61", "updates of a list are atomic",
  "connect(), signal::disconnect() and a connection's disconnect() change a list by several statements: copy the vector, set the pointer, store a position, append, swap, store a position, remove. Other threads may run between any two of them. Nobody can tell: whatever calls the threads make, in whatever order they are scheduled, the lists (of signals that no thread is updating), snapshots and walks of emissions, results, flags, handles and the history are as if each update happened at one instant. Every execution with instantaneous updates is possible, and an update that has begun can always go on.",
  "every program and every interleaving of single statements, any number of threads, signals and listeners; failing allocations included",
  "interleavings of single statements of concurrent updates and emissions; a test hits few of them, and none on purpose",
  [f"{S}: signal::add_slot, signal::remove_slot, signal::erase, signal::read_slots, cow_ptr::detach, cow_ptr::write"])

p("C62", "a listener counts the emissions",
  "Once connect() has returned, and as long as nobody disconnects, blocks or removes the new listener, its tracked object (if any) lives and the signal is neither moved nor destroyed, the listener is called exactly once by each emission (with the default combiner) that begins and returns. So a listener that increments a counter counts: at any moment, of the emissions begun since, those that have returned have made exactly as many calls as they are, and all together have made at most as many as they are.",
  "every program and interleaving, any number of threads emitting at once, emissions from inside listeners, other listeners being connected, disconnected, blocked and throwing meanwhile",
  "the test of it (InvokeThreaded) runs one schedule of ten threads on one machine; a lost or doubled call shows only in some interleavings",
  [f"{S}: signal::operator(), signal::connect, slot_iterator, signal::read_slots", "tests/signal_tests.cpp: InvokeThreaded"])

p("C63", "where the user's callables are destroyed",
  "A listener object, and with it the user's callable, is destroyed only at these points: when signal::disconnect(f) (or, by the known mistake, a disconnect() of another listener) takes it out of the list, when its signal is destroyed, when its own disconnect() returns, when an emission that has it in its snapshot ends, when its connect() throws std::bad_alloc, or when a member function of a handle or blocker that was using it returns. Never in the middle of an emission, in a connect() that succeeds, or in a move of the signal. A member function of a handle that has got hold of the listener keeps it until it returns, whatever other threads remove or destroy meanwhile, and block()/unblock() take effect on that listener.",
  "every program and schedule, any number of threads inside member functions of handles at any moment",
  "the last owner of a listener depends on the interleaving: even connected() of another thread may be the one to run the destructor of a functor",
  [f"{S}: connection, connection_blocker, slot_state, signal::operator(), signal::erase, signal::remove_slot, ~signal"])

p("C64", "equal copy-on-write pointers share one value",
  "cow_ptr::operator== is true exactly of variables that share one object: a copy equals its original, an assigned variable its source, and they stay equal until one of them is written (or otherwise accessed through a non-const function), reassigned or destroyed; then that one equals none of the others any more. Variables made separately never compare equal, even with equal values; equal variables always have equal values.",
  "every program of any length over any number of cow_ptr variables and references kept into them, failing copies included",
  "identity depends on the whole history of copies and writes of all the variables",
  [f"{S}: cow_ptr::operator==, cow_ptr::operator!=, cow_ptr::detach", "tests/cow_tests.cpp"])

p("C65", "a reference kept into a copy-on-write pointer is to that variable's value",
  "A reference that write(), operator*, operator-> or data() of a variable gave out refers to the value of that variable, and of no other: reading it gives the variable's value, writing it changes that variable and no other.",
  "every program of any length over any number of cow_ptr variables and kept references",
  "aliasing between references, the variable and its later copies",
  [f"{S}: cow_ptr::write, cow_ptr::operator*, cow_ptr::operator->, cow_ptr::data, cow_ptr(const cow_ptr&)"])

p("C66", "signals are independent",
  "Nothing that threads do with other signals, with their listeners and connections, or with tracked objects has an effect on a signal: as long as no call on it is in progress and none begins, its list, its mutex and its state stay as they are. Also while calls on it are in progress, only the steps of these calls affect it. A call on a signal is delayed by other calls on the same signal only.",
  "every program and schedule, any number of signals and threads, of any length; callbacks that use other signals included",
  "an absence of effects over all states and operations; shared state between signals (a global lock, a shared list after a move) shows in some combinations only",
  [f"{S}: signal, slot::disconnect, signal::remove_slot, signal(signal&&), ~signal"])

p("C67", "nothing changes behind the user's back",
  "A listener is marked as disconnected only by a disconnect() through a connection to it, or by an emission that finds its tracked object gone, and nothing ever marks it as connected again. It is blocked and unblocked only by calls of block(), unblock() or of a connection_blocker for it. What it calls never changes. A connection, scoped connection or blocker changes only when the program assigns to it, moves from it, swaps, makes or destroys it, and then to the value given. Only the user makes and drops owners of a tracked object. Emissions change no list.",
  "every step of every program and schedule; for the flags and the variables also whole executions of any length",
  "an absence of effects over all states and operations",
  [f"{S}: slot_state, slot::disconnect, slot_pmf_tracked::operator(), connection, scoped_connection, connection_blocker, signal::operator()"])

p("C68", "a reference to the value of an optional names it until the optional is emptied",
  "A reference or pointer got from operator*, get(), value(), get_ptr() or get_value_or() of an engaged optional is another name of that optional's value: assigning to the optional, moving from it, swapping it with an engaged optional and everything done to other optionals keep it good, and it always reads the value the optional has at that time, also after an assignment that threw. It ends, for good, when the optional is emptied or destroyed, or emplace() is called on it (for scalars only when it is destroyed). get_value_or() of an empty optional gives a name of its argument instead, good as long as the argument is.",
  "every program of any length over any number of optionals, other objects and kept references, with any pattern of throwing operations of T",
  "whether an object is replaced or assigned is not visible in values; dangling references often seem to work",
  ["optional.hpp: optional_base, tc_optional_base, optional::get, optional::value, optional::get_ptr, optional::get_value_or, optional::emplace, optional::swap"])

p("C69", "listeners are called in the order in which they were connected",
  "An emission with the default combiner calls the listeners of its signal in the order in which they were connected.",
  "every program and schedule, any number of listeners and threads",
  "holds in every test that only connects; depends on which listeners were taken out before, and in which order",
  [f"{S}: signal::add_slot, signal::erase, signal::remove_slot, signal::operator()", "README.md: multiple slots"])

p("C70", "after disconnect() the listener's state may be destroyed",
  "Once disconnect() has returned true, the callable of the listener is not running and never runs again, so what it uses may be destroyed.",
  "every program and schedule, any number of threads and emissions, and everything that happens afterwards",
  "fails only if another thread is in the few instructions between the check of the flag and the call, or in the callable, at the time of disconnect()",
  [f"{S}: connection::disconnect, slot::disconnect, slot_func::operator(), signal::operator()", "README.md: connection management"])

p("C71", "used from one thread, the library is a sequential data type",
  "A program with one thread sees exactly what a specification without locks, shared vectors and stored positions says: the results of all calls, which listeners are called and with which arguments, the lists, flags and handles after each call, and whether there is undefined behaviour; every call comes back, and every program that the specification allows can be run.",
  "every program with one thread over the whole interface, with any callables and combiners, re-entrant calls to any depth, and exceptions",
  "a statement about all programs; tests run some calls in some order, and none calls disconnect() after disconnect(callable) from inside an emission",
  [f"{S}: all of signal, slot, connection, scoped_connection, connection_blocker", "README.md"])

p("C72", "calls made at the same time look as if made one after the other",
  "Whatever threads call at the same time, the results are those of some order of the calls, one after the other, in which each thread makes its own in its order.",
  "every program and schedule, any number of threads",
  "the order that would explain the results differs from run to run; a violation needs another thread to come between two statements of one call",
  [f"{S}: signal::disconnect, slot::disconnect, remove_slot, signal::operator(), connection::disconnect"])

p("C73", "a blocked listener is not called until it is unblocked",
  "From the time block() has returned (or a connection_blocker has been made) until the listener is unblocked, nobody calls its callable.",
  "every program and schedule, any number of threads and emissions",
  "a violation needs block() to come between the check of the flag and the call on another thread, which tests do not control",
  [f"{S}:1383-1395 slot::operator()", f"{S}: slot_state::block", f"{S}:1420-1476 connection_blocker", f"{S}: connection::block"])

with open("/verif/properties.jsonl", "w") as f:
    for x in P:
        f.write(json.dumps(x) + "\n")
print(len(P))
