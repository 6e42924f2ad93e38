{
 "claims": [
  {
   "property": "C01",
   "status": "proved",
   "theorems": [
    "Verif.C01",
    "Verif.C01_only",
    "Verif.C01_call"
   ],
   "note": ""
  },
  {
   "property": "C02",
   "status": "partial",
   "theorems": [
    "Verif.C02_partial",
    "Verif.C02_sharp_partial",
    "Verif.C02_gone_partial",
    "Verif.C02_false"
   ],
   "note": "false of the code when signal::disconnect(f) is mixed in; proved for undisturbed removals"
  },
  {
   "property": "C03",
   "status": "proved",
   "theorems": [
    "Verif.C03_once",
    "Verif.C03_first",
    "Verif.C03_winner"
   ],
   "note": ""
  },
  {
   "property": "C04",
   "status": "proved",
   "theorems": [
    "Verif.C04_flag",
    "Verif.C04_call",
    "Verif.C04_tracked"
   ],
   "note": ""
  },
  {
   "property": "C05",
   "status": "proved",
   "theorems": [
    "Verif.C05",
    "Verif.C05_only",
    "Verif.C05_scan"
   ],
   "note": ""
  },
  {
   "property": "C06",
   "status": "proved",
   "theorems": [
    "Verif.C06",
    "Verif.C06_unchanged",
    "Verif.C06_scan",
    "Verif.C06_scan_unchanged"
   ],
   "note": ""
  },
  {
   "property": "C07",
   "status": "proved",
   "theorems": [
    "Verif.C07",
    "Verif.C07_snapshot_now",
    "Verif.C07_calls",
    "Verif.C07_only"
   ],
   "note": ""
  },
  {
   "property": "C08",
   "status": "proved",
   "theorems": [
    "Verif.C08",
    "Verif.C08_engaged",
    "Verif.C08_none"
   ],
   "note": ""
  },
  {
   "property": "C09",
   "status": "proved",
   "theorems": [
    "Verif.C09_late",
    "Verif.C09_early"
   ],
   "note": ""
  },
  {
   "property": "C10",
   "status": "proved",
   "theorems": [
    "Verif.C10",
    "Verif.C04_call"
   ],
   "note": ""
  },
  {
   "property": "C11",
   "status": "partial",
   "theorems": [
    "Verif.C11_false",
    "Verif.C11_partial"
   ],
   "note": "false of the code: erase never clears the connected flag"
  },
  {
   "property": "C12",
   "status": "proved",
   "theorems": [
    "Verif.C12_skip",
    "Verif.C12_call",
    "Verif.C12_blocked",
    "Verif.C12_keeps",
    "Verif.C12_only",
    "Verif.C12_changes"
   ],
   "note": ""
  },
  {
   "property": "C13",
   "status": "proved",
   "theorems": [
    "Verif.C13",
    "Verif.C13_release",
    "Verif.C13_self_move_false"
   ],
   "note": "executions in which blocking is done by blockers only, one per listener, none self-move-assigned"
  },
  {
   "property": "C14",
   "status": "partial",
   "theorems": [
    "Verif.C14_false",
    "Verif.C14_partial"
   ],
   "note": "false of the code: blocking is a flag, not a counter"
  },
  {
   "property": "C15",
   "status": "proved",
   "theorems": [
    "Verif.C15_inert",
    "Verif.C15_dtor",
    "Verif.C15_assign",
    "Verif.C15_completes",
    "Verif.C15_only",
    "Verif.C15_keeps",
    "Verif.C15_sliced"
   ],
   "note": "assigning to a scoped_connection as a connection& disconnects nothing (C15_sliced)"
  },
  {
   "property": "C16",
   "status": "proved",
   "theorems": [
    "Verif.C16_alive",
    "Verif.C16_enter",
    "Verif.C16_expired"
   ],
   "note": ""
  },
  {
   "property": "C17",
   "status": "partial",
   "theorems": [
    "Verif.C17_false",
    "Verif.C17_partial",
    "Verif.C17_seen_partial"
   ],
   "note": "false of the code for expired tracked objects"
  },
  {
   "property": "C18",
   "status": "proved",
   "theorems": [
    "Verif.Cow.C18",
    "Verif.Cow.C18_ub",
    "Verif.Cow.C18_total",
    "Verif.Cow.C18_copies",
    "Verif.Cow.C18_throws",
    "Verif.Cow.C18_kept_reference_false"
   ],
   "note": "accesses through the handles; references kept from write() are excluded (C18_kept_reference_false)"
  },
  {
   "property": "C19",
   "status": "proved",
   "theorems": [
    "Verif.C19_snapshot",
    "Verif.C19_one_snapshot",
    "Verif.C19_unchanged",
    "Verif.C19_nodup"
   ],
   "note": ""
  },
  {
   "property": "C20",
   "status": "proved",
   "theorems": [
    "Verif.C20_serial",
    "Verif.C20_exclusive",
    "Verif.C20_holder"
   ],
   "note": ""
  },
  {
   "property": "C21",
   "status": "proved",
   "theorems": [
    "Verif.C21_unlocked",
    "Verif.C21_listener",
    "Verif.C21_holder",
    "Verif.C21_progress",
    "Verif.C21_alive"
   ],
   "note": ""
  },
  {
   "property": "C22",
   "status": "proved",
   "theorems": [
    "Verif.C22_blame",
    "Verif.C22",
    "Verif.C22_default",
    "Verif.C22_memory"
   ],
   "note": ""
  },
  {
   "property": "C23",
   "status": "proved",
   "theorems": [
    "Verif.C23_destroy",
    "Verif.C23_safe",
    "Verif.C23_goes_on",
    "Verif.C23_completes",
    "Verif.C23_invalid"
   ],
   "note": ""
  },
  {
   "property": "C24",
   "status": "partial",
   "theorems": [
    "Verif.C24_false",
    "Verif.C24_partial",
    "Verif.C24_start_partial"
   ],
   "note": "false of the code: a listener's back pointer dangles after its signal was moved or destroyed"
  },
  {
   "property": "C25",
   "status": "proved",
   "theorems": [
    "Verif.C25_move",
    "Verif.C25_completes",
    "Verif.C25_assign"
   ],
   "note": "move construction; move assignment is undefined behaviour (no return statement), C25_assign"
  },
  {
   "property": "C26",
   "status": "proved",
   "theorems": [
    "Verif.C26_throw",
    "Verif.C26_last",
    "Verif.C26_leaves"
   ],
   "note": ""
  },
  {
   "property": "C27",
   "status": "partial",
   "theorems": [
    "Verif.C27_partial",
    "Verif.C27_plain_partial",
    "Verif.C27_values_partial",
    "Verif.C27_false"
   ],
   "note": "false of the code for by-value parameters whose move changes the source"
  },
  {
   "property": "C28",
   "status": "proved",
   "theorems": [
    "Verif.C28_empty",
    "Verif.C28_different_types",
    "Verif.C28_same_type",
    "Verif.C28_throws_iff",
    "Verif.C28_refl",
    "Verif.C28_symm",
    "Verif.C28_trans"
   ],
   "note": ""
  },
  {
   "property": "C29",
   "status": "partial",
   "theorems": [
    "Verif.C29_same_spelling_partial",
    "Verif.C29_false_different_spelling",
    "Verif.C29_false_removes_nothing"
   ],
   "note": "false of the code: equality depends on the value category at the call"
  },
  {
   "property": "C30",
   "status": "partial",
   "theorems": [
    "Verif.C30_false",
    "Verif.C30_comparable_weak_partial"
   ],
   "note": "false of the code for std pointers"
  },
  {
   "property": "C31",
   "status": "proved",
   "theorems": [
    "Verif.SlotObj.C31",
    "Verif.SlotObj.C31_independent",
    "Verif.SlotObj.C31_copy",
    "Verif.SlotObj.C31_memory",
    "Verif.SlotObj.C31_end"
   ],
   "note": ""
  },
  {
   "property": "C32",
   "status": "proved",
   "theorems": [
    "Verif.Opt.C32",
    "Verif.Opt.C32_calm",
    "Verif.Opt.C32_scalar"
   ],
   "note": ""
  },
  {
   "property": "C33",
   "status": "proved",
   "theorems": [
    "Verif.Opt.C33",
    "Verif.Opt.C33_end"
   ],
   "note": ""
  },
  {
   "property": "C34",
   "status": "proved",
   "theorems": [
    "Verif.OptCmp.C34_total",
    "Verif.OptCmp.C34_least",
    "Verif.OptCmp.C34_nullopt",
    "Verif.OptCmp.C34_value"
   ],
   "note": ""
  },
  {
   "property": "C35",
   "status": "partial",
   "theorems": [
    "Verif.OptCmp.C35_false",
    "Verif.OptCmp.C35_ne_false",
    "Verif.OptCmp.C35_partial",
    "Verif.OptCmp.C35_mixed_partial",
    "Verif.OptCmp.C35_total_partial"
   ],
   "note": "false of the code for types that are not totally ordered"
  },
  {
   "property": "C36",
   "status": "proved",
   "theorems": [
    "Verif.Combiner.C36_runs_all",
    "Verif.Combiner.C36_last",
    "Verif.Combiner.C36_maximum",
    "Verif.Combiner.C36_aggregate",
    "Verif.Combiner.C36_default",
    "Verif.Combiner.C36_nan_false"
   ],
   "note": "the maximum is the maximum over totally ordered types only (C36_nan_false)"
  },
  {
   "property": "C37",
   "status": "proved",
   "theorems": [
    "Verif.C37_counts",
    "Verif.C37_finished",
    "Verif.C37_only",
    "Verif.C37_deref"
   ],
   "note": ""
  },
  {
   "property": "C38",
   "status": "proved",
   "theorems": [
    "Verif.C38",
    "Verif.C38_flag"
   ],
   "note": ""
  },
  {
   "property": "C39",
   "status": "proved",
   "theorems": [
    "Verif.C39_ids",
    "Verif.C39_complete",
    "Verif.C39_outer"
   ],
   "note": ""
  },
  {
   "property": "C40",
   "status": "proved",
   "theorems": [
    "Verif.C40_swap_with_last",
    "Verif.C40_remove_last",
    "Verif.C40_prefix_kept",
    "Verif.C40_machine"
   ],
   "note": ""
  },
  {
   "property": "C41",
   "status": "proved",
   "theorems": [
    "Verif.C41_copy",
    "Verif.C41_move",
    "Verif.C41_swap",
    "Verif.C41_keeps",
    "Verif.C41_block",
    "Verif.C41_disconnect"
   ],
   "note": ""
  },
  {
   "property": "C42",
   "status": "proved",
   "theorems": [
    "Verif.C42_queries",
    "Verif.C42_block",
    "Verif.C42_blocker",
    "Verif.C42_disconnect",
    "Verif.C42_forever"
   ],
   "note": ""
  },
  {
   "property": "C43",
   "status": "proved",
   "theorems": [
    "Verif.C43_listed",
    "Verif.C43_nodup",
    "Verif.C43_one_signal",
    "Verif.C43_once",
    "Verif.C43_counts"
   ],
   "note": ""
  },
  {
   "property": "C44",
   "status": "proved",
   "theorems": [
    "Verif.C44"
   ],
   "note": ""
  },
  {
   "property": "C45",
   "status": "proved",
   "theorems": [
    "Verif.IntSeq.C45",
    "Verif.IntSeq.C45_indices"
   ],
   "note": ""
  },
  {
   "property": "C46",
   "status": "proved",
   "theorems": [
    "Verif.C46"
   ],
   "note": ""
  },
  {
   "property": "C47",
   "status": "proved",
   "theorems": [
    "Verif.C47",
    "Verif.C47_call"
   ],
   "note": ""
  },
  {
   "property": "C48",
   "status": "partial",
   "theorems": [
    "Verif.Dispatch.C48_false",
    "Verif.Dispatch.C48_union_false",
    "Verif.Dispatch.C48_rvalue_false",
    "Verif.Dispatch.C48_partial",
    "Verif.Dispatch.C48_same_partial"
   ],
   "note": "false of the code for reference wrappers to pointers, data members of unions and &&-qualified functions; true otherwise"
  },
  {
   "property": "C49",
   "status": "proved",
   "theorems": [
    "Verif.C49"
   ],
   "note": ""
  },
  {
   "property": "C50",
   "status": "partial",
   "theorems": [
    "Verif.Opt.C50_emplace_partial",
    "Verif.Opt.C50_scalar_false",
    "Verif.Opt.C50_assign_false"
   ],
   "note": "the comments in optional.hpp are false for scalars and for assignments to an engaged optional"
  },
  {
   "property": "C51",
   "status": "partial",
   "theorems": [
    "Verif.SlotObj.C51_false",
    "Verif.SlotObj.C51_const_rvalue_false",
    "Verif.SlotObj.C51_empty_false",
    "Verif.SlotObj.C51_partial"
   ],
   "note": "false of the code: copying a non-const slot variable recurses forever, copying an empty one dereferences null"
  },
  {
   "property": "C52",
   "status": "partial",
   "theorems": [
    "Verif.C52_partial",
    "Verif.C52_false",
    "Verif.C52_stale_false"
   ],
   "note": "false of the code: erase() and a stale disconnect() destroy a callable under the mutex; true of every other way to die"
  },
  {
   "property": "C53",
   "status": "proved",
   "theorems": [
    "Verif.C53",
    "Verif.C53_running"
   ],
   "note": ""
  },
  {
   "property": "C54",
   "status": "partial",
   "theorems": [
    "Verif.C54_partial",
    "Verif.C54_false",
    "Verif.C54_fixed",
    "Verif.C54_other",
    "Verif.C54_writes",
    "Verif.C54_destroy",
    "Verif.C54_recorded",
    "Verif.C54_mutex",
    "Verif.C54_reads",
    "Verif.C54_kept"
   ],
   "note": "false of the code: detach() decides on a relaxed use_count(), so an in-place modification races with the walk of a finished emission; C54_partial: that is the only race; C54_fixed: none with an acquiring use_count()"
  },
  {
   "property": "C55",
   "status": "partial",
   "theorems": [
    "Verif.C55_connect_partial",
    "Verif.C55_erase_partial",
    "Verif.C55_terminate_partial",
    "Verif.C55_false",
    "Verif.C55_connect_false",
    "Verif.C55_erase_false"
   ],
   "note": "false of connection::disconnect(): it is noexcept but may have to copy the list, so the program is terminated; false of connect and signal::disconnect if it is the control block of the copied list that cannot be allocated (noexcept constructor of cow_ptr); otherwise proved for these"
  },
  {
   "property": "C56",
   "status": "proved",
   "theorems": [
    "Verif.C56_ends",
    "Verif.C56_steps",
    "Verif.C56_infinite"
   ],
   "note": "with C21_progress: the library is never stuck, so an emission whose callables return ends"
  },
  {
   "property": "C57",
   "status": "proved",
   "theorems": [
    "Verif.C57_call",
    "Verif.C57_emit",
    "Verif.C57_any",
    "Verif.C57_back",
    "Verif.C57_weak_false",
    "Verif.C57_deref_false"
   ],
   "note": "fairness as in DESIGN.md; weak fairness does not suffice (C57_weak_false); that callables return and that a combiner goes on and dereferences finitely often are hypotheses on user code"
  },
  {
   "property": "C58",
   "status": "proved",
   "theorems": [
    "Verif.OptRef.C58",
    "Verif.OptRef.C58_total",
    "Verif.OptRef.C58_rebinds",
    "Verif.OptRef.C58_alias",
    "Verif.OptRef.C58_combine"
   ],
   "note": ""
  },
  {
   "property": "C59",
   "status": "proved",
   "theorems": [
    "Verif.Iter.C59",
    "Verif.Iter.C59_state",
    "Verif.Iter.C59_total",
    "Verif.Iter.C59_count",
    "Verif.Iter.C59_called",
    "Verif.Iter.C59_loop",
    "Verif.Iter.C59_twice",
    "Verif.Iter.C59_postInc"
   ],
   "note": ""
  },
  {
   "property": "C60",
   "status": "partial",
   "theorems": [
    "Verif.C60_sim",
    "Verif.C60_lists",
    "Verif.C60_once",
    "Verif.C60_disconnect",
    "Verif.C60_emission",
    "Verif.C60_no_ub",
    "Verif.C60_waits",
    "Verif.C60_order_partial",
    "Verif.C60_false",
    "Verif.C60_order_false",
    "Verif.C60_listener_false"
   ],
   "note": "nothing breaks (C60_sim and consequences), but calls can block for ever: C60_false, C60_order_false. C60_order_partial: not if mutexes are locked in a fixed order"
  },
  {
   "property": "C61",
   "status": "proved",
   "theorems": [
    "Verif.C61",
    "Verif.C61_exact",
    "Verif.C61_lists",
    "Verif.C61_snapshot",
    "Verif.C61_visits",
    "Verif.C61_locked",
    "Verif.C61_progress",
    "Verif.C61_safe",
    "Verif.C61_removes",
    "Verif.C61_histories",
    "Verif.C61_midway"
   ],
   "note": ""
  },
  {
   "property": "C62",
   "status": "proved",
   "theorems": [
    "Verif.C62_each",
    "Verif.C62",
    "Verif.C62_exact"
   ],
   "note": ""
  },
  {
   "property": "C63",
   "status": "proved",
   "theorems": [
    "Verif.C63_dies",
    "Verif.C63_inside"
   ],
   "note": ""
  },
  {
   "property": "C64",
   "status": "proved",
   "theorems": [
    "Verif.Cow.C64",
    "Verif.Cow.C64_total",
    "Verif.Cow.C64_value",
    "Verif.Cow.C64_copy",
    "Verif.Cow.C64_write"
   ],
   "note": ""
  },
  {
   "property": "C65",
   "status": "partial",
   "theorems": [
    "Verif.Cow.C65_false",
    "Verif.Cow.C65_partial"
   ],
   "note": "false of the code: a copy made after the reference was taken is changed by writes through it; proved as long as the variable is not copied, moved, assigned or destroyed"
  },
  {
   "property": "C66",
   "status": "proved",
   "theorems": [
    "Verif.C66",
    "Verif.C66_step",
    "Verif.C66_wait"
   ],
   "note": ""
  },
  {
   "property": "C67",
   "status": "proved",
   "theorems": [
    "Verif.C67",
    "Verif.C67_vars",
    "Verif.C67_connected",
    "Verif.C67_blocked",
    "Verif.C67_code",
    "Verif.C67_conn",
    "Verif.C67_scoped",
    "Verif.C67_blocker",
    "Verif.C67_objs",
    "Verif.C67_list"
   ],
   "note": ""
  },
  {
   "property": "C68",
   "status": "proved",
   "theorems": [
    "Verif.Opt.C68",
    "Verif.Opt.C68_stays",
    "Verif.Opt.C68_ends",
    "Verif.Opt.C68_total",
    "Verif.Opt.C68_scalar"
   ],
   "note": ""
  },
  {
   "property": "C69",
   "status": "partial",
   "theorems": [
    "Verif.C69_partial",
    "Verif.C69_all_partial",
    "Verif.C69_list_partial",
    "Verif.C69_whole_partial",
    "Verif.C69_flip",
    "Verif.C69_false"
   ],
   "note": "false as stated (C69_false): taking a listener out puts the last one in its place; the partial theorems have the listeners connected first, none of them taken out; C69_flip is when exactly two listeners change places"
  },
  {
   "property": "C70",
   "status": "partial",
   "theorems": [
    "Verif.C70_partial",
    "Verif.C70_flag_partial",
    "Verif.C70_gone_partial",
    "Verif.C70_same_partial",
    "Verif.C70_late",
    "Verif.C70_other",
    "Verif.C70_false",
    "Verif.C70_false_later"
   ],
   "note": "false as stated (C70_false, C70_false_later): disconnect() waits for nobody; the partial theorems ask that the emissions begun before it have ended (or are of the same thread)"
  },
  {
   "property": "C71",
   "status": "partial",
   "theorems": [
    "Verif.C71_partial",
    "Verif.C71_noerase",
    "Verif.C71_nohang",
    "Verif.C71_runs_partial",
    "Verif.C71_queries_partial",
    "Verif.C71_returns",
    "Verif.C71_can",
    "Verif.C71_false"
   ],
   "note": "false as stated (C71_false): disconnect() of a listener that disconnect(callable) has taken out of the list removes another one; the partial theorems leave such calls out (Tame), C71_noerase and C71_nohang are for programs that use only one of the two"
  },
  {
   "property": "C72",
   "status": "partial",
   "theorems": [
    "Verif.C72_partial",
    "Verif.C72_turns_partial",
    "Verif.C72_false",
    "Verif.C72_false_order"
   ],
   "note": "false as stated (C72_false: disconnect(callable) takes listeners out one by one, and their handles show it; C72_false_order: disconnect() marks and then removes); C72_partial: no emission and no other update falls within a disconnect(callable); C72_turns_partial: threads that take turns see the sequential specification (except calls left out by Tame)"
  },
  {
   "property": "C73",
   "status": "partial",
   "theorems": [
    "Verif.C73_partial",
    "Verif.C73_quiet_partial",
    "Verif.C73_same_partial",
    "Verif.C73_late",
    "Verif.C73_other",
    "Verif.C73_threads",
    "Verif.C73_false"
   ],
   "note": "false as stated (C73_false): block() waits for nobody; proved: the only calls are of emissions that had come to the listener, at most one per thread and none of the thread that blocks; none at all if there are no such emissions (C73_partial), once the emissions begun before have ended (C73_quiet_partial), or if they are of the same thread (C73_same_partial)"
  }
 ]
}
