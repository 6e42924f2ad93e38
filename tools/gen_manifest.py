"""Write MANIFEST.json from the table below."""
import json
import os

T = {
    "C01": ("proved", "C01 C01_only C01_call", ""),
    "C05": ("proved", "C05 C05_only C05_scan", ""),
    "C06": ("proved", "C06 C06_unchanged C06_scan C06_scan_unchanged", ""),
    "C16": ("proved", "C16_alive C16_enter C16_expired", ""),
    "C02": ("partial", "C02_partial C02_sharp_partial C02_gone_partial C02_false",
            "false of the code when signal::disconnect(f) is mixed in; proved for undisturbed removals"),
    "C03": ("proved", "C03_once C03_first C03_winner", ""),
    "C04": ("proved", "C04_flag C04_call C04_tracked", ""),
    "C10": ("proved", "C10 C04_call", ""),
    "C11": ("partial", "C11_false C11_partial", "false of the code: erase never clears the connected flag"),
    "C12": ("proved", "C12_skip C12_call C12_blocked C12_keeps C12_only C12_changes", ""),
    "C13": ("proved", "C13 C13_release C13_self_move_false",
            "executions in which blocking is done by blockers only, one per listener, none self-move-assigned"),
    "C14": ("partial", "C14_false C14_partial", "false of the code: blocking is a flag, not a counter"),
    "C15": ("proved", "C15_inert C15_dtor C15_assign C15_completes C15_only C15_keeps C15_sliced",
            "assigning to a scoped_connection as a connection& disconnects nothing (C15_sliced)"),
    "C17": ("partial", "C17_false C17_partial C17_seen_partial", "false of the code for expired tracked objects"),
    "C41": ("proved", "C41_copy C41_move C41_swap C41_keeps C41_block C41_disconnect", ""),
    "C42": ("proved", "C42_queries C42_block C42_blocker C42_disconnect C42_forever", ""),
    "C07": ("proved", "C07 C07_snapshot_now C07_calls C07_only", ""),
    "C08": ("proved", "C08 C08_engaged C08_none", ""),
    "C09": ("proved", "C09_late C09_early", ""),
    "C18": ("proved", "Cow.C18 Cow.C18_ub Cow.C18_total Cow.C18_copies Cow.C18_throws Cow.C18_kept_reference_false",
            "accesses through the handles; references kept from write() are excluded (C18_kept_reference_false)"),
    "C32": ("proved", "Opt.C32 Opt.C32_calm Opt.C32_scalar", ""),
    "C33": ("proved", "Opt.C33 Opt.C33_end", ""),
    "C50": ("partial", "Opt.C50_emplace_partial Opt.C50_scalar_false Opt.C50_assign_false",
            "the comments in optional.hpp are false for scalars and for assignments to an engaged optional"),
    "C31": ("proved", "SlotObj.C31 SlotObj.C31_independent SlotObj.C31_copy SlotObj.C31_memory SlotObj.C31_end", ""),
    "C34": ("proved", "OptCmp.C34_total OptCmp.C34_least OptCmp.C34_nullopt OptCmp.C34_value", ""),
    "C35": ("partial", "OptCmp.C35_false OptCmp.C35_ne_false OptCmp.C35_partial OptCmp.C35_mixed_partial OptCmp.C35_total_partial",
            "false of the code for types that are not totally ordered"),
    "C36": ("proved", "Combiner.C36_runs_all Combiner.C36_last Combiner.C36_maximum Combiner.C36_aggregate Combiner.C36_default Combiner.C36_nan_false",
            "the maximum is the maximum over totally ordered types only (C36_nan_false)"),
    "C51": ("partial", "SlotObj.C51_false SlotObj.C51_const_rvalue_false SlotObj.C51_empty_false SlotObj.C51_partial",
            "false of the code: copying a non-const slot variable recurses forever, copying an empty one dereferences null"),
    "C52": ("partial", "C52_partial C52_false C52_stale_false",
            "false of the code: erase() and a stale disconnect() destroy a callable under the mutex; true of every other way to die"),
    "C53": ("proved", "C53 C53_running", ""),
    "C56": ("proved", "C56_ends C56_steps C56_infinite", "with C21_progress: the library is never stuck, so an emission whose callables return ends"),
    "C57": ("proved", "C57_call C57_emit C57_any C57_back C57_weak_false C57_deref_false", "fairness as in DESIGN.md; weak fairness does not suffice (C57_weak_false); that callables return and that a combiner goes on and dereferences finitely often are hypotheses on user code"),
    "C58": ("proved", "OptRef.C58 OptRef.C58_total OptRef.C58_rebinds OptRef.C58_alias OptRef.C58_combine", ""),
    "C59": ("proved", "Iter.C59 Iter.C59_state Iter.C59_total Iter.C59_count Iter.C59_called Iter.C59_loop Iter.C59_twice Iter.C59_postInc", ""),
    "C61": ("proved", "C61 C61_exact C61_lists C61_snapshot C61_visits C61_locked C61_progress C61_safe C61_removes C61_histories C61_midway", ""),
    "C60": ("partial", "C60_sim C60_lists C60_once C60_disconnect C60_emission C60_no_ub C60_waits C60_order_partial C60_false C60_order_false C60_listener_false",
            "nothing breaks (C60_sim and consequences), but calls can block for ever: C60_false, C60_order_false. C60_order_partial: not if mutexes are locked in a fixed order"),
    "C54": ("partial", "C54_partial C54_false C54_fixed C54_other C54_writes C54_destroy C54_recorded C54_mutex C54_reads C54_kept",
            "false of the code: detach() decides on a relaxed use_count(), so an in-place modification races with the walk of a finished emission; C54_partial: that is the only race; C54_fixed: none with an acquiring use_count()"),
    "C55": ("partial", "C55_connect_partial C55_erase_partial C55_terminate_partial C55_false C55_connect_false C55_erase_false",
            "false of connection::disconnect(): it is noexcept but may have to copy the list, so the program is terminated; false of connect and signal::disconnect if it is the control block of the copied list that cannot be allocated (noexcept constructor of cow_ptr); otherwise proved for these"),
    "C45": ("proved", "IntSeq.C45 IntSeq.C45_indices", ""),
    "C48": ("partial", "Dispatch.C48_false Dispatch.C48_union_false Dispatch.C48_rvalue_false Dispatch.C48_partial Dispatch.C48_same_partial",
            "false of the code for reference wrappers to pointers, data members of unions and &&-qualified functions; true otherwise"),
    "C19": ("proved", "C19_snapshot C19_one_snapshot C19_unchanged C19_nodup", ""),
    "C20": ("proved", "C20_serial C20_exclusive C20_holder", ""),
    "C21": ("proved", "C21_unlocked C21_listener C21_holder C21_progress C21_alive", ""),
    "C22": ("proved", "C22_blame C22 C22_default C22_memory", ""),
    "C23": ("proved", "C23_destroy C23_safe C23_goes_on C23_completes C23_invalid", ""),
    "C24": ("partial", "C24_false C24_partial C24_start_partial",
            "false of the code: a listener's back pointer dangles after its signal was moved or destroyed"),
    "C25": ("proved", "C25_move C25_completes C25_assign",
            "move construction; move assignment is undefined behaviour (no return statement), C25_assign"),
    "C47": ("proved", "C47 C47_call", ""),
    "C49": ("proved", "C49", ""),
    "C26": ("proved", "C26_throw C26_last C26_leaves", ""),
    "C27": ("partial", "C27_partial C27_plain_partial C27_values_partial C27_false",
            "false of the code for by-value parameters whose move changes the source"),
    "C28": ("proved", "C28_empty C28_different_types C28_same_type C28_throws_iff C28_refl C28_symm C28_trans", ""),
    "C29": ("partial", "C29_same_spelling_partial C29_false_different_spelling C29_false_removes_nothing",
            "false of the code: equality depends on the value category at the call"),
    "C30": ("partial", "C30_false C30_comparable_weak_partial", "false of the code for std pointers"),
    "C37": ("proved", "C37_counts C37_finished C37_only C37_deref", ""),
    "C38": ("proved", "C38 C38_flag", ""),
    "C39": ("proved", "C39_ids C39_complete C39_outer", ""),
    "C40": ("proved", "C40_swap_with_last C40_remove_last C40_prefix_kept C40_machine", ""),
    "C43": ("proved", "C43_listed C43_nodup C43_one_signal C43_once C43_counts", ""),
    "C44": ("proved", "C44", ""),
    "C46": ("proved", "C46", ""),
    "C62": ("proved", "C62_each C62 C62_exact", ""),
    "C63": ("proved", "C63_dies C63_inside", ""),
    "C66": ("proved", "C66 C66_step C66_wait", ""),
    "C67": ("proved", "C67 C67_vars C67_connected C67_blocked C67_code C67_conn C67_scoped C67_blocker C67_objs C67_list", ""),
    "C68": ("proved", "Opt.C68 Opt.C68_stays Opt.C68_ends Opt.C68_total Opt.C68_scalar", ""),
    "C69": ("partial", "C69_partial C69_all_partial C69_list_partial C69_whole_partial C69_flip C69_false",
            "false as stated (C69_false): taking a listener out puts the last one in its place; the partial theorems have the listeners connected first, none of them taken out; C69_flip is when exactly two listeners change places"),
    "C70": ("partial", "C70_partial C70_flag_partial C70_gone_partial C70_same_partial C70_late C70_other C70_false C70_false_later",
            "false as stated (C70_false, C70_false_later): disconnect() waits for nobody; the partial theorems ask that the emissions begun before it have ended (or are of the same thread)"),
    "C71": ("partial", "C71_partial C71_noerase C71_nohang C71_runs_partial C71_queries_partial C71_returns C71_can C71_false",
            "false as stated (C71_false): disconnect() of a listener that disconnect(callable) has taken out of the list removes another one; the partial theorems leave such calls out (Tame), C71_noerase and C71_nohang are for programs that use only one of the two"),
    "C72": ("partial", "C72_partial C72_turns_partial C72_false C72_false_order",
            "false as stated (C72_false: disconnect(callable) takes listeners out one by one, and their handles show it; C72_false_order: disconnect() marks and then removes); C72_partial: no emission and no other update falls within a disconnect(callable); C72_turns_partial: threads that take turns see the sequential specification (except calls left out by Tame)"),
    "C73": ("partial", "C73_partial C73_quiet_partial C73_same_partial C73_late C73_other C73_threads C73_false",
            "false as stated (C73_false): block() waits for nobody; proved: the only calls are of emissions that had come to the listener, at most one per thread and none of the thread that blocks; none at all if there are no such emissions (C73_partial), once the emissions begun before have ended (C73_quiet_partial), or if they are of the same thread (C73_same_partial)"),
    "C64": ("proved", "Cow.C64 Cow.C64_total Cow.C64_value Cow.C64_copy Cow.C64_write", ""),
    "C65": ("partial", "Cow.C65_false Cow.C65_partial",
            "false of the code: a copy made after the reference was taken is changed by writes through it; proved as long as the variable is not copied, moved, assigned or destroyed"),
}

claims = [{"property": k, "status": s, "theorems": ["Verif." + t for t in ts.split()], "note": n}
          for k, (s, ts, n) in sorted(T.items())]
path = os.path.join(os.path.dirname(__file__), "..", "MANIFEST.json")
with open(path, "w") as f:
    json.dump({"claims": claims}, f, indent=1)
    f.write("\n")
