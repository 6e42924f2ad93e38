# Axioms of each theorem

Written by `tools/gen_axioms.py` from `#print axioms`. All are axioms of Lean itself.

| property | theorem | axioms |
|---|---|---|
| C01 | `Verif.C01` | `propext`, `Classical.choice`, `Quot.sound` |
| C01 | `Verif.C01_only` | `propext`, `Classical.choice`, `Quot.sound` |
| C01 | `Verif.C01_call` | `propext`, `Quot.sound` |
| C02 | `Verif.C02_partial` | `propext`, `Classical.choice`, `Quot.sound` |
| C02 | `Verif.C02_sharp_partial` | `propext`, `Classical.choice`, `Quot.sound` |
| C02 | `Verif.C02_gone_partial` | `propext`, `Classical.choice`, `Quot.sound` |
| C02 | `Verif.C02_false` | `propext`, `Quot.sound` |
| C03 | `Verif.C03_once` | `propext`, `Classical.choice`, `Quot.sound` |
| C03 | `Verif.C03_first` | `propext`, `Classical.choice`, `Quot.sound` |
| C03 | `Verif.C03_winner` | `propext`, `Classical.choice`, `Quot.sound` |
| C04 | `Verif.C04_flag` | `propext`, `Classical.choice`, `Quot.sound` |
| C04 | `Verif.C04_call` | `propext`, `Classical.choice`, `Quot.sound` |
| C04 | `Verif.C04_tracked` | `propext`, `Classical.choice`, `Quot.sound` |
| C05 | `Verif.C05` | `propext`, `Classical.choice`, `Quot.sound` |
| C05 | `Verif.C05_only` | `propext`, `Classical.choice`, `Quot.sound` |
| C05 | `Verif.C05_scan` | `propext`, `Classical.choice`, `Quot.sound` |
| C06 | `Verif.C06` | `propext`, `Classical.choice`, `Quot.sound` |
| C06 | `Verif.C06_unchanged` | `propext`, `Classical.choice`, `Quot.sound` |
| C06 | `Verif.C06_scan` | `propext`, `Classical.choice`, `Quot.sound` |
| C06 | `Verif.C06_scan_unchanged` | `propext`, `Classical.choice`, `Quot.sound` |
| C07 | `Verif.C07` | `propext`, `Classical.choice`, `Quot.sound` |
| C07 | `Verif.C07_snapshot_now` | `propext`, `Classical.choice`, `Quot.sound` |
| C07 | `Verif.C07_calls` | `propext`, `Classical.choice`, `Quot.sound` |
| C07 | `Verif.C07_only` | `propext`, `Classical.choice`, `Quot.sound` |
| C08 | `Verif.C08` | `propext`, `Classical.choice`, `Quot.sound` |
| C08 | `Verif.C08_engaged` | `propext`, `Classical.choice`, `Quot.sound` |
| C08 | `Verif.C08_none` | `propext`, `Classical.choice`, `Quot.sound` |
| C09 | `Verif.C09_late` | `propext`, `Classical.choice`, `Quot.sound` |
| C09 | `Verif.C09_early` | `propext`, `Classical.choice`, `Quot.sound` |
| C10 | `Verif.C10` | `propext`, `Classical.choice`, `Quot.sound` |
| C10 | `Verif.C04_call` | `propext`, `Classical.choice`, `Quot.sound` |
| C11 | `Verif.C11_false` | `propext`, `Quot.sound` |
| C11 | `Verif.C11_partial` | `propext`, `Classical.choice`, `Quot.sound` |
| C12 | `Verif.C12_skip` | `propext`, `Classical.choice`, `Quot.sound` |
| C12 | `Verif.C12_call` | `propext`, `Classical.choice`, `Quot.sound` |
| C12 | `Verif.C12_blocked` | `propext`, `Classical.choice`, `Quot.sound` |
| C12 | `Verif.C12_keeps` | `propext`, `Quot.sound` |
| C12 | `Verif.C12_only` | `propext`, `Quot.sound` |
| C12 | `Verif.C12_changes` | `propext`, `Quot.sound` |
| C13 | `Verif.C13` | `propext`, `Classical.choice`, `Quot.sound` |
| C13 | `Verif.C13_release` | `propext`, `Quot.sound` |
| C13 | `Verif.C13_self_move_false` | `propext`, `Quot.sound` |
| C14 | `Verif.C14_false` | `propext`, `Quot.sound` |
| C14 | `Verif.C14_partial` | `propext`, `Classical.choice`, `Quot.sound` |
| C15 | `Verif.C15_inert` | `propext`, `Classical.choice`, `Quot.sound` |
| C15 | `Verif.C15_dtor` | `propext`, `Quot.sound` |
| C15 | `Verif.C15_assign` | `propext`, `Quot.sound` |
| C15 | `Verif.C15_completes` | `propext`, `Classical.choice`, `Quot.sound` |
| C15 | `Verif.C15_only` | `propext`, `Classical.choice`, `Quot.sound` |
| C15 | `Verif.C15_keeps` | `propext`, `Quot.sound` |
| C15 | `Verif.C15_sliced` | `propext`, `Quot.sound` |
| C16 | `Verif.C16_alive` | `propext`, `Classical.choice`, `Quot.sound` |
| C16 | `Verif.C16_enter` | `propext`, `Classical.choice`, `Quot.sound` |
| C16 | `Verif.C16_expired` | `propext`, `Classical.choice`, `Quot.sound` |
| C17 | `Verif.C17_false` | `propext`, `Quot.sound` |
| C17 | `Verif.C17_partial` | `propext`, `Classical.choice`, `Quot.sound` |
| C17 | `Verif.C17_seen_partial` | `propext`, `Classical.choice`, `Quot.sound` |
| C18 | `Verif.Cow.C18` | `propext`, `Quot.sound` |
| C18 | `Verif.Cow.C18_ub` | `propext` |
| C18 | `Verif.Cow.C18_total` | `propext` |
| C18 | `Verif.Cow.C18_copies` | `propext`, `Quot.sound` |
| C18 | `Verif.Cow.C18_throws` | `propext` |
| C18 | `Verif.Cow.C18_kept_reference_false` | `propext` |
| C19 | `Verif.C19_snapshot` | `propext`, `Classical.choice`, `Quot.sound` |
| C19 | `Verif.C19_one_snapshot` | `propext`, `Classical.choice`, `Quot.sound` |
| C19 | `Verif.C19_unchanged` | `propext`, `Classical.choice`, `Quot.sound` |
| C19 | `Verif.C19_nodup` | `propext`, `Classical.choice`, `Quot.sound` |
| C20 | `Verif.C20_serial` | `propext`, `Classical.choice`, `Quot.sound` |
| C20 | `Verif.C20_exclusive` | `propext`, `Classical.choice`, `Quot.sound` |
| C20 | `Verif.C20_holder` | `propext`, `Classical.choice`, `Quot.sound` |
| C21 | `Verif.C21_unlocked` | `propext`, `Classical.choice`, `Quot.sound` |
| C21 | `Verif.C21_listener` | `propext`, `Classical.choice`, `Quot.sound` |
| C21 | `Verif.C21_holder` | `propext`, `Classical.choice`, `Quot.sound` |
| C21 | `Verif.C21_progress` | `propext`, `Classical.choice`, `Quot.sound` |
| C21 | `Verif.C21_alive` | `propext`, `Classical.choice`, `Quot.sound` |
| C22 | `Verif.C22_blame` | `propext`, `Classical.choice`, `Quot.sound` |
| C22 | `Verif.C22` | `propext`, `Classical.choice`, `Quot.sound` |
| C22 | `Verif.C22_default` | `propext`, `Classical.choice`, `Quot.sound` |
| C22 | `Verif.C22_memory` | `propext`, `Classical.choice`, `Quot.sound` |
| C23 | `Verif.C23_destroy` | `propext`, `Classical.choice`, `Quot.sound` |
| C23 | `Verif.C23_safe` | `propext`, `Classical.choice`, `Quot.sound` |
| C23 | `Verif.C23_goes_on` | `propext`, `Classical.choice`, `Quot.sound` |
| C23 | `Verif.C23_completes` | `propext`, `Classical.choice`, `Quot.sound` |
| C23 | `Verif.C23_invalid` | `propext`, `Classical.choice`, `Quot.sound` |
| C24 | `Verif.C24_false` | `propext`, `Quot.sound` |
| C24 | `Verif.C24_partial` | `propext`, `Classical.choice`, `Quot.sound` |
| C24 | `Verif.C24_start_partial` | `propext`, `Quot.sound` |
| C25 | `Verif.C25_move` | `propext`, `Classical.choice`, `Quot.sound` |
| C25 | `Verif.C25_completes` | `propext`, `Quot.sound` |
| C25 | `Verif.C25_assign` | `propext`, `Quot.sound` |
| C26 | `Verif.C26_throw` | `propext`, `Classical.choice`, `Quot.sound` |
| C26 | `Verif.C26_last` | `propext`, `Classical.choice`, `Quot.sound` |
| C26 | `Verif.C26_leaves` | `propext`, `Classical.choice`, `Quot.sound` |
| C27 | `Verif.C27_partial` | `propext`, `Classical.choice`, `Quot.sound` |
| C27 | `Verif.C27_plain_partial` | `propext`, `Classical.choice`, `Quot.sound` |
| C27 | `Verif.C27_values_partial` | `propext`, `Classical.choice`, `Quot.sound` |
| C27 | `Verif.C27_false` | `propext`, `Quot.sound` |
| C28 | `Verif.C28_empty` | `propext` |
| C28 | `Verif.C28_different_types` | `propext` |
| C28 | `Verif.C28_same_type` | `propext`, `Quot.sound` |
| C28 | `Verif.C28_throws_iff` | `propext`, `Classical.choice`, `Quot.sound` |
| C28 | `Verif.C28_refl` | `propext`, `Quot.sound` |
| C28 | `Verif.C28_symm` | `propext` |
| C28 | `Verif.C28_trans` | `propext` |
| C29 | `Verif.C29_same_spelling_partial` | `propext` |
| C29 | `Verif.C29_false_different_spelling` | `propext` |
| C29 | `Verif.C29_false_removes_nothing` | `propext`, `Classical.choice`, `Quot.sound` |
| C30 | `Verif.C30_false` | `propext`, `Classical.choice`, `Quot.sound` |
| C30 | `Verif.C30_comparable_weak_partial` | `propext`, `Quot.sound` |
| C31 | `Verif.SlotObj.C31` | `propext`, `Quot.sound` |
| C31 | `Verif.SlotObj.C31_independent` | `propext`, `Quot.sound` |
| C31 | `Verif.SlotObj.C31_copy` | `propext`, `Quot.sound` |
| C31 | `Verif.SlotObj.C31_memory` | `propext`, `Quot.sound` |
| C31 | `Verif.SlotObj.C31_end` | `propext`, `Quot.sound` |
| C32 | `Verif.Opt.C32` | `propext`, `Classical.choice`, `Quot.sound` |
| C32 | `Verif.Opt.C32_calm` | `propext`, `Quot.sound` |
| C32 | `Verif.Opt.C32_scalar` | `propext`, `Classical.choice`, `Quot.sound` |
| C33 | `Verif.Opt.C33` | `propext`, `Classical.choice`, `Quot.sound` |
| C33 | `Verif.Opt.C33_end` | `propext`, `Classical.choice`, `Quot.sound` |
| C34 | `Verif.OptCmp.C34_total` | `propext`, `Quot.sound` |
| C34 | `Verif.OptCmp.C34_least` | `propext` |
| C34 | `Verif.OptCmp.C34_nullopt` | `propext` |
| C34 | `Verif.OptCmp.C34_value` | `propext` |
| C35 | `Verif.OptCmp.C35_false` | `propext` |
| C35 | `Verif.OptCmp.C35_ne_false` | `propext` |
| C35 | `Verif.OptCmp.C35_partial` | `propext` |
| C35 | `Verif.OptCmp.C35_mixed_partial` | none |
| C35 | `Verif.OptCmp.C35_total_partial` | `propext` |
| C36 | `Verif.Combiner.C36_runs_all` | `propext`, `Quot.sound` |
| C36 | `Verif.Combiner.C36_last` | `propext`, `Quot.sound` |
| C36 | `Verif.Combiner.C36_maximum` | `propext`, `Quot.sound` |
| C36 | `Verif.Combiner.C36_aggregate` | `propext`, `Quot.sound` |
| C36 | `Verif.Combiner.C36_default` | `propext`, `Quot.sound` |
| C36 | `Verif.Combiner.C36_nan_false` | `propext`, `Quot.sound` |
| C37 | `Verif.C37_counts` | `propext`, `Classical.choice`, `Quot.sound` |
| C37 | `Verif.C37_finished` | `propext`, `Classical.choice`, `Quot.sound` |
| C37 | `Verif.C37_only` | `propext`, `Classical.choice`, `Quot.sound` |
| C37 | `Verif.C37_deref` | `propext`, `Classical.choice`, `Quot.sound` |
| C38 | `Verif.C38` | `propext`, `Classical.choice`, `Quot.sound` |
| C38 | `Verif.C38_flag` | `propext`, `Classical.choice`, `Quot.sound` |
| C39 | `Verif.C39_ids` | `propext`, `Classical.choice`, `Quot.sound` |
| C39 | `Verif.C39_complete` | `propext`, `Classical.choice`, `Quot.sound` |
| C39 | `Verif.C39_outer` | `propext`, `Quot.sound` |
| C40 | `Verif.C40_swap_with_last` | `propext`, `Classical.choice`, `Quot.sound` |
| C40 | `Verif.C40_remove_last` | `propext`, `Classical.choice`, `Quot.sound` |
| C40 | `Verif.C40_prefix_kept` | `propext`, `Classical.choice`, `Quot.sound` |
| C40 | `Verif.C40_machine` | `propext`, `Classical.choice`, `Quot.sound` |
| C41 | `Verif.C41_copy` | `propext`, `Quot.sound` |
| C41 | `Verif.C41_move` | `propext`, `Quot.sound` |
| C41 | `Verif.C41_swap` | `propext`, `Quot.sound` |
| C41 | `Verif.C41_keeps` | `propext`, `Quot.sound` |
| C41 | `Verif.C41_block` | `propext`, `Quot.sound` |
| C41 | `Verif.C41_disconnect` | `propext`, `Classical.choice`, `Quot.sound` |
| C42 | `Verif.C42_queries` | `propext` |
| C42 | `Verif.C42_block` | `propext`, `Quot.sound` |
| C42 | `Verif.C42_blocker` | `propext`, `Quot.sound` |
| C42 | `Verif.C42_disconnect` | `propext`, `Quot.sound` |
| C42 | `Verif.C42_forever` | `propext`, `Classical.choice`, `Quot.sound` |
| C43 | `Verif.C43_listed` | `propext`, `Classical.choice`, `Quot.sound` |
| C43 | `Verif.C43_nodup` | `propext`, `Classical.choice`, `Quot.sound` |
| C43 | `Verif.C43_one_signal` | `propext`, `Classical.choice`, `Quot.sound` |
| C43 | `Verif.C43_once` | `propext`, `Classical.choice`, `Quot.sound` |
| C43 | `Verif.C43_counts` | `propext`, `Classical.choice`, `Quot.sound` |
| C44 | `Verif.C44` | `propext`, `Classical.choice`, `Quot.sound` |
| C45 | `Verif.IntSeq.C45` | `propext`, `Quot.sound` |
| C45 | `Verif.IntSeq.C45_indices` | `propext` |
| C46 | `Verif.C46` | `propext`, `Classical.choice`, `Quot.sound` |
| C47 | `Verif.C47` | `propext`, `Classical.choice`, `Quot.sound` |
| C47 | `Verif.C47_call` | `propext`, `Classical.choice`, `Quot.sound` |
| C48 | `Verif.Dispatch.C48_false` | `propext` |
| C48 | `Verif.Dispatch.C48_union_false` | `propext` |
| C48 | `Verif.Dispatch.C48_rvalue_false` | `propext` |
| C48 | `Verif.Dispatch.C48_partial` | `propext`, `Quot.sound` |
| C48 | `Verif.Dispatch.C48_same_partial` | `propext` |
| C49 | `Verif.C49` | `propext`, `Classical.choice`, `Quot.sound` |
| C50 | `Verif.Opt.C50_emplace_partial` | `propext`, `Classical.choice`, `Quot.sound` |
| C50 | `Verif.Opt.C50_scalar_false` | `propext` |
| C50 | `Verif.Opt.C50_assign_false` | `propext` |
| C51 | `Verif.SlotObj.C51_false` | `propext` |
| C51 | `Verif.SlotObj.C51_const_rvalue_false` | `propext` |
| C51 | `Verif.SlotObj.C51_empty_false` | `propext` |
| C51 | `Verif.SlotObj.C51_partial` | `propext` |
| C52 | `Verif.C52_partial` | `propext`, `Classical.choice`, `Quot.sound` |
| C52 | `Verif.C52_false` | `propext`, `Quot.sound` |
| C52 | `Verif.C52_stale_false` | `propext`, `Quot.sound` |
| C53 | `Verif.C53` | `propext`, `Classical.choice`, `Quot.sound` |
| C53 | `Verif.C53_running` | `propext`, `Classical.choice`, `Quot.sound` |
| C54 | `Verif.C54_partial` | `propext`, `Classical.choice`, `Quot.sound` |
| C54 | `Verif.C54_false` | `propext`, `Classical.choice`, `Quot.sound` |
| C54 | `Verif.C54_fixed` | `propext`, `Classical.choice`, `Quot.sound` |
| C54 | `Verif.C54_other` | `propext`, `Classical.choice`, `Quot.sound` |
| C54 | `Verif.C54_writes` | `propext`, `Classical.choice`, `Quot.sound` |
| C54 | `Verif.C54_destroy` | `propext`, `Classical.choice`, `Quot.sound` |
| C54 | `Verif.C54_recorded` | `propext`, `Classical.choice`, `Quot.sound` |
| C54 | `Verif.C54_mutex` | `propext`, `Classical.choice`, `Quot.sound` |
| C54 | `Verif.C54_reads` | `propext`, `Quot.sound` |
| C54 | `Verif.C54_kept` | `propext`, `Classical.choice`, `Quot.sound` |
| C55 | `Verif.C55_connect_partial` | `propext`, `Classical.choice`, `Quot.sound` |
| C55 | `Verif.C55_erase_partial` | `propext`, `Classical.choice`, `Quot.sound` |
| C55 | `Verif.C55_terminate_partial` | `propext`, `Classical.choice`, `Quot.sound` |
| C55 | `Verif.C55_false` | `propext`, `Quot.sound` |
| C55 | `Verif.C55_connect_false` | `propext`, `Quot.sound` |
| C55 | `Verif.C55_erase_false` | `propext`, `Quot.sound` |
| C56 | `Verif.C56_ends` | `propext`, `Classical.choice`, `Quot.sound` |
| C56 | `Verif.C56_steps` | `propext`, `Classical.choice`, `Quot.sound` |
| C56 | `Verif.C56_infinite` | `propext`, `Classical.choice`, `Quot.sound` |
| C57 | `Verif.C57_call` | `propext`, `Classical.choice`, `Quot.sound` |
| C57 | `Verif.C57_emit` | `propext`, `Classical.choice`, `Quot.sound` |
| C57 | `Verif.C57_any` | `propext`, `Classical.choice`, `Quot.sound` |
| C57 | `Verif.C57_back` | `propext`, `Classical.choice`, `Quot.sound` |
| C57 | `Verif.C57_weak_false` | `propext`, `Quot.sound` |
| C57 | `Verif.C57_deref_false` | `propext`, `Quot.sound` |
| C58 | `Verif.OptRef.C58` | `propext`, `Quot.sound` |
| C58 | `Verif.OptRef.C58_total` | `propext`, `Quot.sound` |
| C58 | `Verif.OptRef.C58_rebinds` | `propext`, `Classical.choice`, `Quot.sound` |
| C58 | `Verif.OptRef.C58_alias` | `propext`, `Quot.sound` |
| C58 | `Verif.OptRef.C58_combine` | `propext`, `Quot.sound` |
| C59 | `Verif.Iter.C59` | `propext`, `Classical.choice`, `Quot.sound` |
| C59 | `Verif.Iter.C59_state` | `propext`, `Classical.choice`, `Quot.sound` |
| C59 | `Verif.Iter.C59_total` | `propext`, `Quot.sound` |
| C59 | `Verif.Iter.C59_count` | `propext`, `Classical.choice`, `Quot.sound` |
| C59 | `Verif.Iter.C59_called` | `propext`, `Classical.choice`, `Quot.sound` |
| C59 | `Verif.Iter.C59_loop` | `propext`, `Classical.choice`, `Quot.sound` |
| C59 | `Verif.Iter.C59_twice` | `propext`, `Classical.choice`, `Quot.sound` |
| C59 | `Verif.Iter.C59_postInc` | `propext`, `Quot.sound` |
| C60 | `Verif.C60_sim` | `propext`, `Classical.choice`, `Quot.sound` |
| C60 | `Verif.C60_lists` | `propext`, `Classical.choice`, `Quot.sound` |
| C60 | `Verif.C60_once` | `propext`, `Classical.choice`, `Quot.sound` |
| C60 | `Verif.C60_disconnect` | `propext`, `Classical.choice`, `Quot.sound` |
| C60 | `Verif.C60_emission` | `propext`, `Classical.choice`, `Quot.sound` |
| C60 | `Verif.C60_no_ub` | `propext`, `Classical.choice`, `Quot.sound` |
| C60 | `Verif.C60_waits` | `propext`, `Classical.choice`, `Quot.sound` |
| C60 | `Verif.C60_order_partial` | `propext`, `Classical.choice`, `Quot.sound` |
| C60 | `Verif.C60_false` | `propext`, `Quot.sound` |
| C60 | `Verif.C60_order_false` | `propext`, `Classical.choice`, `Quot.sound` |
| C60 | `Verif.C60_listener_false` | `propext`, `Quot.sound` |
| C61 | `Verif.C61` | `propext`, `Classical.choice`, `Quot.sound` |
| C61 | `Verif.C61_exact` | `propext`, `Classical.choice`, `Quot.sound` |
| C61 | `Verif.C61_lists` | `propext`, `Classical.choice`, `Quot.sound` |
| C61 | `Verif.C61_snapshot` | `propext`, `Classical.choice`, `Quot.sound` |
| C61 | `Verif.C61_visits` | `propext`, `Classical.choice`, `Quot.sound` |
| C61 | `Verif.C61_locked` | `propext`, `Classical.choice`, `Quot.sound` |
| C61 | `Verif.C61_progress` | `propext`, `Classical.choice`, `Quot.sound` |
| C61 | `Verif.C61_safe` | `propext`, `Classical.choice`, `Quot.sound` |
| C61 | `Verif.C61_removes` | `propext`, `Classical.choice`, `Quot.sound` |
| C61 | `Verif.C61_histories` | `propext`, `Classical.choice`, `Quot.sound` |
| C61 | `Verif.C61_midway` | `propext`, `Quot.sound` |
| C62 | `Verif.C62_each` | `propext`, `Classical.choice`, `Quot.sound` |
| C62 | `Verif.C62` | `propext`, `Classical.choice`, `Quot.sound` |
| C62 | `Verif.C62_exact` | `propext`, `Classical.choice`, `Quot.sound` |
| C63 | `Verif.C63_dies` | `propext`, `Classical.choice`, `Quot.sound` |
| C63 | `Verif.C63_inside` | `propext`, `Classical.choice`, `Quot.sound` |
| C64 | `Verif.Cow.C64` | `propext`, `Classical.choice`, `Quot.sound` |
| C64 | `Verif.Cow.C64_total` | `propext` |
| C64 | `Verif.Cow.C64_value` | `propext` |
| C64 | `Verif.Cow.C64_copy` | `propext` |
| C64 | `Verif.Cow.C64_write` | `propext`, `Classical.choice`, `Quot.sound` |
| C65 | `Verif.Cow.C65_false` | `propext` |
| C65 | `Verif.Cow.C65_partial` | `propext`, `Classical.choice`, `Quot.sound` |
| C66 | `Verif.C66` | `propext`, `Classical.choice`, `Quot.sound` |
| C66 | `Verif.C66_step` | `propext`, `Classical.choice`, `Quot.sound` |
| C66 | `Verif.C66_wait` | `propext`, `Classical.choice`, `Quot.sound` |
| C67 | `Verif.C67` | `propext`, `Classical.choice`, `Quot.sound` |
| C67 | `Verif.C67_vars` | `propext`, `Quot.sound` |
| C67 | `Verif.C67_connected` | `propext`, `Classical.choice`, `Quot.sound` |
| C67 | `Verif.C67_blocked` | `propext`, `Quot.sound` |
| C67 | `Verif.C67_code` | `propext`, `Quot.sound` |
| C67 | `Verif.C67_conn` | `propext`, `Quot.sound` |
| C67 | `Verif.C67_scoped` | `propext`, `Quot.sound` |
| C67 | `Verif.C67_blocker` | `propext`, `Quot.sound` |
| C67 | `Verif.C67_objs` | `propext`, `Quot.sound` |
| C67 | `Verif.C67_list` | `propext`, `Classical.choice`, `Quot.sound` |
| C68 | `Verif.Opt.C68` | `propext`, `Classical.choice`, `Quot.sound` |
| C68 | `Verif.Opt.C68_stays` | `propext`, `Classical.choice`, `Quot.sound` |
| C68 | `Verif.Opt.C68_ends` | `propext`, `Classical.choice`, `Quot.sound` |
| C68 | `Verif.Opt.C68_total` | `propext`, `Quot.sound` |
| C68 | `Verif.Opt.C68_scalar` | `propext`, `Quot.sound` |
| C69 | `Verif.C69_partial` | `propext`, `Classical.choice`, `Quot.sound` |
| C69 | `Verif.C69_all_partial` | `propext`, `Classical.choice`, `Quot.sound` |
| C69 | `Verif.C69_list_partial` | `propext`, `Classical.choice`, `Quot.sound` |
| C69 | `Verif.C69_whole_partial` | `propext`, `Classical.choice`, `Quot.sound` |
| C69 | `Verif.C69_flip` | `propext`, `Classical.choice`, `Quot.sound` |
| C69 | `Verif.C69_false` | `propext`, `Classical.choice`, `Quot.sound` |
| C70 | `Verif.C70_partial` | `propext`, `Classical.choice`, `Quot.sound` |
| C70 | `Verif.C70_flag_partial` | `propext`, `Classical.choice`, `Quot.sound` |
| C70 | `Verif.C70_gone_partial` | `propext`, `Classical.choice`, `Quot.sound` |
| C70 | `Verif.C70_same_partial` | `propext`, `Classical.choice`, `Quot.sound` |
| C70 | `Verif.C70_late` | `propext`, `Classical.choice`, `Quot.sound` |
| C70 | `Verif.C70_other` | `propext`, `Classical.choice`, `Quot.sound` |
| C70 | `Verif.C70_false` | `propext`, `Quot.sound` |
| C70 | `Verif.C70_false_later` | `propext`, `Quot.sound` |
| C71 | `Verif.C71_partial` | `propext`, `Classical.choice`, `Quot.sound` |
| C71 | `Verif.C71_noerase` | `propext`, `Classical.choice`, `Quot.sound` |
| C71 | `Verif.C71_nohang` | `propext`, `Classical.choice`, `Quot.sound` |
| C71 | `Verif.C71_runs_partial` | `propext`, `Classical.choice`, `Quot.sound` |
| C71 | `Verif.C71_queries_partial` | `propext`, `Classical.choice`, `Quot.sound` |
| C71 | `Verif.C71_returns` | `propext`, `Classical.choice`, `Quot.sound` |
| C71 | `Verif.C71_can` | `propext`, `Classical.choice`, `Quot.sound` |
| C71 | `Verif.C71_false` | `propext`, `Classical.choice`, `Quot.sound` |
| C72 | `Verif.C72_partial` | `propext`, `Classical.choice`, `Quot.sound` |
| C72 | `Verif.C72_turns_partial` | `propext`, `Classical.choice`, `Quot.sound` |
| C72 | `Verif.C72_false` | `propext`, `Classical.choice`, `Quot.sound` |
| C72 | `Verif.C72_false_order` | `propext`, `Classical.choice`, `Quot.sound` |
| C73 | `Verif.C73_partial` | `propext`, `Classical.choice`, `Quot.sound` |
| C73 | `Verif.C73_quiet_partial` | `propext`, `Classical.choice`, `Quot.sound` |
| C73 | `Verif.C73_same_partial` | `propext`, `Classical.choice`, `Quot.sound` |
| C73 | `Verif.C73_late` | `propext`, `Classical.choice`, `Quot.sound` |
| C73 | `Verif.C73_other` | `propext`, `Classical.choice`, `Quot.sound` |
| C73 | `Verif.C73_threads` | `propext`, `Classical.choice`, `Quot.sound` |
| C73 | `Verif.C73_false` | `propext`, `Quot.sound` |
