# Axioms of the property theorems

Output of `#print axioms` for every theorem in MANIFEST.json, grouped by property. P = propext, C = Classical.choice, Q = Quot.sound; "-" means none. No other axiom occurs.

* **C01**: `IfStmt.c01_conditionals_nest` PCQ, `IfStmt.c02_block_structure` PCQ, `IfStmt.c01_any_file` PCQ
* **C02**: `IfStmt.c02_block_structure` PCQ, `IfStmt.c02_unselected_irrelevant` PCQ
* **C03**: `Lines.c03_reads_logical_lines` PQ, `Lines.c03_leaves_the_buffer_iff` PCQ
* **C04**: `PathList.c04_reads_what_is_written` PQ, `PathList.c04_round_trip` PQ, `PathList.c04_open_quote_rejected` PQ, `PathList.c04_accepts_only_words` PCQ, `PathList.c04_long_word_leaves_the_buffer` PQ, `PathList.c04_kinds` PQ, `PathList.c04_accepts_only_kinds` PQ
* **C05**: `Eval.c05_expansion` PCQ, `Eval.c05_errors` PCQ, `Eval.c05_with_nodes` PCQ, `Eval.c05_plain` PCQ, `Eval.c05_value_verbatim` PCQ, `Eval.c05_false_with_nodes` PCQ
* **C06**: `Printf.c06_expansion` PCQ, `Printf.c06_undefined` PCQ, `Printf.c06_errors` PCQ, `Printf.c06_unique` PCQ, `Printf.c06_plain` PCQ, `Printf.c06_percent` PCQ, `Printf.c06_percent_later` PCQ, `Printf.c06_number` PCQ, `Printf.c06_extra` PCQ
* **C07**: `Rules.c07_split` PCQ, `Rules.c07_error` PQ
* **C08**: `Rules.c08_split` PCQ, `Rules.c08_markers` PCQ, `Rules.c08_bin_errors` PCQ, `Rules.c08_bar` PCQ, `Rules.c08_rule` PCQ, `Rules.c08_foreach` PCQ, `Rules.c08_foreach_not_delimited` PCQ
* **C09**: `Assign.c09_assign` PCQ, `Assign.c09_plain` PCQ, `Assign.c09_assign_node` PCQ, `Assign.c09_errors` PCQ, `Assign.c09_false_for_operators_in_values` PCQ, `Assign.c09_read` PCQ, `Assign.c09_read_node` PCQ
* **C10**: `Names.c10_totals` PQ, `Names.c10_unique` PCQ, `Names.c10_exclude` P, `Names.c10_wildcard_count_stale` PCQ
* **C11**: `Pel.c11_form` PCQ, `Pel.c11_meaning` PCQ, `Pel.c11_components` PCQ, `Pel.c11_meaning_rev` PCQ, `Pel.c11_not_reverse` PCQ, `Pel.c11_idempotent` PCQ, `Pel.c11_canonical` PCQ, `Pel.c11_group` PCQ
* **C12**: `Pel.c12_exact` PCQ, `Pel.c12_recognised_partial` PCQ, `Pel.c12_inside_spelled_partial` PCQ, `Pel.c12_false` PCQ, `Pel.c12_root` PCQ, `Pel.c12_relative` PCQ, `Pel.c12_count` PCQ
* **C13**: `Pel.c13_hidden` PCQ, `Pel.c13_ignored` PCQ
* **C14**: `Relative.c14_arrives` PCQ, `Relative.c14_shortest` PCQ, `Relative.c14_defined` PCQ, `Relative.c14_external` PCQ
* **C15**: `Config.c15_parse` PCQ, `Config.c15_error` PCQ, `Config.c15_values` PCQ, `Config.c15_unterminated` PCQ, `Config.c15_bom` PCQ
* **C16**: `VarStore.c16_total` PCQ, `VarStore.c16_values` PCQ, `VarStore.c16_parses` PCQ, `VarStore.c16_runs` PCQ, `VarStore.c16_parses_only` PCQ, `VarStore.c16_runs_only` PCQ, `VarStore.c16_vardict` PCQ, `VarStore.c16_others` PCQ
* **C17**: `Vardict.c17_value` PQ, `Vardict.c17_absent` PQ, `Vardict.c17_empty` PQ, `Vardict.c17_false_for_bytes` PCQ, `Vardict.c17_false_for_equals` PCQ, `Vardict.c17_index` PQ, `Vardict.c17_overflow` PCQ, `Vardict.c17_damaged` PCQ
* **C18**: `Config.c18_substitution` PCQ, `Config.c18_file` PCQ, `Config.c18_plain` PCQ
* **C19**: `Strings.c19_single_quotes` PCQ
* **C20**: `Strings.c20_leaves_the_buffer_iff` PCQ, `Strings.c20_decodes_iff` PCQ, `Strings.c20_prints` PCQ
* **C21**: `Gitignore.c21_keeps` PCQ, `Gitignore.c21_own_part_ignored` PCQ, `Gitignore.c21_idempotent` PCQ, `Gitignore.c21_new_file` PCQ, `Gitignore.c21_remove` PCQ, `Gitignore.c21_round_trip` PCQ, `Gitignore.c21_no_separator` PCQ, `Gitignore.c21_false` PCQ, `Gitignore.c21_last_line` PCQ
* **C22**: `Fuse.c22_private` PCQ, `Fuse.c22_written` PCQ, `Fuse.c22_contents` PCQ, `Fuse.c22_directories` PCQ, `Fuse.c22_temporary` PCQ, `Fuse.c22_read` PCQ, `Fuse.c22_none_missed` PCQ, `Fuse.c22_rename_directory` PCQ, `Fuse.c22_failed_rename` PCQ, `Fuse.c22_failed_truncate` PCQ, `Fuse.c22_failed_open` PCQ, `Fuse.c22_replace_directory` PCQ, `Fuse.does_unique` P, `Fuse.does_total` PCQ
* **C23**: `Links.c23_exact` PCQ, `Links.c23_sound` PCQ, `Links.c23_failed` PCQ, `Links.c23_rescheduled` PCQ, `Links.c23_no_leak` PCQ, `Links.c23_moved` PCQ, `Links.c23_removed` PCQ, `Links.c23_accepted` PCQ, `Links.c23_accepts` PCQ
* **C24**: `Links.c24_accepted` PCQ, `Links.c24_exact` PCQ, `Links.c24_rejected` PCQ, `Links.c24_important` PCQ, `Links.c24_decides` PCQ, `Links.c24_config` PCQ
* **C25**: `Links.c25_exact` PCQ, `Links.c25_members` PCQ, `Links.c25_left` PCQ, `Links.c25_others` PCQ, `Links.c25_used` PCQ, `Links.c25_scheduled` PCQ, `Links.c25_left_scheduled` PCQ, `Links.c25_written` PCQ, `Links.c25_unchanged` PCQ, `Links.c25_idempotent` PCQ, `Links.c25_refactor` PCQ, `Links.c25_kept` PCQ, `Links.c25_added_input` PQ, `DoRule.c25_stolen` PCQ
* **C26**: `Tree.c26_compare_vars` PCQ, `Tree.c26_compare_ids` PCQ
* **C27**: `DoRule.c27_history` PCQ, `DoRule.c27_home` PCQ, `DoRule.c27_names` PCQ, `DoRule.c27_rejected` PCQ, `DoRule.c27_accepted` PCQ, `DoRule.c27_second` PCQ
* **C28**: `Graph.c28_loop_ends` PCQ, `Graph.c28_graph_is_reachable_part` PCQ, `Graph.c28_no_cycle_builds` PCQ, `Graph.c28_graph_ready_for_executor` PCQ
* **C29**: `Graph.c29_error_means_cycle` PCQ, `Graph.c29_cycle_is_an_error` PCQ, `Graph.c29_build_misses_cycle` PQ, `Exec.c29_cycle_reported` PCQ
* **C30**: `Exec.c30_dependencies_done_first` PCQ, `Exec.c30_at_most_once` PCQ, `Exec.c30_transient_deleted_last` PCQ
* **C31**: `Exec.c31_job_limit` PCQ, `Exec.c31_jobs_clamped` PCQ
* **C32**: `Exec.c32_terminates` PCQ, `Exec.c32_no_deadlock` PCQ, `Exec.c32_failure_free_completes` PCQ
* **C33**: `Exec.c33_success_means_all_done` PCQ, `Exec.c33_downstream_of_failure_not_started` PCQ, `Exec.c33_keep_going_does_the_rest` PCQ, `Exec.c33_no_start_after_stop` PQ
* **C34**: `Update.c34_unfinished_stays_scheduled` PCQ, `Update.c34_scheduled_until_finished` PCQ, `Update.c34_finished_not_repeated` PCQ
* **C35**: `Update.c35_update_brings_up_to_date` PCQ, `Update.c35_without_o` PCQ, `Update.c35_incremental_is_full_build` PCQ, `Update.c35_false_with_leftovers` PQ
* **C36**: `Graph.c36_commands_kept` PQ, `Graph.c36_kept_complete` PQ, `Graph.c36_pruned_ready_for_executor` PQ
* **C37**: `Update.c37_skipped_only_if_unchanged` PCQ, `Update.c37_changed_input_runs` PCQ, `Update.c37_runs_only_for_a_reason` PCQ
* **C38**: `Graph.c38_trim_finds_cycles` PCQ, `Graph.c38_group_cycles` PCQ
* **C39**: `Graph.c39_connected` PCQ
* **C40**: `Ghosts.c40_terminates` PCQ, `Ghosts.c40_safe` PCQ, `Ghosts.c40_needed` PCQ, `Ghosts.c40_links` PCQ, `Ghosts.c40_quiet` PCQ, `Ghosts.c40_exact` PCQ
* **C41**: `Scan.c41_same` PCQ, `Scan.c41_changed` PCQ, `Scan.c41_appears` PCQ, `Scan.c41_new` PCQ, `Scan.c41_removed` PCQ, `Scan.c41_removed_generated` PCQ, `Scan.c41_removed_gitignore` PCQ, `Scan.c41_removed_config` PCQ, `Scan.c41_removed_dir` PCQ, `Scan.c41_replaced` PCQ, `Scan.c41_group_name` PCQ, `Links.c41_group_dir` PCQ, `Scan.c41_removed_only` PCQ, `Scan.c41_removed_tupfile` PCQ
* **C42**: `VarStore.c42_values` PCQ, `VarStore.c42_scheduled` PCQ, `VarStore.c42_off` PCQ, `VarStore.c42_new` PQ
* **C43**: `Transact.c43_failed` PQ, `Transact.c43_atomic` PQ, `Transact.c43_succeeds_iff` PQ, `Transact.c43_recorded` PQ, `Transact.c43_interrupted` PQ, `Transact.c43_update_fails` PQ, `Transact.c43_commands` PQ, `Transact.c43_rules` PCQ, `Transact.c43_commit_ignored` PQ, `Transact.c43_files_not_restored` PQ, `Transact.c43_success_unrecorded` PQ
* **C44**: `Locks.c44_exclusion` PCQ, `Locks.c44_handover` PCQ, `Locks.c44_recorded` P, `Locks.c44_progress` PCQ, `Locks.c44_bounded` PCQ, `Locks.c44_finish` PCQ, `Locks.c44_false_with_two_monitors` PCQ, `Locks.c44_false_when_starting_over` PCQ, `Locks.c44_false_when_killed` PCQ, `Locks.c44_false_when_stopped_early` PCQ
* **C45**: `Monitor.c45_in_step` PQ, `Monitor.c45_existing` PQ, `Monitor.c45_defined` PCQ, `Monitor.c45_settles` PCQ, `Monitor.c45_moved_then_removed` PCQ, `Monitor.c45_moved_twice` PCQ, `Monitor.c45_replaced_then_removed` PCQ, `Monitor.c45_freed` PCQ
* **C46**: `Options.c46_precedence` PCQ, `Options.c46_show` PCQ, `Options.c46_accepted` PCQ, `Options.c46_garbled` PCQ, `Options.c46_readable` PQ, `Options.c46_valid` PCQ, `Options.c46_flag` PCQ, `Options.c46_jobs` PCQ, `Options.c46_false_for_long_lines` PCQ, `Options.c46_false_for_jobs` PCQ, `Options.c46_false_for_numbers` PCQ, `Options.c46_false_for_dashes` PCQ
* **C47**: `Tree.c47_id_sets` PCQ, `Tree.c47_false_for_far_ids` P, `Tree.c47_no_order_at_the_bound` -
* **C48**: `Strings.c48_appends_concatenate` PQ, `Strings.c48_no_error_with_memory` PQ, `Strings.c48_limit_is_sharp` PQ
* **C49**: `Tree.c49_variable_stores` PCQ
* **C50**: `DoRule.c50_reserved` PCQ, `DoRule.c50_twice` PCQ, `DoRule.c50_groups` PCQ, `DoRule.c50_exclusions` PCQ, `DoRule.c50_existing` PCQ, `DoRule.c50_source` PCQ, `DoRule.c50_copy` PCQ, `DoRule.c50_own_input` PCQ, `DoRule.c50_own_group` PCQ, `DoRule.c50_command` PCQ, `DoRule.c50_reserved_elsewhere` PCQ, `DoRule.c50_reserved_variant` PCQ, `DoRule.c50_accepted` PCQ
* **C51**: `Execute.c51_rule` PCQ, `Execute.c51_foreach` PCQ, `Execute.c51_plain` PCQ, `Execute.c51_none` PCQ, `Execute.c51_extension` PCQ
* **C52**: `Restore.c52_restored` PCQ, `Restore.c52_kept` PCQ, `Restore.c52_without_flag` PCQ, `Restore.c52_untouched` PCQ, `Restore.c52_not_started` PCQ, `Restore.c52_half_moved` PCQ, `Restore.c52_half_restored` PCQ, `Restore.c52_new_output` PCQ, `Restore.c52_old_backup` PCQ
* **C53**: `Strings.c53_exact` PCQ, `Strings.c53_double_quotes_partial` PCQ, `Strings.c53_false` PCQ
* **C54**: `Assign.c54_ifeq` PCQ, `Assign.c54_syntax` PCQ, `Assign.c54_misplaced_parenthesis` PCQ
* **C55**: `Names.c55_file` PCQ, `Names.c55_path` PCQ, `Names.c55_false_without_dot` PCQ, `Names.c55_output_without_dot` PCQ
* **C56**: `Names.c56_star` PCQ, `Names.c56_one` PQ, `Names.c56_none` PQ, `Names.c56_final_star` PCQ, `Names.c56_star_star` PCQ
* **C57**: `Execute.c57_define` PCQ, `Execute.c57_undefined` PCQ, `Execute.c57_alias_self` PCQ
* **C58**: `Gitignore.c58_lines` PCQ, `Gitignore.c58_exact` P, `Gitignore.c58_ignored` -, `Gitignore.c58_backslash` PCQ
* **C59**: `Restore.c59_unchanged` PCQ, `Restore.c59_without_flag` PCQ
* **C60**: `FullScan.c60_ends` PCQ, `FullScan.c60_files` PCQ, `FullScan.c60_dirs` PCQ, `FullScan.c60_only` PCQ, `FullScan.c60_missing` PCQ, `FullScan.c60_overwritten` PCQ, `FullScan.c60_readers` PCQ, `FullScan.c60_new` PCQ, `FullScan.c60_exact` PCQ, `FullScan.c60_replaced` PCQ
* **C61**: `Transient.c61_ends` PCQ, `Transient.c61_commands` PCQ, `Transient.c61_files` PCQ, `Transient.c61_ready_for_executor` PCQ, `Transient.c61_made_first` PCQ, `Transient.c61_circular` PCQ, `Transient.c61_no_error` PCQ, `Transient.c61_shared_group` PQ, `Transient.c61_leftover_output` PQ, `Transient.c61_leftover` PQ
* **C62**: `Expand.c62_reading` PCQ, `Expand.c62_expanded` PCQ, `Expand.c62_unknown` PCQ, `Expand.c62_unterminated` PCQ, `Expand.c62_names` PQ, `Expand.c62_paths` PCQ, `Expand.c62_resource_names` PCQ, `Expand.c62_resource_path` PCQ, `Expand.c62_longer_name` PCQ, `Expand.c62_variant` PCQ
* **C63**: `Mempool.c63_objects` PCQ, `Mempool.c63_alloc` PCQ, `Mempool.c63_reuse` P, `Mempool.c63_four_gigabytes` PCQ
* **C64**: `Depfile.c64_reported` PCQ, `Depfile.c64_too_long` PCQ, `Depfile.c64_ends` PCQ, `Depfile.c64_moved_from_dev` PCQ, `Depfile.c64_killed` PCQ
* **C65**: `MasterFork.c65_own_status` PCQ, `MasterFork.c65_once` PCQ, `MasterFork.c65_only_race` PCQ, `MasterFork.c65_notifier` PCQ, `MasterFork.c65_completes` PCQ, `MasterFork.c65_race` PQ, `MasterFork.c65_race_start` PQ
* **C66**: `Environ.c66_environment` PCQ, `Environ.c66_preload` PCQ, `Environ.c66_sees` PCQ, `Environ.c66_import` -, `Environ.c66_export_equals` PCQ
* **C67**: `Deletes.c67_only` PCQ, `Deletes.c67_deleted` PCQ, `Deletes.c67_gone` PCQ, `Deletes.c67_kept` PCQ, `Deletes.c67_saved` PCQ, `Deletes.c67_others` PCQ, `Deletes.c67_all_made` PCQ, `Deletes.c67_commands` PCQ, `Deletes.c67_succeeds` PCQ, `Deletes.c67_failed` PCQ, `Deletes.c67_begins` PCQ
* **C68**: `Variants.c68_active` PCQ, `Variants.c68_saved` PCQ, `Variants.c68_reparse` PCQ, `Variants.c68_reparse_only` PCQ, `Variants.c68_in_tree` PCQ, `Variants.c68_duplicated` PCQ, `Variants.c68_gone` PCQ, `Variants.c68_succeeds` PCQ, `Variants.c68_nested` PQ, `Variants.c68_again` PQ, `Variants.c68_phantom` PQ
* **C69**: `Include.c69_sound` PCQ, `Include.c69_complete` PCQ, `Include.c69_unique` PCQ, `Include.c69_reads` PCQ, `Include.c69_lua` PCQ, `Include.c69_loop` PCQ, `Include.c69_nested` PCQ, `Include.c69_lua_directory` PCQ, `Include.c69_top` PCQ
* **C70**: `Mount.c70_alone` PCQ, `Mount.c70_others` PCQ, `Mount.c70_end` PCQ, `Mount.c70_temporary` PCQ, `Mount.c70_late` PQ, `Mount.c70_dispatch` PCQ, `Mount.c70_still_needed` PCQ, `Mount.c70_late_rename` PCQ, `Mount.c70_alias` PCQ, `Mount.c70_late_answers` PCQ
* **C71**: `Cache.c71_exact` PCQ, `Cache.c71_agree` PCQ, `Cache.c71_invisible` PCQ, `Cache.c71_restart` PCQ, `Cache.c71_inputs` PQ, `Cache.c71_insert` PQ, `Cache.c71_year_2038` PCQ, `Cache.c71_rollback` PCQ, `Cache.c71_old_copy` PQ
* **C72**: `Generate.c72_script_runs_the_commands` PCQ, `Generate.c72_build_directory_wrong` PCQ, `Generate.c72_directory_names` PCQ, `Generate.c72_command_texts` PCQ, `Generate.c72_build_name` PCQ, `Generate.c72_argument` PCQ
* **C73**: `Mirror.c73_mirror` PCQ, `Mirror.c73_place` PCQ, `Mirror.c73_made_again` PQ, `Mirror.c73_moved` PQ, `Mirror.c73_ghost` PQ, `Mirror.c73_nested` PQ
* **C74**: `Reparse.c74_right` PCQ, `Reparse.c74_accepts` PCQ, `Reparse.c74_same` PCQ, `Reparse.c74_order` PCQ, `Reparse.c74_stuck` PQ, `Reparse.c74_circle_missed` PCQ, `Reparse.c74_circle_stays` PCQ
* **C75**: `Refactor.c75_exact` PCQ, `Refactor.c75_unchanged` PCQ, `Refactor.c75_update` PCQ, `Refactor.c75_same` PCQ, `Refactor.c75_display` PCQ
* **C76**: `Upgrade.c76_upgrade` PCQ, `Upgrade.c76_backup` PQ, `Upgrade.c76_newer` PQ, `Upgrade.c76_current` PQ, `Upgrade.c76_parser` PQ, `Upgrade.c76_schema` P, `Upgrade.c76_kept` PQ, `Upgrade.c76_only` PQ, `Upgrade.c76_links` PQ, `Upgrade.c76_todo` PQ, `Upgrade.c76_possible` PQ, `Upgrade.c76_stuck` PCQ
* **C77**: `External.c77_scan` PCQ, `External.c77_exact` PCQ, `External.c77_honest` P, `External.c77_add` PCQ, `External.c77_add_works` PCQ, `External.c77_reach` PCQ, `External.c77_on` P, `External.c77_off` PCQ, `External.c77_without` P, `External.c77_stale` PCQ
* **C78**: `Bins.c78_contents` PCQ, `Bins.c78_grow` PCQ, `Bins.c78_rule` PCQ, `Bins.c78_known` PCQ, `Bins.c78_taken` PCQ, `Bins.c78_literal` PCQ, `Bins.c78_own` PCQ, `Bins.c78_odd` PCQ
* **C79**: `Lookup.c79_pattern` PCQ, `Lookup.c79_pattern_ok` PCQ, `Lookup.c79_named` PCQ, `Lookup.c79_one` PCQ, `Lookup.c79_plain` PCQ, `Lookup.c79_hides` PCQ, `Lookup.c79_falls_back` PCQ, `Lookup.c79_rows` -, `Lookup.c79_again` PCQ, `Lookup.c79_usable` -, `Lookup.c79_gone` -, `Lookup.c79_gone_variant` PCQ, `Lookup.c79_gone_variant_stands` PCQ, `Lookup.c79_preserve_outside` PCQ
* **C80**: `Readdir.c80_exact` PCQ, `Readdir.c80_once` PCQ, `Readdir.c80_record` PCQ, `Readdir.c80_record_alone` PCQ, `Readdir.c80_twice` PCQ, `Readdir.c80_fails` PCQ, `Readdir.c80_hides` PCQ
* **C81**: `RunScript.c81_reach` P, `RunScript.c81_sees` PCQ, `RunScript.c81_own` PCQ, `RunScript.c81_preload` PQ, `RunScript.c81_refused` PQ, `RunScript.c81_outside` PQ, `RunScript.c81_sibling` PCQ, `RunScript.c81_rules` PQ, `RunScript.c81_accepts` PCQ, `RunScript.c81_depends_preload` PQ, `RunScript.c81_depends_env` PQ, `RunScript.c81_exclusion` P, `RunScript.c81_stale` PQ, `RunScript.c81_group_like` PQ
* **C82**: `Todo.c82_shown` PCQ, `Todo.c82_order` PCQ, `Todo.c82_named` PCQ, `Todo.c82_completes` PCQ, `Todo.c82_covers` PCQ, `Todo.c82_exact` PCQ, `Todo.c82_marks` PCQ, `Todo.c82_transient` PCQ
* **C83**: `GenDir.c83_top_safe` -, `GenDir.c83_top_crash` PCQ, `GenDir.c83_convert` PCQ, `GenDir.c83_outputs` PQ, `GenDir.c83_outputs_clean` PQ, `GenDir.c83_new_file` PCQ, `GenDir.c83_ghost_stays` PCQ, `GenDir.c83_new_dir_stays` PCQ, `GenDir.c83_remove` PCQ, `GenDir.c83_remove_exact` PCQ, `GenDir.c83_unknown_fails` PCQ, `GenDir.c83_default_lost` PCQ, `GenDir.c83_emptied` PCQ
* **C84**: `OpenFiles.c84_private` PQ, `OpenFiles.c84_tree` PQ, `OpenFiles.c84_wait` PQ, `OpenFiles.c84_pwrite` PQ, `OpenFiles.c84_ftruncate` PQ, `OpenFiles.c84_read_back` PQ, `OpenFiles.c84_late_removed` -, `OpenFiles.c84_late_readonly` -, `OpenFiles.c84_late_excluded` -, `OpenFiles.c84_late_replaced` -, `OpenFiles.c84_fuse2_writes` -, `OpenFiles.c84_open_hides` -, `OpenFiles.c84_hidden_name` -, `OpenFiles.c84_exclusion_differs` -
* **C85**: `Lua.c85_line` PCQ, `Lua.c85_forms` PCQ, `Lua.c85_call` PCQ, `Lua.c85_again` PCQ, `Lua.c85_own_bin` PCQ, `Lua.c85_differences` PCQ
* **C86**: `LuaVars.c86_reads` PCQ, `LuaVars.c86_private` PCQ, `LuaVars.c86_last_set` PCQ, `LuaVars.c86_unset` PCQ, `LuaVars.c86_leaks` PCQ, `LuaVars.c86_append` PQ, `LuaVars.c86_append_error` PCQ, `LuaVars.c86_append_aliases` PCQ
* **C87**: `LuaNames.c87_file` PQ, `LuaNames.c87_split` P, `LuaNames.c87_ext` PCQ, `LuaNames.c87_no_ext` PCQ, `LuaNames.c87_as_tupfile` PCQ, `LuaNames.c87_differences` PCQ
* **C88**: `Top.c88_find` PCQ, `Top.c88_not_found` PCQ, `Top.c88_root` PCQ, `Top.c88_init` PCQ, `Top.c88_init_dir` PCQ, `Top.c88_init_absolute` PCQ, `Top.c88_init_options` PCQ, `Top.c88_init_two` PCQ, `Top.c88_init_nested` PCQ, `Top.c88_ini` PCQ
* **C89**: `CompileDb.c89_file` PCQ, `CompileDb.c89_later` PCQ, `CompileDb.c89_objects` PCQ, `CompileDb.c89_unescaped` PCQ, `CompileDb.c89_choose` PQ, `CompileDb.c89_commandline` PCQ
* **C90**: `LnCmd.c90_command` PCQ, `LnCmd.c90_link` PCQ, `LnCmd.c90_absolute` PCQ, `LnCmd.c90_spaces` PCQ, `LnCmd.c90_undefined` PCQ, `LnCmd.c90_outputs` PCQ
* **C91**: `DirInputs.c91_inputs` PCQ, `DirInputs.c91_rest` PCQ, `DirInputs.c91_error` PCQ, `DirInputs.c91_generated` PCQ, `DirInputs.c91_write` PCQ, `DirInputs.c91_looked` PCQ, `DirInputs.c91_reparse` PCQ
* **C92**: `Symlink.c92_link` PCQ, `Symlink.c92_file` PCQ, `Symlink.c92_plain` PCQ, `Symlink.c92_chain` PCQ, `Symlink.c92_long` PQ, `Symlink.c92_chain_sample` PCQ, `Symlink.c92_dotdot` PCQ
* **C93**: `Combine.c93_survivors` PCQ, `Combine.c93_edges` PCQ, `Combine.c93_once` PQ, `Combine.c93_hidden` PCQ, `Combine.c93_dump` PCQ, `Combine.c93_combined` PCQ, `Combine.c93_label` PCQ, `Combine.c93_overflow` PCQ
* **C94**: `Progress.c94_known` PCQ, `Progress.c94_unknown` PCQ, `Progress.c94_sum` PQ, `Progress.c94_bar` PCQ, `Progress.c94_fields` PCQ, `Progress.c94_steady` PQ, `Progress.c94_end` PCQ, `Progress.c94_long` PCQ, `Progress.c94_eta` PCQ, `Progress.c94_clock` PCQ, `Progress.c94_line` PCQ, `Progress.c94_time` PCQ
* **C95**: `Logs.c95_rotate` PCQ, `Logs.c95_runs` PCQ, `Logs.c95_stuck` PCQ, `Logs.c95_graph` PCQ, `Logs.c95_percent` PCQ, `Logs.c95_double` PCQ, `Logs.c95_unremovable` PCQ
* **C96**: `MkVariant.c96_name` PCQ, `MkVariant.c96_opens` PCQ, `MkVariant.c96_absolute` PCQ, `MkVariant.c96_only` PCQ, `MkVariant.c96_all` PCQ, `MkVariant.c96_succeeds` PCQ, `MkVariant.c96_refused` PCQ, `MkVariant.c96_sample` PCQ, `MkVariant.c96_same` PCQ, `MkVariant.c96_elsewhere` PCQ
* **C97**: `Update.c97_rules_change` PCQ, `Update.c97_without_o` PCQ, `Update.c97_history_does_not_matter` PCQ, `Update.c97_as_if_new` PCQ, `Update.c97_not_scheduled` PCQ, `Update.c97_sources` PQ, `Update.c97_false_o_added` PQ
* **C98**: `AutoUpdate.c98_flush` PCQ, `AutoUpdate.c98_asked` PCQ, `AutoUpdate.c98_still` PCQ, `AutoUpdate.c98_answered` PCQ, `AutoUpdate.c98_settles` PCQ, `AutoUpdate.c98_only` PQ, `AutoUpdate.c98_none` PQ, `AutoUpdate.c98_waited` PQ, `AutoUpdate.c98_last` PQ, `AutoUpdate.c98_zombie` PQ, `AutoUpdate.c98_stuck` PQ
* **C99**: `TupDirs.c99_cwd` PCQ, `TupDirs.c99_outputdir` PCQ, `TupDirs.c99_variantdir` PCQ, `TupDirs.c99_node_set` PCQ, `TupDirs.c99_node` PCQ, `TupDirs.c99_directory` PCQ, `TupDirs.c99_lua` PCQ, `TupDirs.c99_lua_directory` PCQ, `TupDirs.c99_relativedir` PCQ, `TupDirs.c99_lua_node` PCQ, `TupDirs.c99_false_included` PCQ, `TupDirs.c99_false_lua_node` PCQ, `TupDirs.c99_false_d` PCQ, `TupDirs.c99_false_lua_directory` PCQ
* **C100**: `GraphCmd.c100_ends` PCQ, `GraphCmd.c100_nodes` PCQ, `GraphCmd.c100_edges` PCQ, `GraphCmd.c100_proper` PCQ, `GraphCmd.c100_once` PCQ, `GraphCmd.c100_printed` PCQ, `GraphCmd.c100_args` PCQ, `GraphCmd.c100_prune` PCQ, `GraphCmd.c100_false_default` PCQ
* **C101**: `VarAsk.c101_noted` PCQ, `VarAsk.c101_empty` PCQ, `VarAsk.c101_program` PCQ, `VarAsk.c101_varsed` PCQ, `VarAsk.c101_input` PCQ, `VarAsk.c101_only_asked` PCQ, `VarAsk.c101_rerun` PCQ, `VarAsk.c101_same` PCQ, `VarAsk.c101_lookup` PCQ, `VarAsk.c101_shadow` PCQ, `VarAsk.c101_outside` PCQ, `VarAsk.c101_long` PCQ, `VarAsk.c101_slash` PCQ, `VarAsk.c101_files` PCQ
* **C102**: `ConfigVar.c102_value` PCQ, `ConfigVar.c102_ghost` PCQ, `ConfigVar.c102_tupfile` PCQ, `ConfigVar.c102_total` PCQ, `ConfigVar.c102_inputs` PCQ, `ConfigVar.c102_same` PCQ, `ConfigVar.c102_ifdef_platform` PCQ
* **C103**: `DoRule.c103_scheduled` PCQ, `DoRule.c103_inputs` PCQ
* **C104**: `Watch.c104_event` PQ, `Watch.c104_tame` PCQ, `Watch.c104_clear` PCQ, `Watch.c104_stale` PQ, `Watch.c104_twice` PCQ
* **C105**: `Again.c105_again` PCQ, `Again.c105_reported` PCQ, `Again.c105_kept` PCQ, `Again.c105_dropped` PCQ
* **C106**: `LuaGlob.c106_glob` PCQ, `LuaGlob.c106_path` PCQ, `LuaGlob.c106_inputs` PCQ, `LuaGlob.c106_foreign` PCQ, `LuaGlob.c106_brackets` PCQ, `LuaGlob.c106_exclusion` -
* **C107**: `Show.c107_output` PCQ, `Show.c107_zero` PCQ, `Show.c107_success` PCQ, `Show.c107_failure` PCQ, `Show.c107_lost` PCQ, `Show.c107_whole` P, `Show.c107_together` PCQ, `Show.c107_no_deadlock` P
* **C108**: `Workers.c108_results` PCQ, `Workers.c108_complete` PCQ, `Workers.c108_no_crash` PCQ, `Workers.c108_awake` PCQ, `Workers.c108_no_deadlock` PCQ, `Workers.c108_workers_rest` PCQ, `Workers.c108_ends` PCQ, `Workers.c108_dropped` P
* **C109**: `PidFile.c109_values` PCQ, `PidFile.c109_last` PCQ, `PidFile.c109_get` PCQ, `PidFile.c109_dead` P, `PidFile.c109_no_deadlock` PCQ, `PidFile.c109_scan` PCQ, `PidFile.c109_stop` PCQ, `PidFile.c109_zero` P, `PidFile.c109_overtaken` P
* **C110**: `Refs.c110_counts` PCQ, `Refs.c110_alive` PCQ, `Refs.c110_safe` PCQ, `Refs.c110_remove` PCQ, `Refs.c110_parent` PQ, `Refs.c110_clear` PCQ, `Refs.c110_add` PQ, `Refs.c110_let_go` PCQ, `Refs.c110_push` PQ, `Refs.c110_pop` PCQ, `Refs.c110_create` PCQ
* **C111**: `Setup.c111_relative` PQ, `Setup.c111_absolute` PQ, `Setup.c111_need` PQ, `Setup.c111_full` PQ, `Setup.c111_outside` PQ, `Setup.c111_outputs` PQ, `Setup.c111_closed` PQ, `Setup.c111_unseen` PQ
* **C112**: `Timespan.c112_bounds` PQ, `Timespan.c112_nearest` PQ, `Timespan.c112_not_nearest` -, `Timespan.c112_sign` PQ, `Timespan.c112_delta` PQ, `Timespan.c112_once` PQ, `Timespan.c112_own` PQ, `Timespan.c112_forward` PQ
* **C113**: `PreInit.c113_tries` PQ, `PreInit.c113_ok` PQ, `PreInit.c113_none` PQ, `PreInit.c113_works` PQ, `PreInit.c113_again` PQ, `PreInit.c113_without` PQ, `PreInit.c113_both` PQ, `PreInit.c113_socket` PQ, `PreInit.c113_calls` PCQ
* **C114**: `TmpNames.c114_distinct` PCQ, `TmpNames.c114_fits` PQ, `TmpNames.c114_stored` PCQ, `TmpNames.c114_tight` PQ, `TmpNames.c114_long` PQ
