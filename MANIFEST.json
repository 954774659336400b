{
 "claims": [
  {
   "property": "C01",
   "status": "proved",
   "theorems": [
    "Tup.IfStmt.c01_conditionals_nest",
    "Tup.IfStmt.c02_block_structure",
    "Tup.IfStmt.c01_any_file"
   ],
   "note": "two-byte bitmask machine refines a stack of branches"
  },
  {
   "property": "C02",
   "status": "proved",
   "theorems": [
    "Tup.IfStmt.c02_block_structure",
    "Tup.IfStmt.c02_unselected_irrelevant"
   ],
   "note": "for arbitrary meaning of the directive handlers"
  },
  {
   "property": "C03",
   "status": "proved",
   "theorems": [
    "Tup.Lines.c03_reads_logical_lines",
    "Tup.Lines.c03_leaves_the_buffer_iff"
   ],
   "note": "Buffer model with out-of-bounds access as a distinct outcome; the two inputs on which the code leaves its buffer are characterised exactly."
  },
  {
   "property": "C04",
   "status": "proved",
   "theorems": [
    "Tup.PathList.c04_reads_what_is_written",
    "Tup.PathList.c04_round_trip",
    "Tup.PathList.c04_open_quote_rejected",
    "Tup.PathList.c04_accepts_only_words",
    "Tup.PathList.c04_long_word_leaves_the_buffer",
    "Tup.PathList.c04_kinds",
    "Tup.PathList.c04_accepts_only_kinds"
   ],
   "note": ""
  },
  {
   "property": "C05",
   "status": "proved",
   "theorems": [
    "Tup.Eval.c05_expansion",
    "Tup.Eval.c05_errors",
    "Tup.Eval.c05_with_nodes",
    "Tup.Eval.c05_plain",
    "Tup.Eval.c05_value_verbatim",
    "Tup.Eval.c05_false_with_nodes"
   ],
   "note": "the lookup functions are parameters"
  },
  {
   "property": "C06",
   "status": "proved",
   "theorems": [
    "Tup.Printf.c06_expansion",
    "Tup.Printf.c06_undefined",
    "Tup.Printf.c06_errors",
    "Tup.Printf.c06_unique",
    "Tup.Printf.c06_plain",
    "Tup.Printf.c06_percent",
    "Tup.Printf.c06_percent_later",
    "Tup.Printf.c06_number",
    "Tup.Printf.c06_extra"
   ],
   "note": ""
  },
  {
   "property": "C07",
   "status": "proved",
   "theorems": [
    "Tup.Rules.c07_split",
    "Tup.Rules.c07_error"
   ],
   "note": "exact characterisation"
  },
  {
   "property": "C08",
   "status": "proved",
   "theorems": [
    "Tup.Rules.c08_split",
    "Tup.Rules.c08_markers",
    "Tup.Rules.c08_bin_errors",
    "Tup.Rules.c08_bar",
    "Tup.Rules.c08_rule",
    "Tup.Rules.c08_foreach",
    "Tup.Rules.c08_foreach_not_delimited"
   ],
   "note": "exact characterisation; foreach without delimiter shown as a quirk"
  },
  {
   "property": "C09",
   "status": "proved",
   "theorems": [
    "Tup.Assign.c09_assign",
    "Tup.Assign.c09_plain",
    "Tup.Assign.c09_assign_node",
    "Tup.Assign.c09_errors",
    "Tup.Assign.c09_false_for_operators_in_values",
    "Tup.Assign.c09_read",
    "Tup.Assign.c09_read_node"
   ],
   "note": "Exact for every line; the last theorem shows what happens to a value that contains an operator."
  },
  {
   "property": "C10",
   "status": "proved",
   "theorems": [
    "Tup.Names.c10_totals",
    "Tup.Names.c10_unique",
    "Tup.Names.c10_exclude",
    "Tup.Names.c10_wildcard_count_stale"
   ],
   "note": ""
  },
  {
   "property": "C11",
   "status": "proved",
   "theorems": [
    "Tup.Pel.c11_form",
    "Tup.Pel.c11_meaning",
    "Tup.Pel.c11_components",
    "Tup.Pel.c11_meaning_rev",
    "Tup.Pel.c11_not_reverse",
    "Tup.Pel.c11_idempotent",
    "Tup.Pel.c11_canonical",
    "Tup.Pel.c11_group"
   ],
   "note": "Model of split_path_elements; places in a tree without symbolic links."
  },
  {
   "property": "C12",
   "status": "proved",
   "theorems": [
    "Tup.Pel.c12_exact",
    "Tup.Pel.c12_recognised_partial",
    "Tup.Pel.c12_inside_spelled_partial",
    "Tup.Pel.c12_false",
    "Tup.Pel.c12_root",
    "Tup.Pel.c12_relative",
    "Tup.Pel.c12_count"
   ],
   "note": "c12_exact states exactly what is recognised. The property one would want (only paths whose first components are those of the root) is false of the code, witness c12_false; c12_recognised_partial is the direction of it that holds."
  },
  {
   "property": "C13",
   "status": "proved",
   "theorems": [
    "Tup.Pel.c13_hidden",
    "Tup.Pel.c13_ignored"
   ],
   "note": "Hidden after the root of the project has been removed."
  },
  {
   "property": "C14",
   "status": "proved",
   "theorems": [
    "Tup.Relative.c14_arrives",
    "Tup.Relative.c14_shortest",
    "Tup.Relative.c14_defined",
    "Tup.Relative.c14_external"
   ],
   "note": "For nodes of the project (names without slashes); c14_external shows what happens for nodes below '/'."
  },
  {
   "property": "C15",
   "status": "proved",
   "theorems": [
    "Tup.Config.c15_parse",
    "Tup.Config.c15_error",
    "Tup.Config.c15_values",
    "Tup.Config.c15_unterminated",
    "Tup.Config.c15_bom"
   ],
   "note": "The reader succeeds with bindings bs exactly when the file consists of lines of the stated shapes giving bs; the last binding of a name is the one stored."
  },
  {
   "property": "C16",
   "status": "proved",
   "theorems": [
    "Tup.VarStore.c16_total",
    "Tup.VarStore.c16_values",
    "Tup.VarStore.c16_parses",
    "Tup.VarStore.c16_runs",
    "Tup.VarStore.c16_parses_only",
    "Tup.VarStore.c16_runs_only",
    "Tup.VarStore.c16_vardict",
    "Tup.VarStore.c16_others"
   ],
   "note": "For every database in which the directory of the variables holds variables and ghosts, every file content and every shape of the two trees. SQLite is trusted."
  },
  {
   "property": "C17",
   "status": "proved",
   "theorems": [
    "Tup.Vardict.c17_value",
    "Tup.Vardict.c17_absent",
    "Tup.Vardict.c17_empty",
    "Tup.Vardict.c17_false_for_bytes",
    "Tup.Vardict.c17_false_for_equals",
    "Tup.Vardict.c17_index",
    "Tup.Vardict.c17_overflow",
    "Tup.Vardict.c17_damaged"
   ],
   "note": "Writer and reader modelled down to the bytes of the packed file; the two false_for theorems show why the provisos on names are needed. c17_index: what the check of the length gives; c17_overflow and c17_damaged are counterexamples with damaged files."
  },
  {
   "property": "C18",
   "status": "proved",
   "theorems": [
    "Tup.Config.c18_substitution",
    "Tup.Config.c18_file",
    "Tup.Config.c18_plain"
   ],
   "note": "The output is the one related to the input by the substitution rules."
  },
  {
   "property": "C19",
   "status": "proved",
   "theorems": [
    "Tup.Strings.c19_single_quotes"
   ],
   "note": "Against a small model of POSIX word reading."
  },
  {
   "property": "C20",
   "status": "proved",
   "theorems": [
    "Tup.Strings.c20_leaves_the_buffer_iff",
    "Tup.Strings.c20_decodes_iff",
    "Tup.Strings.c20_prints"
   ],
   "note": "JSON decoder without \\u escapes; file encoding (UTF-8) not modelled."
  },
  {
   "property": "C21",
   "status": "proved",
   "theorems": [
    "Tup.Gitignore.c21_keeps",
    "Tup.Gitignore.c21_own_part_ignored",
    "Tup.Gitignore.c21_idempotent",
    "Tup.Gitignore.c21_new_file",
    "Tup.Gitignore.c21_remove",
    "Tup.Gitignore.c21_round_trip",
    "Tup.Gitignore.c21_no_separator",
    "Tup.Gitignore.c21_false",
    "Tup.Gitignore.c21_last_line"
   ],
   "note": "gitignore and remove_tup_gitignore with their character matcher. Findings, proved: with a text that ends in an incomplete line ending in # the separator is missed, so tup's part is added at each update and not removed (c21_false); an incomplete last line of the user is merged with the separator (c21_last_line)."
  },
  {
   "property": "C22",
   "status": "proved",
   "theorems": [
    "Tup.Fuse.c22_private",
    "Tup.Fuse.c22_written",
    "Tup.Fuse.c22_contents",
    "Tup.Fuse.c22_directories",
    "Tup.Fuse.c22_temporary",
    "Tup.Fuse.c22_read",
    "Tup.Fuse.c22_none_missed",
    "Tup.Fuse.c22_rename_directory",
    "Tup.Fuse.c22_failed_rename",
    "Tup.Fuse.c22_failed_truncate",
    "Tup.Fuse.c22_failed_open",
    "Tup.Fuse.c22_replace_directory",
    "Tup.Fuse.does_unique",
    "Tup.Fuse.does_total"
   ],
   "note": "Refinement of a private overlay file system by the FUSE server's mappings and access lists, for names that are neither hidden nor ignored; the kernel's lookups and refusals are trusted. The last theorems are counterexamples to the claim without its condition: renaming a full directory, renaming a foreign file over an own one, truncating or opening a foreign file, replacing a directory."
  },
  {
   "property": "C23",
   "status": "proved",
   "theorems": [
    "Tup.Links.c23_exact",
    "Tup.Links.c23_sound",
    "Tup.Links.c23_failed",
    "Tup.Links.c23_rescheduled",
    "Tup.Links.c23_no_leak",
    "Tup.Links.c23_moved",
    "Tup.Links.c23_removed",
    "Tup.Links.c23_accepted",
    "Tup.Links.c23_accepts"
   ],
   "note": "For every list of written files, every set of declared outputs and every state of the database in which names are unique. c23_sound holds whatever the disk does; the other theorems assume that stat and rename succeed. An excluded written file in a directory that is not in the database is simplified (no directories are made). Which files the command wrote is reported by the tracing server (FUSE or ldpreload), which is not modelled."
  },
  {
   "property": "C24",
   "status": "proved",
   "theorems": [
    "Tup.Links.c24_accepted",
    "Tup.Links.c24_exact",
    "Tup.Links.c24_rejected",
    "Tup.Links.c24_important",
    "Tup.Links.c24_decides",
    "Tup.Links.c24_config"
   ],
   "note": "For every database whose links refer to existing nodes; c24_decides also for acyclic links. A dependency on a file that is an output of the command itself stays recorded if it was recorded before."
  },
  {
   "property": "C25",
   "status": "proved",
   "theorems": [
    "Tup.Links.c25_exact",
    "Tup.Links.c25_members",
    "Tup.Links.c25_left",
    "Tup.Links.c25_others",
    "Tup.Links.c25_used",
    "Tup.Links.c25_scheduled",
    "Tup.Links.c25_left_scheduled",
    "Tup.Links.c25_written",
    "Tup.Links.c25_unchanged",
    "Tup.Links.c25_idempotent",
    "Tup.Links.c25_refactor",
    "Tup.Links.c25_kept",
    "Tup.Links.c25_added_input",
    "Tup.DoRule.c25_stolen"
   ],
   "note": "Links written by tup_db_write_outputs and tup_db_write_inputs, for every stored state that satisfies the invariant Tidy (kept, c25_kept) and every rule; exact characterisation of the stored links and of the scheduling flags; c25_added_input shows that adding an input does not schedule the command. c25_stolen: nor does losing an output to another rule."
  },
  {
   "property": "C26",
   "status": "proved",
   "theorems": [
    "Tup.Tree.c26_compare_vars",
    "Tup.Tree.c26_compare_ids"
   ],
   "note": "callbacks succeed; elements in both are reported to the third callback (variables) or skipped (ids)"
  },
  {
   "property": "C27",
   "status": "proved",
   "theorems": [
    "Tup.DoRule.c27_history",
    "Tup.DoRule.c27_home",
    "Tup.DoRule.c27_names",
    "Tup.DoRule.c27_rejected",
    "Tup.DoRule.c27_accepted",
    "Tup.DoRule.c27_second"
   ],
   "note": "do_rule from the outputs to the links, and the other changes of the database as steps of histories; the cached incoming link of an entry is read from the table instead."
  },
  {
   "property": "C28",
   "status": "proved",
   "theorems": [
    "Tup.Graph.c28_loop_ends",
    "Tup.Graph.c28_graph_is_reachable_part",
    "Tup.Graph.c28_no_cycle_builds",
    "Tup.Graph.c28_graph_ready_for_executor"
   ],
   "note": "Update graph without commands attached for transient files."
  },
  {
   "property": "C29",
   "status": "proved",
   "theorems": [
    "Tup.Graph.c29_error_means_cycle",
    "Tup.Graph.c29_cycle_is_an_error",
    "Tup.Graph.c29_build_misses_cycle",
    "Tup.Exec.c29_cycle_reported"
   ],
   "note": "The check while building is incomplete (c29_build_misses_cycle); the executor catches the rest."
  },
  {
   "property": "C30",
   "status": "proved",
   "theorems": [
    "Tup.Exec.c30_dependencies_done_first",
    "Tup.Exec.c30_at_most_once",
    "Tup.Exec.c30_transient_deleted_last"
   ],
   "note": "All interleavings of the main thread, worker completions and a signal."
  },
  {
   "property": "C31",
   "status": "proved",
   "theorems": [
    "Tup.Exec.c31_job_limit",
    "Tup.Exec.c31_jobs_clamped"
   ],
   "note": ""
  },
  {
   "property": "C32",
   "status": "proved",
   "theorems": [
    "Tup.Exec.c32_terminates",
    "Tup.Exec.c32_no_deadlock",
    "Tup.Exec.c32_failure_free_completes"
   ],
   "note": ""
  },
  {
   "property": "C33",
   "status": "proved",
   "theorems": [
    "Tup.Exec.c33_success_means_all_done",
    "Tup.Exec.c33_downstream_of_failure_not_started",
    "Tup.Exec.c33_keep_going_does_the_rest",
    "Tup.Exec.c33_no_start_after_stop"
   ],
   "note": ""
  },
  {
   "property": "C34",
   "status": "proved",
   "theorems": [
    "Tup.Update.c34_unfinished_stays_scheduled",
    "Tup.Update.c34_scheduled_until_finished",
    "Tup.Update.c34_finished_not_repeated"
   ],
   "note": "Database transactions are taken to be atomic (SQLite)."
  },
  {
   "property": "C35",
   "status": "proved",
   "theorems": [
    "Tup.Update.c35_update_brings_up_to_date",
    "Tup.Update.c35_without_o",
    "Tup.Update.c35_incremental_is_full_build",
    "Tup.Update.c35_false_with_leftovers"
   ],
   "note": "Groups, transient files, variants and reparsing are not in this model; the exception for ^o is shown to be necessary by a concrete history."
  },
  {
   "property": "C36",
   "status": "proved",
   "theorems": [
    "Tup.Graph.c36_commands_kept",
    "Tup.Graph.c36_kept_complete",
    "Tup.Graph.c36_pruned_ready_for_executor"
   ],
   "note": "Under unique producers (C27); argument parsing not modelled."
  },
  {
   "property": "C37",
   "status": "proved",
   "theorems": [
    "Tup.Update.c37_skipped_only_if_unchanged",
    "Tup.Update.c37_changed_input_runs",
    "Tup.Update.c37_runs_only_for_a_reason"
   ],
   "note": ""
  },
  {
   "property": "C38",
   "status": "proved",
   "theorems": [
    "Tup.Graph.c38_trim_finds_cycles",
    "Tup.Graph.c38_group_cycles"
   ],
   "note": ""
  },
  {
   "property": "C39",
   "status": "proved",
   "theorems": [
    "Tup.Graph.c39_connected"
   ],
   "note": ""
  },
  {
   "property": "C40",
   "status": "proved",
   "theorems": [
    "Tup.Ghosts.c40_terminates",
    "Tup.Ghosts.c40_safe",
    "Tup.Ghosts.c40_needed",
    "Tup.Ghosts.c40_links",
    "Tup.Ghosts.c40_quiet",
    "Tup.Ghosts.c40_exact"
   ],
   "note": "For every consistent database and worklist. c40_exact assumes that the worklist has every placeholder that nothing needs; c40_safe and c40_needed do not. Removal of generated directories from the disk is not modelled."
  },
  {
   "property": "C41",
   "status": "proved",
   "theorems": [
    "Tup.Scan.c41_same",
    "Tup.Scan.c41_changed",
    "Tup.Scan.c41_appears",
    "Tup.Scan.c41_new",
    "Tup.Scan.c41_removed",
    "Tup.Scan.c41_removed_generated",
    "Tup.Scan.c41_removed_gitignore",
    "Tup.Scan.c41_removed_config",
    "Tup.Scan.c41_removed_dir",
    "Tup.Scan.c41_replaced",
    "Tup.Scan.c41_group_name",
    "Tup.Links.c41_group_dir",
    "Tup.Scan.c41_removed_only",
    "Tup.Scan.c41_removed_tupfile"
   ],
   "note": "Only the root variant is modelled. A removed directory is treated by recursion over any tree of directories, in any order of its entries. c41_group_name: a file with the name of a group makes the scan fail; c41_group_dir: a directory with the name of a group makes it recurse without end."
  },
  {
   "property": "C42",
   "status": "proved",
   "theorems": [
    "Tup.VarStore.c42_values",
    "Tup.VarStore.c42_scheduled",
    "Tup.VarStore.c42_off",
    "Tup.VarStore.c42_new"
   ],
   "note": "For every stored environment and every actual environment. The printed message is not modelled (it passes NULL to %s when a variable was or becomes unset)."
  },
  {
   "property": "C43",
   "status": "proved",
   "theorems": [
    "Tup.Transact.c43_failed",
    "Tup.Transact.c43_atomic",
    "Tup.Transact.c43_succeeds_iff",
    "Tup.Transact.c43_recorded",
    "Tup.Transact.c43_interrupted",
    "Tup.Transact.c43_update_fails",
    "Tup.Transact.c43_commands",
    "Tup.Transact.c43_rules",
    "Tup.Transact.c43_commit_ignored",
    "Tup.Transact.c43_files_not_restored",
    "Tup.Transact.c43_success_unrecorded"
   ],
   "note": "process_create_nodes and the other phases of updater with all their early returns, tup_db_begin/commit/rollback; what the parts do is arbitrary, c43_rules instantiates the parser with the model of do_rule. SQLite's transactions are trusted. Findings, proved: the result of the commit is ignored (c43_commit_ignored, c43_success_unrecorded), files deleted before a later failure stay deleted (c43_files_not_restored)."
  },
  {
   "property": "C44",
   "status": "proved",
   "theorems": [
    "Tup.Locks.c44_exclusion",
    "Tup.Locks.c44_handover",
    "Tup.Locks.c44_recorded",
    "Tup.Locks.c44_progress",
    "Tup.Locks.c44_bounded",
    "Tup.Locks.c44_finish",
    "Tup.Locks.c44_false_with_two_monitors",
    "Tup.Locks.c44_false_when_starting_over",
    "Tup.Locks.c44_false_when_killed",
    "Tup.Locks.c44_false_when_stopped_early"
   ],
   "note": "Exclusion is proved for all moves, including kills and several monitors. Handover, absence of deadlock and the bound on the number of steps are proved for histories in which a monitor is started only when none is left, not stopped while its parent waits, and nobody is killed; without each of these there is a reachable deadlock (the four c44_false theorems)."
  },
  {
   "property": "C45",
   "status": "proved",
   "theorems": [
    "Tup.Monitor.c45_in_step",
    "Tup.Monitor.c45_existing",
    "Tup.Monitor.c45_defined",
    "Tup.Monitor.c45_settles",
    "Tup.Monitor.c45_moved_then_removed",
    "Tup.Monitor.c45_moved_twice",
    "Tup.Monitor.c45_replaced_then_removed",
    "Tup.Monitor.c45_freed"
   ],
   "note": "Existence of files only: directories, watches and modification times are outside the model. The kernel is assumed to deliver the two events of a move next to each other. The last four theorems show that the conditions are needed: removals are lost and freed memory is read."
  },
  {
   "property": "C46",
   "status": "proved",
   "theorems": [
    "Tup.Options.c46_precedence",
    "Tup.Options.c46_show",
    "Tup.Options.c46_accepted",
    "Tup.Options.c46_garbled",
    "Tup.Options.c46_readable",
    "Tup.Options.c46_valid",
    "Tup.Options.c46_flag",
    "Tup.Options.c46_jobs",
    "Tup.Options.c46_false_for_long_lines",
    "Tup.Options.c46_false_for_jobs",
    "Tup.Options.c46_false_for_numbers",
    "Tup.Options.c46_false_for_dashes"
   ],
   "note": "The reader of .ini files is modelled byte for byte and shown to implement a declarative line format. Limits shown by witness: c46_false_for_long_lines (lines over 199 bytes are split, so the tail of a comment can be a setting), c46_false_for_jobs (-jXYZ is not validated), c46_false_for_numbers (atoi overflow), c46_false_for_dashes (arguments after -- are options)."
  },
  {
   "property": "C47",
   "status": "proved",
   "theorems": [
    "Tup.Tree.c47_id_sets",
    "Tup.Tree.c47_false_for_far_ids",
    "Tup.Tree.c47_no_order_at_the_bound"
   ],
   "note": "for any rebalancing policy; ids within an interval of length 2^31; witness that the bound is needed"
  },
  {
   "property": "C48",
   "status": "proved",
   "theorems": [
    "Tup.Strings.c48_appends_concatenate",
    "Tup.Strings.c48_no_error_with_memory",
    "Tup.Strings.c48_limit_is_sharp"
   ],
   "note": "Memory as cells, malloc failure and int overflow as outcomes."
  },
  {
   "property": "C49",
   "status": "proved",
   "theorems": [
    "Tup.Tree.c49_variable_stores"
   ],
   "note": "for any rebalancing policy; memory allocation succeeds"
  },
  {
   "property": "C50",
   "status": "proved",
   "theorems": [
    "Tup.DoRule.c50_reserved",
    "Tup.DoRule.c50_twice",
    "Tup.DoRule.c50_groups",
    "Tup.DoRule.c50_exclusions",
    "Tup.DoRule.c50_existing",
    "Tup.DoRule.c50_source",
    "Tup.DoRule.c50_copy",
    "Tup.DoRule.c50_own_input",
    "Tup.DoRule.c50_own_group",
    "Tup.DoRule.c50_command",
    "Tup.DoRule.c50_reserved_elsewhere",
    "Tup.DoRule.c50_reserved_variant",
    "Tup.DoRule.c50_accepted"
   ],
   "note": "Same model as C27. The counterexamples show that only the whole path is compared with the reserved names."
  },
  {
   "property": "C51",
   "status": "proved",
   "theorems": [
    "Tup.Execute.c51_rule",
    "Tup.Execute.c51_foreach",
    "Tup.Execute.c51_plain",
    "Tup.Execute.c51_none",
    "Tup.Execute.c51_extension"
   ],
   "note": "path resolution and command creation are parameters"
  },
  {
   "property": "C52",
   "status": "proved",
   "theorems": [
    "Tup.Restore.c52_restored",
    "Tup.Restore.c52_kept",
    "Tup.Restore.c52_without_flag",
    "Tup.Restore.c52_untouched",
    "Tup.Restore.c52_not_started",
    "Tup.Restore.c52_half_moved",
    "Tup.Restore.c52_half_restored",
    "Tup.Restore.c52_new_output",
    "Tup.Restore.c52_old_backup"
   ],
   "note": "The last five are counterexamples to the claim without its condition: when the command can't be started, or a move fails, outputs stay in .tup/tmp and the next start of tup removes them."
  },
  {
   "property": "C53",
   "status": "proved",
   "theorems": [
    "Tup.Strings.c53_exact",
    "Tup.Strings.c53_double_quotes_partial",
    "Tup.Strings.c53_false"
   ],
   "note": "c53_exact states exactly the names that survive. The property one would want (all names survive) is false of the code, witnesses in c53_false; c53_double_quotes_partial is the part of it that holds."
  },
  {
   "property": "C54",
   "status": "proved",
   "theorems": [
    "Tup.Assign.c54_ifeq",
    "Tup.Assign.c54_syntax",
    "Tup.Assign.c54_misplaced_parenthesis"
   ],
   "note": ""
  },
  {
   "property": "C55",
   "status": "proved",
   "theorems": [
    "Tup.Names.c55_file",
    "Tup.Names.c55_path",
    "Tup.Names.c55_false_without_dot",
    "Tup.Names.c55_output_without_dot"
   ],
   "note": ""
  },
  {
   "property": "C56",
   "status": "proved",
   "theorems": [
    "Tup.Names.c56_star",
    "Tup.Names.c56_one",
    "Tup.Names.c56_none",
    "Tup.Names.c56_final_star",
    "Tup.Names.c56_star_star"
   ],
   "note": ""
  },
  {
   "property": "C57",
   "status": "proved",
   "theorems": [
    "Tup.Execute.c57_define",
    "Tup.Execute.c57_undefined",
    "Tup.Execute.c57_alias_self"
   ],
   "note": ""
  },
  {
   "property": "C58",
   "status": "proved",
   "theorems": [
    "Tup.Gitignore.c58_lines",
    "Tup.Gitignore.c58_exact",
    "Tup.Gitignore.c58_ignored",
    "Tup.Gitignore.c58_backslash"
   ],
   "note": "write_gitignore_line and tup_db_write_gitignore; git's matching of patterns without brackets is a specification. A name with a backslash is not escaped and not ignored (c58_backslash, a defect)."
  },
  {
   "property": "C59",
   "status": "proved",
   "theorems": [
    "Tup.Restore.c59_unchanged",
    "Tup.Restore.c59_without_flag"
   ],
   "note": "Links are assumed not to be longer than 4096 bytes (PATH_MAX)."
  },
  {
   "property": "C60",
   "status": "proved",
   "theorems": [
    "Tup.FullScan.c60_ends",
    "Tup.FullScan.c60_files",
    "Tup.FullScan.c60_dirs",
    "Tup.FullScan.c60_only",
    "Tup.FullScan.c60_missing",
    "Tup.FullScan.c60_overwritten",
    "Tup.FullScan.c60_readers",
    "Tup.FullScan.c60_new",
    "Tup.FullScan.c60_exact",
    "Tup.FullScan.c60_replaced"
   ],
   "note": "For every sound database (forest of rows with unique names, files and commands in directories), every disk and all orders. c60_missing excludes a missing .gitignore, for which the directory is parsed instead. c60_replaced is the counterexample for files replaced by something that is neither a file nor a directory."
  },
  {
   "property": "C61",
   "status": "proved",
   "theorems": [
    "Tup.Transient.c61_ends",
    "Tup.Transient.c61_commands",
    "Tup.Transient.c61_files",
    "Tup.Transient.c61_ready_for_executor",
    "Tup.Transient.c61_made_first",
    "Tup.Transient.c61_circular",
    "Tup.Transient.c61_no_error",
    "Tup.Transient.c61_shared_group",
    "Tup.Transient.c61_leftover_output",
    "Tup.Transient.c61_leftover"
   ],
   "note": "The exact set of commands and files of the work graph, ordering through the executor's theorems, and the exact circumstances of errors. The counterexamples show the two internal errors and a command that is not rerun after a failed update."
  },
  {
   "property": "C62",
   "status": "proved",
   "theorems": [
    "Tup.Expand.c62_reading",
    "Tup.Expand.c62_expanded",
    "Tup.Expand.c62_unknown",
    "Tup.Expand.c62_unterminated",
    "Tup.Expand.c62_names",
    "Tup.Expand.c62_paths",
    "Tup.Expand.c62_resource_names",
    "Tup.Expand.c62_resource_path",
    "Tup.Expand.c62_longer_name",
    "Tup.Expand.c62_variant"
   ],
   "note": "Every text is read as references and text; the result is exact. Counterexamples: resource files in variants, group names with > in the middle."
  },
  {
   "property": "C63",
   "status": "proved",
   "theorems": [
    "Tup.Mempool.c63_objects",
    "Tup.Mempool.c63_alloc",
    "Tup.Mempool.c63_reuse",
    "Tup.Mempool.c63_four_gigabytes"
   ],
   "note": "Objects have at most 4080 bytes, sizes are multiples of the alignment, malloc's answers are aligned to 16 and disjoint. c63_four_gigabytes shows the exception, reached by a history."
  },
  {
   "property": "C64",
   "status": "proved",
   "theorems": [
    "Tup.Depfile.c64_reported",
    "Tup.Depfile.c64_too_long",
    "Tup.Depfile.c64_ends",
    "Tup.Depfile.c64_moved_from_dev",
    "Tup.Depfile.c64_killed"
   ],
   "note": "Writes do not fail; which calls the library wraps and the later handling of an access (C18) are not part of it. c64_killed is the concrete case of the last sentence."
  },
  {
   "property": "C65",
   "status": "proved",
   "theorems": [
    "Tup.MasterFork.c65_own_status",
    "Tup.MasterFork.c65_once",
    "Tup.MasterFork.c65_only_race",
    "Tup.MasterFork.c65_notifier",
    "Tup.MasterFork.c65_completes",
    "Tup.MasterFork.c65_race",
    "Tup.MasterFork.c65_race_start"
   ],
   "note": "all interleavings; the race that makes the calls hang is shown and is, with the reuse of a process id, the only way to hang"
  },
  {
   "property": "C66",
   "status": "proved",
   "theorems": [
    "Tup.Environ.c66_environment",
    "Tup.Environ.c66_preload",
    "Tup.Environ.c66_sees",
    "Tup.Environ.c66_import",
    "Tup.Environ.c66_export_equals"
   ],
   "note": "envdb agrees with the environment by C42; names without = in c66_sees"
  },
  {
   "property": "C67",
   "status": "proved",
   "theorems": [
    "Tup.Deletes.c67_only",
    "Tup.Deletes.c67_deleted",
    "Tup.Deletes.c67_gone",
    "Tup.Deletes.c67_kept",
    "Tup.Deletes.c67_saved",
    "Tup.Deletes.c67_others",
    "Tup.Deletes.c67_all_made",
    "Tup.Deletes.c67_commands",
    "Tup.Deletes.c67_succeeds",
    "Tup.Deletes.c67_failed",
    "Tup.Deletes.c67_begins"
   ],
   "note": "Exact characterisation over all parses after any history. c67_removed_changed and c67_rollback show two limits of what the code does. Variants, .gitignore handling and the conversion of generated directories are not modelled."
  },
  {
   "property": "C68",
   "status": "proved",
   "theorems": [
    "Tup.Variants.c68_active",
    "Tup.Variants.c68_saved",
    "Tup.Variants.c68_reparse",
    "Tup.Variants.c68_reparse_only",
    "Tup.Variants.c68_in_tree",
    "Tup.Variants.c68_duplicated",
    "Tup.Variants.c68_gone",
    "Tup.Variants.c68_succeeds",
    "Tup.Variants.c68_nested",
    "Tup.Variants.c68_again",
    "Tup.Variants.c68_phantom"
   ],
   "note": "The conditions at the end of the statement are the hypothesis Careful; c68_nested, c68_again and c68_phantom show that they are needed. The files and nodes inside the trees that are deleted or duplicated are not modelled."
  },
  {
   "property": "C69",
   "status": "proved",
   "theorems": [
    "Tup.Include.c69_sound",
    "Tup.Include.c69_complete",
    "Tup.Include.c69_unique",
    "Tup.Include.c69_reads",
    "Tup.Include.c69_lua",
    "Tup.Include.c69_loop",
    "Tup.Include.c69_nested",
    "Tup.Include.c69_lua_directory",
    "Tup.Include.c69_top"
   ],
   "note": "The parser does what the inductive meaning says and conversely, for any meaning of the lines; the recorded nodes decide the result. For a database and disk in order (Proper) and the build in place; symbolic links and variants are not modelled."
  },
  {
   "property": "C70",
   "status": "proved",
   "theorems": [
    "Tup.Mount.c70_alone",
    "Tup.Mount.c70_others",
    "Tup.Mount.c70_end",
    "Tup.Mount.c70_temporary",
    "Tup.Mount.c70_late",
    "Tup.Mount.c70_dispatch",
    "Tup.Mount.c70_still_needed",
    "Tup.Mount.c70_late_rename",
    "Tup.Mount.c70_alias",
    "Tup.Mount.c70_late_answers"
   ],
   "note": "Invariant over all interleavings, and simulation of each job by the file system of one command (C22). c70_still_needed, c70_late_rename and c70_alias are witnesses."
  },
  {
   "property": "C71",
   "status": "proved",
   "theorems": [
    "Tup.Cache.c71_exact",
    "Tup.Cache.c71_agree",
    "Tup.Cache.c71_invisible",
    "Tup.Cache.c71_restart",
    "Tup.Cache.c71_inputs",
    "Tup.Cache.c71_insert",
    "Tup.Cache.c71_year_2038",
    "Tup.Cache.c71_rollback",
    "Tup.Cache.c71_old_copy"
   ],
   "note": "The table with the copies in memory refines the table alone, for all sequences of calls from any sound table. Reference counts, the regular expressions of exclusions and the state after an error are not modelled."
  },
  {
   "property": "C72",
   "status": "proved",
   "theorems": [
    "Tup.Generate.c72_script_runs_the_commands",
    "Tup.Generate.c72_build_directory_wrong",
    "Tup.Generate.c72_directory_names",
    "Tup.Generate.c72_command_texts",
    "Tup.Generate.c72_build_name",
    "Tup.Generate.c72_argument"
   ],
   "note": "The script is read by a small model of the shell (lines, one word of cd/mkdir, parentheses), in Generate/Spec.lean. The other theorems show that the conditions of the property are needed; c72_build_directory_wrong is a defect of the code."
  },
  {
   "property": "C73",
   "status": "proved",
   "theorems": [
    "Tup.Mirror.c73_mirror",
    "Tup.Mirror.c73_place",
    "Tup.Mirror.c73_made_again",
    "Tup.Mirror.c73_moved",
    "Tup.Mirror.c73_ghost",
    "Tup.Mirror.c73_nested"
   ],
   "note": "c73_mirror: the state after an update; c73_place: at any time. The other four are the counterexamples for histories that the statement leaves out."
  },
  {
   "property": "C74",
   "status": "proved",
   "theorems": [
    "Tup.Reparse.c74_right",
    "Tup.Reparse.c74_accepts",
    "Tup.Reparse.c74_same",
    "Tup.Reparse.c74_order",
    "Tup.Reparse.c74_stuck",
    "Tup.Reparse.c74_circle_missed",
    "Tup.Reparse.c74_circle_stays"
   ],
   "note": "All histories and orders; Tupfiles are arbitrary programs over the names found in directories. The condition that the update leaves no circle of directories is needed (c74_circle_missed)."
  },
  {
   "property": "C75",
   "status": "proved",
   "theorems": [
    "Tup.Refactor.c75_exact",
    "Tup.Refactor.c75_unchanged",
    "Tup.Refactor.c75_update",
    "Tup.Refactor.c75_same",
    "Tup.Refactor.c75_display"
   ],
   "note": "One Tupfile with expanded rules; normal links, environment links and the links between groups are left out of the inputs."
  },
  {
   "property": "C76",
   "status": "proved",
   "theorems": [
    "Tup.Upgrade.c76_upgrade",
    "Tup.Upgrade.c76_backup",
    "Tup.Upgrade.c76_newer",
    "Tup.Upgrade.c76_current",
    "Tup.Upgrade.c76_parser",
    "Tup.Upgrade.c76_schema",
    "Tup.Upgrade.c76_kept",
    "Tup.Upgrade.c76_only",
    "Tup.Upgrade.c76_links",
    "Tup.Upgrade.c76_todo",
    "Tup.Upgrade.c76_possible",
    "Tup.Upgrade.c76_stuck"
   ],
   "note": "c76_upgrade refines the statements of versions 4 to 19 to expected, which c76_kept, c76_only, c76_links, c76_todo and c76_possible describe; versions 0 to 2 are told apart but their upgrades are not modelled; SQLite's meaning of the statements is given by the interpreter in Upgrade/Sql.lean"
  },
  {
   "property": "C77",
   "status": "proved",
   "theorems": [
    "Tup.External.c77_scan",
    "Tup.External.c77_exact",
    "Tup.External.c77_honest",
    "Tup.External.c77_add",
    "Tup.External.c77_add_works",
    "Tup.External.c77_reach",
    "Tup.External.c77_on",
    "Tup.External.c77_off",
    "Tup.External.c77_without",
    "Tup.External.c77_stale"
   ],
   "note": "Scan: c77_scan (and c77_exact: in step afterwards iff Settled); additions: c77_add, c77_add_works; histories: c77_reach; the condition on links: c77_honest, c77_stale; the option: c77_on, c77_off, c77_without. Linux only; loops of links and names that cannot be looked up (EACCES on search) are not modelled."
  },
  {
   "property": "C78",
   "status": "proved",
   "theorems": [
    "Tup.Bins.c78_contents",
    "Tup.Bins.c78_grow",
    "Tup.Bins.c78_rule",
    "Tup.Bins.c78_known",
    "Tup.Bins.c78_taken",
    "Tup.Bins.c78_literal",
    "Tup.Bins.c78_own",
    "Tup.Bins.c78_odd"
   ],
   "note": "Refinement of the linked lists to a record of the commands, over all sequences of lines; joined with the models of rule lines, path lists, name lists and the execution of rules (c51_rule). c78_own and c78_odd are concrete cases of what is surprising: order-only inputs that grow during foreach, ignored text behind the brace."
  },
  {
   "property": "C79",
   "status": "proved",
   "theorems": [
    "Tup.Lookup.c79_pattern",
    "Tup.Lookup.c79_pattern_ok",
    "Tup.Lookup.c79_named",
    "Tup.Lookup.c79_one",
    "Tup.Lookup.c79_plain",
    "Tup.Lookup.c79_hides",
    "Tup.Lookup.c79_falls_back",
    "Tup.Lookup.c79_rows",
    "Tup.Lookup.c79_again",
    "Tup.Lookup.c79_usable",
    "Tup.Lookup.c79_gone",
    "Tup.Lookup.c79_gone_variant",
    "Tup.Lookup.c79_gone_variant_stands",
    "Tup.Lookup.c79_preserve_outside"
   ],
   "note": "Exact relation Stands / Matches stated on the rows only. Parameters: SQLite's glob operator, the order of rows, relative paths, and what becomes of a node of another type when a group is asked for (assumed to become a group with that name: Converts). c79_gone_variant and c79_preserve_outside are concrete cases where the code does not do what is intended."
  },
  {
   "property": "C80",
   "status": "proved",
   "theorems": [
    "Tup.Readdir.c80_exact",
    "Tup.Readdir.c80_once",
    "Tup.Readdir.c80_record",
    "Tup.Readdir.c80_record_alone",
    "Tup.Readdir.c80_twice",
    "Tup.Readdir.c80_fails",
    "Tup.Readdir.c80_hides"
   ],
   "note": "On top of the simulation of C22 (Agree, sims). c80_twice, c80_fails and c80_hides are concrete cases outside of what c80_exact and c80_once assume. The lists of directories that tup gives to run scripts (parser mode) are not part of it."
  },
  {
   "property": "C81",
   "status": "proved",
   "theorems": [
    "Tup.RunScript.c81_reach",
    "Tup.RunScript.c81_sees",
    "Tup.RunScript.c81_own",
    "Tup.RunScript.c81_preload",
    "Tup.RunScript.c81_refused",
    "Tup.RunScript.c81_outside",
    "Tup.RunScript.c81_sibling",
    "Tup.RunScript.c81_rules",
    "Tup.RunScript.c81_accepts",
    "Tup.RunScript.c81_depends_preload",
    "Tup.RunScript.c81_depends_env",
    "Tup.RunScript.c81_exclusion",
    "Tup.RunScript.c81_stale",
    "Tup.RunScript.c81_group_like"
   ],
   "note": "c81_sees, c81_own, c81_preload, c81_refused, c81_outside: what a script sees; c81_rules, c81_accepts: its output; c81_depends_preload, c81_depends_env: what the Tupfile depends on; c81_reach: every line of a Tupfile is read in such a state; c81_stale, c81_sibling, c81_exclusion, c81_group_like: what goes wrong."
  },
  {
   "property": "C82",
   "status": "proved",
   "theorems": [
    "Tup.Todo.c82_shown",
    "Tup.Todo.c82_order",
    "Tup.Todo.c82_named",
    "Tup.Todo.c82_completes",
    "Tup.Todo.c82_covers",
    "Tup.Todo.c82_exact",
    "Tup.Todo.c82_marks",
    "Tup.Todo.c82_transient"
   ],
   "note": "todo_work, the three phases and todo on top of the graph and the executor; c82_transient and c82_marks are the two cases in which todo and the update disagree"
  },
  {
   "property": "C83",
   "status": "proved",
   "theorems": [
    "Tup.GenDir.c83_top_safe",
    "Tup.GenDir.c83_top_crash",
    "Tup.GenDir.c83_convert",
    "Tup.GenDir.c83_outputs",
    "Tup.GenDir.c83_outputs_clean",
    "Tup.GenDir.c83_new_file",
    "Tup.GenDir.c83_ghost_stays",
    "Tup.GenDir.c83_new_dir_stays",
    "Tup.GenDir.c83_remove",
    "Tup.GenDir.c83_remove_exact",
    "Tup.GenDir.c83_unknown_fails",
    "Tup.GenDir.c83_default_lost",
    "Tup.GenDir.c83_emptied"
   ],
   "note": "conversion, search, new files and removal for all inputs; witnesses for what the program gets wrong. The removal assumes that the disk agrees with the database (InStep)."
  },
  {
   "property": "C84",
   "status": "proved",
   "theorems": [
    "Tup.OpenFiles.c84_private",
    "Tup.OpenFiles.c84_tree",
    "Tup.OpenFiles.c84_wait",
    "Tup.OpenFiles.c84_pwrite",
    "Tup.OpenFiles.c84_ftruncate",
    "Tup.OpenFiles.c84_read_back",
    "Tup.OpenFiles.c84_late_removed",
    "Tup.OpenFiles.c84_late_readonly",
    "Tup.OpenFiles.c84_late_excluded",
    "Tup.OpenFiles.c84_late_replaced",
    "Tup.OpenFiles.c84_fuse2_writes",
    "Tup.OpenFiles.c84_open_hides",
    "Tup.OpenFiles.c84_hidden_name",
    "Tup.OpenFiles.c84_exclusion_differs"
   ],
   "note": "c84_tree, c84_private and c84_wait are the claims; c84_pwrite, c84_ftruncate and c84_read_back say what the operations on bytes do; the others are witnesses for the exceptions. The conditions of c84_private are in Own.usual."
  },
  {
   "property": "C85",
   "status": "proved",
   "theorems": [
    "Tup.Lua.c85_line",
    "Tup.Lua.c85_forms",
    "Tup.Lua.c85_call",
    "Tup.Lua.c85_again",
    "Tup.Lua.c85_own_bin",
    "Tup.Lua.c85_differences"
   ],
   "note": "The comparison with a Tupfile is for paths without blanks, quotes, backslashes and bars that are not changed by expansion, and commands without the separator; the differences are shown beside it."
  },
  {
   "property": "C86",
   "status": "proved",
   "theorems": [
    "Tup.LuaVars.c86_reads",
    "Tup.LuaVars.c86_private",
    "Tup.LuaVars.c86_last_set",
    "Tup.LuaVars.c86_unset",
    "Tup.LuaVars.c86_leaks",
    "Tup.LuaVars.c86_append",
    "Tup.LuaVars.c86_append_error",
    "Tup.LuaVars.c86_append_aliases"
   ],
   "note": "c86_reads, c86_private, c86_last_set and c86_unset for all sequences of scripts; c86_leaks and c86_append_aliases are witnesses of what differs from a Tupfile."
  },
  {
   "property": "C87",
   "status": "proved",
   "theorems": [
    "Tup.LuaNames.c87_file",
    "Tup.LuaNames.c87_split",
    "Tup.LuaNames.c87_ext",
    "Tup.LuaNames.c87_no_ext",
    "Tup.LuaNames.c87_as_tupfile",
    "Tup.LuaNames.c87_differences"
   ],
   "note": "c87_split shows that c87_file applies to every path; c87_ext and c87_no_ext cover every name; c87_as_tupfile links to the entries of C55."
  },
  {
   "property": "C88",
   "status": "proved",
   "theorems": [
    "Tup.Top.c88_find",
    "Tup.Top.c88_not_found",
    "Tup.Top.c88_root",
    "Tup.Top.c88_init",
    "Tup.Top.c88_init_dir",
    "Tup.Top.c88_init_absolute",
    "Tup.Top.c88_init_options",
    "Tup.Top.c88_init_two",
    "Tup.Top.c88_init_nested",
    "Tup.Top.c88_ini"
   ],
   "note": "c88_find and c88_not_found cover every directory; c88_init, c88_init_dir, c88_init_options, c88_init_two, c88_init_absolute and c88_ini are about what is made; c88_root and c88_init_nested have witnesses."
  },
  {
   "property": "C89",
   "status": "proved",
   "theorems": [
    "Tup.CompileDb.c89_file",
    "Tup.CompileDb.c89_later",
    "Tup.CompileDb.c89_objects",
    "Tup.CompileDb.c89_unescaped",
    "Tup.CompileDb.c89_choose",
    "Tup.CompileDb.c89_commandline"
   ],
   "note": "The text is read back by a small reader of JSON; the two ways in which it is not the JSON meant are proved as such."
  },
  {
   "property": "C90",
   "status": "proved",
   "theorems": [
    "Tup.LnCmd.c90_command",
    "Tup.LnCmd.c90_link",
    "Tup.LnCmd.c90_absolute",
    "Tup.LnCmd.c90_spaces",
    "Tup.LnCmd.c90_undefined",
    "Tup.LnCmd.c90_outputs"
   ],
   "note": ""
  },
  {
   "property": "C91",
   "status": "proved",
   "theorems": [
    "Tup.DirInputs.c91_inputs",
    "Tup.DirInputs.c91_rest",
    "Tup.DirInputs.c91_error",
    "Tup.DirInputs.c91_generated",
    "Tup.DirInputs.c91_write",
    "Tup.DirInputs.c91_looked",
    "Tup.DirInputs.c91_reparse"
   ],
   "note": "Exact inputs after parsing (c91_inputs), everything else unchanged (c91_rest), the exact errors (c91_error, with c91_generated and c91_write; c91_looked shows which writes go unnoticed), and the new parse when a file changes or appears (c91_reparse)."
  },
  {
   "property": "C92",
   "status": "proved",
   "theorems": [
    "Tup.Symlink.c92_link",
    "Tup.Symlink.c92_file",
    "Tup.Symlink.c92_plain",
    "Tup.Symlink.c92_chain",
    "Tup.Symlink.c92_long",
    "Tup.Symlink.c92_chain_sample",
    "Tup.Symlink.c92_dotdot"
   ],
   "note": "The second path opens the same file (c92_link, c92_file), nothing else is recorded (c92_plain); the exceptions are proved as such (c92_chain, c92_chain_sample, c92_dotdot), and the overlong text (c92_long)."
  },
  {
   "property": "C93",
   "status": "proved",
   "theorems": [
    "Tup.Combine.c93_survivors",
    "Tup.Combine.c93_edges",
    "Tup.Combine.c93_once",
    "Tup.Combine.c93_hidden",
    "Tup.Combine.c93_dump",
    "Tup.Combine.c93_combined",
    "Tup.Combine.c93_label",
    "Tup.Combine.c93_overflow"
   ],
   "note": "hash functions are parameters; the hash of the first word is modelled with overflow as undefined behaviour"
  },
  {
   "property": "C94",
   "status": "proved",
   "theorems": [
    "Tup.Progress.c94_known",
    "Tup.Progress.c94_unknown",
    "Tup.Progress.c94_sum",
    "Tup.Progress.c94_bar",
    "Tup.Progress.c94_fields",
    "Tup.Progress.c94_steady",
    "Tup.Progress.c94_end",
    "Tup.Progress.c94_long",
    "Tup.Progress.c94_eta",
    "Tup.Progress.c94_clock",
    "Tup.Progress.c94_line",
    "Tup.Progress.c94_time"
   ],
   "note": "Percentage, bar and time of the progress display for all orders of jobs; c94_long and c94_clock are the two ways in which it goes wrong."
  },
  {
   "property": "C95",
   "status": "proved",
   "theorems": [
    "Tup.Logs.c95_rotate",
    "Tup.Logs.c95_runs",
    "Tup.Logs.c95_stuck",
    "Tup.Logs.c95_graph",
    "Tup.Logs.c95_percent",
    "Tup.Logs.c95_double",
    "Tup.Logs.c95_unremovable"
   ],
   "note": "Induction over the updates; c95_stuck and c95_percent show where the preconditions are needed."
  },
  {
   "property": "C96",
   "status": "proved",
   "theorems": [
    "Tup.MkVariant.c96_name",
    "Tup.MkVariant.c96_opens",
    "Tup.MkVariant.c96_absolute",
    "Tup.MkVariant.c96_only",
    "Tup.MkVariant.c96_all",
    "Tup.MkVariant.c96_succeeds",
    "Tup.MkVariant.c96_refused",
    "Tup.MkVariant.c96_sample",
    "Tup.MkVariant.c96_same",
    "Tup.MkVariant.c96_elsewhere"
   ],
   "note": "For all file systems and all kernels that follow paths as specified; c96_absolute and c96_elsewhere are the two cases in which the link leads elsewhere."
  },
  {
   "property": "C97",
   "status": "proved",
   "theorems": [
    "Tup.Update.c97_rules_change",
    "Tup.Update.c97_without_o",
    "Tup.Update.c97_history_does_not_matter",
    "Tup.Update.c97_as_if_new",
    "Tup.Update.c97_not_scheduled",
    "Tup.Update.c97_sources",
    "Tup.Update.c97_false_o_added"
   ],
   "note": "for all histories with changing rules; c97_false_o_added shows why the restriction on adding ^o is needed"
  },
  {
   "property": "C98",
   "status": "proved",
   "theorems": [
    "Tup.AutoUpdate.c98_flush",
    "Tup.AutoUpdate.c98_asked",
    "Tup.AutoUpdate.c98_still",
    "Tup.AutoUpdate.c98_answered",
    "Tup.AutoUpdate.c98_settles",
    "Tup.AutoUpdate.c98_only",
    "Tup.AutoUpdate.c98_none",
    "Tup.AutoUpdate.c98_waited",
    "Tup.AutoUpdate.c98_last",
    "Tup.AutoUpdate.c98_zombie",
    "Tup.AutoUpdate.c98_stuck"
   ],
   "note": "all of the property, for all interleavings; the two exceptions are c98_zombie and c98_stuck"
  },
  {
   "property": "C99",
   "status": "proved",
   "theorems": [
    "Tup.TupDirs.c99_cwd",
    "Tup.TupDirs.c99_outputdir",
    "Tup.TupDirs.c99_variantdir",
    "Tup.TupDirs.c99_node_set",
    "Tup.TupDirs.c99_node",
    "Tup.TupDirs.c99_directory",
    "Tup.TupDirs.c99_lua",
    "Tup.TupDirs.c99_lua_directory",
    "Tup.TupDirs.c99_relativedir",
    "Tup.TupDirs.c99_lua_node",
    "Tup.TupDirs.c99_false_included",
    "Tup.TupDirs.c99_false_lua_node",
    "Tup.TupDirs.c99_false_d",
    "Tup.TupDirs.c99_false_lua_directory"
   ],
   "note": "The false expectations are proved false by witnesses (c99_false_*)."
  },
  {
   "property": "C100",
   "status": "proved",
   "theorems": [
    "Tup.GraphCmd.c100_ends",
    "Tup.GraphCmd.c100_nodes",
    "Tup.GraphCmd.c100_edges",
    "Tup.GraphCmd.c100_proper",
    "Tup.GraphCmd.c100_once",
    "Tup.GraphCmd.c100_printed",
    "Tup.GraphCmd.c100_args",
    "Tup.GraphCmd.c100_prune",
    "Tup.GraphCmd.c100_false_default"
   ],
   "note": "Printing is composed with C93; --prune is C36."
  },
  {
   "property": "C101",
   "status": "proved",
   "theorems": [
    "Tup.VarAsk.c101_noted",
    "Tup.VarAsk.c101_empty",
    "Tup.VarAsk.c101_program",
    "Tup.VarAsk.c101_varsed",
    "Tup.VarAsk.c101_input",
    "Tup.VarAsk.c101_only_asked",
    "Tup.VarAsk.c101_rerun",
    "Tup.VarAsk.c101_same",
    "Tup.VarAsk.c101_lookup",
    "Tup.VarAsk.c101_shadow",
    "Tup.VarAsk.c101_outside",
    "Tup.VarAsk.c101_long",
    "Tup.VarAsk.c101_slash",
    "Tup.VarAsk.c101_files"
   ],
   "note": "The walk of the kernel over the path is modelled with one getattr per component; programs are trees of questions."
  },
  {
   "property": "C102",
   "status": "proved",
   "theorems": [
    "Tup.ConfigVar.c102_value",
    "Tup.ConfigVar.c102_ghost",
    "Tup.ConfigVar.c102_tupfile",
    "Tup.ConfigVar.c102_total",
    "Tup.ConfigVar.c102_inputs",
    "Tup.ConfigVar.c102_same",
    "Tup.ConfigVar.c102_ifdef_platform"
   ],
   "note": "A Tupfile is a tree of questions; what happens in between is any change that leaves the variables alone. c102_same joins this with C16 (reading tup.config) and C91 (recording the inputs)."
  },
  {
   "property": "C103",
   "status": "proved",
   "theorems": [
    "Tup.DoRule.c103_scheduled",
    "Tup.DoRule.c103_inputs"
   ],
   "note": "Scheduled iff different; the declared inputs."
  },
  {
   "property": "C104",
   "status": "proved",
   "theorems": [
    "Tup.Watch.c104_event",
    "Tup.Watch.c104_tame",
    "Tup.Watch.c104_clear",
    "Tup.Watch.c104_stale",
    "Tup.Watch.c104_twice"
   ],
   "note": "c104_event for every history; c104_tame and c104_clear under the conditions; c104_stale and c104_twice: that these are needed"
  },
  {
   "property": "C105",
   "status": "proved",
   "theorems": [
    "Tup.Again.c105_again",
    "Tup.Again.c105_reported",
    "Tup.Again.c105_kept",
    "Tup.Again.c105_dropped"
   ],
   "note": "c105_dropped: that the names which were removed have to be among those where the trees agree"
  },
  {
   "property": "C106",
   "status": "proved",
   "theorems": [
    "Tup.LuaGlob.c106_glob",
    "Tup.LuaGlob.c106_path",
    "Tup.LuaGlob.c106_inputs",
    "Tup.LuaGlob.c106_foreign",
    "Tup.LuaGlob.c106_brackets",
    "Tup.LuaGlob.c106_exclusion"
   ],
   "note": "The provisos are hypotheses of c106_inputs; the last three show what happens without them and for an exclusion."
  },
  {
   "property": "C107",
   "status": "proved",
   "theorems": [
    "Tup.Show.c107_output",
    "Tup.Show.c107_zero",
    "Tup.Show.c107_success",
    "Tup.Show.c107_failure",
    "Tup.Show.c107_lost",
    "Tup.Show.c107_whole",
    "Tup.Show.c107_together",
    "Tup.Show.c107_no_deadlock"
   ],
   "note": "The threads are any lists of sections in between taking and giving back the lock."
  },
  {
   "property": "C108",
   "status": "proved",
   "theorems": [
    "Tup.Workers.c108_results",
    "Tup.Workers.c108_complete",
    "Tup.Workers.c108_no_crash",
    "Tup.Workers.c108_awake",
    "Tup.Workers.c108_no_deadlock",
    "Tup.Workers.c108_workers_rest",
    "Tup.Workers.c108_ends",
    "Tup.Workers.c108_dropped"
   ],
   "note": "The hand-over between the main thread and the workers, for every number of workers and every interleaving; c108_dropped is the node that is left undone when a signal comes at the wrong moment."
  },
  {
   "property": "C109",
   "status": "proved",
   "theorems": [
    "Tup.PidFile.c109_values",
    "Tup.PidFile.c109_last",
    "Tup.PidFile.c109_get",
    "Tup.PidFile.c109_dead",
    "Tup.PidFile.c109_no_deadlock",
    "Tup.PidFile.c109_scan",
    "Tup.PidFile.c109_stop",
    "Tup.PidFile.c109_zero",
    "Tup.PidFile.c109_overtaken"
   ],
   "note": "For every number of processes and every interleaving of their system calls; c109_zero and c109_overtaken are the two ways in which the file can be wrong."
  },
  {
   "property": "C110",
   "status": "proved",
   "theorems": [
    "Tup.Refs.c110_counts",
    "Tup.Refs.c110_alive",
    "Tup.Refs.c110_safe",
    "Tup.Refs.c110_remove",
    "Tup.Refs.c110_parent",
    "Tup.Refs.c110_clear",
    "Tup.Refs.c110_add",
    "Tup.Refs.c110_let_go",
    "Tup.Refs.c110_push",
    "Tup.Refs.c110_pop",
    "Tup.Refs.c110_create"
   ],
   "note": "for all sequences of operations that hand over no pointer to memory that was given back, by an invariant"
  },
  {
   "property": "C111",
   "status": "proved",
   "theorems": [
    "Tup.Setup.c111_relative",
    "Tup.Setup.c111_absolute",
    "Tup.Setup.c111_need",
    "Tup.Setup.c111_full",
    "Tup.Setup.c111_outside",
    "Tup.Setup.c111_outputs",
    "Tup.Setup.c111_closed",
    "Tup.Setup.c111_unseen"
   ],
   "note": "for all paths, settings and failing calls; the two things that go wrong are proved too"
  },
  {
   "property": "C112",
   "status": "proved",
   "theorems": [
    "Tup.Timespan.c112_bounds",
    "Tup.Timespan.c112_nearest",
    "Tup.Timespan.c112_not_nearest",
    "Tup.Timespan.c112_sign",
    "Tup.Timespan.c112_delta",
    "Tup.Timespan.c112_once",
    "Tup.Timespan.c112_own",
    "Tup.Timespan.c112_forward"
   ],
   "note": "by induction over the tree of Tupfiles; the rounding that is not to the nearest is proved too"
  },
  {
   "property": "C113",
   "status": "proved",
   "theorems": [
    "Tup.PreInit.c113_tries",
    "Tup.PreInit.c113_ok",
    "Tup.PreInit.c113_none",
    "Tup.PreInit.c113_works",
    "Tup.PreInit.c113_again",
    "Tup.PreInit.c113_without",
    "Tup.PreInit.c113_both",
    "Tup.PreInit.c113_socket",
    "Tup.PreInit.c113_calls"
   ],
   "note": "The two attempts of the start-up, for every outcome of the system calls; the descriptors are those of a system that gives the lowest free number."
  },
  {
   "property": "C114",
   "status": "proved",
   "theorems": [
    "Tup.TmpNames.c114_distinct",
    "Tup.TmpNames.c114_fits",
    "Tup.TmpNames.c114_stored",
    "Tup.TmpNames.c114_tight",
    "Tup.TmpNames.c114_long"
   ],
   "note": "Names and buffers of the temporary files; how the numbers are given out is not part of it."
  }
 ]
}
